import Verif.Tracks.Direction
import Verif.Tracks.Box
import Verif.Select.Props

/-!
# C160: the command `EddySubSetter`

src/scripts/EddySubSetter: identifiers, lengths, period, area, direction, first observations in the boxes, sort with time.
-/

namespace Verif.Tracks

/-- An observation: fields read by the command, `other` is the rest. Rows are pairs (track, observation). -/
structure SubObs where
  lon : Rat
  lat : Rat
  time : Rat
  virt : Bool
  other : Nat
  deriving DecidableEq, Repr

@[inherit_doc SubObs]
def SubObs.pos (o : SubObs) : Rat × Rat := (o.lon, o.lat)

/-- Arguments (EddySubSetter:14-100); the area is `(llcrnrlon, llcrnrlat, urcrnrlon, urcrnrlat)`. -/
structure SubArgs where
  ids : Option (List Nat) := none
  length : Option (Int × Int) := none
  period : Option (Int × Int) := none
  area : Option (Rat × Rat × Rat × Rat) := none
  fullPath : Bool := false
  removeIncomplete : Bool := false
  rejectVirtual : Bool := false
  direction : Option Way := none
  minimal : Option Rat := none
  box : Option Rat := none
  sortTime : Bool := false

/-- `if args.x is not None: dataset = dataset.step(args.x)`. -/
def subStep {β : Type} (step : β → List (Nat × SubObs) → Option (List (Nat × SubObs))) (x : Option β) (data : List (Nat × SubObs)) :
    Option (List (Nat × SubObs)) :=
  match x with
  | none => some data
  | some v => step v data

/-- `extract_with_mask` with the options of the command (EddySubSetter:121-126, 137-142). -/
def subMask (a : SubArgs) (mask : List Bool) (data : List (Nat × SubObs)) : Option (List (Nat × SubObs)) :=
  extractWithMask data (data.map (fun o => o.2.virt)) mask a.fullPath a.removeIncomplete a.rejectVirtual

/-- `extract_with_period` (observations/tracking.py:245-268); `unit` is what is stored for one day in the mode used: 1 with `--no_raw_mode`, the scale
86400 of the variable `time` otherwise. -/
def subPeriod (unit : Rat) (a : SubArgs) (p : Int × Int) (data : List (Nat × SubObs)) : Option (List (Nat × SubObs)) :=
  subMask a (Select.maskPeriod ⟨data.map (fun o => o.2.time * unit), none⟩ p.1 p.2) data

/-- `extract_with_area` (observations/observation.py:1827-1848). -/
def subArea (a : SubArgs) (b : Rat × Rat × Rat × Rat) (data : List (Nat × SubObs)) : Option (List (Nat × SubObs)) :=
  subMask a (data.map (fun o => Extract.areaTest b.1 b.2.2.1 b.2.1 b.2.2.2 o.2.pos)) data

/-- The selections by identifier, length, period and area (EddySubSetter:111-142). -/
def subSelect (unit : Rat) (a : SubArgs) (data : List (Nat × SubObs)) : Option (List (Nat × SubObs)) :=
  (subStep (fun ids d => extractIds d ids) a.ids data).bind (fun d =>
    (subStep (fun (b : Int × Int) d => extractWithLength d b.1 b.2) a.length d).bind (fun d =>
      (subStep (subPeriod unit a) a.period d).bind (fun d => subStep (subArea a) a.area d)))

/-- `if args.minimal_degrees_displacement_in_direction` (EddySubSetter:146-151): without it, or with zero, the default value 0. -/
def subValue (a : SubArgs) : Rat :=
  match a.minimal with
  | none => 0
  | some v => if v ≠ 0 then v else 0

/-- `if args.select_first_observation_in_box` (EddySubSetter:153-156): zero is no option. -/
def subBox (argsort : List Key → List Nat) (a : SubArgs) (data : List (Nat × SubObs)) : List (Nat × SubObs) :=
  match a.box with
  | none => data
  | some res => if res ≠ 0 then extractFirstInBox argsort res SubObs.pos data else data

/-- The command (EddySubSetter:102-168). `none` is an exception, `some none` when no file is written; `sort` is the sort of numpy with the fields
`time`, `lon` and `lat`. Simplification: the variables removed or included are not modelled. -/
def subSetter (argsort : List Key → List Nat) (sort : List (Nat × SubObs) → List (Nat × SubObs)) (unit : Rat) (a : SubArgs) (data : List (Nat × SubObs)) :
    Option (Option (List (Nat × SubObs))) :=
  (subSelect unit a data).bind (fun d =>
    (subStep (fun w d => extractInDirection SubObs.pos d w (subValue a)) a.direction d).map (fun d =>
      let d := subBox argsort a d
      let d := if a.sortTime then sort d else d
      if d.length = 0 then none else some d))

/-! ### Specification -/

/-- Whether a number of observations is in the bounds, -1 is no bound. -/
def LengthIn (b : Int × Int) (n : Nat) : Prop := (b.1 ≠ -1 → b.1 ≤ n) ∧ (b.2 ≠ -1 → (n : Int) ≤ b.2)

/-- Row of a track asked, the track having a number of observations asked. -/
def OfTracks (a : SubArgs) (data : List (Nat × SubObs)) (o : Nat × SubObs) : Prop :=
  (∀ ids, a.ids = some ids → o.1 ∈ ids) ∧ ∀ b, a.length = some b → LengthIn b (data.countP (fun o' => o'.1 = o.1))

/-- The help of `--period`: positive bounds are days, negative ones are numbers of days from the first day or to the last day of the rows of these tracks. -/
def PeriodIn (unit : Rat) (a : SubArgs) (data : List (Nat × SubObs)) (p : Int × Int) (x : SubObs) : Prop :=
  (0 < p.1 → (p.1 : Rat) ≤ x.time * unit) ∧ (0 < p.2 → x.time * unit ≤ p.2) ∧
  (p.1 < 0 → ∀ o ∈ data, OfTracks a data o → (∀ o' ∈ data, OfTracks a data o' → o.2.time * unit ≤ o'.2.time * unit) →
    o.2.time * unit + |(p.1 : Rat)| ≤ x.time * unit) ∧
  (p.2 < 0 → ∀ o ∈ data, OfTracks a data o → (∀ o' ∈ data, OfTracks a data o' → o'.2.time * unit ≤ o.2.time * unit) →
    x.time * unit ≤ o.2.time * unit - |(p.2 : Rat)|)

/-- In the area, at some turn. -/
def AreaIn (b : Rat × Rat × Rat × Rat) (x : SubObs) : Prop :=
  b.2.1 < x.lat ∧ x.lat < b.2.2.2 ∧ ∃ k : Int, b.1 < x.lon + 360 * k ∧ x.lon + 360 * k < b.2.2.1

/-- The options `--full_path` (one observation of the track), `--reject_virtual` (which is not virtual), `--remove_incomplete` (all of them), or none. -/
def Meets (a : SubArgs) (data : List (Nat × SubObs)) (p : SubObs → Prop) (o : Nat × SubObs) : Prop :=
  if a.fullPath then ∃ o' ∈ data, o'.1 = o.1 ∧ p o'.2 ∧ (a.rejectVirtual = true → o'.2.virt = false)
  else if a.removeIncomplete then ∀ o' ∈ data, o'.1 = o.1 → p o'.2
  else p o.2

/-- The rows which the help of the command describes. -/
def Described (unit : Rat) (a : SubArgs) (data : List (Nat × SubObs)) (o : Nat × SubObs) : Prop :=
  OfTracks a data o ∧ (∀ p, a.period = some p → Meets a data (PeriodIn unit a data p) o) ∧ ∀ b, a.area = some b → Meets a data (AreaIn b) o

/-! ### Proofs -/

theorem count_tracks (data : List (Nat × SubObs)) (t : Nat) : (data.map Prod.fst).count t = data.countP (fun o => o.1 = t) := by
  rw [List.count, List.countP_map]
  apply List.countP_congr
  intro o _
  simp

open scoped Classical in
theorem subMask_spec (a : SubArgs) {data out : List (Nat × SubObs)} (hs : (data.map Prod.fst).Pairwise (· ≤ ·)) (q : SubObs → Bool)
    (h : subMask a (data.map (fun o => q o.2)) data = some out) : out = data.filter (fun o => decide (Meets a data (fun x => q x = true) o)) := by
  have hget : ∀ (k : Nat), data[k]? = none ∨ ∃ o, data[k]? = some o := fun k => by cases data[k]? <;> simp
  unfold subMask at h
  by_cases hf : a.fullPath = true
  · by_cases hne : data = []
    · subst hne
      rw [hf, extract_full_path_empty_raises] at h
      cases h
    rw [hf, extract_full_path data hne (contig_of_sorted hs), Option.some.injEq] at h
    rw [← h]
    apply List.filter_congr
    intro o _
    rw [decide_eq_decide]
    unfold Meets
    rw [if_pos hf]
    have hm : ∀ k : Nat, (data.map (fun o => q o.2))[k]? = some true ↔ ∃ o', data[k]? = some o' ∧ q o'.2 = true := by
      intro k
      rw [List.getElem?_map, Option.map_eq_some_iff]
    have ht : ∀ k : Nat, (data.map Prod.fst)[k]? = some o.1 ↔ ∃ o', data[k]? = some o' ∧ o'.1 = o.1 := by
      intro k
      rw [List.getElem?_map, Option.map_eq_some_iff]
    have hv : ∀ k : Nat, (data.map (fun o => o.2.virt))[k]? = some false ↔ ∃ o', data[k]? = some o' ∧ o'.2.virt = false := by
      intro k
      rw [List.getElem?_map, Option.map_eq_some_iff]
    by_cases hr : a.rejectVirtual = true
    · rw [if_pos hr]
      constructor
      · rintro ⟨k, h1, h2, h3⟩
        obtain ⟨o1, e1, g1⟩ := (hm k).1 h1
        obtain ⟨o2, e2, g2⟩ := (hv k).1 h2
        obtain ⟨o3, e3, g3⟩ := (ht k).1 h3
        rw [e1] at e2 e3
        obtain rfl := Option.some.inj e2
        obtain rfl := Option.some.inj e3
        exact ⟨o1, List.mem_of_getElem? e1, g3, g1, fun _ => g2⟩
      · rintro ⟨o', ho, h1, h2, h3⟩
        obtain ⟨k, hk⟩ := List.mem_iff_getElem?.1 ho
        exact ⟨k, (hm k).2 ⟨o', hk, h2⟩, (hv k).2 ⟨o', hk, h3 hr⟩, (ht k).2 ⟨o', hk, h1⟩⟩
    · rw [if_neg hr]
      constructor
      · rintro ⟨k, h1, h3⟩
        obtain ⟨o1, e1, g1⟩ := (hm k).1 h1
        obtain ⟨o3, e3, g3⟩ := (ht k).1 h3
        rw [e1] at e3
        obtain rfl := Option.some.inj e3
        exact ⟨o1, List.mem_of_getElem? e1, g3, g1, fun h => absurd h hr⟩
      · rintro ⟨o', ho, h1, h2, h3⟩
        obtain ⟨k, hk⟩ := List.mem_iff_getElem?.1 ho
        exact ⟨k, (hm k).2 ⟨o', hk, h2⟩, (ht k).2 ⟨o', hk, h1⟩⟩
  · rw [Bool.not_eq_true] at hf
    by_cases hr : a.removeIncomplete = true
    · by_cases hne : data = []
      · subst hne
        rw [hf, hr] at h
        cases h
      rw [hf, hr, extract_remove_incomplete data hne (contig_of_sorted hs) _ _ (by simp), Option.some.injEq] at h
      rw [← h]
      apply List.filter_congr
      intro o _
      rw [decide_eq_decide]
      unfold Meets
      rw [if_neg (by simp [hf]), if_pos hr]
      constructor
      · intro h o' ho' e
        obtain ⟨k, hk⟩ := List.mem_iff_getElem?.1 ho'
        have := h k (by rw [List.getElem?_map, hk, Option.map_some, e])
        rw [List.getElem?_map, hk] at this
        exact Option.some.inj this
      · intro h k hk
        rw [List.getElem?_map, Option.map_eq_some_iff] at hk
        obtain ⟨o', e1, e2⟩ := hk
        rw [List.getElem?_map, e1, Option.map_some, h o' (List.mem_of_getElem? e1) e2]
    · rw [Bool.not_eq_true] at hr
      rw [hf, hr, extract_plain, Option.some.injEq, select_map_self] at h
      rw [← h]
      apply List.filter_congr
      intro o _
      unfold Meets
      rw [if_neg (by simp [hf]), if_neg (by simp [hr])]
      simp

theorem areaTest_iff (b : Rat × Rat × Rat × Rat) (hb : b.2.2.1 ≤ b.1 + 360) (x : SubObs) :
    Extract.areaTest b.1 b.2.2.1 b.2.1 b.2.2.2 x.pos = true ↔ AreaIn b x := by
  have := (Extract.area_partial SubObs.pos b.2.1 b.2.2.2 hb [x]).2 x
  unfold Extract.extractArea at this
  rw [Extract.extract_filter] at this
  simp only [List.mem_filter, List.mem_singleton, true_and] at this
  exact this

theorem filter_sorted {data : List (Nat × SubObs)} (hs : (data.map Prod.fst).Pairwise (· ≤ ·)) (p : Nat × SubObs → Bool) :
    ((data.filter p).map Prod.fst).Pairwise (· ≤ ·) := hs.sublist (List.filter_sublist.map _)

theorem ofTracks_congr {a : SubArgs} {data : List (Nat × SubObs)} {o o' : Nat × SubObs} (e : o'.1 = o.1) : OfTracks a data o' ↔ OfTracks a data o := by
  unfold OfTracks
  rw [e]

/-- The test of a row in `Select.maskPeriod`. -/
def subTest (unit : Rat) (d : Extract.Data) (p : Int × Int) (x : SubObs) : Bool :=
  Select.fromTest d.period.2 p.1 (x.time * unit) && Select.toTest d.period.2 p.2 (x.time * unit)

theorem period_tests (p : Int × Int) (lo hi t : Rat) : (Select.fromTest (some (lo, hi)) p.1 t = true ↔ (0 < p.1 → (p.1 : Rat) ≤ t) ∧
      (p.1 < 0 → lo + |(p.1 : Rat)| ≤ t)) ∧
    (Select.toTest (some (lo, hi)) p.2 t = true ↔ (0 < p.2 → t ≤ (p.2 : Rat)) ∧ (p.2 < 0 → t ≤ hi - |(p.2 : Rat)|)) := by
  have c1 : ∀ z : Int, (0 : Rat) < z ↔ 0 < z := fun z => Int.cast_pos
  have c2 : ∀ z : Int, (z : Rat) < 0 ↔ z < 0 := fun z => Int.cast_lt_zero
  have f1 : Select.fromTest (some (lo, hi)) p.1 (t) = true ↔ (0 < p.1 → (p.1 : Rat) ≤ t) ∧
      (p.1 < 0 → lo + |(p.1 : Rat)| ≤ t) := by
    unfold Select.fromTest
    simp only [gt_iff_lt, c1, c2, Option.elim_some]
    rcases lt_trichotomy p.1 0 with h | h | h
    · rw [if_neg (by omega), if_pos h, abs_of_neg ((c2 _).2 h), decide_eq_true_eq]
      constructor
      · exact fun q => ⟨fun h' => absurd h' (by omega), fun _ => by linarith⟩
      · exact fun q => by linarith [q.2 h]
    · rw [h]
      simp
    · rw [if_pos h, decide_eq_true_eq]
      exact ⟨fun q => ⟨fun _ => q, fun h' => absurd h' (by omega)⟩, fun q => q.1 h⟩
  have f2 : Select.toTest (some (lo, hi)) p.2 (t) = true ↔ (0 < p.2 → t ≤ (p.2 : Rat)) ∧
      (p.2 < 0 → t ≤ hi - |(p.2 : Rat)|) := by
    unfold Select.toTest
    simp only [gt_iff_lt, c1, c2, Option.elim_some]
    rcases lt_trichotomy p.2 0 with h | h | h
    · rw [if_neg (by omega), if_pos h, abs_of_neg ((c2 _).2 h), decide_eq_true_eq]
      constructor
      · exact fun q => ⟨fun h' => absurd h' (by omega), fun _ => by linarith⟩
      · exact fun q => by linarith [q.2 h]
    · rw [h]
      simp
    · rw [if_pos h, decide_eq_true_eq]
      exact ⟨fun q => ⟨fun _ => q, fun h' => absurd h' (by omega)⟩, fun q => q.1 h⟩
  exact ⟨f1, f2⟩

open scoped Classical in
theorem sub_tracks (a : SubArgs) {data d1 d2 : List (Nat × SubObs)} (hs : (data.map Prod.fst).Pairwise (· ≤ ·)) (hne : data ≠ [])
    (hids : ∀ l, a.ids = some l → ∀ t ∈ l, ∃ o ∈ data, t ≤ o.1) (h1 : subStep (fun ids d => extractIds d ids) a.ids data = some d1)
    (h2 : subStep (fun (b : Int × Int) d => extractWithLength d b.1 b.2) a.length d1 = some d2) : d2 = data.filter (fun o => decide (OfTracks a data o)) := by
  have e1 : d1 = data.filter (fun o => decide (∀ ids, a.ids = some ids → o.1 ∈ ids)) := by
    cases e : a.ids with
    | none =>
      rw [e] at h1
      simp only [subStep, Option.some.injEq] at h1
      rw [← h1]
      simp
    | some l =>
      rw [e] at h1
      simp only [subStep] at h1
      rw [extract_ids_spec data hne (contig_of_sorted hs) l (hids l e), Option.some.injEq] at h1
      rw [← h1]
      simp
  have hs1 : (d1.map Prod.fst).Pairwise (· ≤ ·) := by rw [e1]; exact filter_sorted hs _
  have hc1 : ∀ o ∈ d1, (d1.map Prod.fst).count o.1 = data.countP (fun o' => o'.1 = o.1) := by
    intro o ho
    rw [count_tracks, e1, List.countP_filter]
    apply List.countP_congr
    intro o' _
    rw [e1, List.mem_filter, decide_eq_true_eq] at ho
    simp only [decide_eq_true_eq, Bool.and_eq_true]
    constructor
    · exact fun h => h.1
    · exact fun h => ⟨h, by rw [h]; exact ho.2⟩
  have e2 : d2 = data.filter (fun o => decide (OfTracks a data o)) := by
    have g : d2 = d1.filter (fun o => decide (∀ b, a.length = some b → LengthIn b (data.countP (fun o' => o'.1 = o.1)))) := by
      cases e : a.length with
      | none =>
        rw [e] at h2
        simp only [subStep, Option.some.injEq] at h2
        rw [← h2]
        simp
      | some b =>
        rw [e] at h2
        simp only [subStep] at h2
        by_cases hd : d1 = []
        · subst hd
          have : extractWithLength ([] : List (Nat × SubObs)) b.1 b.2 = some [] := rfl
          rw [this, Option.some.injEq] at h2
          rw [← h2]
          rfl
        obtain ⟨g1, g2⟩ := extract_with_length_spec d1 hs1 b.1 b.2
        by_cases hb : 0 ≤ b.1 ∨ (b.1 = -1 ∧ 0 ≤ b.2)
        · rw [g2 hb, Option.some.injEq] at h2
          rw [← h2]
          apply List.filter_congr
          intro o ho
          rw [decide_eq_decide, hc1 o ho]
          unfold LengthIn
          simp
        · rw [(g1 hd).2 hb] at h2
          cases h2
    rw [g, e1, List.filter_filter]
    apply List.filter_congr
    intro o _
    rw [← Bool.decide_and, decide_eq_decide]
    unfold OfTracks
    exact and_comm
  exact e2

open scoped Classical in
theorem sub_period (unit : Rat) (a : SubArgs) {data d2 d3 : List (Nat × SubObs)} (hs : (data.map Prod.fst).Pairwise (· ≤ ·))
    (e2 : d2 = data.filter (fun o => decide (OfTracks a data o))) (h3 : subStep (subPeriod unit a) a.period d2 = some d3) :
    d3 = data.filter (fun o => decide (OfTracks a data o ∧ ∀ p, a.period = some p → Meets a data (PeriodIn unit a data p) o)) := by
  have hs2 : (d2.map Prod.fst).Pairwise (· ≤ ·) := by rw [e2]; exact filter_sorted hs _
  have hm2 : ∀ o, o ∈ d2 ↔ o ∈ data ∧ OfTracks a data o := by
    intro o
    rw [e2, List.mem_filter, decide_eq_true_eq]
  have meets2 : ∀ (p : SubObs → Prop) (o : Nat × SubObs), OfTracks a data o → (Meets a d2 p o ↔ Meets a data p o) := by
    intro p o ho
    unfold Meets
    split
    · constructor
      · rintro ⟨o', g1, g2⟩
        exact ⟨o', ((hm2 o').1 g1).1, g2⟩
      · rintro ⟨o', g1, g2, g3⟩
        exact ⟨o', (hm2 o').2 ⟨g1, (ofTracks_congr g2).2 ho⟩, g2, g3⟩
    · split
      · constructor
        · intro g o' g1 g2
          exact g o' ((hm2 o').2 ⟨g1, (ofTracks_congr g2).2 ho⟩) g2
        · intro g o' g1 g2
          exact g o' ((hm2 o').1 g1).1 g2
      · exact Iff.rfl
  have e3 : d3 = data.filter (fun o => decide (OfTracks a data o ∧ ∀ p, a.period = some p → Meets a data (PeriodIn unit a data p) o)) := by
    have g : d3 = d2.filter (fun o => decide (∀ p, a.period = some p → Meets a data (PeriodIn unit a data p) o)) := by
      cases e : a.period with
      | none =>
        rw [e] at h3
        simp only [subStep, Option.some.injEq] at h3
        rw [← h3]
        simp
      | some p =>
        rw [e] at h3
        simp only [subStep, subPeriod] at h3
        have hmask : Select.maskPeriod ⟨d2.map (fun o => o.2.time * unit), none⟩ p.1 p.2 = d2.map (fun o => subTest unit ⟨d2.map (fun o => o.2.time * unit), none⟩ p o.2) := by
          unfold Select.maskPeriod
          rw [List.map_map]
          rfl
        rw [hmask] at h3
        generalize hq : subTest unit ⟨d2.map (fun o => o.2.time * unit), none⟩ p = q at h3
        have hh := subMask_spec a hs2 q h3
        rw [hh]
        apply List.filter_congr
        intro o ho
        have hd2 : d2.map (fun o => o.2.time * unit) ≠ [] := by
          rw [Ne, List.map_eq_nil_iff]
          rintro rfl
          cases ho
        obtain ⟨lo, hi, ep, l1, l2, hb⟩ := Extract.period_spec _ hd2
        obtain ⟨ol, ml, el⟩ := List.mem_map.1 l1
        obtain ⟨oh, mh, eh⟩ := List.mem_map.1 l2
        have hb' : ∀ o ∈ d2, lo ≤ o.2.time * unit ∧ o.2.time * unit ≤ hi := fun o ho => hb _ (List.mem_map.2 ⟨o, ho, rfl⟩)
        have key : ∀ x : SubObs, q x = true ↔ PeriodIn unit a data p x := by
          intro x
          rw [← hq]
          unfold subTest
          rw [ep, Bool.and_eq_true]
          rw [(period_tests p lo hi (x.time * unit)).1, (period_tests p lo hi (x.time * unit)).2]
          unfold PeriodIn
          constructor
          · rintro ⟨⟨q1, q2⟩, q3, q4⟩
            refine ⟨q1, q3, fun hp o ho hot hmin => ?_, fun hp o ho hot hmax => ?_⟩
            · have := hmin ol ((hm2 ol).1 ml).1 ((hm2 ol).1 ml).2
              linarith [q2 hp]
            · have := hmax oh ((hm2 oh).1 mh).1 ((hm2 oh).1 mh).2
              linarith [q4 hp]
          · rintro ⟨q1, q3, q2, q4⟩
            refine ⟨⟨q1, fun hp => ?_⟩, q3, fun hp => ?_⟩
            · have := q2 hp ol ((hm2 ol).1 ml).1 ((hm2 ol).1 ml).2 (fun o' g1 g2 => by rw [el]; exact (hb' o' ((hm2 o').2 ⟨g1, g2⟩)).1)
              linarith
            · have := q4 hp oh ((hm2 oh).1 mh).1 ((hm2 oh).1 mh).2 (fun o' g1 g2 => by rw [eh]; exact (hb' o' ((hm2 o').2 ⟨g1, g2⟩)).2)
              linarith
        rw [decide_eq_decide]
        have : (fun x : SubObs => q x = true) = PeriodIn unit a data p := by
          funext x
          exact propext (key x)
        rw [this, meets2 _ _ ((hm2 o).1 ho).2]
        simp
    rw [g, e2, List.filter_filter]
    apply List.filter_congr
    intro o _
    rw [← Bool.decide_and, decide_eq_decide]
    exact and_comm
  exact e3

open scoped Classical in
theorem sub_area (unit : Rat) (a : SubArgs) {data d3 out : List (Nat × SubObs)} (hs : (data.map Prod.fst).Pairwise (· ≤ ·))
    (harea : ∀ b, a.area = some b → b.2.2.1 ≤ b.1 + 360)
    (e3 : d3 = data.filter (fun o => decide (OfTracks a data o ∧ ∀ p, a.period = some p → Meets a data (PeriodIn unit a data p) o)))
    (h4 : subStep (subArea a) a.area d3 = some out) : out = data.filter (fun o => decide (Described unit a data o)) := by
  have hs3 : (d3.map Prod.fst).Pairwise (· ≤ ·) := by rw [e3]; exact filter_sorted hs _
  have hm3 : ∀ o, o ∈ d3 ↔ o ∈ data ∧ OfTracks a data o ∧ ∀ p, a.period = some p → Meets a data (PeriodIn unit a data p) o := by
    intro o
    rw [e3, List.mem_filter, decide_eq_true_eq]
  have meets3 : ∀ (p : SubObs → Prop) (o : Nat × SubObs), o ∈ d3 → (Meets a d3 p o ↔ Meets a data p o) := by
    intro p o ho
    have hwhole : (a.fullPath = true ∨ a.removeIncomplete = true) → ∀ o' ∈ data, o'.1 = o.1 → o' ∈ d3 := by
      intro hw o' g1 g2
      obtain ⟨_, i2, i3⟩ := (hm3 o).1 ho
      refine (hm3 o').2 ⟨g1, (ofTracks_congr g2).2 i2, fun q hq => ?_⟩
      have := i3 q hq
      unfold Meets at this ⊢
      by_cases hf : a.fullPath = true
      · rw [if_pos hf] at this ⊢
        rw [g2]
        exact this
      · rw [if_neg hf, if_pos (hw.resolve_left hf)] at this ⊢
        rw [g2]
        exact this
    unfold Meets
    split
    · rename_i hf
      constructor
      · rintro ⟨o', g1, g2⟩
        exact ⟨o', ((hm3 o').1 g1).1, g2⟩
      · rintro ⟨o', g1, g2, g3⟩
        exact ⟨o', hwhole (Or.inl hf) o' g1 g2, g2, g3⟩
    · split
      · rename_i hr
        constructor
        · intro g o' g1 g2
          exact g o' (hwhole (Or.inr hr) o' g1 g2) g2
        · intro g o' g1 g2
          exact g o' ((hm3 o').1 g1).1 g2
      · exact Iff.rfl
  have g : out = d3.filter (fun o => decide (∀ b, a.area = some b → Meets a data (AreaIn b) o)) := by
    cases e : a.area with
    | none =>
      rw [e] at h4
      simp only [subStep, Option.some.injEq] at h4
      rw [← h4]
      simp
    | some b =>
      rw [e] at h4
      simp only [subStep, subArea] at h4
      rw [subMask_spec a hs3 (fun x => Extract.areaTest b.1 b.2.2.1 b.2.1 b.2.2.2 x.pos) h4]
      apply List.filter_congr
      intro o ho
      rw [decide_eq_decide]
      have : (fun x : SubObs => Extract.areaTest b.1 b.2.2.1 b.2.1 b.2.2.2 x.pos = true) = AreaIn b := by
        funext x
        exact propext (areaTest_iff b (harea b e) x)
      rw [this, meets3 _ _ ho]
      simp
  rw [g, e3, List.filter_filter]
  apply List.filter_congr
  intro o _
  rw [← Bool.decide_and, decide_eq_decide]
  unfold Described
  rw [and_comm, and_assoc]

open scoped Classical in
/-- **C160**, the selections: when the command answers, the rows are those which its help describes, in the order of the file. Missing: the areas of more than 360
degrees of longitude, the files which are not sorted by track (`resubset_wrong`), the unit of the dates (`raw_period_wrong`). -/
theorem select_partial (unit : Rat) (a : SubArgs) {data out : List (Nat × SubObs)} (hs : (data.map Prod.fst).Pairwise (· ≤ ·)) (hne : data ≠ [])
    (hids : ∀ l, a.ids = some l → ∀ t ∈ l, ∃ o ∈ data, t ≤ o.1) (harea : ∀ b, a.area = some b → b.2.2.1 ≤ b.1 + 360)
    (h : subSelect unit a data = some out) : out = data.filter (fun o => decide (Described unit a data o)) := by
  unfold subSelect at h
  rw [Option.bind_eq_some_iff] at h
  obtain ⟨d1, h1, h⟩ := h
  rw [Option.bind_eq_some_iff] at h
  obtain ⟨d2, h2, h⟩ := h
  rw [Option.bind_eq_some_iff] at h
  obtain ⟨d3, h3, h4⟩ := h
  exact sub_area unit a hs harea (sub_period unit a hs (sub_tracks a hs hne hids h1 h2) h3) h4

/-- The selections answer: without `--full_path` and `--remove_incomplete`, or when there is no period and no area, if the bounds of length are valid. -/
theorem select_total (unit : Rat) (a : SubArgs) {data : List (Nat × SubObs)} (hs : (data.map Prod.fst).Pairwise (· ≤ ·)) (hne : data ≠ [])
    (hids : ∀ l, a.ids = some l → ∀ t ∈ l, ∃ o ∈ data, t ≤ o.1) (hlen : ∀ b, a.length = some b → 0 ≤ b.1 ∨ (b.1 = -1 ∧ 0 ≤ b.2))
    (hmode : (a.fullPath = false ∧ a.removeIncomplete = false) ∨ (a.period = none ∧ a.area = none)) : ∃ out, subSelect unit a data = some out := by
  obtain ⟨d1, h1⟩ : ∃ d1, subStep (fun ids d => extractIds d ids) a.ids data = some d1 := by
    cases e : a.ids with
    | none => exact ⟨data, rfl⟩
    | some l => exact ⟨_, extract_ids_spec data hne (contig_of_sorted hs) l (hids l e)⟩
  have hs1 : (d1.map Prod.fst).Pairwise (· ≤ ·) := by
    cases e : a.ids with
    | none =>
      rw [e] at h1
      simp only [subStep, Option.some.injEq] at h1
      rw [← h1]
      exact hs
    | some l =>
      rw [e] at h1
      simp only [subStep] at h1
      rw [extract_ids_spec data hne (contig_of_sorted hs) l (hids l e), Option.some.injEq] at h1
      rw [← h1]
      exact filter_sorted hs _
  obtain ⟨d2, h2⟩ : ∃ d2, subStep (fun (b : Int × Int) d => extractWithLength d b.1 b.2) a.length d1 = some d2 := by
    cases e : a.length with
    | none => exact ⟨d1, rfl⟩
    | some b => exact ⟨_, (extract_with_length_spec d1 hs1 b.1 b.2).2 (hlen b e)⟩
  unfold subSelect
  rw [h1, Option.bind_some, h2, Option.bind_some]
  rcases hmode with ⟨hf, hr⟩ | ⟨hp, har⟩
  · have hmask : ∀ m d, subMask a m d = some (Py.select m d) := by
      intro m d
      unfold subMask
      rw [hf, hr]
      exact extract_plain _ _ _ _
    cases a.period <;> cases a.area <;> simp [subStep, subPeriod, subArea, hmask]
  · rw [hp, har]
    exact ⟨d2, rfl⟩

theorem goes_irrefl (way : Way) (value : Rat) (x : Rat × Rat) : ¬ Goes way value x x := by
  cases way with
  | north => rintro ⟨h, _⟩; linarith
  | south => rintro ⟨h, _⟩; linarith
  | east =>
    rintro ⟨k, h1, _, h2⟩
    have g1 : (0 : Rat) < k := by linarith
    have g2 : (k : Rat) < 1 := by linarith
    have g1' : 0 < k := by exact_mod_cast g1
    have g2' : k < 1 := by exact_mod_cast g2
    omega
  | west =>
    rintro ⟨k, h1, _, h2⟩
    have g1 : (0 : Rat) < k := by linarith
    have g2 : (k : Rat) < 1 := by linarith
    have g1' : 0 < k := by exact_mod_cast g1
    have g2' : k < 1 := by exact_mod_cast g2
    omega

/-- A dataset of one observation, of the track 0: not selected. -/
theorem direction_single_zero {α : Type} (pos : α → Rat × Rat) (x : α) (way : Way) (value : Rat) :
    extractInDirection pos [(0, x)] way value = some [] := by
  have h : inWay way value (pos x) (pos x) = false := by
    rw [Bool.eq_false_iff, Ne, inWay_spec]
    exact goes_irrefl way value (pos x)
  have e : extractInDirection pos [(0, x)] way value = some (Py.select (Py.rep [inWay way value (pos x) (pos x)] [1]) [(0, x)]) := rfl
  rw [e, h]
  rfl

open scoped Classical in
/-- **C160** the whole command: the rows described by the help, then the tracks of these rows which go in the direction, then their first rows in each box, in
the order of the file or sorted; nothing is written when nothing stays. `minimal` is zero by default. Missing: as `select_partial`, boxes after a turn. -/
theorem subsetter_partial {argsort : List Key → List Nat} (ha : Stable argsort) {sort : List (Nat × SubObs) → List (Nat × SubObs)} (hsort : ∀ l, (sort l).Perm l)
    (unit : Rat) (a : SubArgs) {data : List (Nat × SubObs)} {r : Option (List (Nat × SubObs))} (hs : (data.map Prod.fst).Pairwise (· ≤ ·)) (hne : data ≠ [])
    (hids : ∀ l, a.ids = some l → ∀ t ∈ l, ∃ o ∈ data, t ≤ o.1) (harea : ∀ b, a.area = some b → b.2.2.1 ≤ b.1 + 360)
    (h : subSetter argsort sort unit a data = some r) :
    ∃ mid dir box : List (Nat × SubObs), mid = data.filter (fun o => decide (Described unit a data o)) ∧ (a.direction = none → dir = mid) ∧
      (∀ w, a.direction = some w → dir.Sublist mid ∧ ∀ o ∈ mid, ∃ x y, Ends mid o.1 x y ∧ (o ∈ dir ↔ Goes w (a.minimal.getD 0) x.pos y.pos)) ∧
      ((∀ res, a.box = some res → res = 0) → box = dir) ∧
      (∀ res, a.box = some res → 0 < res → ∃ m : List Bool, m.length = dir.length ∧ box = Py.select m dir ∧
        ∀ i, i < dir.length → (m[i]? = some true ↔ FirstInBox res SubObs.pos dir i)) ∧
      (r = none ↔ box = []) ∧ ∀ out, r = some out → out.Perm box ∧ (a.sortTime = false → out = box) ∧ (a.sortTime = true → out = sort box) := by
  unfold subSetter at h
  rw [Option.bind_eq_some_iff] at h
  obtain ⟨mid, h1, h⟩ := h
  rw [Option.map_eq_some_iff] at h
  obtain ⟨dir, h2, h3⟩ := h
  have e1 := select_partial unit a hs hne hids harea h1
  have hsm : (mid.map Prod.fst).Pairwise (· ≤ ·) := by rw [e1]; exact filter_sorted hs _
  have hv : subValue a = a.minimal.getD 0 := by
    unfold subValue
    cases a.minimal with
    | none => rfl
    | some v =>
      by_cases hz : v = 0
      · rw [hz]; simp
      · simp [hz]
  refine ⟨mid, dir, subBox argsort a dir, e1, ?_, ?_, ?_, ?_, ?_, ?_⟩
  · intro hd
    rw [hd] at h2
    exact (Option.some.inj h2).symm
  · intro w hd
    rw [hd] at h2
    simp only [subStep] at h2
    rw [hv] at h2
    match mid, hsm, h2 with
    | [], _, h2 => cases h2
    | [(0, x)], _, h2 =>
      rw [direction_single_zero, Option.some.injEq] at h2
      rw [← h2]
      refine ⟨List.nil_sublist _, ?_⟩
      intro o ho
      rw [List.mem_singleton] at ho
      subst ho
      refine ⟨x, x, ⟨0, 0, ⟨0, rfl, fun j hj => by omega⟩, ⟨0, rfl, ?_⟩, rfl, rfl⟩, by simp [goes_irrefl]⟩
      intro j hj
      simp only [List.map_cons, List.map_nil] at *
      obtain ⟨j', rfl⟩ : ∃ j', j = j' + 1 := ⟨j - 1, by omega⟩
      simp
    | [(t + 1, x)], _, h2 =>
      rw [direction_single_raises SubObs.pos (t + 1) x w _ (by omega)] at h2
      cases h2
    | x :: y :: l, hsm, h2 =>
      obtain ⟨r', g1, p, g2, g3⟩ := direction_partial SubObs.pos (x :: y :: l) hsm (by simp) w (a.minimal.getD 0)
      rw [g1, Option.some.injEq] at h2
      rw [← h2, g2]
      refine ⟨List.filter_sublist, ?_⟩
      intro o ho
      obtain ⟨x', y', k1, k2⟩ := g3 o ho
      refine ⟨x', y', k1, ?_⟩
      rw [List.mem_filter, ← k2]
      exact ⟨fun q => q.2, fun q => ⟨ho, q⟩⟩
  · intro hb
    unfold subBox
    cases e : a.box with
    | none => rfl
    | some res => simp [hb res e]
  · intro res hb hres
    unfold subBox
    rw [hb]
    simp only
    rw [if_pos (ne_of_gt hres)]
    exact box_partial ha hres SubObs.pos dir
  · rw [← h3]
    by_cases ht : a.sortTime = true
    · simp only [ht, if_true]
      have hl := (hsort (subBox argsort a dir)).length_eq
      rw [hl]
      by_cases hz : (subBox argsort a dir).length = 0
      · rw [if_pos hz]; simpa using hz
      · rw [if_neg hz]
        simp only [reduceCtorEq, false_iff]
        intro q
        rw [q] at hz
        exact hz rfl
    · simp only [ht, if_false, Bool.false_eq_true]
      by_cases hz : (subBox argsort a dir).length = 0
      · rw [if_pos hz]; simpa using hz
      · rw [if_neg hz]
        simp only [reduceCtorEq, false_iff]
        intro q
        rw [q] at hz
        exact hz rfl
  · intro out ho
    rw [← h3] at ho
    by_cases ht : a.sortTime = true
    · simp only [ht, if_true] at ho
      split at ho
      · cases ho
      · obtain rfl := Option.some.inj ho
        exact ⟨hsort _, fun q => absurd (ht.symm.trans q) (by simp), fun _ => rfl⟩
    · rw [Bool.not_eq_true] at ht
      simp only [ht, if_false, Bool.false_eq_true] at ho
      split at ho
      · cases ho
      · obtain rfl := Option.some.inj ho
        exact ⟨List.Perm.refl _, fun _ => rfl, fun q => absurd (ht.symm.trans q) (by simp)⟩

/-- Two tracks of three observations. -/
def subData : List (Nat × SubObs) :=
  [(1, ⟨5, 5, 10, false, 0⟩), (1, ⟨6, 6, 11, true, 1⟩), (1, ⟨20, 7, 12, false, 2⟩), (3, ⟨2, 2, 11, false, 3⟩), (3, ⟨2, 3, 12, false, 4⟩), (3, ⟨3, 2, 13, false, 5⟩), (4, ⟨0, 0, 9, false, 6⟩)]

/-- Order of the fields `time`, `lon`, `lat`. -/
def subSort (l : List (Nat × SubObs)) : List (Nat × SubObs) := l.insertionSort (fun x y => x.2.time < y.2.time ∨ (x.2.time = y.2.time ∧
  (x.2.lon < y.2.lon ∨ (x.2.lon = y.2.lon ∧ x.2.lat ≤ y.2.lat))))

/-- Non-vacuity. -/
example : (subData.map Prod.fst).Pairwise (· ≤ ·) ∧ (∀ l, (subSort l).Perm l) ∧
    (subSelect 1 { ids := some [1, 3], length := some (2, -1), period := some (-1, 0), area := some (0, 0, 10, 10) } subData).map (·.map (·.2.other)) = some [1, 3, 4, 5] ∧
    (subSelect 1 { period := some (11, 12), fullPath := true } subData).map (·.map (·.2.other)) = some [0, 1, 2, 3, 4, 5] ∧
    (subSelect 1 { area := some (0, 0, 10, 10), removeIncomplete := true } subData).map (·.map (·.2.other)) = some [3, 4, 5] ∧
    (subSetter insertionArgsort subSort 1 { length := some (2, -1), direction := some .east, minimal := some (1 / 2), box := some 4, sortTime := true } subData).map
      (fun r => r.map (·.map (·.2.other))) = some (some [0, 3, 2]) :=
  ⟨by decide, fun l => List.perm_insertionSort _ l, by decide +kernel, by decide +kernel, by decide +kernel, by decide +kernel⟩

/-- `--full_path` with a period and an area: the track 1 has no observation selected by both, it is kept. -/
theorem full_path_both_wrong : (subSelect 1 { period := some (12, 12), area := some (0, 4, 10, 10), fullPath := true } subData).map (·.map (·.2.other)) = some [0, 1, 2] ∧
    ∀ o ∈ subData, ¬ (o.2.time = 12 ∧ AreaIn (0, 4, 10, 10) o.2) := by
  refine ⟨by decide +kernel, ?_⟩
  rintro o ho ⟨h, h1, _, k, h2, h3⟩
  simp only [subData, List.mem_cons, List.not_mem_nil, or_false] at ho
  rcases ho with rfl | rfl | rfl | rfl | rfl | rfl | rfl
  all_goals try norm_num at h
  all_goals try norm_num at h1
  simp only at h2 h3
  have g1 : (-1 : Rat) < k := by linarith
  have g2 : (k : Rat) < 0 := by linarith
  have g1' : -1 < k := by exact_mod_cast g1
  have g2' : k < 0 := by exact_mod_cast g2
  omega

/-- Three observations at least by track are asked, the track written has one. -/
theorem length_cut_wrong : (subSetter insertionArgsort subSort 1 { length := some (3, -1), period := some (13, 20) } subData) = some (some [(3, ⟨3, 2, 13, false, 5⟩)]) := by
  decide +kernel

/-- Without `--no_raw_mode` the dates of the file are multiples of 1/86400 day: a bound in days keeps everything after it, or nothing before it. -/
theorem raw_period_wrong : (subSetter insertionArgsort subSort 86400 { period := some (13, 0) } subData) = some (some subData) ∧
    (subSetter insertionArgsort subSort 86400 { period := some (0, 13) } subData) = some none := by
  decide +kernel

/-- The track 1 of a file written with `--sort_time` is not found by `--ids`: two of its three rows are lost, a row of another track is given. -/
theorem resubset_wrong : (subSetter insertionArgsort subSort 1 { length := some (2, -1), sortTime := true } subData).map (fun r => r.map (·.map Prod.fst)) =
      some (some [1, 3, 1, 3, 1, 3]) ∧
    ((subSetter insertionArgsort subSort 1 { length := some (2, -1), sortTime := true } subData).bind (fun r => r.bind (fun d =>
      (subSetter insertionArgsort subSort 1 { ids := some [1] } d).bind (fun r => r.map (·.map Prod.fst))))) = some [1, 3] := by
  decide +kernel

/-- The direction is the one of the observations which stay: the track 1 goes by 15 degrees eastward, its selected part by 1 degree. -/
theorem direction_cut : (subSetter insertionArgsort subSort 1 { ids := some [1], direction := some .east, minimal := some 10 } subData).map
      (fun r => r.map (·.map (·.2.other))) = some (some [0, 1, 2]) ∧
    (subSetter insertionArgsort subSort 1 { ids := some [1], period := some (0, 11), direction := some .east, minimal := some 10 } subData) = some none := by
  decide +kernel

/-- When nothing stays before `--direction` the command raises, and the message of an empty selection is not given. -/
theorem empty_direction_raises (argsort : List Key → List Nat) (sort : List (Nat × SubObs) → List (Nat × SubObs)) (unit : Rat) (a : SubArgs) {data : List (Nat × SubObs)}
    (h : subSelect unit a data = some []) (w : Way) (hd : a.direction = some w) : subSetter argsort sort unit a data = none := by
  unfold subSetter
  rw [h, Option.bind_some, hd]
  rfl

example : subSelect 1 { period := some (100, 0), direction := some .north } subData = some [] := by decide +kernel

end Verif.Tracks
