import Verif.Extract.Model

/-!
# C84: insertion, C85: selection by area, time and age, C86: selection by contours
-/

namespace Verif.Extract

open Verif.Poly (Pt)

/-! ### C84 -/

theorem bound_nat (n k : Nat) : Py.bound n (k : Int) = min k n := by
  unfold Py.bound
  rw [if_pos (by omega)]
  simp

/-- **C84**: for an index between the start and the end (negative indices count from the end, -1 is the end), the result is the rows before the
index, the rows inserted, and the rows after. Missing: other indices, see `insert_outside_wrong`. -/
theorem insert_partial {α : Type} (blank : α) (s o : List α) (index : Int) (h1 : -(s.length : Int) - 1 ≤ index) (h2 : index ≤ s.length) :
    ∃ p : Nat, (p : Int) = (if index < 0 then (s.length : Int) + index + 1 else index) ∧
      insert blank s o index = some (s.take p ++ o ++ s.drop p) := by
  refine ⟨(if index < 0 then (s.length : Int) + index + 1 else index).toNat, by split <;> omega, ?_⟩
  set p := (if index < 0 then (s.length : Int) + index + 1 else index).toNat with hp
  have hpi : (if index < 0 then (s.length : Int) + index + 1 else index) = (p : Int) := by
    rw [hp]; split <;> omega
  have hple : p ≤ s.length := by rw [hp]; split <;> omega
  unfold insert
  by_cases hs : s = []
  · rw [if_pos hs]
    subst hs
    simp
  · rw [if_neg hs]
    by_cases ho : o = []
    · rw [if_pos ho]
      subst ho
      simp
    · rw [if_neg ho]
      simp only
      rw [hpi]
      have b1 : Py.bound s.length (p : Int) = p := by rw [bound_nat]; omega
      rw [b1]
      have e1 : sliceAssign (List.replicate (s.length + o.length) blank) 0 (p : Int) (s.take p) =
          some (s.take p ++ List.replicate (s.length + o.length - p) blank) := by
        unfold sliceAssign
        simp only
        rw [bound_nat, List.length_replicate, show (0 : Int) = ((0 : Nat) : Int) by rfl, bound_nat, List.length_take]
        rw [if_pos (by omega), show min p (s.length + o.length) = p by omega]
        simp
      rw [e1, Option.bind_some]
      have hl1 : (s.take p ++ List.replicate (s.length + o.length - p) blank).length = s.length + o.length := by
        simp; omega
      have e2 : sliceAssign (s.take p ++ List.replicate (s.length + o.length - p) blank) (p : Int) ((p : Int) + o.length) o =
          some (s.take p ++ o ++ List.replicate (s.length - p) blank) := by
        unfold sliceAssign
        simp only
        rw [hl1, bound_nat, show (p : Int) + o.length = ((p + o.length : Nat) : Int) by push_cast; rfl, bound_nat,
          if_pos (by omega), show min p (s.length + o.length) = p by omega, show min (p + o.length) (s.length + o.length) = p + o.length by omega,
          show max p (p + o.length) = p + o.length by omega]
        have ht : (s.take p).length = p := by simp; omega
        rw [List.take_append_of_le_length (by omega), List.take_of_length_le (by omega), List.drop_append, ht,
          List.drop_of_length_le (by omega)]
        simp only [List.nil_append, List.drop_replicate, List.append_assoc, Option.some.injEq]
        congr 3
        omega
      rw [e2, Option.bind_some]
      have hl2 : (s.take p ++ o ++ List.replicate (s.length - p) blank).length = s.length + o.length := by
        simp; omega
      unfold sliceAssign
      simp only
      rw [hl2, show (p : Int) + o.length = ((p + o.length : Nat) : Int) by push_cast; rfl, bound_nat,
        show (s.length : Int) + o.length = ((s.length + o.length : Nat) : Int) by push_cast; rfl, bound_nat, List.length_drop,
        if_pos (by omega), show min (p + o.length) (s.length + o.length) = p + o.length by omega,
        show max (p + o.length) (min (s.length + o.length) (s.length + o.length)) = s.length + o.length by omega]
      have ht : (s.take p ++ o).length = p + o.length := by simp; omega
      rw [List.take_append_of_le_length (by omega), List.take_of_length_le (by omega),
        List.drop_of_length_le (l := s.take p ++ o ++ List.replicate (s.length - p) blank) (by rw [hl2]), List.append_nil]

/-- **C84** (`append`, `a + b`): the rows of the second dataset after the ones of the first. -/
theorem append_spec {α : Type} (blank : α) (s o : List α) : insert blank s o (-1) = some (s ++ o) := by
  obtain ⟨p, hp, h⟩ := insert_partial blank s o (-1) (by omega) (by omega)
  rw [if_pos (by omega)] at hp
  have : p = s.length := by omega
  rw [h, this]
  simp

/-- An index after the end, with datasets of one row: the inserted row is lost and the other one is doubled. -/
theorem insert_outside_wrong : insert 0 [1] [2] 2 = some [1, 1] := by decide

/-- The period read first is the one of the rows. -/
theorem period_spec (t : List Rat) (h : t ≠ []) : ∃ lo hi, (Data.period ⟨t, none⟩).2 = some (lo, hi) ∧ lo ∈ t ∧ hi ∈ t ∧ ∀ x ∈ t, lo ≤ x ∧ x ≤ hi := by
  obtain ⟨a1, a2⟩ := Poly.minR_spec h
  obtain ⟨b1, b2⟩ := Poly.maxR_spec h
  refine ⟨_, _, ?_, a1, b1, fun x hx => ⟨a2 x hx, b2 x hx⟩⟩
  unfold Data.period
  simp only
  rw [if_neg h]

/-- The period is kept when observations are inserted: the dates of the new ones are not in it. -/
theorem period_stale_wrong : (((Data.period ⟨[1, 2], none⟩).1.insert [5] (-1)).map (fun d => (d.time, d.period.2))) = some ([1, 2, 5], some (1, 2)) := by
  decide +kernel

/-- Result of `a + b` on the variables: the first operand is the result. -/
def plus {α : Type} (blank : α) (env : Nat → List α) (i j : Nat) : Option (Nat → List α) :=
  (insert blank (env i) (env j) (-1)).map (fun r => Function.update env i r)

/-- `a + b` changes `a` as soon as `b` has a row. -/
theorem plus_changes {α : Type} (blank : α) (env : Nat → List α) (i j : Nat) (h : env j ≠ []) :
    ∃ env', plus blank env i j = some env' ∧ env' i = env i ++ env j ∧ env' i ≠ env i := by
  refine ⟨Function.update env i (env i ++ env j), by unfold plus; rw [append_spec]; rfl, by simp, ?_⟩
  simpa using h

/-! ### C85 -/

theorem extract_filter {α : Type} (p : α → Bool) (rows : List α) : extractMask rows (rows.map p) = rows.filter p := by
  unfold extractMask
  simpa using Py.select_map rows p id

/-- **C85** (area): for a box of at most 360 degrees of longitude, exactly the rows strictly inside of the box, for some turn, are kept, in
their order. Missing: wider boxes, see `area_wide_wrong`. -/
theorem area_partial {α : Type} (pos : α → Pt) {lon0 lon1 : Rat} (lat0 lat1 : Rat) (h : lon1 ≤ lon0 + 360) (rows : List α) :
    (extractArea pos lon0 lon1 lat0 lat1 rows).Sublist rows ∧ ∀ (r : α), r ∈ extractArea pos lon0 lon1 lat0 lat1 rows ↔
      r ∈ rows ∧ lat0 < (pos r).2 ∧ (pos r).2 < lat1 ∧ ∃ k : Int, lon0 < (pos r).1 + 360 * k ∧ (pos r).1 + 360 * k < lon1 := by
  unfold extractArea
  rw [extract_filter]
  refine ⟨List.filter_sublist, fun r => ?_⟩
  rw [List.mem_filter]
  unfold areaTest
  simp only [Bool.and_eq_true, decide_eq_true_eq, gt_iff_lt]
  obtain ⟨f1, f2, k, hk⟩ := Py.fmod_spec ((pos r).1 - lon0) (show (0 : Rat) < 360 by norm_num)
  constructor
  · rintro ⟨h0, ⟨h1, h2⟩, h3, h4⟩
    refine ⟨h0, h1, h2, k, ?_, ?_⟩ <;> linarith
  · rintro ⟨h0, h1, h2, m, h3, h4⟩
    have e : Py.fmod ((pos r).1 - lon0) 360 = (pos r).1 - lon0 + 360 * m := Poly.fmod_unique (by linarith) (by linarith) rfl
    refine ⟨h0, ⟨h1, h2⟩, ?_, ?_⟩ <;> linarith

/-- A box of 400 degrees: the longitude of its west limit is inside of it, one turn after, and is not kept. -/
theorem area_wide_wrong : extractArea id 0 400 (-90) 90 [(0, 0), (1, 0)] = [(1, 0)] ∧ ((0 : Rat) < 0 + 360 * 1 ∧ (0 : Rat) + 360 * 1 < 400) := by
  decide +kernel

/-- **C85** (time): exactly the rows whose date is `t0` plus a whole number of steps are kept, in their order. -/
theorem sub_sample_spec {α : Type} (time : α → Rat) (t0 : Rat) {step : Rat} (hs : 0 < step) (rows : List α) :
    (timeSubSample time t0 step rows).Sublist rows ∧ ∀ r, r ∈ timeSubSample time t0 step rows ↔ r ∈ rows ∧ ∃ k : Int, time r = t0 + k * step := by
  unfold timeSubSample
  rw [extract_filter]
  refine ⟨List.filter_sublist, fun r => ?_⟩
  rw [List.mem_filter, decide_eq_true_eq]
  obtain ⟨f1, f2, k, hk⟩ := Py.fmod_spec (time r - t0) hs
  constructor
  · rintro ⟨h0, h⟩
    refine ⟨h0, -k, ?_⟩
    push_cast
    linarith
  · rintro ⟨h0, m, hm⟩
    refine ⟨h0, ?_⟩
    have e : Py.fmod (time r - t0) step = (m + k : Int) * step := by
      rw [hk, hm]
      push_cast
      ring
    rw [e] at f1 f2 ⊢
    have g1 : ((m + k : Int) : Rat) < 1 := by
      by_contra hc
      nlinarith
    have g2 : (-1 : Rat) < ((m + k : Int) : Rat) := by
      by_contra hc
      nlinarith
    have i1 : m + k < 1 := by exact_mod_cast g1
    have i2 : -1 < m + k := by exact_mod_cast g2
    rw [show m + k = 0 by omega]
    simp

/-- The rows of trajectories one after another: the age is 0 exactly on the first row of each one. -/
def Aged {α : Type} (n : α → Nat) (tracks : List (List α)) : Prop :=
  ∀ t ∈ tracks, ∃ a l, t = a :: l ∧ n a = 0 ∧ ∀ r ∈ l, n r ≠ 0

theorem first_one {α : Type} (n : α → Nat) {a : α} {l : List α} (ha : n a = 0) (hl : ∀ r ∈ l, n r ≠ 0) :
    (a :: l).filter (fun r => decide (n r = 0)) = [a] := by
  rw [List.filter_cons, if_pos (by simpa using ha)]
  congr 1
  rw [List.filter_eq_nil_iff]
  intro r hr
  simpa using hl r hr

/-- **C85** (first): when ages start at 0, `first_obs` is the first row of each trajectory. Missing: ages which do not start at 0, see
`age_wrong`. -/
theorem first_obs_partial {α : Type} (n : α → Nat) : ∀ tracks : List (List α), Aged n tracks →
    firstObs n tracks.flatten = tracks.filterMap List.head?
  | [], _ => rfl
  | t :: ts, h => by
    obtain ⟨a, l, rfl, ha, hl⟩ := h t (by simp)
    have ih := first_obs_partial n ts (fun u hu => h u (by simp [hu]))
    unfold firstObs at ih ⊢
    rw [extract_filter] at ih ⊢
    rw [List.flatten_cons, List.filter_append, first_one n ha hl, ih]
    rfl

theorem last_mask {α : Type} (n : α → Nat) : ∀ (l : List α) (a : α) (rest : List α), (∀ r ∈ l, n r ≠ 0) → (∀ b, rest.head? = some b → n b = 0) →
    extractMask (a :: l ++ rest) (((a :: l ++ rest).drop 1).map (fun r => decide (n r = 0)) ++ [true]) =
      (a :: l).getLast?.toList ++ (if rest = [] then [] else extractMask rest ((rest.drop 1).map (fun r => decide (n r = 0)) ++ [true]))
  | [], a, rest, _, hr => by
    cases rest with
    | nil => simp [extractMask, Py.select]
    | cons b rest =>
      have := hr b rfl
      simp [extractMask, Py.select, this]
  | b :: l, a, rest, hl, hr => by
    have ih := last_mask n l b rest (fun r h => hl r (by simp [h])) hr
    have hb := hl b (by simp)
    have e : extractMask (a :: (b :: l) ++ rest) (((a :: (b :: l) ++ rest).drop 1).map (fun r => decide (n r = 0)) ++ [true]) =
        extractMask (b :: l ++ rest) (((b :: l ++ rest).drop 1).map (fun r => decide (n r = 0)) ++ [true]) := by
      simp [extractMask, Py.select, hb]
    rw [e, ih, List.getLast?_cons_cons]

/-- **C85** (last): when ages start at 0, `last_obs` is the last row of each trajectory. -/
theorem last_obs_partial {α : Type} (n : α → Nat) : ∀ tracks : List (List α), Aged n tracks → tracks ≠ [] →
    lastObs n tracks.flatten = some (tracks.filterMap List.getLast?)
  | [], _, h => absurd rfl h
  | t :: ts, h, _ => by
    obtain ⟨a, l, rfl, ha, hl⟩ := h t (by simp)
    have hts : Aged n ts := fun u hu => h u (by simp [hu])
    unfold lastObs
    rw [List.flatten_cons, if_neg (by simp)]
    have hhead : ∀ b, ts.flatten.head? = some b → n b = 0 := by
      intro b hb
      cases ts with
      | nil => simp at hb
      | cons u us =>
        obtain ⟨c, k, rfl, hc, _⟩ := hts u (by simp)
        simp at hb
        rw [← hb]
        exact hc
    rw [last_mask n l a ts.flatten hl hhead]
    congr 1
    have hg : (a :: l).getLast?.toList = [(a :: l).getLast (by simp)] := by rw [List.getLast?_eq_getLast_of_ne_nil (by simp)]; rfl
    rw [List.filterMap_cons, List.getLast?_eq_getLast_of_ne_nil (by simp : a :: l ≠ [])]
    simp only [Option.toList_some, List.singleton_append, List.cons.injEq, true_and]
    cases ts with
    | nil => simp
    | cons u us =>
      have ih := last_obs_partial n (u :: us) hts (by simp)
      unfold lastObs at ih
      have hne : (u :: us).flatten ≠ [] := by
        obtain ⟨c, k, rfl, _⟩ := hts u (by simp)
        simp
      rw [if_neg hne] at ih ⊢
      exact Option.some.inj ih

/-- Two trajectories cut by a selection: ages are (3, 4) and (0, 1). The first row of the first one is not given. With (0, 1) and (3, 4) the last row of
the first one is not given. -/
theorem age_wrong : firstObs (·.2) [(1, 3), (1, 4), (2, 0), (2, 1)] = [(2, 0)] ∧
    lastObs (·.2) [(1, 0), (1, 1), (2, 3), (2, 4)] = some [(2, 4)] := by decide

/-! ### C86 -/

theorem putMask_length {α : Type} : ∀ (m : List Bool) (l v : List α), (putMask m l v).length = l.length
  | [], l, v => by simp [putMask]
  | true :: m, [], v => by simp [putMask]
  | true :: m, a :: l, [] => by simp [putMask]
  | true :: m, a :: l, w :: v => by simp [putMask, putMask_length m l v]
  | false :: m, [], v => by simp [putMask]
  | false :: m, a :: l, v => by simp [putMask, putMask_length m l v]

/-- The values written at the rows of the mask are the ones computed for the rows selected by the mask. -/
theorem putMask_select {α β : Type} : ∀ (m : List Bool) (l : List α) (pts : List β) (v : List α), m.length = l.length → m.length = pts.length →
    v.length = (Py.select m pts).length → ∀ i : Nat, i < l.length →
    (m[i]? = some false ∧ (putMask m l v)[i]? = l[i]?) ∨
    (m[i]? = some true ∧ ∃ k : Nat, (putMask m l v)[i]? = v[k]? ∧ k < v.length ∧ (Py.select m pts)[k]? = pts[i]?)
  | [], l, _, _, h1, _, _, i, hi => by simp at h1; omega
  | b :: m, [], _, _, h1, _, _, _, _ => by simp at h1
  | b :: m, _ :: _, [], _, _, h2, _, _, _ => by simp at h2
  | false :: m, a :: l, p :: pts, v, h1, h2, h3, i, hi => by
    have hs : Py.select (false :: m) (p :: pts) = Py.select m pts := by simp [Py.select]
    rw [hs] at h3 ⊢
    cases i with
    | zero => left; simp [putMask]
    | succ i =>
      have := putMask_select m l pts v (by simpa using h1) (by simpa using h2) h3 i (by simpa using hi)
      simpa [putMask] using this
  | true :: m, a :: l, p :: pts, [], h1, h2, h3, i, hi => by simp [Py.select] at h3
  | true :: m, a :: l, p :: pts, w :: v, h1, h2, h3, i, hi => by
    have hs : Py.select (true :: m) (p :: pts) = p :: Py.select m pts := by simp [Py.select]
    rw [hs] at h3 ⊢
    cases i with
    | zero => right; exact ⟨rfl, 0, by simp [putMask], by simp, by simp⟩
    | succ i =>
      rcases putMask_select m l pts v (by simpa using h1) (by simpa using h2) (by simpa using h3) i (by simpa using hi) with h | ⟨h, k, e1, e2, e3⟩
      · left; simpa [putMask] using h
      · right; exact ⟨by simpa using h, k + 1, by simpa [putMask] using e1, by simpa using e2, by simpa using e3⟩

theorem select_isSome {α : Type} : ∀ l : List (Option α), (Py.select (l.map Option.isSome) l).map (fun o => o) = (l.filterMap id).map some
  | [] => rfl
  | none :: l => by
    have := select_isSome l
    simpa [Py.select] using this
  | some a :: l => by
    have := select_isSome l
    simpa [Py.select] using this

/-- A sorting function of numpy. -/
def Sorting (argsort : List Int → List Nat) : Prop := ∀ l, Bins.IsArgsort l (argsort l)

/-- **C86** (`contains`): for each point, the row of the first contour which contains it, -1 if there is none or if the point is not defined.
Missing: contours of more than 180 degrees or reduced to a point (C36). -/
theorem contains_partial {argsort : List Int → List Nat} (ha : Sorting argsort) (pts : List (Option Pt)) (contours : List (List Pt))
    (hreg : ∀ c ∈ contours, Poly.Regular c) : ∃ res, contains argsort pts contours = some res ∧ res.length = pts.length ∧
      ∀ (i : Nat) (o : Option Pt), pts[i]? = some o →
        (res[i]? = some (-1) ∧ ∀ p, o = some p → ∀ c ∈ contours, ¬ Poly.Contains c p) ∨
        ∃ (p : Pt) (m : Nat) (c : List Pt), o = some p ∧ res[i]? = some (m : Int) ∧ contours[m]? = some c ∧ Poly.Contains c p ∧
          ∀ (m' : Nat) (c' : List Pt), m' < m → contours[m']? = some c' → ¬ Poly.Contains c' p := by
  unfold contains
  simp only
  by_cases hm : (pts.map Option.isSome).any id = true
  · rw [if_pos hm]
    have hne : pts.filterMap id ≠ [] := by
      rw [List.any_eq_true] at hm
      obtain ⟨b, hb, hb'⟩ := hm
      obtain ⟨o, ho, rfl⟩ := List.mem_map.1 hb
      cases o with
      | none => simp at hb'
      | some p => exact List.ne_nil_of_mem (List.mem_filterMap.2 ⟨some p, ho, rfl⟩)
    obtain ⟨r, h1, h2, h3⟩ := Poly.poly_indexs_partial argsort (pts.filterMap id) contours (ha _) hne hreg
    refine ⟨_, by rw [h1, Option.map_some], by rw [putMask_length, List.length_map], fun i o hi => ?_⟩
    have hlen := (List.getElem?_eq_some_iff.1 hi).1
    have hsel : Py.select (pts.map Option.isSome) pts = (pts.filterMap id).map some := by
      have := select_isSome pts
      simpa using this
    have hcnt : r.length = (Py.select (pts.map Option.isSome) pts).length := by rw [hsel, List.length_map, h2]
    rcases putMask_select (pts.map Option.isSome) (pts.map (fun _ => (-1 : Int))) pts r (by simp) (by simp) hcnt i (by simpa using hlen) with
      ⟨f1, f2⟩ | ⟨f1, k, f2, f3, f4⟩
    · left
      rw [List.getElem?_map, hi] at f1
      refine ⟨by rw [f2, List.getElem?_map, hi]; rfl, ?_⟩
      rintro p rfl
      simp at f1
    · rw [hsel, hi, List.getElem?_map] at f4
      obtain ⟨p, hp, hp'⟩ := Option.map_eq_some_iff.1 f4
      rcases h3 k p hp with ⟨g1, g2⟩ | ⟨m, c, g1, g2, g3, g4⟩
      · left
        refine ⟨by rw [f2, g1], ?_⟩
        intro p' hp''
        rw [← hp'] at hp''
        obtain rfl : p = p' := Option.some.inj hp''
        exact g2
      · right
        exact ⟨p, m, c, hp'.symm, by rw [f2, g1], g2, g3, g4⟩
  · rw [if_neg hm]
    refine ⟨_, rfl, by simp, fun i o hi => Or.inl ⟨by rw [List.getElem?_map, hi]; rfl, ?_⟩⟩
    rintro p rfl
    exfalso
    apply hm
    rw [List.any_eq_true]
    exact ⟨true, List.mem_map.2 ⟨some p, List.mem_of_getElem? hi, rfl⟩, rfl⟩

theorem mem_select_not {m : List Bool} {pts : List Pt} : m.length = pts.length → (Py.select (m.map (!·)) pts ≠ [] ↔ ∃ i : Nat, m[i]? = some false) := by
  induction m generalizing pts with
  | nil =>
    intro hl
    simp [Py.select]
  | cons b m ih =>
    intro hl
    cases pts with
    | nil => simp at hl
    | cons p pts =>
      have ih := ih (pts := pts) (by simpa using hl)
      cases b with
      | true =>
        have e : Py.select ((true :: m).map (!·)) (p :: pts) = Py.select (m.map (!·)) pts := by simp [Py.select]
        rw [e, ih]
        constructor
        · rintro ⟨i, hi⟩
          exact ⟨i + 1, by simpa using hi⟩
        · rintro ⟨i, hi⟩
          cases i with
          | zero => simp at hi
          | succ i => exact ⟨i, by simpa using hi⟩
      | false =>
        constructor
        · intro _
          exact ⟨0, rfl⟩
        · intro _
          simp [Py.select]

theorem inside_none {argsort : List Int → List Nat} (ha : Sorting argsort) (cs : List (List Pt)) : Poly.insidePoly argsort [] cs = none := by
  have h := (ha []).1
  simp only [List.length_nil, List.range_zero, List.perm_nil] at h
  unfold Poly.insidePoly Poly.polyIndexs
  rw [List.map_nil, h]
  rfl

/-- The mask is the one of the contours already seen. -/
def Marks (pts : List Pt) (seen : List (List Pt)) (m : List Bool) : Prop :=
  m.length = pts.length ∧ ∀ (i : Nat) (p : Pt), pts[i]? = some p → (m[i]? = some true ↔ ∃ c ∈ seen, Poly.Contains c p)

theorem maskLoop_spec {argsort : List Int → List Nat} (ha : Sorting argsort) (pts : List Pt) : ∀ (l seen : List (List Pt)) (m : List Bool),
    (∀ c ∈ l, Poly.Regular c) → Marks pts seen m →
    (∀ r, maskLoop argsort pts l m = some r → Marks pts (seen ++ l) r) ∧
    ((maskLoop argsort pts l m).isSome = true ↔ l = [] ∨ ∃ p ∈ pts, ∀ c ∈ seen ++ l.dropLast, ¬ Poly.Contains c p)
  | [], seen, m, _, hm => by
    refine ⟨?_, by simp [maskLoop]⟩
    intro r hr
    rw [List.append_nil]
    rw [maskLoop] at hr
    rw [← Option.some.inj hr]
    exact hm
  | c :: l, seen, m, hreg, hm => by
    rw [maskLoop]
    have hlm : (m.map (!·)).length = m.length := by simp
    by_cases hne : Py.select (m.map (!·)) pts = []
    · rw [hne, inside_none ha]
      refine ⟨fun r hr => by simp at hr, ?_⟩
      simp only [Option.bind_none, Option.isSome_none, Bool.false_eq_true, reduceCtorEq, false_or, false_iff]
      rintro ⟨p, hp, hno⟩
      obtain ⟨i, hi⟩ := List.mem_iff_getElem?.1 hp
      have h1 : ¬ ∃ c ∈ seen, Poly.Contains c p := by
        rintro ⟨d, hd, hc⟩
        exact hno d (List.mem_append_left _ hd) hc
      rw [← hm.2 i p hi] at h1
      have hlt := (List.getElem?_eq_some_iff.1 hi).1
      have h2 : m[i]? = some false := by
        have h3 : m[i]? = some (m[i]'(by rw [hm.1]; exact hlt)) := List.getElem?_eq_getElem _
        rw [h3] at h1 ⊢
        simpa using h1
      exact (mem_select_not hm.1).2 ⟨i, h2⟩ hne
    · obtain ⟨r, h1, h2, h3⟩ := Poly.inside_poly_partial argsort (Py.select (m.map (!·)) pts) [c] (ha _) hne (fun d hd => by
        simp at hd; rw [hd]; exact hreg c (by simp))
      rw [h1, Option.bind_some]
      have hm' : Marks pts (seen ++ [c]) (putMask (m.map (!·)) m r) := by
        refine ⟨by rw [putMask_length]; exact hm.1, fun i p hi => ?_⟩
        have hlt := (List.getElem?_eq_some_iff.1 hi).1
        have hold := hm.2 i p hi
        rcases putMask_select (m.map (!·)) m pts r (by simp) (by rw [hlm]; exact hm.1) h2 i (by rw [hm.1]; exact hlt) with ⟨f1, f2⟩ | ⟨f1, k, f2, f3, f4⟩
        · have ht : m[i]? = some true := by
            rw [List.getElem?_map] at f1
            obtain ⟨b, hb, hb'⟩ := Option.map_eq_some_iff.1 f1
            rw [hb]
            simpa using hb'
          rw [f2]
          constructor
          · intro h
            obtain ⟨d, hd, hc⟩ := hold.1 h
            exact ⟨d, by simp [hd], hc⟩
          · intro _
            exact ht
        · have hf : m[i]? = some false := by
            rw [List.getElem?_map] at f1
            obtain ⟨b, hb, hb'⟩ := Option.map_eq_some_iff.1 f1
            rw [hb]
            simpa using hb'
          have hnot : ¬ ∃ d ∈ seen, Poly.Contains d p := by
            rw [← hold, hf]
            simp
          rw [hi] at f4
          rw [f2, h3 k p f4]
          constructor
          · rintro ⟨d, hd, hc⟩
            exact ⟨d, by simp at hd; simp [hd], hc⟩
          · rintro ⟨d, hd, hc⟩
            rcases List.mem_append.1 hd with hd | hd
            · exact absurd ⟨d, hd, hc⟩ hnot
            · exact ⟨d, hd, hc⟩
      obtain ⟨g1, g2⟩ := maskLoop_spec ha pts l (seen ++ [c]) _ (fun d hd => hreg d (by simp [hd])) hm'
      refine ⟨fun r' hr' => by simpa using g1 r' hr', ?_⟩
      rw [g2]
      cases l with
      | nil =>
        simp only [true_or, reduceCtorEq, false_or, true_iff, List.dropLast_singleton, List.append_nil]
        obtain ⟨i, hi⟩ := (mem_select_not hm.1).1 hne
        have hlt := (List.getElem?_eq_some_iff.1 hi).1
        rw [hm.1] at hlt
        have hp : pts[i]? = some pts[i] := List.getElem?_eq_getElem hlt
        refine ⟨pts[i], List.getElem_mem _, fun d hd hc => ?_⟩
        have := (hm.2 i _ hp).2 ⟨d, hd, hc⟩
        rw [hi] at this
        simp at this
      | cons d l =>
        rw [List.dropLast_cons_of_ne_nil (by simp : d :: l ≠ [])]
        simp

/-- **C86** (`mask_from_polygons`): when the function gives a mask, it is true exactly for the observations in one of the polygons; it gives one
exactly when some observation is in none of the polygons, the last one excepted. Missing: the other datasets, see `mask_raises`. -/
theorem mask_from_polygons_partial {argsort : List Int → List Nat} (ha : Sorting argsort) {pts : List Pt} (hp : pts ≠ []) {polygons : List (List Pt)}
    (hne : polygons ≠ []) (hreg : ∀ c ∈ polygons, Poly.Regular c) :
    (∀ m, maskFromPolygons argsort pts polygons = some m → m.length = pts.length ∧
      ∀ (i : Nat) (p : Pt), pts[i]? = some p → (m[i]? = some true ↔ ∃ c ∈ polygons, Poly.Contains c p)) ∧
    ((maskFromPolygons argsort pts polygons).isSome = true ↔ ∃ p ∈ pts, ∀ c ∈ polygons.dropLast, ¬ Poly.Contains c p) := by
  obtain ⟨c, l, rfl⟩ := List.exists_cons_of_ne_nil hne
  rw [maskFromPolygons]
  obtain ⟨r, h1, h2, h3⟩ := Poly.inside_poly_partial argsort pts [c] (ha _) hp (fun d hd => by
    simp at hd; rw [hd]; exact hreg c (by simp))
  rw [h1, Option.bind_some]
  obtain ⟨g1, g2⟩ := maskLoop_spec ha pts l [c] r (fun d hd => hreg d (by simp [hd])) ⟨h2, h3⟩
  refine ⟨fun m hm => g1 m hm, ?_⟩
  rw [g2]
  cases l with
  | nil =>
    simp only [true_or, List.dropLast_singleton, List.not_mem_nil, false_implies, implies_true, and_true, true_iff]
    obtain ⟨p, ps, rfl⟩ := List.exists_cons_of_ne_nil hp
    exact ⟨p, by simp⟩
  | cons d l =>
    rw [List.dropLast_cons_of_ne_nil (by simp : d :: l ≠ [])]
    simp

/-- All observations in the first polygon: with a second polygon the function raises. -/
theorem mask_raises : maskFromPolygons Bins.stableArgsort [(1, 1)] [[(0, 0), (4, 0), (4, 4), (0, 4), (0, 0)], [(9, 9), (10, 9), (9, 10), (9, 9)]] = none ∧
    maskFromPolygons Bins.stableArgsort [(1, 1)] [[(0, 0), (4, 0), (4, 4), (0, 4), (0, 0)]] = some [true] := by decide +kernel

example : maskFromPolygons Bins.stableArgsort [(1, 1), (361, 2), (19, 19), (30, 30)]
    [[(0, 0), (4, 0), (4, 4), (0, 4), (0, 0)], [(18, 18), (22, 18), (18, 22), (18, 18)]] = some [true, true, true, false] ∧
    contains Bins.stableArgsort [some (1, 1), none, some (30, 30)] [[(0, 0), (4, 0), (4, 4), (0, 4), (0, 0)]] = some [0, -1, -1] := by decide +kernel

example : Aged (·.2) [[(1, 0), (1, 1)], [(2, 0)]] ∧ lastObs (·.2) [(1, 0), (1, 1), (2, 0)] = some [(1, 1), (2, 0)] := by
  constructor
  · intro t ht
    simp at ht
    rcases ht with rfl | rfl
    · exact ⟨(1, 0), [(1, 1)], rfl, rfl, by simp⟩
    · exact ⟨(2, 0), [], rfl, rfl, by simp⟩
  · decide

end Verif.Extract
