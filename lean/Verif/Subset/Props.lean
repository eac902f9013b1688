import Verif.Subset.Model
import Verif.Links.Props
import Verif.Select.Props
import Verif.Store.Props

/-!
# C133: the selections of the application on networks
-/

namespace Verif.Subset

open Verif.Links (Row Valid Image IsTake)

variable {β : Type}

/-! ### Selections -/

/-- `out` is made of the rows of `rows` which satisfy `p`, in order, with the links between them. -/
def Selected (rows out : List (Row (Obs β))) (p : Obs β → Prop) : Prop :=
  ∃ idx : List Nat, idx.Pairwise (· < ·) ∧ (∀ i : Nat, i ∈ idx ↔ ∃ r, rows[i]? = some r ∧ p r.data) ∧ IsTake rows idx out

theorem selected_all {rows : List (Row (Obs β))} (hv : Valid rows) : Selected rows rows (fun _ => True) := by
  refine ⟨List.range rows.length, List.pairwise_lt_range, ?_, by simp, ?_⟩
  · intro i
    rw [List.mem_range]
    simp only [and_true]
    constructor
    · intro h
      exact ⟨_, List.getElem?_eq_getElem h⟩
    · rintro ⟨r, h⟩
      exact (List.getElem?_eq_some_iff.1 h).1
  · intro k r hk
    have hlt := (List.getElem?_eq_some_iff.1 hk).1
    obtain ⟨h1, h2⟩ := hv r (List.mem_of_getElem? hk)
    have key : ∀ q : Int, -1 ≤ q ∧ q < rows.length → Image (List.range rows.length) q q := by
      intro q hq
      by_cases h0 : q = -1
      · exact Or.inr ⟨h0, fun t _ => by omega⟩
      · refine Or.inl ⟨q.toNat, q.toNat, by omega, ?_, by omega⟩
        rw [List.getElem?_range (by omega)]
    exact ⟨k, r, by rw [List.getElem?_range hlt], hk, rfl, key _ h1, key _ h2⟩

theorem getElem?_inj_of_sorted {l : List Nat} (h : l.Pairwise (· < ·)) {i j v : Nat} (hi : l[i]? = some v) (hj : l[j]? = some v) : i = j := by
  have hn : l.Nodup := h.imp (fun h => Nat.ne_of_lt h)
  obtain ⟨h1, e1⟩ := List.getElem?_eq_some_iff.1 hi
  obtain ⟨h2, e2⟩ := List.getElem?_eq_some_iff.1 hj
  exact (hn.getElem_inj_iff).1 (e1.trans e2.symm)

theorem Selected.trans {rows mid out : List (Row (Obs β))} {p q : Obs β → Prop} (h1 : Selected rows mid p) (h2 : Selected mid out q) :
    Selected rows out (fun o => p o ∧ q o) := by
  obtain ⟨a, sa, ma, la, ka⟩ := h1
  obtain ⟨b, sb, mb, lb, kb⟩ := h2
  have hb : ∀ k ∈ b, k < a.length := by
    intro k hk
    obtain ⟨r, hr, _⟩ := (mb k).1 hk
    rw [← la]
    exact (List.getElem?_eq_some_iff.1 hr).1
  have hget : ∀ k : Nat, (b.map (fun j => a.getD j 0))[k]? = b[k]?.bind (fun j => a[j]?) := by
    intro k
    rw [List.getElem?_map]
    cases hk : b[k]? with
    | none => rfl
    | some j =>
      have := hb j (List.mem_of_getElem? hk)
      simp [List.getD_eq_getElem?_getD, List.getElem?_eq_getElem this]
  refine ⟨b.map (fun j => a.getD j 0), ?_, ?_, by simp [lb], ?_⟩
  · rw [List.pairwise_map]
    have := sb
    rw [List.pairwise_iff_getElem] at this sa ⊢
    intro i j hi hj hij
    have h1 := this i j hi hj hij
    have hbi := hb _ (List.getElem_mem hi)
    have hbj := hb _ (List.getElem_mem hj)
    rw [List.getD_eq_getElem?_getD, List.getD_eq_getElem?_getD, List.getElem?_eq_getElem hbi, List.getElem?_eq_getElem hbj]
    exact sa _ _ hbi hbj h1
  · intro i
    rw [List.mem_map]
    constructor
    · rintro ⟨j, hj, rfl⟩
      have hja := hb j hj
      obtain ⟨r, hr, hq⟩ := (mb j).1 hj
      obtain ⟨i, r0, hi, hr0, hd, _⟩ := ka j r hr
      rw [List.getD_eq_getElem?_getD, hi, Option.getD_some]
      obtain ⟨r', hr', hp⟩ := (ma i).1 (List.mem_of_getElem? hi)
      rw [hr0] at hr'
      cases hr'
      exact ⟨r0, hr0, hp, hd ▸ hq⟩
    · rintro ⟨r, hr, hp, hq⟩
      obtain ⟨j, hj⟩ := List.getElem?_of_mem ((ma i).2 ⟨r, hr, hp⟩)
      refine ⟨j, ?_, by rw [List.getD_eq_getElem?_getD, hj]; rfl⟩
      rw [mb]
      have hjm : j < mid.length := by rw [la]; exact (List.getElem?_eq_some_iff.1 hj).1
      refine ⟨mid[j], List.getElem?_eq_getElem hjm, ?_⟩
      obtain ⟨i', r0, hi', hr0, hd, _⟩ := ka j mid[j] (List.getElem?_eq_getElem hjm)
      rw [hj] at hi'
      cases hi'
      rw [hr] at hr0
      cases hr0
      rw [hd]
      exact hq
  · intro k r hk
    obtain ⟨j, r1, hj, hr1, hd1, hp1, hn1⟩ := kb k r hk
    obtain ⟨i, r0, hi, hr0, hd0, hp0, hn0⟩ := ka j r1 hr1
    refine ⟨i, r0, by rw [hget, hj]; exact hi, hr0, hd1.trans hd0, ?_, ?_⟩
    all_goals
      have comp : ∀ x y z : Int, Image a x y → Image b y z → Image (b.map (fun j => a.getD j 0)) x z := by
        intro x y z hxy hyz
        rcases hyz with ⟨k, t, rfl, hk, rfl⟩ | ⟨rfl, hno⟩
        · rcases hxy with ⟨k', t', rfl, hk', e⟩ | ⟨e, _⟩
          · have : t = k' := by omega
            subst this
            exact Or.inl ⟨k, t', rfl, by rw [hget, hk]; exact hk', rfl⟩
          · omega
        · right
          refine ⟨rfl, ?_⟩
          intro t ht hx
          obtain ⟨j, hj, rfl⟩ := List.mem_map.1 ht
          have hja := hb j hj
          rw [List.getD_eq_getElem?_getD, List.getElem?_eq_getElem hja, Option.getD_some] at hx
          rcases hxy with ⟨k', t', hx', hk', rfl⟩ | ⟨_, hno'⟩
          · have e : a[k']? = some a[j] := by rw [hk']; congr 1; omega
            have := getElem?_inj_of_sorted sa e (List.getElem?_eq_getElem hja)
            subst this
            exact hno k' hj rfl
          · exact hno' _ (List.getElem_mem hja) hx
    · exact comp _ _ _ hp0 hp1
    · exact comp _ _ _ hn0 hn1

theorem Selected.congr {rows out : List (Row (Obs β))} {p q : Obs β → Prop} (h : Selected rows out p) (he : ∀ r ∈ rows, p r.data ↔ q r.data) :
    Selected rows out q := by
  obtain ⟨a, sa, ma, ta⟩ := h
  refine ⟨a, sa, fun i => ?_, ta⟩
  rw [ma]
  constructor
  · rintro ⟨r, hr, hp⟩
    exact ⟨r, hr, (he r (List.mem_of_getElem? hr)).1 hp⟩
  · rintro ⟨r, hr, hp⟩
    exact ⟨r, hr, (he r (List.mem_of_getElem? hr)).2 hp⟩

theorem Selected.data {rows out : List (Row (Obs β))} {p : Obs β → Prop} (h : Selected rows out p) (o : Obs β) :
    (∃ r ∈ out, r.data = o) ↔ (∃ r ∈ rows, r.data = o) ∧ p o := by
  obtain ⟨a, sa, ma, la, ka⟩ := h
  constructor
  · rintro ⟨r, hr, rfl⟩
    obtain ⟨k, hk⟩ := List.getElem?_of_mem hr
    obtain ⟨i, r0, hi, hr0, hd, _⟩ := ka k r hk
    obtain ⟨r', hr', hp⟩ := (ma i).1 (List.mem_of_getElem? hi)
    rw [hr0] at hr'
    cases hr'
    exact ⟨⟨r0, List.mem_of_getElem? hr0, hd.symm⟩, hd ▸ hp⟩
  · rintro ⟨⟨r, hr, rfl⟩, hp⟩
    obtain ⟨i, hi⟩ := List.getElem?_of_mem hr
    obtain ⟨k, hk⟩ := List.getElem?_of_mem ((ma i).2 ⟨r, hi, hp⟩)
    have hko : k < out.length := by rw [la]; exact (List.getElem?_eq_some_iff.1 hk).1
    refine ⟨out[k], List.getElem_mem hko, ?_⟩
    obtain ⟨i', r0, hi', hr0, hd, _⟩ := ka k out[k] (List.getElem?_eq_getElem hko)
    rw [hk] at hi'
    cases hi'
    rw [hi] at hr0
    cases hr0
    exact hd

theorem Selected.valid {rows out : List (Row (Obs β))} {p : Obs β → Prop} (h : Selected rows out p) : Valid out := by
  obtain ⟨_, _, _, t⟩ := h
  exact t.valid

/-- The rows stay sorted by network. -/
theorem Selected.sorted {rows out : List (Row (Obs β))} {p : Obs β → Prop} (h : Selected rows out p) (hs : (tracks rows).Pairwise (· ≤ ·)) :
    (tracks out).Pairwise (· ≤ ·) := by
  obtain ⟨a, sa, ma, la, ka⟩ := h
  unfold tracks at *
  rw [List.pairwise_iff_getElem] at hs sa ⊢
  intro i j hi hj hij
  rw [List.length_map] at hi hj
  obtain ⟨i', r, hi', hr, hd, _⟩ := ka i out[i] (List.getElem?_eq_getElem hi)
  obtain ⟨j', s, hj', hs', hd', _⟩ := ka j out[j] (List.getElem?_eq_getElem hj)
  obtain ⟨h1, rfl⟩ := List.getElem?_eq_some_iff.1 hi'
  obtain ⟨h2, rfl⟩ := List.getElem?_eq_some_iff.1 hj'
  obtain ⟨h3, rfl⟩ := List.getElem?_eq_some_iff.1 hr
  obtain ⟨h4, rfl⟩ := List.getElem?_eq_some_iff.1 hs'
  have := hs _ _ (by simpa using h3) (by simpa using h4) (sa _ _ h1 h2 hij)
  rw [List.getElem_map, List.getElem_map] at this ⊢
  rw [hd, hd']
  exact this

theorem selected_mask {rows : List (Row (Obs β))} (hv : Valid rows) {mask : List Bool} (hl : mask.length = rows.length) {p : Obs β → Prop}
    (hm : ∀ (i : Nat) (r : Row (Obs β)), rows[i]? = some r → (mask[i]? = some true ↔ p r.data)) :
    ∃ out, Links.extractMask rows mask = some out ∧ Selected rows out p := by
  obtain ⟨out, idx, h1, h2, h3, h4⟩ := Links.extract_with_mask_links rows mask hl hv
  refine ⟨out, h1, idx, h2, fun i => ?_, h4⟩
  rw [h3]
  constructor
  · intro h
    have hlt : i < rows.length := by rw [← hl]; exact (List.getElem?_eq_some_iff.1 h).1
    exact ⟨rows[i], List.getElem?_eq_getElem hlt, (hm i _ (List.getElem?_eq_getElem hlt)).1 h⟩
  · rintro ⟨r, hr, hp⟩
    exact (hm i r hr).2 hp

/-! ### The three steps -/

/-- The numbers asked are between the first and the last network. -/
def Between (rows : List (Row (Obs β))) (id : Int) : Prop := (∃ r ∈ rows, (r.data.track : Int) ≤ id) ∧ ∃ r ∈ rows, id ≤ r.data.track

theorem byIds_spec {rows : List (Row (Obs β))} (hv : Valid rows) (hne : rows ≠ []) (hs : (tracks rows).Pairwise (· ≤ ·)) {ids : List Int}
    (hr : ∀ i ∈ ids, Between rows i) : ∃ out, byIds ids rows = some out ∧ Selected rows out (fun o => (o.track : Int) ∈ ids) := by
  obtain ⟨d, hd⟩ : ∃ d : Select.Net Unit, d = ⟨rows.map (fun r => (r.data.track, ())), none⟩ := ⟨_, rfl⟩
  have ht : d.track = rows.map (fun r => (r.data.track : Int)) := by
    rw [hd]
    unfold Select.Net.track
    rw [List.map_map]
    rfl
  have hdl : d.rows.length = rows.length := by rw [hd]; simp
  obtain ⟨first, last, i0, e, hI, _⟩ := Select.index_spec (d := d) (Or.inl (by rw [hd])) ⟨by rw [hd]; simpa using hne, by
    rw [hd]
    simp only [List.map_map]
    exact hs⟩
  obtain ⟨m, em, hm⟩ := Select.maskLoop_spec hI ids (fun _ => false) (by
    intro i hi
    obtain ⟨⟨r, h1, h2⟩, s, h3, h4⟩ := hr i hi
    unfold Select.InRange
    rw [ht]
    exact ⟨⟨_, List.mem_map.2 ⟨r, h1, rfl⟩, h2⟩, _, List.mem_map.2 ⟨s, h3, rfl⟩, h4⟩)
  have hmask : Select.networksMask d ids = some ((List.range rows.length).map m) := by
    unfold Select.networksMask Select.maskFromIds
    rw [e]
    simp only [Option.bind_some, em, Option.map_some, hdl]
  unfold byIds
  rw [← hd, hmask, Option.bind_some]
  apply selected_mask hv (by simp)
  intro i r hr'
  have hlt := (List.getElem?_eq_some_iff.1 hr').1
  rw [List.getElem?_map, List.getElem?_range hlt, Option.map_some, Option.some.injEq, hm, ht, List.getElem?_map, hr']
  simp

/-- Days covered by a network, without the last one. -/
def Duration (unit : Rat) (rows : List (Row (Obs β))) (n : Nat) (d : Rat) : Prop :=
  (∃ r ∈ rows, ∃ s ∈ rows, r.data.track = n ∧ s.data.track = n ∧ (s.data.time - r.data.time) * unit = d) ∧
  ∀ r ∈ rows, ∀ s ∈ rows, r.data.track = n → s.data.track = n → (s.data.time - r.data.time) * unit ≤ d

theorem duration_iff (unit : Rat) (rows : List (Row (Obs β))) (n : Nat) (d : Rat) :
    Select.IsDuration (tracks rows) (raw unit rows) n d ↔ Duration unit rows n d := by
  have ht : ∀ i : Nat, (tracks rows)[i]? = rows[i]?.map (·.data.track) := fun i => List.getElem?_map
  have hr : ∀ i : Nat, (raw unit rows)[i]? = rows[i]?.map (fun r => r.data.time * unit) := fun i => List.getElem?_map
  unfold Select.IsDuration Duration
  constructor
  · rintro ⟨⟨i, j, x, y, h1, h2, h3, h4, h5⟩, h6⟩
    rw [ht] at h1 h2
    rw [hr] at h3 h4
    obtain ⟨r, er, rfl⟩ := Option.map_eq_some_iff.1 h1
    obtain ⟨s, es, e2⟩ := Option.map_eq_some_iff.1 h2
    rw [er] at h3
    rw [es] at h4
    cases h3
    cases h4
    refine ⟨⟨r, List.mem_of_getElem? er, s, List.mem_of_getElem? es, rfl, e2, by linarith⟩, ?_⟩
    intro r' hr' s' hs' e1' e2'
    obtain ⟨i', hi'⟩ := List.getElem?_of_mem hr'
    obtain ⟨j', hj'⟩ := List.getElem?_of_mem hs'
    have := h6 i' j' _ _ (by rw [ht, hi', Option.map_some, e1']) (by rw [ht, hj', Option.map_some, e2']) (by rw [hr, hi', Option.map_some])
      (by rw [hr, hj', Option.map_some])
    linarith
  · rintro ⟨⟨r, h1, s, h2, h3, h4, h5⟩, h6⟩
    obtain ⟨i, hi⟩ := List.getElem?_of_mem h1
    obtain ⟨j, hj⟩ := List.getElem?_of_mem h2
    refine ⟨⟨i, j, _, _, by rw [ht, hi, Option.map_some, h3], by rw [ht, hj, Option.map_some, h4], by rw [hr, hi, Option.map_some],
      by rw [hr, hj, Option.map_some], by linarith⟩, ?_⟩
    intro i' j' x y e1 e2 e3 e4
    rw [ht] at e1 e2
    rw [hr] at e3 e4
    obtain ⟨r', hr', g1⟩ := Option.map_eq_some_iff.1 e1
    obtain ⟨s', hs', g2⟩ := Option.map_eq_some_iff.1 e2
    rw [hr'] at e3
    rw [hs'] at e4
    cases e3
    cases e4
    have := h6 r' (List.mem_of_getElem? hr') s' (List.mem_of_getElem? hs') g1 g2
    linarith

/-- Every network has a duration. -/
theorem exists_duration (unit : Rat) (rows : List (Row (Obs β))) {r : Row (Obs β)} (hr : r ∈ rows) : ∃ d, Duration unit rows r.data.track d := by
  obtain ⟨l, hl⟩ : ∃ l : List Rat, l = (rows.filter (fun s => decide (s.data.track = r.data.track))).flatMap (fun s =>
      (rows.filter (fun t => decide (t.data.track = r.data.track))).map (fun t => (t.data.time - s.data.time) * unit)) := ⟨_, rfl⟩
  have hmem : ∀ x, x ∈ l ↔ ∃ s ∈ rows, ∃ t ∈ rows, s.data.track = r.data.track ∧ t.data.track = r.data.track ∧ (t.data.time - s.data.time) * unit = x := by
    intro x
    rw [hl, List.mem_flatMap]
    constructor
    · rintro ⟨s, hs, hx⟩
      obtain ⟨t, ht, rfl⟩ := List.mem_map.1 hx
      rw [List.mem_filter, decide_eq_true_eq] at hs ht
      exact ⟨s, hs.1, t, ht.1, hs.2, ht.2, rfl⟩
    · rintro ⟨s, hs, t, ht, h1, h2, rfl⟩
      exact ⟨s, List.mem_filter.2 ⟨hs, decide_eq_true h1⟩, List.mem_map.2 ⟨t, List.mem_filter.2 ⟨ht, decide_eq_true h2⟩, rfl⟩⟩
  have hne : l ≠ [] := List.ne_nil_of_mem ((hmem _).2 ⟨r, hr, r, hr, rfl, rfl, rfl⟩)
  obtain ⟨h1, h2⟩ := Poly.maxR_spec hne
  refine ⟨Poly.maxR l, (hmem _).1 h1, ?_⟩
  intro s hs t ht e1 e2
  exact h2 _ ((hmem _).2 ⟨s, hs, t, ht, e1, e2, rfl⟩)

/-- Length asked. -/
def LengthOk (b : Int × Int) (d : Rat) : Prop := (b.1 < 0 ∨ (b.1 : Rat) ≤ d + 1) ∧ (b.2 < 0 ∨ d + 1 ≤ (b.2 : Rat))

theorem byLength_spec {argsort : List Int → List Nat} {unit : Rat} {rows : List (Row (Obs β))} (hv : Valid rows) (hne : rows ≠ [])
    (hs : (tracks rows).Pairwise (· ≤ ·)) (hbig : ∀ n d, Duration unit rows n d → d + 1 ≤ 1000000000000) (b : Int × Int) :
    ∃ out, byLength argsort unit b rows = some out ∧ Selected rows out (fun o => ∃ d, Duration unit rows o.track d ∧ LengthOk b d) := by
  obtain ⟨m, e, hl, hm⟩ := Select.longer_than_spec (argsort := argsort) (t := tracks rows) (by unfold tracks; simpa using hne) hs (time := raw unit rows)
    (by unfold raw tracks; simp) b.1 b.2
  unfold byLength
  rw [e, Option.bind_some]
  apply selected_mask hv (by rw [hl]; unfold tracks; simp)
  intro i r hr
  obtain ⟨d, hd⟩ := exists_duration unit rows (List.mem_of_getElem? hr)
  rw [hm i r.data.track d (by unfold tracks; rw [List.getElem?_map, hr]; rfl) ((duration_iff _ _ _ _).2 hd) (hbig _ _ hd)]
  have hcast : (((b.1 : Rat) < 0 ∨ (b.1 : Rat) ≤ d + 1) ∧ ((b.2 : Rat) < 0 ∨ d + 1 ≤ (b.2 : Rat))) ↔ LengthOk b d := by
    unfold LengthOk
    rw [Int.cast_lt_zero, Int.cast_lt_zero]
  rw [hcast]
  constructor
  · exact fun h => ⟨d, hd, h⟩
  · rintro ⟨d', hd', h⟩
    have := Select.duration_unique ((duration_iff unit rows r.data.track d).2 hd) ((duration_iff _ _ _ _).2 hd')
    rw [this]
    exact h

/-- Period asked, for a dataset whose first and last dates are `lo` and `hi` (all in the unit of the file). -/
def PeriodOk (p : Int × Int) (lo hi t : Rat) : Prop :=
  (0 < p.1 → (p.1 : Rat) ≤ t) ∧ (p.1 < 0 → lo + |(p.1 : Rat)| ≤ t) ∧ (0 < p.2 → t ≤ (p.2 : Rat)) ∧ (p.2 < 0 → t ≤ hi - |(p.2 : Rat)|)

/-- First and last dates. -/
def Ends (unit : Rat) (rows : List (Row (Obs β))) (lo hi : Rat) : Prop :=
  (∃ r ∈ rows, r.data.time * unit = lo) ∧ (∃ r ∈ rows, r.data.time * unit = hi) ∧ ∀ r ∈ rows, lo ≤ r.data.time * unit ∧ r.data.time * unit ≤ hi

theorem byPeriod_spec {unit : Rat} {rows : List (Row (Obs β))} (hv : Valid rows) (p : Int × Int) :
    ∃ out, byPeriod unit p rows = some out ∧ Selected rows out (fun o => ∀ lo hi, Ends unit rows lo hi → PeriodOk p lo hi (o.time * unit)) := by
  unfold byPeriod
  apply selected_mask hv
  · unfold Select.maskPeriod raw
    simp
  · intro i r hr
    have hrm := List.mem_of_getElem? hr
    have hne : raw unit rows ≠ [] := by
      unfold raw
      intro h
      rw [List.map_eq_nil_iff] at h
      rw [h] at hrm
      cases hrm
    obtain ⟨lo, hi, e, l1, h1, hb⟩ := Extract.period_spec (raw unit rows) hne
    have hmem : ∀ x, x ∈ raw unit rows ↔ ∃ r ∈ rows, r.data.time * unit = x := fun x => List.mem_map
    have hends : Ends unit rows lo hi := ⟨(hmem lo).1 l1, (hmem hi).1 h1, fun r hr => hb _ ((hmem _).2 ⟨r, hr, rfl⟩)⟩
    have huniq : ∀ lo' hi', Ends unit rows lo' hi' → lo' = lo ∧ hi' = hi := by
      rintro lo' hi' ⟨⟨a, ha, rfl⟩, ⟨b, hb', rfl⟩, h3⟩
      obtain ⟨⟨c, hc, rfl⟩, ⟨d, hd, rfl⟩, h4⟩ := hends
      exact ⟨le_antisymm (h3 c hc).1 (h4 a ha).1, le_antisymm (h4 b hb').2 (h3 d hd).2⟩
    have hall : (∀ lo' hi', Ends unit rows lo' hi' → PeriodOk p lo' hi' (r.data.time * unit)) ↔ PeriodOk p lo hi (r.data.time * unit) := by
      constructor
      · exact fun h => h lo hi hends
      · intro h lo' hi' h'
        obtain ⟨rfl, rfl⟩ := huniq _ _ h'
        exact h
    rw [hall]
    unfold Select.maskPeriod
    rw [e]
    simp only
    unfold raw
    rw [List.map_map, List.getElem?_map, hr, Option.map_some, Option.some.injEq, Function.comp_apply, Bool.and_eq_true]
    unfold PeriodOk Select.fromTest Select.toTest
    have c1 : ∀ z : Int, (0 : Rat) < z ↔ 0 < z := fun z => Int.cast_pos
    have c2 : ∀ z : Int, (z : Rat) < 0 ↔ z < 0 := fun z => Int.cast_lt_zero
    simp only [gt_iff_lt, c1, c2, Option.elim_some]
    rw [← and_assoc]
    apply and_congr
    · rcases lt_trichotomy p.1 0 with h | h | h
      · rw [if_neg (by omega), if_pos h, abs_of_neg ((c2 _).2 h), decide_eq_true_eq]
        constructor
        · exact fun q => ⟨fun h' => absurd h' (by omega), fun _ => by linarith⟩
        · exact fun q => by linarith [q.2 h]
      · rw [h]
        simp
      · rw [if_pos h, decide_eq_true_eq]
        exact ⟨fun q => ⟨fun _ => q, fun h' => absurd h' (by omega)⟩, fun q => q.1 h⟩
    · rcases lt_trichotomy p.2 0 with h | h | h
      · rw [if_neg (by omega), if_pos h, abs_of_neg ((c2 _).2 h), decide_eq_true_eq]
        constructor
        · exact fun q => ⟨fun h' => absurd h' (by omega), fun _ => by linarith⟩
        · exact fun q => by linarith [q.2 h]
      · rw [h]
        simp
      · rw [if_pos h, decide_eq_true_eq]
        exact ⟨fun q => ⟨fun _ => q, fun h' => absurd h' (by omega)⟩, fun q => q.1 h⟩

/-! ### The application -/

/-- What the help of the command says, `unit` being what is stored for one day: the networks asked, those of the length asked, and in what stays the
observations of the period asked. -/
def Kept (unit : Rat) (a : Args) (rows : List (Row (Obs β))) (o : Obs β) : Prop :=
  (∀ ids, a.ids = some ids → (o.track : Int) ∈ ids) ∧
  (∀ b, a.length = some b → ∃ d, Duration unit rows o.track d ∧ LengthOk b d)

@[inherit_doc Kept]
def KeptPeriod (unit : Rat) (a : Args) (rows : List (Row (Obs β))) (o : Obs β) : Prop :=
  ∀ p, a.period = some p → ∀ lo hi, (∃ r ∈ rows, Kept unit a rows r.data ∧ r.data.time * unit = lo) → (∃ r ∈ rows, Kept unit a rows r.data ∧ r.data.time * unit = hi) →
    (∀ r ∈ rows, Kept unit a rows r.data → lo ≤ r.data.time * unit ∧ r.data.time * unit ≤ hi) → PeriodOk p lo hi (o.time * unit)

theorem optStep_ids {rows : List (Row (Obs β))} (hv : Valid rows) (hne : rows ≠ []) (hs : (tracks rows).Pairwise (· ≤ ·)) (ids : Option (List Int))
    (hr : ∀ l, ids = some l → ∀ i ∈ l, Between rows i) :
    ∃ out, optStep byIds ids rows = some out ∧ Selected rows out (fun o => ∀ l, ids = some l → (o.track : Int) ∈ l) := by
  cases ids with
  | none => exact ⟨rows, rfl, (selected_all hv).congr (fun _ _ => by simp)⟩
  | some l =>
    obtain ⟨out, h1, h2⟩ := byIds_spec hv hne hs (hr l rfl)
    exact ⟨out, h1, h2.congr (fun _ _ => by simp)⟩

/-- The duration of a network which is kept does not change. -/
theorem duration_selected {unit : Rat} {rows mid : List (Row (Obs β))} {p : Obs β → Prop} (h : Selected rows mid p) (n : Nat)
    (hn : ∀ r ∈ rows, r.data.track = n → p r.data) (d : Rat) : Duration unit mid n d ↔ Duration unit rows n d := by
  have hto : ∀ r ∈ mid, ∃ r' ∈ rows, r'.data = r.data := fun r hr => ((h.data r.data).1 ⟨r, hr, rfl⟩).1
  have hof : ∀ r ∈ rows, r.data.track = n → ∃ r' ∈ mid, r'.data = r.data := fun r hr e => (h.data r.data).2 ⟨⟨r, hr, rfl⟩, hn r hr e⟩
  unfold Duration
  constructor
  · rintro ⟨⟨r, h1, s, h2, h3, h4, h5⟩, h6⟩
    obtain ⟨r', g1, e1⟩ := hto r h1
    obtain ⟨s', g2, e2⟩ := hto s h2
    refine ⟨⟨r', g1, s', g2, by rw [e1]; exact h3, by rw [e2]; exact h4, by rw [e1, e2]; exact h5⟩, ?_⟩
    intro x hx y hy ex ey
    obtain ⟨x', k1, f1⟩ := hof x hx ex
    obtain ⟨y', k2, f2⟩ := hof y hy ey
    rw [← f1, ← f2]
    exact h6 x' k1 y' k2 (by rw [f1]; exact ex) (by rw [f2]; exact ey)
  · rintro ⟨⟨r, h1, s, h2, h3, h4, h5⟩, h6⟩
    obtain ⟨r', g1, e1⟩ := hof r h1 h3
    obtain ⟨s', g2, e2⟩ := hof s h2 h4
    refine ⟨⟨r', g1, s', g2, by rw [e1]; exact h3, by rw [e2]; exact h4, by rw [e1, e2]; exact h5⟩, ?_⟩
    intro x hx y hy ex ey
    obtain ⟨x', k1, f1⟩ := hto x hx
    obtain ⟨y', k2, f2⟩ := hto y hy
    rw [← f1, ← f2]
    exact h6 x' k1 y' k2 (by rw [f1]; exact ex) (by rw [f2]; exact ey)

/-- C133, partial: without `--remove_dead_end`, the observations written are those which the help describes, in the order of the file, and their
links are those of the file between observations kept (-1 toward the others). `unit` is what is stored for one day: with 1 the bounds are days, but
the library stores 86400 (`length_wrong`, `period_wrong`). Missing: `--remove_dead_end` (`dead_end_wrong`), `--remove_trash` (`trash_wrong`), the
networks out of the range of the file. -/
theorem subset_partial (argsort : List Int → List Nat) (unit : Rat) (a : Args) {rows : List (Row (Obs β))} (hv : Valid rows) (hne : rows ≠ [])
    (hs : (tracks rows).Pairwise (· ≤ ·)) (hbig : ∀ n d, Duration unit rows n d → d + 1 ≤ 1000000000000) (hdead : a.deadEnd = none)
    (hr : ∀ l, a.ids = some l → ∀ i ∈ l, Between rows i) (hone : ∀ l, a.ids = some l → ∃ r ∈ rows, (r.data.track : Int) ∈ l) :
    ∃ out, subset argsort unit a rows = some out ∧ Selected rows out (fun o => Kept unit a rows o ∧ KeptPeriod unit a rows o) := by
  obtain ⟨mid, e1, s1⟩ := optStep_ids hv hne hs a.ids hr
  have hmne : mid ≠ [] := by
    obtain ⟨r, hr', hp⟩ : ∃ r ∈ rows, ∀ l, a.ids = some l → (r.data.track : Int) ∈ l := by
      cases ha : a.ids with
      | none =>
        obtain ⟨r, rs, rfl⟩ := List.exists_cons_of_ne_nil hne
        exact ⟨r, List.mem_cons_self, fun l h => by cases h⟩
      | some l =>
        obtain ⟨r, h1, h2⟩ := hone l ha
        exact ⟨r, h1, fun l' h => by cases h; exact h2⟩
    obtain ⟨r', h, _⟩ := (s1.data r.data).2 ⟨⟨r, hr', rfl⟩, hp⟩
    exact List.ne_nil_of_mem h
  have hdur : ∀ r ∈ rows, (∀ l, a.ids = some l → (r.data.track : Int) ∈ l) → ∀ d, Duration unit mid r.data.track d ↔ Duration unit rows r.data.track d := by
    intro r _ hp d
    apply duration_selected s1
    intro s _ e l hl
    rw [e]
    exact hp l hl
  obtain ⟨mid2, e2, s2⟩ : ∃ mid2, optStep (byLength argsort unit) a.length mid = some mid2 ∧ Selected rows mid2 (Kept unit a rows) := by
    cases ha : a.length with
    | none =>
      refine ⟨mid, rfl, s1.congr (fun r _ => ?_)⟩
      unfold Kept
      rw [ha]
      simp
    | some b =>
      obtain ⟨m2, h1, h2⟩ := byLength_spec (argsort := argsort) (unit := unit) s1.valid hmne (s1.sorted hs) (by
        rintro n d ⟨⟨r, g1, s, g2, g3, g4, g5⟩, g6⟩
        obtain ⟨⟨r', k1, k2⟩, k3⟩ := (s1.data r.data).1 ⟨r, g1, rfl⟩
        refine hbig n d ?_
        rw [← g3, ← k2]
        rw [← k2] at k3
        rw [← hdur r' k1 k3, k2, g3]
        exact ⟨⟨r, g1, s, g2, g3, g4, g5⟩, g6⟩) b
      refine ⟨m2, h1, (s1.trans h2).congr (fun r hr' => ?_)⟩
      unfold Kept
      rw [ha]
      constructor
      · rintro ⟨g1, d, g2, g3⟩
        refine ⟨g1, ?_⟩
        rintro b' h
        cases h
        exact ⟨d, (hdur r hr' g1 d).1 g2, g3⟩
      · rintro ⟨g1, g2⟩
        obtain ⟨d, g3, g4⟩ := g2 b rfl
        exact ⟨g1, d, (hdur r hr' g1 d).2 g3, g4⟩
  unfold subset
  rw [e1, Option.bind_some, e2, Option.bind_some, hdead]
  simp only [optStep, Option.bind_some]
  cases ha : a.period with
  | none =>
    refine ⟨mid2, rfl, s2.congr (fun r _ => ?_)⟩
    unfold KeptPeriod
    rw [ha]
    simp
  | some p =>
    obtain ⟨out, h1, h2⟩ := byPeriod_spec (unit := unit) s2.valid p
    refine ⟨out, h1, (s2.trans h2).congr (fun r _ => ?_)⟩
    apply and_congr_right
    intro _
    unfold KeptPeriod
    rw [ha]
    have key : ∀ x, (∃ s ∈ mid2, s.data.time * unit = x) ↔ ∃ s ∈ rows, Kept unit a rows s.data ∧ s.data.time * unit = x := by
      intro x
      constructor
      · rintro ⟨s, hs', rfl⟩
        obtain ⟨⟨s', k1, k2⟩, k3⟩ := (s2.data s.data).1 ⟨s, hs', rfl⟩
        exact ⟨s', k1, by rw [k2]; exact k3, by rw [k2]⟩
      · rintro ⟨s, hs', hk, rfl⟩
        obtain ⟨s', k1, k2⟩ := (s2.data s.data).2 ⟨⟨s, hs', rfl⟩, hk⟩
        exact ⟨s', k1, by rw [k2]⟩
    constructor
    · intro h p' hp' lo hi hl hh hb
      cases hp'
      refine h lo hi ⟨(key lo).2 hl, (key hi).2 hh, ?_⟩
      intro s hs'
      obtain ⟨s', k1, k2, k3⟩ := (key _).1 ⟨s, hs', rfl⟩
      rw [← k3]
      exact hb s' k1 k2
    · rintro h lo hi ⟨hl, hh, hb⟩
      refine h p rfl lo hi ((key lo).1 hl) ((key hi).1 hh) ?_
      intro s hs' hk
      obtain ⟨s', k1, k3⟩ := (key _).2 ⟨s, hs', hk, rfl⟩
      rw [← k3]
      exact hb s' k1

/-! ### What the command does not do -/

/-- With `--remove_dead_end` the command always raises: nothing is written. -/
theorem dead_end_wrong (argsort : List Int → List Nat) (unit : Rat) (a : Args) (rows : List (Row (Obs β))) (h : a.deadEnd ≠ none) :
    subset argsort unit a rows = none := by
  obtain ⟨d, hd⟩ := Option.ne_none_iff_exists'.1 h
  unfold subset
  rw [hd]
  cases optStep byIds a.ids rows with
  | none => rfl
  | some x =>
    rw [Option.bind_some]
    cases optStep (byLength argsort unit) a.length x with
    | none => rfl
    | some y => rfl

/-- `--remove_trash` changes nothing. -/
theorem trash_ignored (argsort : List Int → List Nat) (unit : Rat) (a : Args) (rows : List (Row (Obs β))) :
    subset argsort unit { a with trash := true } rows = subset argsort unit { a with trash := false } rows := rfl

/-- What the library stores for a date which is a whole number of seconds, and what is read with `raw_data`: the number of seconds. -/
theorem stored_seconds {cast : Int → Int} (hc : Store.Casts Store.time cast) {t : Rat} {s : Int} (hs : t * 86400 = s) (h0 : 0 ≤ s) (h1 : s ≤ 4294967295) :
    Store.loadNc Store.time true (Store.encode cast Store.time t) = t * 86400 := by
  unfold Store.loadNc Store.encode
  rw [if_pos rfl]
  have e : (t - Store.time.offset) / Store.time.scale = (s : Rat) := by
    rw [← hs]
    unfold Store.time
    rw [sub_zero, div_div_eq_mul_div, div_one]
  rw [e, Store.rint_int, hc.1 s h0 h1, hs]

/-- Two networks: the trash (one day) and a network of eleven days. -/
def witness : List (Row (Obs Unit)) :=
  [⟨⟨0, 20000, ()⟩, -1, -1⟩, ⟨⟨1, 20000, ()⟩, -1, 2⟩, ⟨⟨1, 20010, ()⟩, 1, -1⟩]

theorem witness_valid : Valid witness := by unfold Valid; decide

/-- The claims of the help, days being 86400 in the file. -/
def DaysOk : Prop := ∀ (argsort : List Int → List Nat) (a : Args) (rows : List (Row (Obs Unit))), Valid rows → rows ≠ [] →
  (tracks rows).Pairwise (· ≤ ·) → a.deadEnd = none → a.ids = none → a.trash = false →
  ∃ out, subset argsort 86400 a rows = some out ∧ Selected rows out (fun o => Kept 1 a rows o ∧ KeptPeriod 1 a rows o)

/-- `--length 5 20` keeps nothing: eleven days are 864001 for the command. -/
theorem length_drops : subset (fun _ => []) 86400 { length := some (5, 20) } witness = some [] ∧
    subset (fun _ => []) 1 { length := some (5, 20) } witness = some [⟨⟨1, 20000, ()⟩, -1, 1⟩, ⟨⟨1, 20010, ()⟩, 0, -1⟩] := by decide +kernel

/-- `--period 20005 20015` keeps nothing: the dates are more than 1700000000 for the command. -/
theorem period_drops : subset (fun _ => []) 86400 { period := some (20005, 20015) } witness = some [] ∧
    subset (fun _ => []) 1 { period := some (20005, 20015) } witness = some [⟨⟨1, 20010, ()⟩, -1, -1⟩] := by decide +kernel

/-- Refutation: on a file of the library, `--length` does not select the networks of this number of days. -/
theorem length_wrong : ¬ DaysOk := by
  intro h
  obtain ⟨out, h1, h2⟩ := h (fun _ => []) { length := some (5, 20) } witness witness_valid (by decide) (by decide) rfl rfl rfl
  rw [length_drops.1] at h1
  cases h1
  obtain ⟨r, hr, _⟩ := (h2.data ⟨1, 20000, ()⟩).2 ⟨⟨⟨⟨1, 20000, ()⟩, -1, 2⟩, by decide, rfl⟩, by
    refine ⟨⟨fun _ h => by simp at h, ?_⟩, fun _ h => by simp at h⟩
    rintro b hb
    cases hb
    refine ⟨10, ⟨⟨⟨⟨1, 20000, ()⟩, -1, 2⟩, by decide, ⟨⟨1, 20010, ()⟩, 1, -1⟩, by decide, rfl, rfl, by norm_num⟩, ?_⟩, ?_⟩
    · decide +kernel
    · unfold LengthOk
      norm_num⟩
  cases hr

/-- Refutation: on a file of the library, `--period` does not select the observations of these days. -/
theorem period_wrong : ∃ (a : Args) (r : Row (Obs Unit)), a = { period := some (20005, 20015) } ∧ r ∈ witness ∧ Kept 1 a witness r.data ∧
    KeptPeriod 1 a witness r.data ∧ subset (fun _ => []) 86400 a witness = some [] := by
  refine ⟨_, ⟨⟨1, 20010, ()⟩, 1, -1⟩, rfl, by decide, ⟨fun _ h => by simp at h, fun _ h => by simp at h⟩, ?_, period_drops.1⟩
  rintro p hp lo hi _ _ _
  cases hp
  unfold PeriodOk
  norm_num

/-- Refutation: `--remove_trash` keeps the network 0. -/
theorem trash_wrong : ∃ out, subset (fun _ => []) 86400 { trash := true } witness = some out ∧ ∃ r ∈ out, r.data.track = 0 :=
  ⟨witness, rfl, ⟨⟨0, 20000, ()⟩, -1, -1⟩, by decide, rfl⟩

/-- A case for `subset_partial`: two networks asked, the long one is kept, and its last day. -/
example : ∃ out, subset (fun _ => []) 1 { ids := some [0, 1], length := some (5, -1), period := some (-3, 0) } witness = some out ∧
    Selected witness out (fun o => Kept 1 { ids := some [0, 1], length := some (5, -1), period := some (-3, 0) } witness o ∧
      KeptPeriod 1 { ids := some [0, 1], length := some (5, -1), period := some (-3, 0) } witness o) := by
  refine subset_partial (fun _ => []) 1 _ witness_valid (by decide) (by decide) ?_ rfl ?_ ?_
  · rintro n d ⟨⟨r, h1, s, h2, -, -, rfl⟩, -⟩
    revert r s
    decide +kernel
  · rintro l hl i hi
    cases hl
    simp only [List.mem_cons, List.not_mem_nil, or_false] at hi
    rcases hi with rfl | rfl
    · exact ⟨⟨⟨⟨0, 20000, ()⟩, -1, -1⟩, by decide, by simp⟩, ⟨⟨0, 20000, ()⟩, -1, -1⟩, by decide, by simp⟩
    · exact ⟨⟨⟨⟨0, 20000, ()⟩, -1, -1⟩, by decide, by simp⟩, ⟨⟨1, 20000, ()⟩, -1, 2⟩, by decide, by simp⟩
  · rintro l hl
    cases hl
    exact ⟨⟨⟨1, 20000, ()⟩, -1, 2⟩, by decide, by simp⟩

example : subset (fun _ => []) 1 { ids := some [0, 1], length := some (5, -1), period := some (-3, 0) } witness = some [⟨⟨1, 20010, ()⟩, -1, -1⟩] := by
  decide +kernel

end Verif.Subset
