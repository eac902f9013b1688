import Verif.Filters.Model

/-!
# C30: `merge_filters` is a conjunction
-/

namespace Verif.Filters

/-! ### Specification -/

/-- Observation `i` (of `n`) is selected by the filter: element `i` of an array of `n` elements is in `array[filter]`. -/
def Selects (n : Nat) : Filter → Nat → Prop
  | .slice s, i =>
    i < n ∧ ∃ k : Nat, (i : Int) = s.first n + k * s.by ∧
      ((0 < s.by ∧ (i : Int) < s.last n) ∨ (s.by < 0 ∧ s.last n < (i : Int)))
  | .mask m, i => m[i]? = some true
  | .index a, i => i < n ∧ ∃ v ∈ a, v = (i : Int) ∨ v = (i : Int) - n

/-- numpy accepts the filter on an array of `n` elements. -/
def Valid (n : Nat) : Filter → Prop
  | .slice s => s.by ≠ 0
  | .mask m => m.length = n
  | .index a => ∀ v ∈ a, -(n : Int) ≤ v ∧ v < n

/-- Two filters never name the same observation by two different indices (`-1` and `n - 1`). -/
def Coherent (n : Nat) : Filter → Filter → Prop
  | .index a, .index b => ∀ v ∈ a, ∀ w ∈ b, v ≠ w + n ∧ w ≠ v + n
  | _, _ => True

/-- Exactly the observations selected by all filters of the list. -/
def IsMeet (n : Nat) (l : List Filter) (r : Filter) : Prop :=
  Valid n r ∧ ∀ i, Selects n r i ↔ i < n ∧ ∀ f ∈ l, Selects n f i

/-- The list ends with two slices. -/
def EndsWithSlices (l : List Filter) : Prop := ∃ l' s t, l = l' ++ [.slice s, .slice t]

/-! ### Slices -/

theorem mem_rangeLoop {stop step : Int} {x : Int} : ∀ (fuel : Nat) (i : Int), x ∈ rangeLoop stop step fuel i ↔
    ∃ k : Nat, k < fuel ∧ x = i + k * step ∧ ((0 < step ∧ x < stop) ∨ (step < 0 ∧ stop < x)) := by
  intro fuel
  induction fuel with
  | zero => intro i; simp [rangeLoop]
  | succ f ih =>
    intro i
    rw [rangeLoop]
    by_cases h : (0 < step ∧ i < stop) ∨ (step < 0 ∧ stop < i)
    · rw [if_pos h, List.mem_cons, ih]
      constructor
      · rintro (rfl | ⟨k, hk, hx, hb⟩)
        · exact ⟨0, by omega, by simp, h⟩
        · exact ⟨k + 1, by omega, by rw [hx]; push_cast; ring, hb⟩
      · rintro ⟨k, hk, hx, hb⟩
        cases k with
        | zero => left; simpa using hx
        | succ k => right; exact ⟨k, by omega, by rw [hx]; push_cast; ring, hb⟩
    · rw [if_neg h]
      constructor
      · intro hx; cases hx
      · rintro ⟨k, hk, hx, hb⟩
        exfalso; apply h
        rcases hb with ⟨h1, h2⟩ | ⟨h1, h2⟩
        · left; refine ⟨h1, ?_⟩
          have : 0 ≤ (k : Int) * step := Int.mul_nonneg (by omega) (by omega)
          omega
        · right; refine ⟨h1, ?_⟩
          have : (k : Int) * step ≤ 0 := Int.mul_nonpos_of_nonneg_of_nonpos (by omega) (by omega)
          omega

theorem Slice.first_bounds (s : Slice) (n : Nat) :
    (0 < s.by → 0 ≤ s.first n) ∧ (s.by < 0 → s.first n ≤ n - 1) := by
  constructor
  · intro h
    unfold Slice.first
    rw [if_pos h]
    cases s.start with
    | none => simp
    | some v => simp only [Option.elim, clip]; split <;> omega
  · intro h
    unfold Slice.first
    rw [if_neg (by omega)]
    cases s.start with
    | none => simp
    | some v => simp only [Option.elim, clip]; split <;> omega

theorem sliceMask_spec {n : Nat} {s : Slice} (h : s.by ≠ 0) :
    ∃ m, sliceMask n s = some m ∧ m.length = n ∧ ∀ i : Nat, m[i]? = some true ↔ Selects n (.slice s) i := by
  refine ⟨(List.range n).map (fun (k : Nat) => decide ((k : Int) ∈ rangeLoop (s.last n) s.by n (s.first n))), ?_, by simp, ?_⟩
  · unfold sliceMask Slice.positions; rw [if_neg h]; rfl
  · intro i
    by_cases hi : i < n
    · simp only [List.getElem?_map, List.getElem?_range hi, Option.map_some, Option.some.injEq, decide_eq_true_eq,
        mem_rangeLoop]
      constructor
      · rintro ⟨k, _, hx, hb⟩; exact ⟨hi, k, hx, hb⟩
      · rintro ⟨_, k, hx, hb⟩
        refine ⟨k, ?_, hx, hb⟩
        have hf := s.first_bounds n
        rcases hb with ⟨h1, _⟩ | ⟨h1, _⟩
        · have h2 := hf.1 h1
          have : (k : Int) * 1 ≤ k * s.by := Int.mul_le_mul_of_nonneg_left (by omega) (by omega)
          omega
        · have h2 := hf.2 h1
          have : (k : Int) * s.by ≤ k * (-1) := Int.mul_le_mul_of_nonneg_left (by omega) (by omega)
          omega
    · constructor
      · intro hx
        rw [List.getElem?_eq_none (by simp; omega)] at hx; cases hx
      · intro hx; exact absurd hx.1 hi

/-- A bound of a slice counts from the end when it is negative (Python language). -/
def fromEnd (n : Nat) (i : Int) : Int := if i < 0 then i + n else i

/-- Check of the slices against the usual meaning, step 1: `a <= i < b`, negative bounds count from the end, a missing bound
does not restrict. -/
theorem slice_step_one (n i : Nat) (a b : Option Int) : Selects n (.slice ⟨a, b, none⟩) i ↔
    i < n ∧ (∀ v, a = some v → fromEnd n v ≤ i) ∧ (∀ v, b = some v → (i : Int) < fromEnd n v) := by
  have hby : Slice.by ⟨a, b, none⟩ = 1 := rfl
  have hf : ∀ i : Nat, i < n → (Slice.first ⟨a, b, none⟩ n ≤ i ↔ ∀ v, a = some v → fromEnd n v ≤ i) := by
    intro i hi
    unfold Slice.first
    rw [hby, if_pos (by omega)]
    cases a with
    | none => simp
    | some v =>
      simp only [Option.elim, clip, fromEnd, Option.some.injEq, forall_eq']
      split <;> omega
  have hl : ∀ i : Nat, i < n → ((i : Int) < Slice.last ⟨a, b, none⟩ n ↔ ∀ v, b = some v → (i : Int) < fromEnd n v) := by
    intro i hi
    unfold Slice.last
    rw [hby, if_pos (by omega)]
    cases b with
    | none => simp; omega
    | some v =>
      simp only [Option.elim, clip, fromEnd, Option.some.injEq, forall_eq']
      split <;> omega
  constructor
  · rintro ⟨hi, k, hk, hb⟩
    rw [hby] at hk hb
    exact ⟨hi, (hf i hi).1 (by omega), (hl i hi).1 (by omega)⟩
  · rintro ⟨hi, h1, h2⟩
    have h1' := (hf i hi).2 h1
    have h2' := (hl i hi).2 h2
    refine ⟨hi, ((i : Int) - Slice.first ⟨a, b, none⟩ n).toNat, ?_, ?_⟩
    · rw [hby]; omega
    · rw [hby]; exact Or.inl ⟨by omega, h2'⟩

/-- Check of the slices against the usual meaning, step -1: `a >= i > b`. -/
theorem slice_reverse (n i : Nat) (a b : Option Int) : Selects n (.slice ⟨a, b, some (-1)⟩) i ↔
    i < n ∧ (∀ v, a = some v → (i : Int) ≤ fromEnd n v) ∧ (∀ v, b = some v → fromEnd n v < i) := by
  have hby : Slice.by ⟨a, b, some (-1)⟩ = -1 := rfl
  have hf : ∀ i : Nat, i < n → ((i : Int) ≤ Slice.first ⟨a, b, some (-1)⟩ n ↔ ∀ v, a = some v → (i : Int) ≤ fromEnd n v) := by
    intro i hi
    unfold Slice.first
    rw [hby, if_neg (by omega)]
    cases a with
    | none => simp; omega
    | some v =>
      simp only [Option.elim, clip, fromEnd, Option.some.injEq, forall_eq']
      split <;> omega
  have hl : ∀ i : Nat, i < n → (Slice.last ⟨a, b, some (-1)⟩ n < (i : Int) ↔ ∀ v, b = some v → fromEnd n v < (i : Int)) := by
    intro i hi
    unfold Slice.last
    rw [hby, if_neg (by omega)]
    cases b with
    | none => simp; omega
    | some v =>
      simp only [Option.elim, clip, fromEnd, Option.some.injEq, forall_eq']
      split <;> omega
  constructor
  · rintro ⟨hi, k, hk, hb⟩
    rw [hby] at hk hb
    exact ⟨hi, (hf i hi).1 (by omega), (hl i hi).1 (by omega)⟩
  · rintro ⟨hi, h1, h2⟩
    have h1' := (hf i hi).2 h1
    have h2' := (hl i hi).2 h2
    refine ⟨hi, (Slice.first ⟨a, b, some (-1)⟩ n - (i : Int)).toNat, ?_, ?_⟩
    · rw [hby]; omega
    · rw [hby]; exact Or.inr ⟨by omega, h2'⟩

/-! ### Elementary merges -/

theorem Selects.lt {n : Nat} {f : Filter} {i : Nat} (hv : Valid n f) (h : Selects n f i) : i < n := by
  cases f with
  | slice s => exact h.1
  | mask m =>
    have h' : m[i]? = some true := h
    have hl : m.length = n := hv
    obtain ⟨hi, _⟩ := List.getElem?_eq_some_iff.1 h'
    omega
  | index a => exact h.1

theorem both_spec {a b : List Bool} (h : a.length = b.length) :
    ∃ r, both a b = some r ∧ r.length = b.length ∧ ∀ i : Nat, r[i]? = some true ↔ a[i]? = some true ∧ b[i]? = some true := by
  refine ⟨a.zipWith (fun x y => x && y) b, by unfold both; rw [if_pos h], by simp [h], ?_⟩
  intro i
  rw [List.getElem?_zipWith]
  cases a[i]? <;> cases b[i]? <;> simp

theorem union_spec {a b : List Bool} (h : a.length = b.length) (i : Nat) :
    (a.zipWith (fun x y => x || y) b)[i]? = some true ↔ a[i]? = some true ∨ b[i]? = some true := by
  rw [List.getElem?_zipWith]
  by_cases hi : i < a.length
  · rw [List.getElem?_eq_getElem hi, List.getElem?_eq_getElem (h ▸ hi)]
    simp
  · rw [List.getElem?_eq_none (by omega), List.getElem?_eq_none (by omega)]; simp

/-- The value of a mask at a Python index. -/
def at' (m : List Bool) (v : Int) : Bool := (Py.get m v).getD false

theorem pick_spec {n : Nat} {m : List Bool} {a : List Int} (hm : m.length = n) (ha : ∀ v ∈ a, -(n : Int) ≤ v ∧ v < n) :
    pick m a = some (a.filter (at' m)) := by
  have key : a.mapM (Py.get m) = some (a.map (at' m)) := by
    induction a with
    | nil => rfl
    | cons v a ih =>
      have hv := ha v (by simp)
      have : ∃ b, Py.get m v = some b := by
        unfold Py.get Py.idx
        by_cases h0 : 0 ≤ v
        · rw [if_pos h0, if_pos (by omega)]
          exact ⟨m[v.toNat]'(by omega), by simp [List.getElem?_eq_getElem (show v.toNat < m.length by omega)]⟩
        · rw [if_neg h0, if_pos (by omega)]
          exact ⟨m[(v + m.length).toNat]'(by omega), by
            simp [List.getElem?_eq_getElem (show (v + m.length).toNat < m.length by omega)]⟩
      obtain ⟨b, hb⟩ := this
      rw [List.mapM_cons, hb, ih (fun w hw => ha w (by simp [hw]))]
      simp [at', hb]
  unfold pick
  rw [key, Option.map_some]
  have := Py.select_map a (at' m) id
  simp only [List.map_id] at this
  rw [this]

theorem at'_spec {n : Nat} {m : List Bool} (hm : m.length = n) {v : Int} {i : Nat} (hi : i < n)
    (hv : v = (i : Int) ∨ v = (i : Int) - n) : at' m v = true ↔ m[i]? = some true := by
  have : Py.idx m.length v = some i := by
    unfold Py.idx
    rcases hv with rfl | rfl
    · rw [if_pos (by omega), if_pos (by omega)]; simp
    · rw [if_neg (by omega), if_pos (by omega)]; congr 1; omega
  unfold at' Py.get
  rw [this, Option.bind_some, List.getElem?_eq_getElem (by omega)]
  simp

theorem pick_selects {n : Nat} {m : List Bool} {a : List Int} (hm : m.length = n) (i : Nat) :
    Selects n (.index (a.filter (at' m))) i ↔ m[i]? = some true ∧ Selects n (.index a) i := by
  constructor
  · rintro ⟨hi, v, hv, he⟩
    rw [List.mem_filter] at hv
    exact ⟨(at'_spec hm hi he).1 hv.2, hi, v, hv.1, he⟩
  · rintro ⟨hb, hi, v, hv, he⟩
    exact ⟨hi, v, List.mem_filter.2 ⟨hv, (at'_spec hm hi he).2 hb⟩, he⟩

/-- Indices of a filter (empty for the other kinds). -/
def indices : Filter → List Int
  | .index a => a
  | _ => []

/-- Neither of the filters is a slice, or only one of them. -/
def NotBothSlices (f g : Filter) : Prop := ¬ ∃ s t, f = .slice s ∧ g = .slice t

theorem merge2_spec {n : Nat} {f g : Filter} (hf : Valid n f) (hg : Valid n g) (hfg : NotBothSlices f g)
    (hc : Coherent n f g) :
    ∃ r, merge2 n f g = some r ∧ Valid n r ∧ (∀ i, Selects n r i ↔ Selects n f i ∧ Selects n g i) ∧
      (∀ s, r ≠ .slice s) ∧ (∀ v ∈ indices r, v ∈ indices f ∨ v ∈ indices g) := by
  cases f with
  | slice s =>
    obtain ⟨m', h1, h2, h3⟩ := sliceMask_spec (n := n) (s := s) hf
    cases g with
    | slice t => exact absurd ⟨s, t, rfl, rfl⟩ hfg
    | mask m =>
      have hl : m.length = n := hg
      obtain ⟨r, e1, e2, e3⟩ := both_spec (a := m') (b := m) (by omega)
      refine ⟨.mask r, by simp [merge2, h1, e1], ?_, ?_, by simp, by simp [indices]⟩
      · show r.length = n; omega
      · intro i; show r[i]? = some true ↔ _; rw [e3, h3]; rfl
    | index a =>
      refine ⟨.index (a.filter (at' m')), ?_, ?_, ?_, by simp, ?_⟩
      · simp [merge2, h1, pick_spec h2 hg]
      · intro v hv; exact hg v (List.mem_filter.1 hv).1
      · intro i; rw [pick_selects h2, h3]
      · intro v hv; right; exact (List.mem_filter.1 hv).1
  | mask m =>
    have hl : m.length = n := hf
    cases g with
    | slice s =>
      obtain ⟨m', h1, h2, h3⟩ := sliceMask_spec (n := n) (s := s) hg
      obtain ⟨r, e1, e2, e3⟩ := both_spec (a := m') (b := m) (by omega)
      refine ⟨.mask r, by simp [merge2, h1, e1], ?_, ?_, by simp, by simp [indices]⟩
      · show r.length = n; omega
      · intro i; show r[i]? = some true ↔ _; rw [e3, h3]; exact and_comm
    | mask m' =>
      have hl' : m'.length = n := hg
      obtain ⟨r, e1, e2, e3⟩ := both_spec (a := m') (b := m) (by omega)
      refine ⟨.mask r, by simp [merge2, e1], ?_, ?_, by simp, by simp [indices]⟩
      · show r.length = n; omega
      · intro i; show r[i]? = some true ↔ _; rw [e3]; exact and_comm
    | index a =>
      refine ⟨.index (a.filter (at' m)), ?_, ?_, ?_, by simp, ?_⟩
      · simp [merge2, pick_spec hl hg]
      · intro v hv; exact hg v (List.mem_filter.1 hv).1
      · intro i; rw [pick_selects hl]; rfl
      · intro v hv; right; exact (List.mem_filter.1 hv).1
  | index a =>
    cases g with
    | slice s =>
      obtain ⟨m', h1, h2, h3⟩ := sliceMask_spec (n := n) (s := s) hg
      refine ⟨.index (a.filter (at' m')), ?_, ?_, ?_, by simp, ?_⟩
      · simp [merge2, h1, pick_spec h2 hf]
      · intro v hv; exact hf v (List.mem_filter.1 hv).1
      · intro i; rw [pick_selects h2, h3]; exact and_comm
      · intro v hv; left; exact (List.mem_filter.1 hv).1
    | mask m =>
      have hl : m.length = n := hg
      refine ⟨.index (a.filter (at' m)), ?_, ?_, ?_, by simp, ?_⟩
      · simp [merge2, pick_spec hl hf]
      · intro v hv; exact hf v (List.mem_filter.1 hv).1
      · intro i; rw [pick_selects hl]; exact and_comm
      · intro v hv; left; exact (List.mem_filter.1 hv).1
    | index b =>
      refine ⟨.index (a.filter (fun v => decide (v ∈ b))), rfl, ?_, ?_, by simp, ?_⟩
      · intro v hv; exact hf v (List.mem_filter.1 hv).1
      · intro i
        constructor
        · rintro ⟨hi, v, hv, he⟩
          rw [List.mem_filter] at hv
          exact ⟨⟨hi, v, hv.1, he⟩, hi, v, by simpa using hv.2, he⟩
        · rintro ⟨⟨hi, v, hv, he⟩, _, w, hw, he'⟩
          have hne := hc v hv w hw
          have : v = w := by omega
          subst this
          exact ⟨hi, v, List.mem_filter.2 ⟨hv, by simpa using hw⟩, he⟩
      · intro v hv; left; exact (List.mem_filter.1 hv).1

/-! ### The recursive merge -/

theorem coherent_of_indices {n : Nat} {f g : Filter}
    (h : ∀ v ∈ indices f, ∀ w ∈ indices g, v ≠ w + n ∧ w ≠ v + n) : Coherent n f g := by
  cases f <;> cases g <;> first | exact h | trivial

theorem indices_of_coherent {n : Nat} {f g : Filter} (h : Coherent n f g) :
    ∀ v ∈ indices f, ∀ w ∈ indices g, v ≠ w + n ∧ w ≠ v + n := by
  cases f <;> cases g <;> first | exact h | simp [indices]

theorem mergeAll_spec {n : Nat} : ∀ (l : List Filter), 2 ≤ l.length → (∀ f ∈ l, Valid n f) → l.Pairwise (Coherent n) →
    ¬ EndsWithSlices l →
    ∃ r, mergeAll n l = some r ∧ IsMeet n l r ∧ (∀ s, r ≠ .slice s) ∧ (∀ v ∈ indices r, ∃ f ∈ l, v ∈ indices f)
  | [], h, _, _, _ => by simp at h
  | [_], h, _, _, _ => by simp at h
  | [f, g], _, hv, hc, he => by
    have hfg : NotBothSlices f g := by
      rintro ⟨s, t, rfl, rfl⟩; exact he ⟨[], s, t, rfl⟩
    obtain ⟨r, h1, h2, h3, h4, h5⟩ := merge2_spec (hv f (by simp)) (hv g (by simp)) hfg (by simpa using hc)
    refine ⟨r, h1, ⟨h2, fun i => ?_⟩, h4, fun v hr => ?_⟩
    · rw [h3]
      constructor
      · rintro ⟨a, b⟩; exact ⟨a.lt (hv f (by simp)), by simp [a, b]⟩
      · rintro ⟨_, a⟩; exact ⟨a f (by simp), a g (by simp)⟩
    · rcases h5 v hr with h | h
      · exact ⟨f, by simp, h⟩
      · exact ⟨g, by simp, h⟩
  | f :: g :: h :: l, _, hv, hc, he => by
    obtain ⟨r, h1, ⟨h2, h3⟩, h4, h5⟩ := mergeAll_spec (g :: h :: l) (by simp) (fun x hx => hv x (by simp [hx]))
      (List.pairwise_cons.1 hc).2 (by
        rintro ⟨l', s, t, e⟩; exact he ⟨f :: l', s, t, by rw [e]; rfl⟩)
    have hfr : NotBothSlices f r := by rintro ⟨s, t, _, e⟩; exact h4 t e
    have hcr : Coherent n f r := by
      apply coherent_of_indices
      intro v hvf w hw
      obtain ⟨k, hk, hwk⟩ := h5 w hw
      exact indices_of_coherent ((List.pairwise_cons.1 hc).1 k hk) v hvf w hwk
    obtain ⟨r', e1, e2, e3, e4, e5⟩ := merge2_spec (hv f (by simp)) h2 hfr hcr
    refine ⟨r', by rw [mergeAll, h1, Option.bind_some, e1], ⟨e2, fun i => ?_⟩, e4, fun v hr => ?_⟩
    · rw [e3, h3]
      constructor
      · rintro ⟨a, hi, b⟩
        refine ⟨hi, fun x hx => ?_⟩
        rcases List.mem_cons.1 hx with rfl | hx
        · exact a
        · exact b x hx
      · rintro ⟨hi, b⟩
        exact ⟨b f (by simp), hi, fun x hx => b x (List.mem_cons_of_mem _ hx)⟩
    · rcases e5 v hr with hh | hh
      · exact ⟨f, by simp, hh⟩
      · obtain ⟨k, hk, hwk⟩ := h5 v hh
        exact ⟨k, List.mem_cons_of_mem _ hk, hwk⟩

/-! ### The loop over the arguments -/

theorem skipped_spec {n : Nat} {f : Filter} (hv : Valid n f) (h : skipped f = true) : ∀ i, Selects n f i ↔ i < n := by
  intro i
  cases f with
  | slice s =>
    have hs : s = ⟨none, none, none⟩ := by simpa [skipped] using h
    subst hs
    constructor
    · exact fun x => x.1
    · intro hi
      refine ⟨hi, i, ?_, Or.inl ⟨by decide, ?_⟩⟩
      · simp [Slice.first, Slice.by]
      · simpa [Slice.last, Slice.by] using hi
  | mask m =>
    have hl : m.length = n := hv
    have ha : ∀ x ∈ m, x = true := by simpa [skipped] using h
    constructor
    · exact fun x => x.lt hv
    · intro hi
      show m[i]? = some true
      rw [List.getElem?_eq_getElem (by omega), ha _ (List.getElem_mem _)]
  | index a => simp [skipped] at h

theorem stops_spec {n : Nat} {f : Filter} (h : stops f = true) : ∀ i, ¬ Selects n f i := by
  intro i hi
  cases f with
  | slice s => simp [stops] at h
  | mask m =>
    have ha : ∀ x ∈ m, x = false := by simpa [stops] using h
    have hi' : m[i]? = some true := hi
    have := ha _ (List.mem_of_getElem? hi')
    cases this
  | index a => simp [stops] at h

theorem clean_none {n : Nat} : ∀ {l : List Filter}, clean l = none → ∃ f ∈ l, ∀ i, ¬ Selects n f i
  | [], h => by simp [clean] at h
  | f :: l, h => by
    rw [clean] at h
    split at h
    · obtain ⟨g, hg, h'⟩ := clean_none h
      exact ⟨g, by simp [hg], h'⟩
    · split at h
      · rename_i hs; exact ⟨f, by simp, stops_spec hs⟩
      · rw [Option.map_eq_none_iff] at h
        obtain ⟨g, hg, h'⟩ := clean_none h
        exact ⟨g, by simp [hg], h'⟩

theorem clean_some {n : Nat} : ∀ {l c : List Filter}, (∀ f ∈ l, Valid n f) → clean l = some c →
    List.Sublist c l ∧ ∀ i, i < n → ((∀ f ∈ c, Selects n f i) ↔ ∀ f ∈ l, Selects n f i)
  | [], c, _, h => by
    simp [clean] at h; subst h; simp
  | f :: l, c, hv, h => by
    rw [clean] at h
    split at h
    · rename_i hs
      obtain ⟨h1, h2⟩ := clean_some (fun x hx => hv x (by simp [hx])) h
      refine ⟨h1.cons _, fun i hi => ?_⟩
      rw [h2 i hi, List.forall_mem_cons]
      simp [(skipped_spec (hv f (by simp)) hs i).2 hi]
    · split at h
      · cases h
      · rw [Option.map_eq_some_iff] at h
        obtain ⟨c', hc', rfl⟩ := h
        obtain ⟨h1, h2⟩ := clean_some (fun x hx => hv x (by simp [hx])) hc'
        refine ⟨h1.cons_cons _, fun i hi => ?_⟩
        rw [List.forall_mem_cons, List.forall_mem_cons, h2 i hi]

/-- The filters which restrict something: neither `slice(None)` nor a mask which is true everywhere. -/
def Restricts : Filter → Prop
  | .slice s => s ≠ ⟨none, none, none⟩
  | .mask m => ∃ x ∈ m, x = false
  | .index _ => True

theorem skipped_iff (f : Filter) : skipped f = false ↔ Restricts f := by
  cases f <;> simp [skipped, Restricts]

instance : DecidablePred Restricts := fun f =>
  decidable_of_iff (skipped f = false) (skipped_iff f)

theorem clean_eq : ∀ {l c : List Filter}, clean l = some c → c = l.filter (fun f => decide (Restricts f))
  | [], c, h => by simp [clean] at h; subst h; rfl
  | f :: l, c, h => by
    rw [clean] at h
    split at h
    · rename_i hs
      have : ¬ Restricts f := by rw [← skipped_iff]; simp [hs]
      rw [List.filter_cons_of_neg (by simpa using this)]
      exact clean_eq h
    · rename_i hs
      have : Restricts f := by rw [← skipped_iff]; simpa using hs
      rw [List.filter_cons_of_pos (by simpa using this)]
      split at h
      · cases h
      · rw [Option.map_eq_some_iff] at h
        obtain ⟨c', hc', rfl⟩ := h
        rw [clean_eq hc']

/-- **C30** (partial: the last two restricting filters are not both slices, and no observation is named by two different
indices in two index arrays). `merge_filters` of any list of slices, masks, index arrays, callables and `None` selects
exactly the observations which every filter selects. Full statement: the same without these two conditions; both are
necessary, see `two_slices_wrong` and `negative_index_wrong`. -/
theorem merge_filters_partial {D : Type} {n : Nat} {d : D} {args : List (Arg D)} {l : List Filter}
    (hl : args.filterMap (Arg.eval d) = l) (hv : ∀ f ∈ l, Valid n f) (hc : l.Pairwise (Coherent n))
    (he : ¬ EndsWithSlices (l.filter (fun f => decide (Restricts f)))) :
    ∃ r, mergeFilters n d args = some r ∧ IsMeet n l r := by
  unfold mergeFilters
  rw [hl]
  cases hcl : clean l with
  | none =>
    refine ⟨.index [], rfl, by intro v hv; simp at hv, fun i => ?_⟩
    obtain ⟨f, hf, hn⟩ := clean_none (n := n) hcl
    constructor
    · rintro ⟨_, v, hv, _⟩; simp at hv
    · rintro ⟨_, h⟩; exact absurd (h f hf) (hn i)
  | some c =>
    obtain ⟨hs, hi⟩ := clean_some hv hcl
    have hvc : ∀ f ∈ c, Valid n f := fun f hf => hv f (hs.subset hf)
    have hmeet : ∀ r, IsMeet n c r → IsMeet n l r := by
      rintro r ⟨h1, h2⟩
      refine ⟨h1, fun i => ?_⟩
      rw [h2]
      constructor
      · rintro ⟨a, b⟩; exact ⟨a, (hi i a).1 b⟩
      · rintro ⟨a, b⟩; exact ⟨a, (hi i a).2 b⟩
    have hce := clean_eq hcl
    rw [← hce] at he
    have hpc := hc.sublist hs
    clear hce hs hi hcl hl
    match c, hvc, hmeet, he, hpc with
    | [], _, hmeet, _, _ =>
      refine ⟨.slice ⟨none, none, none⟩, rfl, hmeet _ ⟨by simp [Valid, Slice.by], fun i => ?_⟩⟩
      rw [skipped_spec (f := .slice ⟨none, none, none⟩) (by simp [Valid, Slice.by]) (by decide)]
      simp
    | [f], hvc, hmeet, _, _ =>
      refine ⟨f, rfl, hmeet _ ⟨hvc f (by simp), fun i => ?_⟩⟩
      constructor
      · intro h; exact ⟨h.lt (hvc f (by simp)), by simpa using h⟩
      · rintro ⟨_, h⟩; exact h f (by simp)
    | f :: g :: l', hvc, hmeet, he, hpc =>
      obtain ⟨r, h1, h2, _⟩ := mergeAll_spec (n := n) (f :: g :: l') (by simp) hvc hpc he
      exact ⟨r, h1, hmeet r h2⟩

/-- What two slices at the end really give: their union. -/
theorem merge_two_slices {n : Nat} {s t : Slice} (hs : s.by ≠ 0) (ht : t.by ≠ 0) :
    ∃ r, merge2 n (.slice s) (.slice t) = some r ∧ Valid n r ∧
      ∀ i, Selects n r i ↔ Selects n (.slice s) i ∨ Selects n (.slice t) i := by
  obtain ⟨m, h1, h2, h3⟩ := sliceMask_spec (n := n) hs
  obtain ⟨m', h1', h2', h3'⟩ := sliceMask_spec (n := n) ht
  refine ⟨.mask (m.zipWith (fun x y => x || y) m'), by simp [merge2, h1, h1'], ?_, fun i => ?_⟩
  · show (m.zipWith (fun x y => x || y) m').length = n
    simp [h2, h2']
  · rw [← h3, ← h3']; exact union_spec (by omega) i

/-! ### Order and repetitions -/

/-- First index array of a list of filters. -/
def firstIndex : List Filter → Option (List Int)
  | [] => none
  | .index a :: _ => some a
  | _ :: l => firstIndex l

theorem merge2_order {n : Nat} {f g r : Filter} (h : merge2 n f g = some r) (hf : Valid n f) (hg : Valid n g) :
    (∀ a, firstIndex [f, g] = some a → ∃ p : Int → Bool, r = .index (a.filter p)) ∧
    (firstIndex [f, g] = none → firstIndex [r] = none) := by
  cases f with
  | slice s =>
    obtain ⟨m', h1, h2, h3⟩ := sliceMask_spec (n := n) (s := s) hf
    cases g with
    | slice t =>
      obtain ⟨m'', h1', h2', h3'⟩ := sliceMask_spec (n := n) (s := t) hg
      simp [merge2, h1, h1'] at h
      subst h; simp [firstIndex]
    | mask m =>
      obtain ⟨q, e1, _⟩ := both_spec (a := m') (b := m) (by rw [h2]; exact hg.symm)
      simp [merge2, h1, e1] at h
      subst h; simp [firstIndex]
    | index a =>
      simp [merge2, h1, pick_spec h2 hg] at h
      subst h; simp only [firstIndex]
      exact ⟨by rintro _ ⟨⟩; exact ⟨_, rfl⟩, by simp⟩
  | mask m =>
    cases g with
    | slice s =>
      obtain ⟨m', h1, h2, h3⟩ := sliceMask_spec (n := n) (s := s) hg
      obtain ⟨q, e1, _⟩ := both_spec (a := m') (b := m) (by rw [h2]; exact hf.symm)
      simp [merge2, h1, e1] at h
      subst h; simp [firstIndex]
    | mask m' =>
      obtain ⟨q, e1, _⟩ := both_spec (a := m') (b := m) (by rw [show m'.length = n from hg]; exact hf.symm)
      simp [merge2, e1] at h
      subst h; simp [firstIndex]
    | index a =>
      simp [merge2, pick_spec hf hg] at h
      subst h; simp only [firstIndex]
      exact ⟨by rintro _ ⟨⟩; exact ⟨_, rfl⟩, by simp⟩
  | index a =>
    simp only [firstIndex]
    refine ⟨?_, by simp⟩
    rintro _ ⟨⟩
    cases g with
    | slice s =>
      obtain ⟨m', h1, h2, h3⟩ := sliceMask_spec (n := n) (s := s) hg
      simp [merge2, h1, pick_spec h2 hf] at h
      exact ⟨_, h.symm⟩
    | mask m =>
      simp [merge2, pick_spec hg hf] at h
      exact ⟨_, h.symm⟩
    | index b => exact ⟨_, (Option.some.inj h).symm⟩

theorem firstIndex_cons (f : Filter) (l : List Filter) :
    firstIndex (f :: l) = (firstIndex [f]).orElse (fun _ => firstIndex l) := by
  cases f <;> simp [firstIndex]

theorem mergeAll_order {n : Nat} : ∀ (l : List Filter) {r : Filter}, (∀ f ∈ l, Valid n f) → l.Pairwise (Coherent n) →
    ¬ EndsWithSlices l → mergeAll n l = some r →
    (∀ a, firstIndex l = some a → ∃ p : Int → Bool, r = .index (a.filter p)) ∧ (firstIndex l = none → firstIndex [r] = none)
  | [], _, _, _, _, h => by simp [mergeAll] at h
  | [_], _, _, _, _, h => by simp [mergeAll] at h
  | [f, g], r, hv, _, _, h => merge2_order h (hv f (by simp)) (hv g (by simp))
  | f :: g :: k :: l, r, hv, hc, he, h => by
    have he' : ¬ EndsWithSlices (g :: k :: l) := by
      rintro ⟨l', s, t, e⟩; exact he ⟨f :: l', s, t, by rw [e]; rfl⟩
    obtain ⟨q, h1, ⟨h2, _⟩, _, _⟩ := mergeAll_spec (n := n) (g :: k :: l) (by simp) (fun x hx => hv x (by simp [hx]))
      (List.pairwise_cons.1 hc).2 he'
    obtain ⟨i1, i2⟩ := mergeAll_order (g :: k :: l) (fun x hx => hv x (by simp [hx])) (List.pairwise_cons.1 hc).2 he' h1
    rw [mergeAll, h1, Option.bind_some] at h
    obtain ⟨j1, j2⟩ := merge2_order h (hv f (by simp)) h2
    rw [firstIndex_cons f (g :: k :: l)]
    rw [firstIndex_cons f [q]] at j1 j2
    cases hf : firstIndex [f] with
    | some a =>
      rw [hf] at j1
      simp only [Option.orElse] at j1 ⊢
      exact ⟨j1, by simp⟩
    | none =>
      rw [hf] at j1 j2
      simp only [Option.orElse] at j1 j2 ⊢
      refine ⟨fun a ha => ?_, fun hn => j2 (i2 hn)⟩
      obtain ⟨p, rfl⟩ := i1 a ha
      obtain ⟨p', hp'⟩ := j1 _ rfl
      exact ⟨fun v => p v && p' v, by rw [hp', List.filter_filter]; simp [Bool.and_comm]⟩

/-- **C30** (order): when one of the filters is an index array, the result is the first index array without the indices which
are not selected by the other filters: the order and the repetitions of the first index array are kept. -/
theorem merge_filters_order {D : Type} {n : Nat} {d : D} {args : List (Arg D)} {l : List Filter} {a : List Int} {r : Filter}
    (hl : args.filterMap (Arg.eval d) = l) (hv : ∀ f ∈ l, Valid n f) (hc : l.Pairwise (Coherent n))
    (he : ¬ EndsWithSlices (l.filter (fun f => decide (Restricts f)))) (ha : firstIndex l = some a)
    (hr : mergeFilters n d args = some r) : ∃ p : Int → Bool, r = .index (a.filter p) := by
  unfold mergeFilters at hr
  rw [hl] at hr
  cases hcl : clean l with
  | none =>
    rw [hcl] at hr
    exact ⟨fun _ => false, by rw [← Option.some.inj hr]; simp⟩
  | some c =>
    rw [hcl] at hr
    have hce := clean_eq hcl
    have hfi : ∀ l : List Filter, firstIndex (l.filter (fun f => decide (Restricts f))) = firstIndex l := by
      intro l
      induction l with
      | nil => rfl
      | cons f l ih =>
        by_cases hf : Restricts f
        · rw [List.filter_cons_of_pos (by simpa using hf), firstIndex_cons, firstIndex_cons f l, ih]
        · rw [List.filter_cons_of_neg (by simpa using hf), ih]
          cases f with
          | index b => exact absurd trivial hf
          | slice s => rfl
          | mask m => rfl
    rw [← hce] at he
    rw [← hfi, ← hce] at ha
    have hsub := (clean_some hv hcl).1
    have hvc : ∀ f ∈ c, Valid n f := fun f hf => hv f (hsub.subset hf)
    have hpc := hc.sublist hsub
    clear hce hsub hcl hl
    match c, hvc, he, hpc, hr, ha with
    | [], _, _, _, _, ha => simp [firstIndex] at ha
    | [f], _, _, _, hr, ha =>
      cases f with
      | index b =>
        simp only [firstIndex, Option.some.injEq] at ha
        subst ha
        exact ⟨fun _ => true, by rw [← Option.some.inj hr]; simp⟩
      | slice s => simp [firstIndex] at ha
      | mask m => simp [firstIndex] at ha
    | f :: g :: l', hvc, he, hpc, hr, ha => exact (mergeAll_order _ hvc hpc he hr).1 a ha

/-! ### Where the code disagrees, and examples -/

/-- **C30 refuted**: `merge_filters(slice(0, 2), slice(1, 3))` selects observation 0 although the second slice does not. -/
theorem two_slices_wrong :
    ¬ ∀ (n : Nat) (l : List Filter), (∀ f ∈ l, Valid n f) → l.Pairwise (Coherent n) →
      ∃ r, mergeFilters n () (l.map Arg.value) = some r ∧ IsMeet n l r := by
  intro h
  obtain ⟨r, h1, _, h2⟩ := h 4 [.slice ⟨some 0, some 2, none⟩, .slice ⟨some 1, some 3, none⟩]
    (by simp [Valid, Slice.by]) (by simp [Coherent])
  have hr : r = .mask [true, true, true, false] := by
    have : mergeFilters 4 () ([.slice ⟨some 0, some 2, none⟩, .slice ⟨some 1, some 3, none⟩].map Arg.value) =
      some (.mask [true, true, true, false]) := by decide
    rw [this] at h1; exact (Option.some.inj h1).symm
  subst hr
  obtain ⟨_, h3⟩ := (h2 0).1 rfl
  obtain ⟨_, k, h4, _⟩ := h3 (.slice ⟨some 1, some 3, none⟩) (by simp)
  simp [Slice.first, Slice.by, clip] at h4
  omega

/-- **C30 refuted**: the index arrays `[-1]` and `[2]` of a dataset of three observations select the same observation, but
their merge is empty. -/
theorem negative_index_wrong :
    mergeFilters 3 () [.value (.index [-1]), .value (.index [2])] = some (.index []) ∧
    Selects 3 (.index [-1]) 2 ∧ Selects 3 (.index [2]) 2 := by
  refine ⟨by decide, ⟨by decide, -1, by simp, by decide⟩, by decide, 2, by simp, by decide⟩

/-- An example which meets the hypotheses: a slice, a mask, a callable, `None` and two index arrays. -/
def exampleArgs : List (Arg Nat) :=
  [.value (.slice ⟨some 1, none, none⟩), .nothing, .value (.mask [true, false, true, true, true, true]),
   .call (fun k => some (.index [5, (k : Int), 0, 5, 1])), .value (.index [5, 2, 4])]

example : mergeFilters 6 2 exampleArgs = some (.index [5, 2, 5]) := by decide

example : (∀ f ∈ exampleArgs.filterMap (Arg.eval 2), Valid 6 f) ∧
    (exampleArgs.filterMap (Arg.eval 2)).Pairwise (Coherent 6) := by
  refine ⟨?_, ?_⟩
  · simp only [exampleArgs, Arg.eval, List.filterMap_cons, List.filterMap_nil, List.forall_mem_cons]
    refine ⟨by simp [Valid, Slice.by], rfl, ?_, ?_, by simp⟩ <;> · simp [Valid]
  · simp only [exampleArgs, Arg.eval, List.filterMap_cons, List.filterMap_nil]
    simp [Coherent]

example : ¬ EndsWithSlices ((exampleArgs.filterMap (Arg.eval 2)).filter (fun f => decide (Restricts f))) := by
  rintro ⟨l', s, t, e⟩
  have h := congrArg List.getLast? e
  have h1 : ((exampleArgs.filterMap (Arg.eval 2)).filter (fun f => decide (Restricts f))).getLast? =
    some (.index [5, 2, 4]) := by decide
  rw [h1] at h
  simp at h

end Verif.Filters
