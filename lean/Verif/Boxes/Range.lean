import Verif.Boxes.Props

/-!
# C173: the range of the grids of counts and of means

`grid_count`, `grid_stat` and `grid_box_stat` (/repo/src/py_eddy_tracker/observations/observation.py:2219-2365) receive the range
`(start, stop, step)` of each axis and compute the edges of the cells with `arange(*bins[0])`, `arange(*bins[1])`.
-/

namespace Verif.Boxes

/-- `arange(start, stop, step)` for a positive step, observation.py:2234, 2290 and 2336. -/
def edges (start stop step : Rat) : List Rat := (List.range ⌈(stop - start) / step⌉.toNat).map (fun (k : Nat) => start + k * step)

/-- The range of an axis. -/
structure Range where
  start : Rat
  stop : Rat
  step : Rat

/-- `grid_count(bins, center=True)`, observation.py:2234-2254: the count of the cell `(a, b)` of the grid for the ranges `bx` and `by`. -/
def countGrid (bx bY : Range) (obs : List Obs) (a b : Nat) : Rat :=
  gridCount (edges bx.start bx.stop bx.step) (edges bY.start bY.stop bY.step) bx.start obs a b

/-- The size of the grid on one axis, observation.py:2236. -/
def cells (r : Range) : Nat := (edges r.start r.stop r.step).length - 1

/-! ### Specification -/

/-- `last` is the last edge below the end of the range. -/
def LastEdge (r : Range) (last : Rat) : Prop := (∃ k : Nat, last = r.start + k * r.step) ∧ last < r.stop ∧ r.stop ≤ last + r.step

/-! ### Proofs -/

theorem edges_sorted (start stop : Rat) {step : Rat} (h : 0 < step) : (edges start stop step).Pairwise (· < ·) := by
  unfold edges
  rw [List.pairwise_map]
  refine List.pairwise_lt_range.imp ?_
  intro i j hij
  have : (i : Rat) < j := by exact_mod_cast hij
  nlinarith

theorem edges_length (start stop step : Rat) : (edges start stop step).length = ⌈(stop - start) / step⌉.toNat := by
  unfold edges; rw [List.length_map, List.length_range]

/-- The edges begin at the start and end at the last edge. -/
theorem inside_edges {r : Range} (h : 0 < r.step) {last : Rat} (hl : LastEdge r last) (v : Rat) :
    Inside (edges r.start r.stop r.step) v ↔ r.start ≤ v ∧ v ≤ last := by
  obtain ⟨⟨k, rfl⟩, h1, h2⟩ := hl
  have hc : ⌈(r.stop - r.start) / r.step⌉ = (k : Int) + 1 := by
    rw [Int.ceil_eq_iff]
    push_cast
    constructor
    · rw [lt_div_iff₀ h]; linarith
    · rw [div_le_iff₀ h]; linarith
  have hn : (edges r.start r.stop r.step).length = k + 1 := by rw [edges_length, hc]; omega
  have hget : ∀ i, i < k + 1 → (edges r.start r.stop r.step)[i]? = some (r.start + (i : Rat) * r.step) := by
    intro i hi
    unfold edges
    rw [List.getElem?_map, List.getElem?_range (by omega)]
    rfl
  unfold Inside
  rw [List.head?_eq_getElem?, List.getLast?_eq_getElem?, hn, hget 0 (by omega), hget (k + 1 - 1) (by omega), Nat.add_sub_cancel]
  constructor
  · rintro ⟨lo, hi, e0, e1, h3, h4⟩
    cases e0; cases e1
    simp only [Nat.cast_zero, zero_mul, add_zero] at h3
    exact ⟨h3, h4⟩
  · rintro ⟨h3, h4⟩
    exact ⟨_, _, rfl, rfl, by simpa using h3, h4⟩

theorem lastEdge_exists {r : Range} (h : 0 < r.step) (hr : r.start < r.stop) : ∃ last, LastEdge r last := by
  have hpos : 0 < (r.stop - r.start) / r.step := div_pos (by linarith) h
  have hc : 0 < ⌈(r.stop - r.start) / r.step⌉ := Int.ceil_pos.2 hpos
  obtain ⟨k, hk⟩ : ∃ k : Nat, ⌈(r.stop - r.start) / r.step⌉ = (k : Int) + 1 := ⟨(⌈(r.stop - r.start) / r.step⌉ - 1).toNat, by omega⟩
  rw [Int.ceil_eq_iff] at hk
  obtain ⟨h1, h2⟩ := hk
  push_cast at h1 h2
  rw [lt_div_iff₀ h] at h1
  rw [div_le_iff₀ h] at h2
  exact ⟨_, ⟨k, rfl⟩, by linarith, by linarith⟩

/-- An observation beyond the last edge is in no cell. -/
theorem beyond_zero {bx bY : Range} (hx : 0 < bx.step) (hy : 0 < bY.step) {X : Rat} (hX : LastEdge bx X) (o : Obs)
    (ho : X < (wrap bx.start o).x) (a b : Nat) (ha : a < cells bx) (hb : b < cells bY) : countGrid bx bY [o] a b = 0 := by
  classical
  have ha' : a < (edges bx.start bx.stop bx.step).length - 1 := ha
  have hb' : b < (edges bY.start bY.stop bY.step).length - 1 := hb
  unfold countGrid
  rw [grid_count_cell (edges_sorted _ _ hx) (edges_sorted _ _ hy) a b (by omega) (by omega), List.filter_cons_of_neg, List.filter_nil]
  · rfl
  · rw [decide_eq_true_eq]
    rintro ⟨hin, _⟩
    have hs := edges_sorted bx.start bx.stop hx
    have hb1 := (binNumber_spec hs a _ (by omega)).2 hin
    have := (inside_iff hs (by omega) (wrap bx.start o).x).2 ⟨by omega, by omega⟩
    rw [inside_edges hx hX] at this
    linarith [this.2]

/-- C173 (partial). For ranges of at least one step, the sum of the grid is the number of observations between the start and the last
edge below the end of the range, on both axes, each longitude being taken in the turn which begins at the start.
Missing: the end of the range, see `last_step_lost`. -/
theorem count_grid_range_partial {bx bY : Range} (hx : 0 < bx.step) (hy : 0 < bY.step) (hxr : bx.start + bx.step < bx.stop)
    (hyr : bY.start + bY.step < bY.stop) {X Y : Rat} (hX : LastEdge bx X) (hY : LastEdge bY Y) (obs : List Obs) :
    ∑ a ∈ Finset.range (cells bx), ∑ b ∈ Finset.range (cells bY), countGrid bx bY obs a b =
      (obs.filter (fun o => decide ((bx.start ≤ (wrap bx.start o).x ∧ (wrap bx.start o).x ≤ X) ∧ bY.start ≤ o.y ∧ o.y ≤ Y))).length := by
  classical
  have hlen : ∀ r : Range, 0 < r.step → r.start + r.step < r.stop → 2 ≤ (edges r.start r.stop r.step).length := by
    intro r h hr
    rw [edges_length]
    have : 1 < ⌈(r.stop - r.start) / r.step⌉ := by
      rw [Int.lt_ceil]
      push_cast
      rw [lt_div_iff₀ h]; linarith
    omega
  unfold cells countGrid
  rw [grid_count_sum (edges_sorted _ _ hx) (edges_sorted _ _ hy) (hlen _ hx hxr) (hlen _ hy hyr)]
  congr 2
  apply List.filter_congr
  intro o _
  rw [decide_eq_decide, inside_edges hx hX, inside_edges hy hY]

/-- C173, full statement refuted, whatever the range: some longitudes of the range are counted in no cell of the grid. -/
theorem last_step_lost (bx bY : Range) (hx : 0 < bx.step) (hy : 0 < bY.step) (hxr : bx.start < bx.stop) (h360 : bx.stop ≤ bx.start + 360) :
    ∃ x, bx.start ≤ x ∧ x < bx.stop ∧ ∀ y value, ∀ a b, a < cells bx → b < cells bY → countGrid bx bY [⟨x, y, value⟩] a b = 0 := by
  classical
  obtain ⟨X, hX⟩ := lastEdge_exists hx hxr
  have hX1 := hX.2.1
  have hX0 : bx.start ≤ X := by
    obtain ⟨⟨k, rfl⟩, _⟩ := hX
    have : (0 : Rat) ≤ k := Nat.cast_nonneg k
    nlinarith
  refine ⟨(X + bx.stop) / 2, by linarith, by linarith, ?_⟩
  intro y value a b ha hb
  have hw : (wrap bx.start ⟨(X + bx.stop) / 2, y, value⟩).x = (X + bx.stop) / 2 := by
    obtain ⟨h1, h2, ⟨k, hk⟩, _, _⟩ := wrap_spec bx.start ⟨(X + bx.stop) / 2, y, value⟩
    rw [hk] at h1 h2 ⊢
    simp only at h1 h2 ⊢
    have h3 : (-1 : Rat) < k := by linarith
    have h4 : (k : Rat) < 1 := by linarith
    have h5 : -1 < k := by exact_mod_cast h3
    have h6 : k < 1 := by exact_mod_cast h4
    have : k = 0 := by omega
    rw [this]; simp
  exact beyond_zero hx hy hX _ (by rw [hw]; linarith) a b ha hb

/-- A grid of the whole Earth with cells of one degree counts no eddy between 179° and 180°. -/
theorem global_range_wrong : cells ⟨-180, 180, 1⟩ = 359 ∧ LastEdge ⟨-180, 180, 1⟩ 179 ∧
    ∀ a b, a < cells ⟨-180, 180, 1⟩ → b < cells ⟨-90, 90, 1⟩ → countGrid ⟨-180, 180, 1⟩ ⟨-90, 90, 1⟩ [⟨359/2, 30, 1⟩] a b = 0 := by
  have hX : LastEdge ⟨-180, 180, 1⟩ 179 := ⟨⟨359, by norm_num⟩, by norm_num, by norm_num⟩
  refine ⟨?_, hX, ?_⟩
  · unfold cells
    rw [edges_length]
    have : ⌈((180 : Rat) - -180) / 1⌉ = 360 := by norm_num
    simp only [this]
    rfl
  · intro a b ha hb
    have hw : (wrap (-180) ⟨359/2, 30, 1⟩).x = 359/2 := by decide +kernel
    refine beyond_zero (bx := ⟨-180, 180, 1⟩) (bY := ⟨-90, 90, 1⟩) (by norm_num) (by norm_num) hX _ ?_ a b ha hb
    show (179 : Rat) < (wrap (-180) ⟨359/2, 30, 1⟩).x
    rw [hw]; norm_num

/-- Three observations, one of them in the last step: two are counted. -/
example : cells ⟨0, 3, 1⟩ = 2 ∧ countGrid ⟨0, 3, 1⟩ ⟨0, 3, 1⟩ [⟨1/2, 1/2, 0⟩, ⟨361/2 + 361/2, 1, 0⟩, ⟨5/2, 1, 0⟩] 0 0 = 1 ∧
    countGrid ⟨0, 3, 1⟩ ⟨0, 3, 1⟩ [⟨1/2, 1/2, 0⟩, ⟨361, 1, 0⟩, ⟨5/2, 1, 0⟩] 1 1 = 1 := by decide +kernel

example : LastEdge ⟨0, 3, 1⟩ 2 ∧ (0 : Rat) + 1 < 3 := ⟨⟨⟨2, by norm_num⟩, by norm_num, by norm_num⟩, by norm_num⟩

end Verif.Boxes
