import Verif.Advect.Props

/-!
# C45: velocities are read at the corners of the cell of the particle
-/

namespace Verif.Advect

/-- A regular grid of increasing coordinates, as required by the class `RegularGridDataset`: `nx` and `ny` points. A circular grid
covers exactly 360 degrees. -/
structure Regular (a : Axes) (x0 xs y0 ys : Rat) (nx ny : Nat) : Prop where
  xs_pos : 0 < xs
  ys_pos : 0 < ys
  nx_two : 2 ≤ nx
  ny_two : 2 ≤ ny
  xg : a.xg = (List.range nx).map (fun k : Nat => x0 + (k : Rat) * xs)
  yg : a.yg = (List.range ny).map (fun k : Nat => y0 + (k : Rat) * ys)
  turn : a.circular = true → nx * xs = 360

/-- The cell between the columns `i` and `i'` and the lines `j` and `j + 1` contains the position `(x, y)`, where the longitude is
considered modulo 360 degrees if the grid is circular. Lower bounds are included. -/
structure InCell (a : Axes) (x0 xs y0 ys : Rat) (nx ny : Nat) (p : Rat × Rat) (i i' j : Nat) : Prop where
  i_lt : i < nx
  i'_eq : (i' = i + 1 ∧ i' < nx) ∨ (a.circular = true ∧ i + 1 = nx ∧ i' = 0)
  j_lt : j + 1 < ny
  x_in : ∃ t : Int, (a.circular = false → t = 0) ∧ x0 + i * xs + 360 * t ≤ p.1 ∧ p.1 < x0 + i * xs + xs + 360 * t
  y_in : y0 + j * ys ≤ p.2 ∧ p.2 < y0 + j * ys + ys

variable {a : Axes} {x0 xs y0 ys : Rat} {nx ny : Nat}

theorem Regular.xRef (h : Regular a x0 xs y0 ys nx ny) : a.xRef = x0 := by
  unfold Axes.xRef
  rw [h.xg, List.getD_eq_getElem?_getD, List.getElem?_map, List.getElem?_range (by have := h.nx_two; omega)]
  simp

theorem Regular.yRef (h : Regular a x0 xs y0 ys nx ny) : a.yRef = y0 := by
  unfold Axes.yRef
  rw [h.yg, List.getD_eq_getElem?_getD, List.getElem?_map, List.getElem?_range (by have := h.ny_two; omega)]
  simp

theorem Regular.xStep (h : Regular a x0 xs y0 ys nx ny) : a.xStep = xs := by
  unfold Axes.xStep
  rw [h.xRef, h.xg, List.getD_eq_getElem?_getD, List.getElem?_map, List.getElem?_range (by have := h.nx_two; omega)]
  simp

theorem Regular.yStep (h : Regular a x0 xs y0 ys nx ny) : a.yStep = ys := by
  unfold Axes.yStep
  rw [h.yRef, h.yg, List.getD_eq_getElem?_getD, List.getElem?_map, List.getElem?_range (by have := h.ny_two; omega)]
  simp

theorem Regular.lenX (h : Regular a x0 xs y0 ys nx ny) : a.xg.length = nx := by rw [h.xg]; simp

theorem Regular.lenY (h : Regular a x0 xs y0 ys nx ny) : a.yg.length = ny := by rw [h.yg]; simp

theorem floor_bounds {x r s : Rat} (hs : 0 < s) (k : Int) : ⌊(x - r) / s⌋ = k ↔ r + k * s ≤ x ∧ x < r + k * s + s := by
  rw [Int.floor_eq_iff, le_div_iff₀ hs, div_lt_iff₀ hs]
  constructor
  · rintro ⟨h1, h2⟩; exact ⟨by linarith, by linarith⟩
  · rintro ⟨h1, h2⟩; exact ⟨by linarith, by linarith⟩

/-- The indices of the cell which contains a position. -/
theorem cellOf_eq (h : Regular a x0 xs y0 ys nx ny) {p : Rat × Rat} {i i' j : Nat} (hc : InCell a x0 xs y0 ys nx ny p i i' j) :
    cellOf a p = ((i : Int), (j : Int)) := by
  obtain ⟨t, t0, t1, t2⟩ := hc.x_in
  unfold cellOf
  rw [h.xRef, h.yRef, h.xStep, h.yStep, (floor_bounds h.ys_pos j).2 (by exact_mod_cast hc.y_in)]
  refine Prod.ext ?_ rfl
  simp only
  by_cases hcirc : a.circular = true
  · have hn : a.nbX = nx := by unfold Axes.nbX; rw [if_pos hcirc, h.lenX]
    have h0 : nx ≠ 0 := by have := h.nx_two; omega
    rw [if_pos (by rw [hn]; exact h0), hn]
    have e := h.turn hcirc
    have hf : ⌊(p.1 - x0) / xs⌋ = (i : Int) + nx * t := by
      rw [floor_bounds h.xs_pos]
      push_cast
      have e' : ((i : Rat) + nx * t) * xs = i * xs + 360 * t := by rw [← e]; ring
      rw [e']
      exact ⟨by linarith, by linarith⟩
    rw [hf, Int.add_mul_emod_self_left]
    exact Int.emod_eq_of_lt (by omega) (by have := hc.i_lt; omega)
  · have hf : a.circular = false := by simpa using hcirc
    have hn : a.nbX = 0 := by unfold Axes.nbX; rw [if_neg hcirc]
    rw [if_neg (by simp [hn]), floor_bounds h.xs_pos]
    rw [t0 hf] at t1 t2
    push_cast
    simp only [Int.cast_zero, mul_zero, add_zero] at t1 t2
    exact ⟨t1, t2⟩

/-- The cell of the code is a cell of the grid, or the position is outside of the grid. -/
theorem inCell_of_cellOf (h : Regular a x0 xs y0 ys nx ny) {p : Rat × Rat} {i i' j : Nat} (hc : cellOf a p = ((i : Int), (j : Int)))
    (hi : i < nx) (hi' : (i' = i + 1 ∧ i' < nx) ∨ (a.circular = true ∧ i + 1 = nx ∧ i' = 0)) (hj : j + 1 < ny) :
    InCell a x0 xs y0 ys nx ny p i i' j := by
  unfold cellOf at hc
  rw [h.xRef, h.yRef, h.xStep, h.yStep, Prod.mk.injEq] at hc
  obtain ⟨h1, h2⟩ := hc
  refine ⟨hi, hi', hj, ?_, by exact_mod_cast (floor_bounds h.ys_pos (j : Int)).1 h2⟩
  by_cases hcirc : a.circular = true
  · have hn : a.nbX = nx := by unfold Axes.nbX; rw [if_pos hcirc, h.lenX]
    have h0 : nx ≠ 0 := by have := h.nx_two; omega
    rw [if_pos (by rw [hn]; exact h0), hn] at h1
    have e := h.turn hcirc
    have hd := Int.mul_ediv_add_emod ⌊(p.1 - x0) / xs⌋ (nx : Int)
    rw [h1] at hd
    have hb := (floor_bounds (x := p.1) (r := x0) h.xs_pos ⌊(p.1 - x0) / xs⌋).1 rfl
    refine ⟨⌊(p.1 - x0) / xs⌋ / nx, (fun hf => absurd (hcirc.symm.trans hf) (by decide)), ?_⟩
    generalize ⌊(p.1 - x0) / xs⌋ / (nx : Int) = t at hd
    rw [← hd] at hb
    push_cast at hb
    have e' : ((nx : Rat) * t + i) * xs = i * xs + 360 * t := by rw [← e]; ring
    rw [e'] at hb
    exact ⟨by linarith [hb.1], by linarith [hb.2]⟩
  · have hn : a.nbX = 0 := by unfold Axes.nbX; rw [if_neg hcirc]
    rw [if_neg (by simp [hn])] at h1
    have hb := (floor_bounds (x := p.1) (r := x0) h.xs_pos (i : Int)).1 h1
    push_cast at hb
    refine ⟨0, fun _ => rfl, ?_⟩
    simp only [Int.cast_zero, mul_zero, add_zero]
    exact hb

/-- The four corners are not masked. -/
def Open (g : Layer) (i i' j : Nat) : Prop :=
  g.m i j = false ∧ g.m i (j + 1 : Nat) = false ∧ g.m i' j = false ∧ g.m i' (j + 1 : Nat) = false

/-- Velocities of the four corners. -/
def corners (g : Layer) (i i' j : Nat) : Quad :=
  ⟨g.u i j, g.u i (j + 1 : Nat), g.u i' j, g.u i' (j + 1 : Nat), g.v i j, g.v i (j + 1 : Nat), g.v i' j, g.v i' (j + 1 : Nat)⟩

theorem getQuad_eq (h : Regular a x0 xs y0 ys nx ny) (g : Layer) {i i' j : Nat} (hi : i < nx)
    (hi' : (i' = i + 1 ∧ i' < nx) ∨ (a.circular = true ∧ i + 1 = nx ∧ i' = 0)) (hj : j + 1 < ny) (q : Quad) :
    look a g ((i : Int), (j : Int)) = some q ↔ Open g i i' j ∧ q = corners g i i' j := by
  unfold look
  rw [if_neg (by rw [h.lenX]; simp only; omega)]
  have hi1 : (if a.nbX ≠ 0 then ((i : Int) + 1) % (a.nbX : Int) else (i : Int) + 1) = (i' : Int) := by
    by_cases hcirc : a.circular = true
    · have hn : a.nbX = nx := by unfold Axes.nbX; rw [if_pos hcirc, h.lenX]
      rw [if_pos (by rw [hn]; omega), hn]
      rcases hi' with ⟨rfl, h2⟩ | ⟨_, h1, rfl⟩
      · push_cast
        exact Int.emod_eq_of_lt (by omega) (by omega)
      · have : (i : Int) + 1 = nx := by omega
        rw [this]; simp
    · have hn : a.nbX = 0 := by unfold Axes.nbX; rw [if_neg hcirc]
      rw [if_neg (by simp [hn])]
      rcases hi' with ⟨rfl, _⟩ | ⟨h1, _⟩
      · push_cast; rfl
      · exact absurd h1 hcirc
  have hlt : i' < nx := by
    rcases hi' with ⟨_, h2⟩ | ⟨_, _, rfl⟩
    · exact h2
    · omega
  unfold getQuad
  simp only [hi1, h.lenX, h.lenY]
  rw [if_neg (by omega)]
  have w1 : ∀ (n k : Nat), wrapIdx n (k : Int) = k := fun n k => by unfold wrapIdx; rw [if_neg (by omega)]
  rw [w1, w1, w1, show (j : Int) + 1 = ((j + 1 : Nat) : Int) by push_cast; rfl, w1]
  unfold Open corners
  split
  · rename_i hm
    constructor
    · intro hh; cases hh
    · rintro ⟨⟨m1, m2, m3, m4⟩, _⟩
      rw [m1, m2, m3, m4] at hm
      cases hm
  · rename_i hm
    simp only [Bool.or_eq_true, not_or, Bool.not_eq_true] at hm
    rw [Option.some.injEq]
    constructor
    · rintro rfl; exact ⟨⟨hm.1.1.1, hm.1.1.2, hm.1.2, hm.2⟩, rfl⟩
    · rintro ⟨_, rfl⟩; rfl

/-- A position at the north of the first line which is in no cell of the grid has a masked cell. -/
theorem look_none (h : Regular a x0 xs y0 ys nx ny) (g : Layer) {p : Rat × Rat} (hy : y0 ≤ p.2)
    (hout : ∀ i i' j, ¬ InCell a x0 xs y0 ys nx ny p i i' j) : look a g (cellOf a p) = none := by
  have hj0 : 0 ≤ (cellOf a p).2 := by
    unfold cellOf
    rw [h.yRef, h.yStep]
    exact Int.floor_nonneg.2 (div_nonneg (by linarith) h.ys_pos.le)
  obtain ⟨j, hj⟩ := Int.eq_ofNat_of_zero_le hj0
  by_contra hne
  obtain ⟨q, hq⟩ := Option.ne_none_iff_exists'.1 hne
  have hi0 : 0 ≤ (cellOf a p).1 ∧ (cellOf a p).1 < nx ∧ (a.circular = false → (cellOf a p).1 + 1 < nx) ∧ (cellOf a p).2 + 1 < ny := by
    unfold look at hq
    split at hq
    · cases hq
    · rename_i hcond
      unfold getQuad at hq
      simp only [h.lenX, h.lenY] at hq
      generalize hi1 : (if a.nbX ≠ 0 then ((cellOf a p).1 + 1) % (a.nbX : Int) else (cellOf a p).1 + 1) = i1 at hq
      split at hq
      · cases hq
      · rename_i hb
        push Not at hb
        by_cases hcirc : a.circular = true
        · have hn : a.nbX = nx := by unfold Axes.nbX; rw [if_pos hcirc, h.lenX]
          have h0 : nx ≠ 0 := by have := h.nx_two; omega
          have hmod : (cellOf a p).1 = ⌊(p.1 - a.xRef) / a.xStep⌋ % (nx : Int) := by
            unfold cellOf
            simp only
            rw [if_pos (by rw [hn]; exact h0), hn]
          refine ⟨by rw [hmod]; exact Int.emod_nonneg _ (by omega), by rw [hmod]; exact Int.emod_lt_of_pos _ (by omega),
            (fun hf => absurd (hcirc.symm.trans hf) (by decide)), hb.2⟩
        · have hn : a.nbX = 0 := by unfold Axes.nbX; rw [if_neg hcirc]
          have hf : a.circular = false := by simpa using hcirc
          rw [if_neg (by simp [hn])] at hi1
          rw [hf] at hcond
          simp only [Bool.false_eq_true, not_false_eq_true, true_and, not_or, not_lt] at hcond
          exact ⟨hcond.1, by omega, fun _ => by omega, hb.2⟩
  obtain ⟨i, hi⟩ := Int.eq_ofNat_of_zero_le hi0.1
  have hilt : i < nx := by omega
  have hcell : cellOf a p = ((i : Int), (j : Int)) := Prod.ext hi hj
  have hjlt : j + 1 < ny := by omega
  by_cases hlast : i + 1 < nx
  · exact hout i (i + 1) j (inCell_of_cellOf h hcell hilt (Or.inl ⟨rfl, hlast⟩) hjlt)
  · have hcirc : a.circular = true := by
      by_contra hf
      have := hi0.2.2.1 (by simpa using hf)
      omega
    exact hout i 0 j (inCell_of_cellOf h hcell hilt (Or.inr ⟨hcirc, by omega, rfl⟩) hjlt)

/-- **C45**: at the north of the first line, the velocity is the one of the corners of the cell which contains the particle, and the
particle is lost exactly when there is no such cell or when one of its corners is masked. Missing: at the south of the first line the
lines are counted from the north of the grid (`south_wrong`). -/
theorem look_partial (h : Regular a x0 xs y0 ys nx ny) (g : Layer) {p : Rat × Rat} (hy : y0 ≤ p.2) (q : Quad) :
    look a g (cellOf a p) = some q ↔ ∃ i i' j, InCell a x0 xs y0 ys nx ny p i i' j ∧ Open g i i' j ∧ q = corners g i i' j := by
  constructor
  · intro hq
    by_cases hex : ∃ i i' j, InCell a x0 xs y0 ys nx ny p i i' j
    · obtain ⟨i, i', j, hc⟩ := hex
      rw [cellOf_eq h hc, getQuad_eq h g hc.i_lt hc.i'_eq hc.j_lt] at hq
      exact ⟨i, i', j, hc, hq⟩
    · push Not at hex
      rw [look_none h g hy hex] at hq
      cases hq
  · rintro ⟨i, i', j, hc, ho⟩
    rw [cellOf_eq h hc, getQuad_eq h g hc.i_lt hc.i'_eq hc.j_lt]
    exact ho

/-- Position at the south of the grid. -/
def South (y0 : Rat) (p : Rat × Rat) : Prop := p.2 < y0

/-- **C45**, one step of `advect` on a particle which is not at the south of the grid: lost exactly when no cell with four valid
corners contains it. -/
theorem advect_lost_iff_partial (h : Regular a x0 xs y0 ys nx ny) (g : Layer) {p : Rat × Rat} (hy : ¬ South y0 p) :
    advect a g 1 [⟨some p, false⟩] = [⟨none, true⟩] ↔ ¬ ∃ i i' j, InCell a x0 xs y0 ys nx ny p i i' j ∧ Open g i i' j := by
  have hy' : y0 ≤ p.2 := not_lt.1 hy
  have hclear : ∀ q ∈ [(⟨some p, false⟩ : Particle)], ∀ x, q.pos = some x → cellOf a x ≠ (-100000, -100000) := by
    intro q hq x hx hcell
    rw [List.mem_singleton.1 hq] at hx
    simp only [Option.some.injEq] at hx
    subst hx
    have : 0 ≤ (cellOf a p).2 := by
      unfold cellOf
      rw [h.yRef, h.yStep]
      exact Int.floor_nonneg.2 (div_nonneg (by linarith) h.ys_pos.le)
    rw [hcell] at this
    revert this; decide
  rw [advect_eq a g 1 _ hclear]
  have hl : (∃ i i' j, InCell a x0 xs y0 ys nx ny p i i' j ∧ Open g i i' j) ↔ look a g (cellOf a p) ≠ none := by
    rw [Option.ne_none_iff_exists']
    constructor
    · rintro ⟨i, i', j, h1, h2⟩
      exact ⟨_, (look_partial h g hy' _).2 ⟨i, i', j, h1, h2, rfl⟩⟩
    · rintro ⟨q, hq⟩
      obtain ⟨i, i', j, h1, h2, _⟩ := (look_partial h g hy' _).1 hq
      exact ⟨i, i', j, h1, h2⟩
  rw [hl, not_not]
  simp only [List.map_cons, List.map_nil, moveP, List.replicate_one, eulerP, field]
  cases hlk : look a g (cellOf a p) with
  | none => simp
  | some q => simp

/-- The grid of 3 × 3 points: a particle at the south of the grid is moved by the current of the northern line. -/
theorem south_wrong :
    advect small ⟨fun _ j => if j = 2 then 1 else 0, fun _ _ => 0, fun _ _ => false⟩ 1 [⟨some (1 / 2, -1), false⟩] =
      [⟨some (3 / 2, -1), false⟩] ∧
    ∀ i i' j, ¬ InCell small 0 1 0 1 3 3 (1 / 2, -1) i i' j := by
  refine ⟨by decide +kernel, ?_⟩
  intro i i' j hc
  have h1 := hc.y_in.1
  simp only [mul_one, zero_add] at h1
  have : (0 : Rat) ≤ (j : Rat) := by positivity
  linarith

/-- Farther at the south the code reads before the beginning of the array: the displacement is the unknown content of the memory. -/
theorem south_reads_outside (r : Rat) :
    advect small ⟨fun _ j => if 0 ≤ j then 0 else r, fun _ _ => 0, fun _ _ => false⟩ 1 [⟨some (1 / 2, -10), false⟩] =
      [⟨some (1 / 2 + r, -10), false⟩] := by
  have hcell : cellOf small (1 / 2, -10) = (0, -10) := by decide +kernel
  have hw : weights small (1 / 2, -10) = (1 / 2, 0) := by decide +kernel
  rw [advect_eq _ _ _ _ (by
    intro q hq x hx
    rw [List.mem_singleton.1 hq] at hx
    simp only [Option.some.injEq] at hx
    rw [← hx, hcell]; decide)]
  simp only [List.map_cons, List.map_nil, moveP, List.replicate_one, eulerP, field, hcell]
  have hl : look small ⟨fun _ j => if 0 ≤ j then 0 else r, fun _ _ => 0, fun _ _ => false⟩ (0, -10) = some ⟨r, r, r, r, 0, 0, 0, 0⟩ := by
    unfold look
    rw [if_neg (by decide +kernel)]
    have hn : small.nbX = 0 := by decide +kernel
    unfold getQuad
    simp only [hn]
    rfl
  rw [hl]
  simp only [hw, interp, List.cons.injEq, Particle.mk.injEq, Option.some.injEq, Prod.mk.injEq, and_true]
  refine ⟨by ring, by ring⟩

/-! ### Interpolation -/

/-- Inside a cell the velocity is between the velocities of the corners. -/
theorem interp_between {d : Rat × Rat} {q : Quad} {lo hi : Rat} (h1 : 0 ≤ d.1) (h2 : d.1 ≤ 1) (h3 : 0 ≤ d.2) (h4 : d.2 ≤ 1)
    (hu : ∀ v ∈ [q.u00, q.u01, q.u10, q.u11], lo ≤ v ∧ v ≤ hi) : lo ≤ (interp d q).1 ∧ (interp d q).1 ≤ hi := by
  simp only [List.mem_cons, List.not_mem_nil, or_false, forall_eq_or_imp, forall_eq] at hu
  obtain ⟨⟨a1, a2⟩, ⟨b1, b2⟩, ⟨c1, c2⟩, ⟨e1, e2⟩⟩ := hu
  have key : ∀ {s t r l u : Rat}, 0 ≤ r → r ≤ 1 → l ≤ s → s ≤ u → l ≤ t → t ≤ u → l ≤ s * (1 - r) + t * r ∧ s * (1 - r) + t * r ≤ u := by
    intro s t r l u r0 r1 h1 h2 h3 h4
    constructor <;> nlinarith
  obtain ⟨k1, k2⟩ := key h1 h2 a1 a2 c1 c2
  obtain ⟨k3, k4⟩ := key h1 h2 b1 b2 e1 e2
  exact key h3 h4 k1 k2 k3 k4

theorem weights_range (a : Axes) (p : Rat × Rat) :
    0 ≤ (weights a p).1 ∧ (weights a p).1 < 1 ∧ 0 ≤ (weights a p).2 ∧ (weights a p).2 < 1 := by
  unfold weights
  refine ⟨?_, ?_, ?_, ?_⟩
  · have := Int.floor_le ((p.1 - a.xRef) / a.xStep); simp only; linarith
  · have := Int.lt_floor_add_one ((p.1 - a.xRef) / a.xStep); simp only; linarith
  · have := Int.floor_le ((p.2 - a.yRef) / a.yStep); simp only; linarith
  · have := Int.lt_floor_add_one ((p.2 - a.yRef) / a.yStep); simp only; linarith

/-- A field of current which is affine in the coordinates of the grid. -/
structure Affine (g : Layer) (x0 xs y0 ys : Rat) (nx ny : Nat) (A B C A' B' C' : Rat) : Prop where
  u : ∀ i j : Nat, i < nx → j < ny → g.u i j = A * (x0 + i * xs) + B * (y0 + j * ys) + C
  v : ∀ i j : Nat, i < nx → j < ny → g.v i j = A' * (x0 + i * xs) + B' * (y0 + j * ys) + C'

/-- The interpolation is exact on affine fields (grids which are not circular). -/
theorem interp_affine (h : Regular a x0 xs y0 ys nx ny) (hcirc : a.circular = false) {g : Layer} {A B C A' B' C' : Rat}
    (hg : Affine g x0 xs y0 ys nx ny A B C A' B' C') {p : Rat × Rat} (hy : y0 ≤ p.2) {q : Quad} (hq : look a g (cellOf a p) = some q) :
    interp (weights a p) q = (A * p.1 + B * p.2 + C, A' * p.1 + B' * p.2 + C') := by
  obtain ⟨i, i', j, hc, _, rfl⟩ := (look_partial h g hy q).1 hq
  have hi' : i' = i + 1 ∧ i' < nx := by
    rcases hc.i'_eq with h' | ⟨h', _⟩
    · exact h'
    · rw [hcirc] at h'; cases h'
  obtain ⟨rfl, hlt⟩ := hi'
  have hcell := cellOf_eq h hc
  have hn : a.nbX = 0 := by unfold Axes.nbX; rw [if_neg (by simp [hcirc])]
  unfold cellOf at hcell
  rw [if_neg (by simp [hn]), h.xRef, h.yRef, h.xStep, h.yStep, Prod.mk.injEq] at hcell
  have hx : (p.1 - x0) / xs = (weights a p).1 + i := by
    unfold weights; rw [h.xRef, h.xStep, hcell.1]; push_cast; ring
  have hy : (p.2 - y0) / ys = (weights a p).2 + j := by
    unfold weights; rw [h.yRef, h.yStep, hcell.2]; push_cast; ring
  rw [div_eq_iff h.xs_pos.ne'] at hx
  rw [div_eq_iff h.ys_pos.ne'] at hy
  have hx' : p.1 = x0 + ((weights a p).1 + i) * xs := by linarith
  have hy' : p.2 = y0 + ((weights a p).2 + j) * ys := by linarith
  have hjlt := hc.j_lt
  unfold interp corners
  simp only [hg.u i j hc.i_lt (by omega), hg.u i (j + 1) hc.i_lt hjlt, hg.u (i + 1) j hlt (by omega), hg.u (i + 1) (j + 1) hlt hjlt,
    hg.v i j hc.i_lt (by omega), hg.v i (j + 1) hc.i_lt hjlt, hg.v (i + 1) j hlt (by omega), hg.v (i + 1) (j + 1) hlt hjlt]
  rw [hx', hy']
  push_cast
  refine Prod.ext ?_ ?_ <;> simp only <;> ring

/-- **C65**: one step of RK4 in an affine field `p ↦ M p + c` moves a particle by the Taylor polynomial of the exact flow up to the
fourth order: with `z` the velocity at the start, by `z + M z / 2 + M² z / 6 + M³ z / 24`. The four positions used must not be at
the south of the grid. -/
theorem rk4_order (h : Regular a x0 xs y0 ys nx ny) (hcirc : a.circular = false) {g : Layer} {A B C A' B' C' : Rat}
    (hg : Affine g x0 xs y0 ys nx ny A B C A' B' C') {p p' z1 z2 z3 z4 : Rat × Rat}
    (h1 : z1 = (A * p.1 + B * p.2 + C, A' * p.1 + B' * p.2 + C')) (h2 : z2 = (A * z1.1 + B * z1.2, A' * z1.1 + B' * z1.2))
    (h3 : z3 = (A * z2.1 + B * z2.2, A' * z2.1 + B' * z2.2)) (h4 : z4 = (A * z3.1 + B * z3.2, A' * z3.1 + B' * z3.2))
    (s1 : y0 ≤ p.2) (s2 : y0 ≤ p.2 + z1.2 / 2) (s3 : y0 ≤ p.2 + z1.2 / 2 + z2.2 / 4) (s4 : y0 ≤ p.2 + z1.2 + z2.2 / 2 + z3.2 / 4)
    (hrun : advectRk4 a g 1 [⟨some p, false⟩] = [⟨some p', false⟩]) :
    p' = (p.1 + (z1.1 + z2.1 / 2 + z3.1 / 6 + z4.1 / 24), p.2 + (z1.2 + z2.2 / 2 + z3.2 / 6 + z4.2 / 24)) := by
  have hclear : ∀ q ∈ [(⟨some p, false⟩ : Particle)], ∀ x, q.pos = some x → cellOf a x ≠ (-1000000, -1000000) := by
    intro q hq x hx hcell
    rw [List.mem_singleton.1 hq] at hx
    simp only [Option.some.injEq] at hx
    subst hx
    have : 0 ≤ (cellOf a p).2 := by
      unfold cellOf
      rw [h.yRef, h.yStep]
      exact Int.floor_nonneg.2 (div_nonneg (by linarith) h.ys_pos.le)
    rw [hcell] at this
    revert this; decide
  rw [advectRk4_eq a g 1 _ hclear] at hrun
  have hvel : ∀ {r k : Rat × Rat}, y0 ≤ r.2 → velAt (field a g) r () = some k → k = (A * r.1 + B * r.2 + C, A' * r.1 + B' * r.2 + C') := by
    intro r k hr hk
    unfold velAt field at hk
    simp only [Option.map_eq_some_iff] at hk
    obtain ⟨q, hq, rfl⟩ := hk
    exact interp_affine h hcirc hg hr hq
  simp only [List.map_cons, List.map_nil, moveP, List.replicate_one, rkP] at hrun
  cases hs : rkStepP (field a g) () () () () p with
  | none => rw [hs] at hrun; simp at hrun
  | some r =>
    rw [hs] at hrun
    simp only [Option.bind_some, List.cons.injEq, Particle.mk.injEq, Option.some.injEq, and_true] at hrun
    subst hrun
    unfold rkStepP at hs
    simp only [Option.bind_eq_some_iff, Option.map_eq_some_iff] at hs
    obtain ⟨k1, e1, k2, e2, k3, e3, k4, e4, rfl⟩ := hs
    have k1e := hvel s1 e1
    rw [← h1] at k1e
    subst k1e
    have k2e := hvel (by simp only; linarith) e2
    have k2z : k2 = (k1.1 + z2.1 / 2, k1.2 + z2.2 / 2) := by
      rw [k2e, h2]
      refine Prod.ext ?_ ?_
      · simp only; rw [h1]; ring
      · simp only; rw [h1]; ring
    have k3e := hvel (by rw [k2z]; simp only; linarith) e3
    have k3z : k3 = (k1.1 + z2.1 / 2 + z3.1 / 4, k1.2 + z2.2 / 2 + z3.2 / 4) := by
      rw [k3e, k2z, h3, h2]
      refine Prod.ext ?_ ?_
      · simp only; rw [h1]; ring
      · simp only; rw [h1]; ring
    have k4e := hvel (by rw [k3z]; simp only; linarith) e4
    have k4z : k4 = (k1.1 + z2.1 + z3.1 / 2 + z4.1 / 4, k1.2 + z2.2 + z3.2 / 2 + z4.2 / 4) := by
      rw [k4e, k3z, h4, h3, h2]
      refine Prod.ext ?_ ?_
      · simp only; rw [h1]; ring
      · simp only; rw [h1]; ring
    rw [k2z, k3z, k4z]
    refine Prod.ext ?_ ?_
    · simp only; ring
    · simp only; ring

/-- A field of rotation on a grid of 5 × 5 points. -/
def turning : Layer := ⟨fun _ j => 2 - (j : Rat), fun i _ => (i : Rat) - 2, fun _ _ => false⟩

example : Affine turning 0 1 0 1 5 5 0 (-1) 2 1 0 (-2) := by
  constructor <;> intro i j _ _ <;> simp [turning] <;> ring

example : advectRk4 ⟨[0, 1, 2, 3, 4], [0, 1, 2, 3, 4]⟩ turning 1 [⟨some (3, 2), false⟩] =
    [⟨some (3 - 1 / 2 + 1 / 24, 2 + 1 - 1 / 6), false⟩] := by decide +kernel

example : Regular small 0 1 0 1 3 3 := by
  refine ⟨by norm_num, by norm_num, by norm_num, by norm_num, by decide +kernel, by decide +kernel, ?_⟩
  have : small.circular = false := by decide +kernel
  rw [this]; intro h; cases h

end Verif.Advect
