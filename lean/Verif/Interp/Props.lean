import Verif.Interp.Model
import Verif.Pixels.Props
import Verif.Poly.Indexs

/-!
# C79, C80: interpolation of a grid
-/

namespace Verif.Interp

open Verif.Poly (Pt)

/-! ### Specification -/

/-- A regular axis: at least two nodes, `node k = a + k * d`. -/
structure Regular (l : List Rat) (a d : Rat) : Prop where
  two : 2 ≤ l.length
  step : d ≠ 0
  node : ∀ k : Nat, k < l.length → l[k]? = some (a + k * d)

/-- The cell `i, j` of the grid: nodes `i`, `i + 1` and `j`, `j + 1` are in the grid and no one is masked. -/
structure Cell (g : Grid) (i j : Int) : Prop where
  west : 0 ≤ i
  east : i + 1 < g.xs.length
  south : 0 ≤ j
  north : j + 1 < g.ys.length
  valid : ∀ a b : Int, (a = i ∨ a = i + 1) → (b = j ∨ b = j + 1) → g.m a b = false

/-- The grid makes the turn: the nodes and 360 degrees match. -/
def Global (g : Grid) (d : Rat) : Prop := d * g.xs.length = 360

/-! ### Lemmas -/

theorem Regular.ref_eq {l : List Rat} {a d : Rat} (h : Regular l a d) : ref l = a := by
  have := h.node 0 (by have := h.two; omega)
  unfold ref
  rw [List.getD_eq_getElem?_getD, this]
  simp

theorem Regular.step_eq {l : List Rat} {a d : Rat} (h : Regular l a d) : Interp.step l = d := by
  have := h.node 1 (by have := h.two; omega)
  unfold Interp.step
  rw [h.ref_eq, List.getD_eq_getElem?_getD, this]
  simp

theorem Regular.last_eq {l : List Rat} {a d : Rat} (h : Regular l a d) : l.getLastD 0 = a + ((l.length : Rat) - 1) * d := by
  have h2 := h.two
  have hn := h.node (l.length - 1) (by omega)
  have e : l.getLastD 0 = (l[l.length - 1]?).getD 0 := by
    rw [← List.getLast?_eq_getElem?, List.getLastD_eq_getLast?]
  rw [e, hn, Option.getD_some, Nat.cast_sub (by omega), Nat.cast_one]

/-- A grid which makes the turn is circular for the code. -/
theorem circular_of_global {g : Grid} {a d : Rat} (h : Regular g.xs a d) (hg : Global g d) : isCircular g.xs = true := by
  unfold isCircular
  rw [h.ref_eq, h.step_eq, h.last_eq, decide_eq_true_eq]
  obtain ⟨h1, h2, k, hk⟩ := Py.fmod_spec (a - d) (show (0 : Rat) < 360 by norm_num)
  have : Py.fmod (a + ((g.xs.length : Rat) - 1) * d) 360 = Py.fmod (a - d) 360 := by
    apply Poly.fmod_unique h1 h2 (k := k - 1)
    unfold Global at hg
    rw [hk]
    push_cast
    linear_combination (-1) * hg
  rw [this]
  norm_num

/-- Value at one point, without memory of the other points. -/
def value (g : Grid) (p : Pt) : Option Rat :=
  let x := (p.1 - ref g.xs) / step g.xs
  let y := (p.2 - ref g.ys) / step g.ys
  (corners g (wrap g ⌊x⌋) (wrap g (⌊x⌋ + 1)) ⌊y⌋ (⌊y⌋ + 1)).map (fun c => blend c (x - ⌊x⌋) (y - ⌊y⌋))

/-- What is kept is the content of the cell of the indices kept. -/
def Good (g : Grid) (s : Cache) : Prop := s.c = corners g (wrap g s.i) (wrap g (s.i + 1)) s.j (s.j + 1)

theorem wrap_idem {g : Grid} (i : Int) : wrap g (wrap g i) = wrap g i := by
  unfold wrap
  split
  · exact Int.emod_emod_of_dvd i (dvd_refl _)
  · rfl

theorem wrap_succ {g : Grid} (i : Int) : wrap g (wrap g i + 1) = wrap g (i + 1) := by
  unfold wrap
  split
  · rw [Int.emod_add_emod]
  · rfl

theorem step_good {g : Grid} {s : Cache} (p : Pt)
    (h : Good g s ∨ ⌊(p.1 - ref g.xs) / step g.xs⌋ ≠ s.i ∨ ⌊(p.2 - ref g.ys) / step g.ys⌋ ≠ s.j) :
    Good g (bilinearStep g s p).1 ∧ (bilinearStep g s p).2 = value g p := by
  unfold bilinearStep
  simp only
  by_cases hc : ⌊(p.1 - ref g.xs) / step g.xs⌋ ≠ s.i ∨ ⌊(p.2 - ref g.ys) / step g.ys⌋ ≠ s.j
  · rw [if_pos hc]
    refine ⟨?_, rfl⟩
    unfold Good
    simp only
    rw [wrap_idem, wrap_succ]
  · rw [if_neg hc]
    have hg : Good g s := h.resolve_right hc
    refine ⟨hg, ?_⟩
    push Not at hc
    unfold value
    simp only
    rw [hg, hc.1, hc.2]

theorem loop_good {g : Grid} : ∀ (pts : List Pt) (s : Cache), Good g s → bilinearLoop g s pts = pts.map (value g)
  | [], _, _ => rfl
  | p :: l, s, h => by
    obtain ⟨h1, h2⟩ := step_good p (Or.inl h)
    rw [bilinearLoop, h2, loop_good l _ h1, List.map_cons]

/-- **C79** (memory): the value given at a point depends only on this point, whatever the points before it, and whatever the memory holds
at the start. The first point must not be in the cell of the initial marks. -/
theorem bilinear_pointwise (g : Grid) (junk : Corners) (pts : List Pt)
    (h : ∀ p, pts.head? = some p → ¬ (⌊(p.1 - ref g.xs) / step g.xs⌋ = -100000000 ∧ ⌊(p.2 - ref g.ys) / step g.ys⌋ = -10000000)) :
    bilinear g junk pts = pts.map (value g) := by
  cases pts with
  | nil => rfl
  | cons p l =>
    unfold bilinear
    have hc := h p rfl
    rw [not_and_or] at hc
    obtain ⟨h1, h2⟩ := step_good (g := g) (s := ⟨-100000000, -10000000, some junk⟩) p (Or.inr hc)
    rw [bilinearLoop, h2, loop_good l _ h1, List.map_cons]

/-! ### Values -/

theorem wrap_cell {g : Grid} {i j : Int} (h : Cell g i j) : wrap g i = i ∧ wrap g (i + 1) = i + 1 := by
  unfold wrap
  have := h.west
  have := h.east
  split
  · exact ⟨Int.emod_eq_of_lt (by omega) (by omega), Int.emod_eq_of_lt (by omega) (by omega)⟩
  · exact ⟨rfl, rfl⟩

theorem corners_cell {g : Grid} {i j : Int} (h : Cell g i j) :
    corners g i (i + 1) j (j + 1) = some ⟨g.z i j, g.z i (j + 1), g.z (i + 1) j, g.z (i + 1) (j + 1)⟩ := by
  have h1 := h.west
  have h2 := h.east
  have h3 := h.south
  have h4 := h.north
  unfold corners
  rw [if_neg (by omega), if_neg]
  simp [h.valid i j (Or.inl rfl) (Or.inl rfl), h.valid i (j + 1) (Or.inl rfl) (Or.inr rfl), h.valid (i + 1) j (Or.inr rfl) (Or.inl rfl),
    h.valid (i + 1) (j + 1) (Or.inr rfl) (Or.inr rfl)]

theorem floor_cell {a d x : Rat} {i : Int} {t : Rat} (hd : d ≠ 0) (hx : x = a + (i + t) * d) (h0 : 0 ≤ t) (h1 : t < 1) :
    ⌊(x - a) / d⌋ = i ∧ (x - a) / d - i = t := by
  have e : (x - a) / d = i + t := by
    rw [hx]
    field_simp
    ring
  rw [e]
  refine ⟨?_, by ring⟩
  rw [Int.floor_eq_iff]
  constructor <;> linarith

/-- Value inside a cell. -/
theorem value_cell {g : Grid} {a d b e : Rat} (hx : Regular g.xs a d) (hy : Regular g.ys b e) {i j : Int} (h : Cell g i j) {s t : Rat}
    (s0 : 0 ≤ s) (s1 : s < 1) (t0 : 0 ≤ t) (t1 : t < 1) : value g (a + (i + s) * d, b + (j + t) * e) =
      some ((g.z i j * (1 - s) + g.z (i + 1) j * s) * (1 - t) + (g.z i (j + 1) * (1 - s) + g.z (i + 1) (j + 1) * s) * t) := by
  unfold value
  simp only
  rw [hx.ref_eq, hx.step_eq, hy.ref_eq, hy.step_eq]
  obtain ⟨f1, f2⟩ := floor_cell (a := a) hx.step (rfl : a + (i + s) * d = a + (i + s) * d) s0 s1
  obtain ⟨f3, f4⟩ := floor_cell (a := b) hy.step (rfl : b + (j + t) * e = b + (j + t) * e) t0 t1
  rw [f1, f3, f2, f4, (wrap_cell h).1, (wrap_cell h).2, corners_cell h]
  rfl

/-- **C79** (nodes): the value at a node is the value of the grid. Missing: the last row and the last column, see `last_row_wrong`. -/
theorem node_partial {g : Grid} {a d b e : Rat} (hx : Regular g.xs a d) (hy : Regular g.ys b e) {i j : Int} (h : Cell g i j) :
    value g (a + i * d, b + j * e) = some (g.z i j) := by
  have := value_cell hx hy h (s := 0) (t := 0) (le_refl _) (by norm_num) (le_refl _) (by norm_num)
  rw [add_zero, add_zero] at this
  rw [this]
  congr 1
  ring

/-- **C79** (exactness): a field which is bilinear in the coordinates is given back exactly in every valid cell. -/
theorem bilinear_exact {g : Grid} {a d b e : Rat} (hx : Regular g.xs a d) (hy : Regular g.ys b e) {i j : Int} (h : Cell g i j)
    {c0 c1 c2 c3 : Rat} (hz : ∀ k l : Int, g.z k l = c0 + c1 * (a + k * d) + c2 * (b + l * e) + c3 * (a + k * d) * (b + l * e))
    {s t : Rat} (s0 : 0 ≤ s) (s1 : s < 1) (t0 : 0 ≤ t) (t1 : t < 1) {x y : Rat} (ex : x = a + (i + s) * d) (ey : y = b + (j + t) * e) :
    value g (x, y) = some (c0 + c1 * x + c2 * y + c3 * x * y) := by
  subst ex ey
  rw [value_cell hx hy h s0 s1 t0 t1]
  congr 1
  simp only [hz]
  push_cast
  ring

/-- **C79** (range): the value is between the least and the greatest value of the four corners. -/
theorem bilinear_range {g : Grid} {a d b e : Rat} (hx : Regular g.xs a d) (hy : Regular g.ys b e) {i j : Int} (h : Cell g i j)
    {s t : Rat} (s0 : 0 ≤ s) (s1 : s < 1) (t0 : 0 ≤ t) (t1 : t < 1) {lo hi : Rat}
    (hb : ∀ k l : Int, (k = i ∨ k = i + 1) → (l = j ∨ l = j + 1) → lo ≤ g.z k l ∧ g.z k l ≤ hi) :
    ∃ v, value g (a + (i + s) * d, b + (j + t) * e) = some v ∧ lo ≤ v ∧ v ≤ hi := by
  refine ⟨_, value_cell hx hy h s0 s1 t0 t1, ?_⟩
  obtain ⟨a1, a2⟩ := hb i j (Or.inl rfl) (Or.inl rfl)
  obtain ⟨b1, b2⟩ := hb (i + 1) j (Or.inr rfl) (Or.inl rfl)
  obtain ⟨c1, c2⟩ := hb i (j + 1) (Or.inl rfl) (Or.inr rfl)
  obtain ⟨d1, d2⟩ := hb (i + 1) (j + 1) (Or.inr rfl) (Or.inr rfl)
  have s2 : 0 ≤ 1 - s := by linarith
  have t2 : 0 ≤ 1 - t := by linarith
  have mix : ∀ {r u v : Rat}, 0 ≤ r → 0 ≤ 1 - r → lo ≤ u → u ≤ hi → lo ≤ v → v ≤ hi → lo ≤ u * (1 - r) + v * r ∧ u * (1 - r) + v * r ≤ hi := by
    intro r u v r0 r1 u1 u2 v1 v2
    constructor <;> nlinarith
  obtain ⟨m1, m2⟩ := mix s0 s2 a1 a2 b1 b2
  obtain ⟨n1, n2⟩ := mix s0 s2 c1 c2 d1 d2
  exact mix t0 t2 m1 m2 n1 n2

/-- **C79** (undefined): on a grid which is not circular, a point has a value exactly when it is in a valid cell. -/
theorem defined_iff {g : Grid} {a d b e : Rat} (hx : Regular g.xs a d) (hy : Regular g.ys b e) (hc : isCircular g.xs = false) (p : Pt) :
    (value g p).isSome = true ↔ ∃ i j : Int, Cell g i j ∧ ∃ s t : Rat, 0 ≤ s ∧ s < 1 ∧ 0 ≤ t ∧ t < 1 ∧ p = (a + (i + s) * d, b + (j + t) * e) := by
  constructor
  · intro h
    unfold value at h
    simp only at h
    rw [Option.isSome_map, hx.ref_eq, hx.step_eq, hy.ref_eq, hy.step_eq] at h
    refine ⟨⌊(p.1 - a) / d⌋, ⌊(p.2 - b) / e⌋, ?_, Int.fract ((p.1 - a) / d), Int.fract ((p.2 - b) / e), Int.fract_nonneg _, Int.fract_lt_one _,
      Int.fract_nonneg _, Int.fract_lt_one _, ?_⟩
    · unfold wrap at h
      rw [hc] at h
      simp only [Bool.false_eq_true, if_false] at h
      unfold corners at h
      by_cases h1 : ⌊(p.1 - a) / d⌋ + 1 ≥ (g.xs.length : Int) ∨ ⌊(p.1 - a) / d⌋ < 0 ∨ ⌊(p.2 - b) / e⌋ < 0 ∨ ⌊(p.2 - b) / e⌋ + 1 ≥ (g.ys.length : Int)
      · rw [if_pos h1] at h
        simp at h
      · rw [if_neg h1] at h
        push Not at h1
        refine ⟨h1.2.1, h1.1, h1.2.2.1, h1.2.2.2, ?_⟩
        intro u w hu hw
        by_contra hm
        rw [Bool.not_eq_false] at hm
        rw [if_pos] at h
        · simp at h
        · rcases hu with rfl | rfl <;> rcases hw with rfl | rfl <;> simp [hm]
    · have e1 : (p.1 - a) / d * d = p.1 - a := div_mul_cancel₀ _ hx.step
      have e2 : (p.2 - b) / e * e = p.2 - b := div_mul_cancel₀ _ hy.step
      rw [Int.floor_add_fract, Int.floor_add_fract, e1, e2]
      ext <;> simp
  · rintro ⟨i, j, h, s, t, s0, s1, t0, t1, rfl⟩
    rw [value_cell hx hy h s0 s1 t0 t1]
    rfl

/-- **C79** (turn): on a global grid the value does not change with a whole turn. -/
theorem bilinear_turn {g : Grid} {a d : Rat} (hx : Regular g.xs a d) (hg : Global g d) (p : Pt) (k : Int) :
    value g (p.1 + 360 * k, p.2) = value g p := by
  have hcirc := circular_of_global hx hg
  unfold value
  simp only
  rw [hx.ref_eq, hx.step_eq]
  have hd := hx.step
  have e : (p.1 + 360 * k - a) / d = (p.1 - a) / d + ((g.xs.length * k : Int) : Rat) := by
    unfold Global at hg
    rw [← hg]
    field_simp
    push_cast
    ring
  rw [e, Int.floor_add_intCast]
  have w : ∀ i : Int, wrap g (i + g.xs.length * k) = wrap g i := by
    intro i
    unfold wrap
    rw [hcirc]
    simp only [if_true]
    exact Int.add_mul_emod_self_left i _ k
  rw [w, show ⌊(p.1 - a) / d⌋ + (g.xs.length : Int) * k + 1 = (⌊(p.1 - a) / d⌋ + 1) + (g.xs.length : Int) * k by ring, w]
  congr 1
  funext c
  congr 1
  push_cast
  ring

/-- **C79** (turn): on a global grid, the value between the last node and the first one is the mean of both. -/
theorem bilinear_seam {g : Grid} {a d b e : Rat} (hx : Regular g.xs a d) (hy : Regular g.ys b e) (hg : Global g d) {j : Int} (j0 : 0 ≤ j)
    (j1 : j + 1 < g.ys.length) (hm : ∀ i k : Int, g.m i k = false) {s t : Rat} (s0 : 0 ≤ s) (s1 : s < 1) (t0 : 0 ≤ t) (t1 : t < 1) :
    value g (a + (((g.xs.length : Int) - 1 : Int) + s) * d, b + (j + t) * e) =
      some ((g.z (g.xs.length - 1) j * (1 - s) + g.z 0 j * s) * (1 - t) + (g.z (g.xs.length - 1) (j + 1) * (1 - s) + g.z 0 (j + 1) * s) * t) := by
  have hcirc := circular_of_global hx hg
  have h2 := hx.two
  unfold value
  simp only
  rw [hx.ref_eq, hx.step_eq, hy.ref_eq, hy.step_eq]
  obtain ⟨f1, f2⟩ := floor_cell (a := a) (i := (g.xs.length : Int) - 1) hx.step rfl s0 s1
  obtain ⟨f3, f4⟩ := floor_cell (a := b) (i := j) hy.step rfl t0 t1
  rw [f1, f3, f2, f4]
  have w0 : wrap g ((g.xs.length : Int) - 1) = (g.xs.length : Int) - 1 := by
    unfold wrap
    rw [hcirc]
    simp only [if_true]
    exact Int.emod_eq_of_lt (by omega) (by omega)
  have w1 : wrap g ((g.xs.length : Int) - 1 + 1) = 0 := by
    unfold wrap
    rw [hcirc]
    simp
  rw [w0, w1]
  unfold corners
  rw [if_neg (by omega), if_neg (by simp [hm])]
  rfl

/-! ### What the code does not do -/

/-- A grid of two nodes by two. -/
def small (m : Int → Int → Bool) : Grid := ⟨[0, 1], [0, 1], fun i j => i + 10 * j, m⟩

/-- A point on the last row (or column) of the grid has no value, even on a node. -/
theorem last_row_wrong : value (small fun _ _ => false) (0, 1) = none ∧ value (small fun _ _ => false) (1, 0) = none ∧
    value (small fun _ _ => false) (0, 0) = some 0 := by
  decide +kernel

/-- Nodes which make the turn up to 0.000002 degrees: the remainders are on both sides of 0, the grid is not found circular. -/
theorem circular_wrong : isCircular [60000001 / 1000000, 120, 180000000 / 1000000, 240, 300, 359999999 / 1000000] = false ∧
    isCircular [60, 120, 180, 240, 300, 360] = true := by
  constructor
  · unfold isCircular
    rw [decide_eq_false_iff_not, not_lt]
    have e1 : Py.fmod (([60000001 / 1000000, 120, 180000000 / 1000000, 240, 300, 359999999 / 1000000] : List Rat).getLastD 0) 360 = 359999999 / 1000000 := by
      decide +kernel
    have e2 : Py.fmod (ref [60000001 / 1000000, 120, 180000000 / 1000000, 240, 300, 359999999 / 1000000] -
        step [60000001 / 1000000, 120, 180000000 / 1000000, 240, 300, 359999999 / 1000000]) 360 = 2 / 1000000 := by
      decide +kernel
    rw [e1, e2]
    norm_num
  · unfold isCircular
    rw [decide_eq_true_eq]
    have e1 : Py.fmod (([60, 120, 180, 240, 300, 360] : List Rat).getLastD 0) 360 = 0 := by decide +kernel
    have e2 : Py.fmod (ref [60, 120, 180, 240, 300, 360] - step [60, 120, 180, 240, 300, 360]) 360 = 0 := by decide +kernel
    rw [e1, e2]
    norm_num

/-! ### C80: nearest node -/

theorem rint_nearest (x : Rat) (k : Int) : |x - Amplitude.rint x| ≤ |x - k| := by
  obtain ⟨h1, h2⟩ := Pixels.rint_bounds x
  rcases lt_trichotomy k (Amplitude.rint x) with h | h | h
  · have h3 : (k : Rat) + 1 ≤ Amplitude.rint x := by exact_mod_cast h
    have : |x - Amplitude.rint x| ≤ 1 / 2 := abs_le.2 ⟨by linarith, by linarith⟩
    have : x - k ≤ |x - k| := le_abs_self _
    linarith
  · rw [h]
  · have h3 : (Amplitude.rint x : Rat) + 1 ≤ k := by exact_mod_cast h
    have : |x - Amplitude.rint x| ≤ 1 / 2 := abs_le.2 ⟨by linarith, by linarith⟩
    have : -(x - k) ≤ |x - k| := neg_le_abs _
    linarith

theorem axis_nearest {a d : Rat} (hd : d ≠ 0) (x : Rat) (k : Int) : |x - (a + Amplitude.rint ((x - a) / d) * d)| ≤ |x - (a + k * d)| := by
  have h := rint_nearest ((x - a) / d) k
  have e : ∀ z : Rat, x - (a + z * d) = ((x - a) / d - z) * d := by
    intro z
    field_simp
    ring
  rw [e, e, abs_mul, abs_mul]
  exact mul_le_mul_of_nonneg_right h (abs_nonneg d)

/-- **C80**: on a grid which is not circular, a value is the one of a node which is the nearest of all in both coordinates; there is no value
exactly when this node is out of the grid. Missing: masked nodes, see `nearest_masked_wrong`. -/
theorem nearest_partial {g : Grid} {a d b e : Rat} (hx : Regular g.xs a d) (hy : Regular g.ys b e) (hc : isCircular g.xs = false) (p : Pt) :
    ∃ i j : Int, (∀ k : Int, |p.1 - (a + i * d)| ≤ |p.1 - (a + k * d)|) ∧ (∀ k : Int, |p.2 - (b + j * e)| ≤ |p.2 - (b + k * e)|) ∧
      nearestOne g p = if 0 ≤ i ∧ i < g.xs.length ∧ 0 ≤ j ∧ j < g.ys.length then some (g.z i j) else none := by
  refine ⟨Amplitude.rint ((p.1 - a) / d), Amplitude.rint ((p.2 - b) / e), axis_nearest hx.step p.1, axis_nearest hy.step p.2, ?_⟩
  unfold nearestOne wrap
  rw [hc, hx.ref_eq, hx.step_eq, hy.ref_eq, hy.step_eq]
  simp only [Bool.false_eq_true, if_false]
  split
  · rw [if_neg (by omega)]
  · rw [if_pos (by omega)]

/-- **C80** (turn): on a global grid, the value is the one of a node which is the nearest modulo 360 degrees. -/
theorem nearest_global_partial {g : Grid} {a d b e : Rat} (hx : Regular g.xs a d) (hy : Regular g.ys b e) (hg : Global g d) (p : Pt) :
    ∃ i j n : Int, 0 ≤ i ∧ i < g.xs.length ∧ (∀ k m : Int, |p.1 + 360 * n - (a + i * d)| ≤ |p.1 + 360 * m - (a + k * d)|) ∧
      (∀ k : Int, |p.2 - (b + j * e)| ≤ |p.2 - (b + k * e)|) ∧
      nearestOne g p = if 0 ≤ j ∧ j < g.ys.length then some (g.z i j) else none := by
  have hcirc := circular_of_global hx hg
  have h2 := hx.two
  set r := Amplitude.rint ((p.1 - a) / d) with hr
  have hpos : (0 : Int) < g.xs.length := by omega
  have hn0 := Int.emod_nonneg r (ne_of_gt hpos)
  have hn1 := Int.emod_lt_of_pos r hpos
  have hdiv := Int.emod_add_mul_ediv r g.xs.length
  refine ⟨r % g.xs.length, Amplitude.rint ((p.2 - b) / e), -(r / g.xs.length), hn0, hn1, ?_, axis_nearest hy.step p.2, ?_⟩
  · intro k m
    unfold Global at hg
    have hdivR : ((r % (g.xs.length : Int) : Int) : Rat) + (g.xs.length : Rat) * ((r / (g.xs.length : Int) : Int) : Rat) = (r : Rat) := by
      exact_mod_cast hdiv
    have e1 : p.1 + 360 * ((-(r / (g.xs.length : Int)) : Int) : Rat) - (a + ((r % (g.xs.length : Int) : Int) : Rat) * d) = p.1 - (a + r * d) := by
      rw [← hdivR, ← hg]
      push_cast
      ring
    have e2 : p.1 + 360 * (m : Rat) - (a + k * d) = p.1 - (a + ((k - g.xs.length * m : Int) : Rat) * d) := by
      rw [← hg]
      push_cast
      ring
    rw [e1, e2]
    exact axis_nearest hx.step p.1 _
  · unfold nearestOne wrap
    rw [hcirc, hx.ref_eq, hx.step_eq, hy.ref_eq, hy.step_eq]
    simp only [if_true]
    rw [← hr]
    split
    · rw [if_neg (by omega)]
    · rw [if_pos (by omega)]

/-- The value of a masked node is given. -/
theorem nearest_masked_wrong : nearestOne (small fun _ _ => true) (1, 1) = some 11 ∧ value (small fun _ _ => true) (0, 0) = none := by
  decide +kernel

/-- A regular grid. -/
example : Regular [0, 1] 0 1 ∧ Cell (small fun _ _ => false) 0 0 := by
  refine ⟨⟨by simp, by norm_num, ?_⟩, ⟨by omega, by simp [small], by omega, by simp [small], fun _ _ _ _ => rfl⟩⟩
  intro k hk
  have : k = 0 ∨ k = 1 := by simp at hk; omega
  rcases this with rfl | rfl <;> simp

/-- Four nodes of 90 degrees make the turn. -/
example : Regular [45, 135, 225, 315] 45 90 ∧ Global ⟨[45, 135, 225, 315], [0, 1], fun i _ => i, fun _ _ => false⟩ 90 := by
  refine ⟨⟨by simp, by norm_num, ?_⟩, by unfold Global; norm_num⟩
  intro k hk
  have : k = 0 ∨ k = 1 ∨ k = 2 ∨ k = 3 := by simp at hk; omega
  rcases this with rfl | rfl | rfl | rfl <;> norm_num

end Verif.Interp
