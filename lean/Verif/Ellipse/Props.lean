import Verif.Ellipse.Model
import Mathlib.Algebra.Order.BigOperators.Group.Finset
import Mathlib.Tactic.Linarith
import Mathlib.Tactic.LinearCombination
import Mathlib.Tactic.FieldSimp
import Mathlib.Tactic.NormNum

namespace Verif.Ellipse

noncomputable section

open Real Finset

/-! ## Specification -/

/-- The point is on the conic. -/
def OnConic (s : Conic) (x y : ℝ) : Prop := s.a * x ^ 2 + s.b * (x * y) + s.c * y ^ 2 + s.d * x + s.e * y = 1

/-- The point is on the ellipse of centre `(x0, y0)` whose half axis in the direction `theta` is `A` and whose other half
axis is `B`. -/
def OnEllipse (p : Ell) (x y : ℝ) : Prop :=
  (((x - p.x0) * cos p.theta + (y - p.y0) * sin p.theta) / p.A) ^ 2
    + ((-(x - p.x0) * sin p.theta + (y - p.y0) * cos p.theta) / p.B) ^ 2 = 1

/-- `s` is a least squares solution of the `n` equations `A i · s = b i`. -/
def LeastSquares5 (n : ℕ) (A : ℕ → ℝ × ℝ × ℝ × ℝ × ℝ) (b : ℕ → ℝ) (s : Conic) : Prop :=
  ∀ s' : Conic,
    ∑ i ∈ range n, ((A i).1 * s.a + (A i).2.1 * s.b + (A i).2.2.1 * s.c + (A i).2.2.2.1 * s.d + (A i).2.2.2.2 * s.e
        - b i) ^ 2
      ≤ ∑ i ∈ range n, ((A i).1 * s'.a + (A i).2.1 * s'.b + (A i).2.2.1 * s'.c + (A i).2.2.2.1 * s'.d
        + (A i).2.2.2.2 * s'.e - b i) ^ 2

/-! ## Lemmas -/

/-- The conic seen from its centre. -/
theorem conic_centre (a b c d e D x0 y0 : ℝ) (hD : D = b ^ 2 - 4 * a * c) (hD0 : D ≠ 0)
    (hx0 : x0 = (2 * c * d - b * e) / D) (hy0 : y0 = (2 * a * e - b * d) / D) (x y : ℝ) :
    OnConic ⟨a, b, c, d, e⟩ x y ↔
      a * (x - x0) ^ 2 + b * ((x - x0) * (y - y0)) + c * (y - y0) ^ 2
        = -(a * e ^ 2 + c * d ^ 2 - b * d * e - D) / D := by
  have hcx : D * x0 = 2 * c * d - b * e := by rw [hx0]; field_simp
  have hcy : D * y0 = 2 * a * e - b * d := by rw [hy0]; field_simp
  have hg1 : 2 * a * x0 + b * y0 = -d := by
    apply mul_left_cancel₀ hD0
    linear_combination 2 * a * hcx + b * hcy + d * hD
  have hg2 : b * x0 + 2 * c * y0 = -e := by
    apply mul_left_cancel₀ hD0
    linear_combination b * hcx + 2 * c * hcy + e * hD
  have hv : a * x0 ^ 2 + b * (x0 * y0) + c * y0 ^ 2 + 1 = -(a * e ^ 2 + c * d ^ 2 - b * d * e - D) / D := by
    rw [eq_div_iff hD0]
    have h1 : 2 * (a * x0 ^ 2 + b * (x0 * y0) + c * y0 ^ 2) = -(d * x0 + e * y0) := by
      linear_combination x0 * hg1 + y0 * hg2
    linear_combination (D / 2) * h1 - (d / 2) * hcx - (e / 2) * hcy
  have key : a * (x - x0) ^ 2 + b * ((x - x0) * (y - y0)) + c * (y - y0) ^ 2
        - -(a * e ^ 2 + c * d ^ 2 - b * d * e - D) / D
      = a * x ^ 2 + b * (x * y) + c * y ^ 2 + d * x + e * y - 1 := by
    linear_combination hv - x * hg1 - y * hg2
  unfold OnConic
  simp only
  constructor
  · intro h
    linarith
  · intro h
    linarith

/-- The quadratic form of an ellipse has the sign of its first coefficient. -/
theorem form_sign (a b c : ℝ) (hdet : b ^ 2 - 4 * a * c < 0) (u w : ℝ) (h : u ≠ 0 ∨ w ≠ 0) :
    0 < a * (a * u ^ 2 + b * (u * w) + c * w ^ 2) := by
  have e : a * (a * u ^ 2 + b * (u * w) + c * w ^ 2)
      = (a * u + b / 2 * w) ^ 2 + (-(b ^ 2 - 4 * a * c) / 4) * w ^ 2 := by ring
  have ha : a ≠ 0 := by
    rintro rfl
    linarith [sq_nonneg b]
  rw [e]
  by_cases hw : w = 0
  · have hu : u ≠ 0 := h.resolve_right (fun h => h hw)
    rw [hw]
    have h1 := mul_ne_zero ha hu
    have : 0 < (a * u) ^ 2 := by positivity
    linarith [show (a * u + b / 2 * 0) ^ 2 + (-(b ^ 2 - 4 * a * c) / 4) * 0 ^ 2 = (a * u) ^ 2 by ring]
  · have h1 : 0 < w ^ 2 := by positivity
    have h2 := mul_pos (show 0 < -(b ^ 2 - 4 * a * c) / 4 by linarith) h1
    linarith [sq_nonneg (a * u + b / 2 * w)]

/-- The two eigenvalues of the form have the sign of its first coefficient. -/
theorem eigen_sign (a b c S : ℝ) (hdet : b ^ 2 - 4 * a * c < 0) (hS2 : S ^ 2 = (a - c) ^ 2 + b ^ 2) :
    0 < a ^ 2 ∧ 0 < a * (a + c + S) ∧ 0 < a * (a + c - S) := by
  have ha : a ≠ 0 := by
    rintro rfl
    linarith [sq_nonneg b]
  have ha2 : 0 < a ^ 2 := by positivity
  have hac : 0 < a * c := by linarith [sq_nonneg b]
  have hprod : (a * (a + c + S)) * (a * (a + c - S)) = a ^ 2 * -(b ^ 2 - 4 * a * c) := by
    linear_combination -a ^ 2 * hS2
  have hpos : 0 < (a * (a + c + S)) * (a * (a + c - S)) := by
    rw [hprod]
    exact mul_pos ha2 (by linarith)
  refine ⟨ha2, ?_⟩
  rcases pos_and_pos_or_neg_and_neg_of_mul_pos hpos with h | h
  · exact h
  · have hsum : a * (a + c + S) + a * (a + c - S) = 2 * (a ^ 2 + a * c) := by ring
    linarith [h.1, h.2]

/-- The form in its axes. -/
theorem form_axes (a b c S m u w : ℝ) (hb : b ≠ 0) (hS2 : S ^ 2 = (a - c) ^ 2 + b ^ 2) (hm : m = (c - a - S) / b) :
    (u + m * w) ^ 2 * (a + c - S) / 2 + (w - m * u) ^ 2 * (a + c + S) / 2
      = (a * u ^ 2 + b * (u * w) + c * w ^ 2) * (1 + m ^ 2) := by
  have hbm : b * m = c - a - S := by rw [hm]; field_simp
  have hm2 : b * m ^ 2 = b + 2 * (c - a) * m := by
    apply mul_left_cancel₀ hb
    linear_combination (b * m + (c - a - S) - 2 * (c - a)) * hbm + hS2
  have hSm : S = c - a - b * m := by linarith
  rw [hSm]
  linear_combination ((m * (w ^ 2 - u ^ 2)) / 2 + u * w) * hm2

theorem axes_sum (W D P Q k u v : ℝ) (hW : W ≠ 0) (hP : P ≠ 0) (hQ : Q ≠ 0) (hPQ : P * Q = -D) :
    u / k / (2 * W * P / D ^ 2) + v / k / (2 * W * Q / D ^ 2) = (u * Q / 2 + v * P / 2) / k * (-D / W) := by
  have hDe : D = -(P * Q) := by linarith
  rw [hDe]
  by_cases hk : k = 0
  · rw [hk]; simp
  · field_simp

/-! ## C102 -/

/-- When the fitted conic is an ellipse (negative discriminant, at least two points) with slanted axes, the answer
describes this very ellipse: same points, positive half axes.

Missing: the axes parallel to the axes of coordinates, and the circle, see `fit_ellipse_aligned_wrong`. -/
theorem fit_ellipse_conic_partial (s : Conic) (hb : s.b ≠ 0) (hdet : s.b ^ 2 - 4 * s.a * s.c < 0)
    (hpts : ∃ x y x' y' : ℝ, OnConic s x y ∧ OnConic s x' y' ∧ (x, y) ≠ (x', y')) :
    ∃ p, params s = some p ∧ 0 < p.A ∧ 0 < p.B ∧ ∀ x y, OnConic s x y ↔ OnEllipse p x y := by
  obtain ⟨a, b, c, d, e⟩ := s
  simp only at hb hdet
  obtain ⟨D, hD⟩ : ∃ D, D = b ^ 2 - 4 * a * c := ⟨_, rfl⟩
  obtain ⟨S, hS⟩ : ∃ S, S = √((a - c) ^ 2 + b ^ 2) := ⟨_, rfl⟩
  obtain ⟨W, hW⟩ : ∃ W, W = a * e ^ 2 + c * d ^ 2 - b * d * e - D := ⟨_, rfl⟩
  obtain ⟨x0, hx0⟩ : ∃ x0, x0 = (2 * c * d - b * e) / D := ⟨_, rfl⟩
  obtain ⟨y0, hy0⟩ : ∃ y0, y0 = (2 * a * e - b * d) / D := ⟨_, rfl⟩
  obtain ⟨m, hm⟩ : ∃ m, m = (c - a - S) / b := ⟨_, rfl⟩
  have hDneg : D < 0 := by rw [hD]; exact hdet
  have hD0 : D ≠ 0 := hDneg.ne
  have hS2 : S ^ 2 = (a - c) ^ 2 + b ^ 2 := by rw [hS]; exact sq_sqrt (by positivity)
  have hcentre := conic_centre a b c d e D x0 y0 hD hD0 hx0 hy0
  rw [← hW] at hcentre
  have haW : 0 < a * W := by
    obtain ⟨x, y, x', y', h1, h2, hne⟩ := hpts
    rw [hcentre] at h1 h2
    have hex : ∃ u w : ℝ, (u ≠ 0 ∨ w ≠ 0) ∧ a * u ^ 2 + b * (u * w) + c * w ^ 2 = -W / D := by
      by_cases hz : x - x0 = 0 ∧ y - y0 = 0
      · refine ⟨x' - x0, y' - y0, ?_, h2⟩
        by_contra hc
        rw [not_or, not_not, not_not] at hc
        apply hne
        rw [Prod.mk.injEq]
        exact ⟨by linarith [hz.1, hc.1], by linarith [hz.2, hc.2]⟩
      · refine ⟨x - x0, y - y0, ?_, h1⟩
        by_contra hc
        rw [not_or, not_not, not_not] at hc
        exact hz hc
    obtain ⟨u, w, hne, heq⟩ := hex
    have := form_sign a b c hdet u w hne
    rw [heq, ← mul_div_assoc] at this
    have h3 : a * -W < 0 := by
      by_contra hc
      exact absurd this (not_lt.2 (div_nonpos_of_nonneg_of_nonpos (not_lt.1 hc) hDneg.le))
    linarith
  obtain ⟨ha2, hs1, hs2⟩ := eigen_sign a b c S hdet hS2
  have hpos : ∀ t : ℝ, 0 < a * t → 0 < 2 * W * t := by
    intro t ht
    have h2 := mul_pos haW ht
    rw [show a * W * (a * t) = a ^ 2 * (W * t) by ring] at h2
    have := (mul_pos_iff_of_pos_left ha2).1 h2
    linarith
  have hA2 := hpos _ hs1
  have hB2 := hpos _ hs2
  obtain ⟨A, hA⟩ : ∃ A, A = -√(2 * W * (a + c + S)) / D := ⟨_, rfl⟩
  obtain ⟨B, hB⟩ : ∃ B, B = -√(2 * W * (a + c - S)) / D := ⟨_, rfl⟩
  have hApos : 0 < A := by rw [hA]; exact div_pos_of_neg_of_neg (neg_neg_of_pos (sqrt_pos.2 hA2)) hDneg
  have hBpos : 0 < B := by rw [hB]; exact div_pos_of_neg_of_neg (neg_neg_of_pos (sqrt_pos.2 hB2)) hDneg
  have hAsq : A ^ 2 = 2 * W * (a + c + S) / D ^ 2 := by
    rw [hA, div_pow, neg_sq, sq_sqrt hA2.le]
  have hBsq : B ^ 2 = 2 * W * (a + c - S) / D ^ 2 := by
    rw [hB, div_pow, neg_sq, sq_sqrt hB2.le]
  refine ⟨⟨x0, y0, A, B, arctan m⟩, ?_, hApos, hBpos, ?_⟩
  · unfold params
    simp only
    rw [← hD, if_neg hD0, if_neg hb, ← hS, ← hW, ← hx0, ← hy0, ← hA, ← hB, ← hm]
  · intro x y
    rw [hcentre]
    unfold OnEllipse
    simp only
    rw [cos_arctan, sin_arctan, div_pow, div_pow, hAsq, hBsq]
    generalize x - x0 = u
    generalize y - y0 = w
    have h1m : 0 < 1 + m ^ 2 := by positivity
    have hsqrt : √(1 + m ^ 2) ^ 2 = 1 + m ^ 2 := sq_sqrt h1m.le
    have hr0 : √(1 + m ^ 2) ≠ 0 := (sqrt_pos.2 h1m).ne'
    have e1 : (u * (1 / √(1 + m ^ 2)) + w * (m / √(1 + m ^ 2))) ^ 2 = (u + m * w) ^ 2 / (1 + m ^ 2) := by
      rw [show u * (1 / √(1 + m ^ 2)) + w * (m / √(1 + m ^ 2)) = (u + m * w) / √(1 + m ^ 2) by ring, div_pow, hsqrt]
    have e2 : (-u * (m / √(1 + m ^ 2)) + w * (1 / √(1 + m ^ 2))) ^ 2 = (w - m * u) ^ 2 / (1 + m ^ 2) := by
      rw [show -u * (m / √(1 + m ^ 2)) + w * (1 / √(1 + m ^ 2)) = (w - m * u) / √(1 + m ^ 2) by ring, div_pow, hsqrt]
    have hW0 : W ≠ 0 := by rintro h; rw [h] at haW; simp at haW
    have hp0 : a + c + S ≠ 0 := by intro h; rw [h] at hA2; simp at hA2
    have hq0 : a + c - S ≠ 0 := by intro h; rw [h] at hB2; simp at hB2
    rw [e1, e2, axes_sum W D _ _ _ _ _ hW0 hp0 hq0 (by rw [hD]; linear_combination -hS2),
      form_axes a b c S m u w hb hS2 hm, mul_div_cancel_right₀ _ h1m.ne']
    have hDW : -W / D * (-D / W) = 1 := by field_simp
    have hDW0 : -D / W ≠ 0 := div_ne_zero (neg_ne_zero.2 hD0) hW0
    constructor
    · intro h
      rw [h, hDW]
    · intro h
      apply mul_right_cancel₀ hDW0
      rw [h, hDW]

/-- When the vertices are on some conic which does not pass through the origin, the conic of the least squares
contains them all. -/
theorem fit_ellipse_vertices (lstsq : Lstsq5) (n : ℕ) (x y : ℕ → ℝ)
    (hl : LeastSquares5 n (fun i => (x i ^ 2, x i * y i, y i ^ 2, x i, y i)) (fun _ => 1)
      (lstsq n (fun i => (x i ^ 2, x i * y i, y i ^ 2, x i, y i)) fun _ => 1))
    (t : Conic) (ht : ∀ i < n, OnConic t (x i) (y i)) :
    ∀ i < n, OnConic (lstsq n (fun i => (x i ^ 2, x i * y i, y i ^ 2, x i, y i)) fun _ => 1) (x i) (y i) := by
  set s := lstsq n (fun i => (x i ^ 2, x i * y i, y i ^ 2, x i, y i)) fun _ => 1
  have h0 := hl t
  have hz : ∑ i ∈ range n, (x i ^ 2 * t.a + x i * y i * t.b + y i ^ 2 * t.c + x i * t.d + y i * t.e - 1) ^ 2 = 0 := by
    apply sum_eq_zero
    intro i hi
    have := ht i (mem_range.1 hi)
    unfold OnConic at this
    rw [pow_eq_zero_iff two_ne_zero]
    linear_combination this
  simp only at h0
  rw [hz] at h0
  intro i hi
  have h1 := single_le_sum
    (f := fun i => (x i ^ 2 * s.a + x i * y i * s.b + y i ^ 2 * s.c + x i * s.d + y i * s.e - 1) ^ 2)
    (fun j _ => sq_nonneg _) (mem_range.2 hi)
  have h2 := le_antisymm (le_trans h1 h0) (sq_nonneg _)
  have h3 := pow_eq_zero_iff two_ne_zero |>.1 h2
  unfold OnConic
  linear_combination h3

/-- The two together: a contour on an ellipse with slanted axes, which does not pass through the origin, gives an ellipse on
which are all its vertices.

Missing: as above, and the ellipses through the origin, whose equation has no constant term. -/
theorem fit_ellipse_exact_partial (lstsq : Lstsq5) (n : ℕ) (x y : ℕ → ℝ)
    (hl : LeastSquares5 n (fun i => (x i ^ 2, x i * y i, y i ^ 2, x i, y i)) (fun _ => 1)
      (lstsq n (fun i => (x i ^ 2, x i * y i, y i ^ 2, x i, y i)) fun _ => 1))
    (t : Conic) (ht : ∀ i < n, OnConic t (x i) (y i))
    (hb : (lstsq n (fun i => (x i ^ 2, x i * y i, y i ^ 2, x i, y i)) fun _ => 1).b ≠ 0)
    (hdet : (lstsq n (fun i => (x i ^ 2, x i * y i, y i ^ 2, x i, y i)) fun _ => 1).b ^ 2
      - 4 * (lstsq n (fun i => (x i ^ 2, x i * y i, y i ^ 2, x i, y i)) fun _ => 1).a
        * (lstsq n (fun i => (x i ^ 2, x i * y i, y i ^ 2, x i, y i)) fun _ => 1).c < 0)
    (hne : ∃ i j, i < n ∧ j < n ∧ (x i, y i) ≠ (x j, y j)) :
    ∃ p, fitEllipse lstsq n x y = some p ∧ 0 < p.A ∧ 0 < p.B ∧ ∀ i < n, OnEllipse p (x i) (y i) := by
  have hv := fit_ellipse_vertices lstsq n x y hl t ht
  obtain ⟨i, j, hi, hj, hij⟩ := hne
  obtain ⟨p, hp, hA, hB, h⟩ := fit_ellipse_conic_partial _ hb hdet ⟨x i, y i, x j, y j, hv i hi, hv j hj, hij⟩
  exact ⟨p, hp, hA, hB, fun i hi => (h _ _).1 (hv i hi)⟩

/-- Full statement: the ellipse which is fitted is described by the answer. -/
def FitEllipse : Prop :=
  ∀ s : Conic, s.b ^ 2 - 4 * s.a * s.c < 0 →
    (∃ x y x' y' : ℝ, OnConic s x y ∧ OnConic s x' y' ∧ (x, y) ≠ (x', y')) →
    ∃ p, params s = some p ∧ ∀ x y, OnConic s x y ↔ OnEllipse p x y

/-- Every ellipse with axes parallel to the axes of coordinates raises an error (division by `b = 0`): the unit circle. -/
theorem fit_ellipse_aligned_wrong : (∀ s : Conic, s.b = 0 → params s = none) ∧ ¬ FitEllipse := by
  have h0 : ∀ s : Conic, s.b = 0 → params s = none := by
    intro s hs
    unfold params
    simp only
    split_ifs <;> rfl
  refine ⟨h0, ?_⟩
  intro h
  obtain ⟨p, hp, _⟩ := h ⟨1, 0, 1, 0, 0⟩ (by norm_num) ⟨1, 0, -1, 0, by norm_num [OnConic], by norm_num [OnConic], by
    norm_num⟩
  rw [h0 _ rfl] at hp
  exact absurd hp (by simp)

/-- A slanted ellipse: `x² + x y + y² = 1`. -/
example : ∃ p, params ⟨1, 1, 1, 0, 0⟩ = some p ∧ 0 < p.A ∧ 0 < p.B ∧
    ∀ x y, OnConic ⟨1, 1, 1, 0, 0⟩ x y ↔ OnEllipse p x y :=
  fit_ellipse_conic_partial ⟨1, 1, 1, 0, 0⟩ (by norm_num) (by norm_num)
    ⟨1, 0, -1, 0, by norm_num [OnConic], by norm_num [OnConic], by norm_num⟩

end

end Verif.Ellipse
