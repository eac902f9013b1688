import Verif.Sphere.Model
import Mathlib.Geometry.Euclidean.Angle.Unoriented.TriangleInequality
import Mathlib.Analysis.InnerProductSpace.PiL2
import Mathlib.Analysis.SpecialFunctions.Trigonometric.Bounds
import Mathlib.Tactic.Linarith
import Mathlib.Tactic.LinearCombination
import Mathlib.Tactic.FieldSimp
import Mathlib.Tactic.NormNum

namespace Verif.Sphere

noncomputable section

open Real

/-! ## Specification -/

/-- The point of the unit sphere with a longitude and a latitude in degrees. -/
def onSphere (lon lat : ℝ) : EuclideanSpace ℝ (Fin 3) :=
  !₂[cos (lat * (π / 180)) * cos (lon * (π / 180)), cos (lat * (π / 180)) * sin (lon * (π / 180)),
    sin (lat * (π / 180))]

/-- Two points of a sphere of radius `R`: the length of the shortest arc between them. -/
def arc (R : ℝ) (p q : EuclideanSpace ℝ (Fin 3)) : ℝ := R * InnerProductGeometry.angle p q

/-! ## The haversine -/

theorem norm_onSphere (lon lat : ℝ) : ‖onSphere lon lat‖ = 1 := by
  rw [EuclideanSpace.norm_eq, Real.sqrt_eq_one]
  simp only [onSphere, Fin.sum_univ_three, Real.norm_eq_abs, sq_abs]
  simp
  nlinarith [sin_sq_add_cos_sq (lat * (π / 180)), sin_sq_add_cos_sq (lon * (π / 180))]

theorem inner_onSphere (lon0 lat0 lon1 lat1 : ℝ) :
    inner ℝ (onSphere lon0 lat0) (onSphere lon1 lat1)
      = sin (lat0 * D2R) * sin (lat1 * D2R)
        + cos (lat0 * D2R) * cos (lat1 * D2R) * cos ((lon1 - lon0) * D2R) := by
  simp only [onSphere, PiLp.inner_apply, Fin.sum_univ_three, D2R, sub_mul, cos_sub]
  simp
  ring

theorem aVal_eq (lon0 lat0 lon1 lat1 : ℝ) :
    1 - 2 * aVal lon0 lat0 lon1 lat1 = inner ℝ (onSphere lon0 lat0) (onSphere lon1 lat1) := by
  rw [inner_onSphere]
  have h1 : cos ((lon1 - lon0) * D2R) = 1 - 2 * sin ((lon1 - lon0) * 0.5 * D2R) ^ 2 := by
    have := cos_two_mul' ((lon1 - lon0) * 0.5 * D2R)
    have h := sin_sq_add_cos_sq ((lon1 - lon0) * 0.5 * D2R)
    rw [show 2 * ((lon1 - lon0) * 0.5 * D2R) = (lon1 - lon0) * D2R by ring] at this
    linarith
  have h2 : cos (lat1 * D2R - lat0 * D2R) = 1 - 2 * sin ((lat1 - lat0) * 0.5 * D2R) ^ 2 := by
    have := cos_two_mul' ((lat1 - lat0) * 0.5 * D2R)
    have h := sin_sq_add_cos_sq ((lat1 - lat0) * 0.5 * D2R)
    rw [show 2 * ((lat1 - lat0) * 0.5 * D2R) = lat1 * D2R - lat0 * D2R by ring] at this
    linarith
  rw [h1]
  simp only [aVal]
  rw [cos_sub] at h2
  linear_combination -h2

theorem inner_mem (lon0 lat0 lon1 lat1 : ℝ) :
    -1 ≤ inner ℝ (onSphere lon0 lat0) (onSphere lon1 lat1) ∧
      inner ℝ (onSphere lon0 lat0) (onSphere lon1 lat1) ≤ 1 := by
  have h := abs_real_inner_le_norm (onSphere lon0 lat0) (onSphere lon1 lat1)
  rw [norm_onSphere, norm_onSphere, mul_one] at h
  exact abs_le.1 h

/-- The square roots of the code are taken of non-negative numbers. -/
theorem aVal_nonneg (lon0 lat0 lon1 lat1 : ℝ) : 0 ≤ aVal lon0 lat0 lon1 lat1 := by
  have := aVal_eq lon0 lat0 lon1 lat1
  have := (inner_mem lon0 lat0 lon1 lat1).2
  linarith

theorem aVal_le_one (lon0 lat0 lon1 lat1 : ℝ) : aVal lon0 lat0 lon1 lat1 ≤ 1 := by
  have := aVal_eq lon0 lat0 lon1 lat1
  have := (inner_mem lon0 lat0 lon1 lat1).1
  linarith

theorem angle_onSphere (lon0 lat0 lon1 lat1 : ℝ) :
    InnerProductGeometry.angle (onSphere lon0 lat0) (onSphere lon1 lat1)
      = arccos (1 - 2 * aVal lon0 lat0 lon1 lat1) := by
  rw [InnerProductGeometry.angle, norm_onSphere, norm_onSphere, aVal_eq]
  simp

/-- `2 * arctan2(a ** 0.5, (1 - a) ** 0.5)` is the angle whose haversine is `a`. -/
theorem two_arctan2 (a : ℝ) (h0 : 0 ≤ a) (h1 : a ≤ 1) :
    2 * arctan2 (√a) (√(1 - a)) = arccos (1 - 2 * a) := by
  have hn : ‖(⟨√(1 - a), √a⟩ : ℂ)‖ = 1 := by
    rw [Complex.norm_def, Real.sqrt_eq_one, Complex.normSq_mk, mul_self_sqrt h0,
      mul_self_sqrt (by linarith)]
    ring
  have hne : (⟨√(1 - a), √a⟩ : ℂ) ≠ 0 := by
    intro h
    rw [h] at hn
    simp at hn
  have hc := Complex.cos_arg hne
  rw [hn, div_one] at hc
  simp only at hc
  have h2 : cos (2 * arctan2 (√a) (√(1 - a))) = 1 - 2 * a := by
    rw [cos_two_mul, arctan2, hc, sq_sqrt (by linarith)]
    ring
  rw [← h2, arccos_cos]
  · have : 0 ≤ arctan2 (√a) (√(1 - a)) := Complex.arg_nonneg_iff.2 (sqrt_nonneg a)
    linarith
  · have : |arctan2 (√a) (√(1 - a))| ≤ π / 2 := Complex.abs_arg_le_pi_div_two_iff.2 (sqrt_nonneg (1 - a))
    have := (abs_le.1 this).2
    linarith

/-! ## C96: distances -/

/-- `distance` is the length in metres of the shortest arc of great circle between the two points,
whatever the longitudes and the latitudes. -/
theorem distance_spec (lon0 lat0 lon1 lat1 : ℝ) :
    distance lon0 lat0 lon1 lat1 = arc 6370997 (onSphere lon0 lat0) (onSphere lon1 lat1) := by
  rw [arc, angle_onSphere, ← two_arctan2 _ (aVal_nonneg _ _ _ _) (aVal_le_one _ _ _ _), distance]
  ring

/-- The same point: longitudes are read modulo 360 degrees. -/
theorem onSphere_period (lon lat : ℝ) (k : ℤ) : onSphere (lon + 360 * k) lat = onSphere lon lat := by
  have h : (lon + 360 * k) * (π / 180) = lon * (π / 180) + k * (2 * π) := by ring
  simp only [onSphere, h, cos_add_int_mul_two_pi, sin_add_int_mul_two_pi]

theorem distance_period (lon0 lat0 lon1 lat1 : ℝ) (j k : ℤ) :
    distance (lon0 + 360 * j) lat0 (lon1 + 360 * k) lat1 = distance lon0 lat0 lon1 lat1 := by
  rw [distance_spec, distance_spec, onSphere_period, onSphere_period]

theorem distance_comm (lon0 lat0 lon1 lat1 : ℝ) :
    distance lon0 lat0 lon1 lat1 = distance lon1 lat1 lon0 lat0 := by
  rw [distance_spec, distance_spec, arc, arc, InnerProductGeometry.angle_comm]

theorem distance_nonneg (lon0 lat0 lon1 lat1 : ℝ) : 0 ≤ distance lon0 lat0 lon1 lat1 := by
  rw [distance_spec, arc]
  exact mul_nonneg (by norm_num) (InnerProductGeometry.angle_nonneg _ _)

/-- No two points of the sphere are further than half of its perimeter. -/
theorem distance_le (lon0 lat0 lon1 lat1 : ℝ) : distance lon0 lat0 lon1 lat1 ≤ 6370997 * π := by
  rw [distance_spec, arc]
  exact mul_le_mul_of_nonneg_left (InnerProductGeometry.angle_le_pi _ _) (by norm_num)

theorem distance_triangle (lon0 lat0 lon1 lat1 lon2 lat2 : ℝ) :
    distance lon0 lat0 lon2 lat2 ≤ distance lon0 lat0 lon1 lat1 + distance lon1 lat1 lon2 lat2 := by
  rw [distance_spec, distance_spec, distance_spec, arc, arc, arc, ← mul_add]
  exact mul_le_mul_of_nonneg_left (InnerProductGeometry.angle_le_angle_add_angle _ _ _) (by norm_num)

/-- The distance is null exactly for two descriptions of the same point. -/
theorem distance_eq_zero (lon0 lat0 lon1 lat1 : ℝ) :
    distance lon0 lat0 lon1 lat1 = 0 ↔ onSphere lon0 lat0 = onSphere lon1 lat1 := by
  rw [distance_spec, arc, mul_eq_zero, or_iff_right (by norm_num), InnerProductGeometry.angle,
    norm_onSphere, norm_onSphere]
  constructor
  · intro h
    have h' : inner ℝ (onSphere lon0 lat0) (onSphere lon1 lat1) = 1 := by
      have h2 := arccos_eq_zero.1 h
      have h3 := (inner_mem lon0 lat0 lon1 lat1).2
      simp at h2
      linarith
    exact (inner_eq_one_iff_of_norm_eq_one (norm_onSphere _ _) (norm_onSphere _ _)).1 h'
  · intro h
    rw [h, real_inner_self_eq_norm_sq, norm_onSphere]
    simp

/-- On one meridian the distance is proportional to the difference of latitudes. -/
theorem distance_meridian (lon lat0 lat1 : ℝ) (h : |lat1 - lat0| ≤ 180) :
    distance lon lat0 lon lat1 = 6370997 * (|lat1 - lat0| * (π / 180)) := by
  rw [distance_spec, arc, InnerProductGeometry.angle, norm_onSphere, norm_onSphere, inner_onSphere]
  have : sin (lat0 * D2R) * sin (lat1 * D2R)
      + cos (lat0 * D2R) * cos (lat1 * D2R) * cos ((lon - lon) * D2R)
      = cos (|lat1 - lat0| * (π / 180)) := by
    rw [← abs_of_pos (show 0 < π / 180 by positivity), ← abs_mul, cos_abs, sub_mul (lat1),
      cos_sub]
    simp [D2R]
    ring
  rw [this, mul_one, div_one, arccos_cos (by positivity)]
  have := mul_le_mul_of_nonneg_right h (show 0 ≤ π / 180 by positivity)
  linarith

/-! ## C97: the grid of distances -/

/-- `g` is the gap of two longitudes, in degrees, along the shortest way round. -/
def IsGap (lon0 lon1 g : ℝ) : Prop := g ≤ 180 ∧ ∃ k : ℤ, g = |lon1 - lon0 + 360 * k|

theorem isGap_unique {lon0 lon1 g g' : ℝ} (h : IsGap lon0 lon1 g) (h' : IsGap lon0 lon1 g') :
    g = g' := by
  obtain ⟨hg, k, hk⟩ := h
  obtain ⟨hg', k', hk'⟩ := h'
  rw [hk] at hg
  rw [hk'] at hg'
  obtain ⟨a1, a2⟩ := abs_le.1 hg
  obtain ⟨b1, b2⟩ := abs_le.1 hg'
  have h1 : (k : ℝ) - k' ≤ 1 := by linarith
  have h2 : (-1 : ℝ) ≤ (k : ℝ) - k' := by linarith
  have h1' : k - k' ≤ 1 := by exact_mod_cast h1
  have h2' : -1 ≤ k - k' := by exact_mod_cast h2
  rw [hk, hk']
  rcases (show k = k' ∨ k = k' + 1 ∨ k = k' - 1 by omega) with h | h | h
  · rw [h]
  · rw [h] at a2 ⊢
    push_cast at a2 ⊢
    rw [show lon1 - lon0 + 360 * ((k' : ℝ) + 1) = 180 by linarith,
      show lon1 - lon0 + 360 * (k' : ℝ) = -180 by linarith]
    norm_num
  · rw [h] at a1 ⊢
    push_cast at a1 ⊢
    rw [show lon1 - lon0 + 360 * ((k' : ℝ) - 1) = -180 by linarith,
      show lon1 - lon0 + 360 * (k' : ℝ) = 180 by linarith]
    norm_num

/-- The code computes the gap. -/
theorem foldLon_spec (lon0 lon1 : ℝ) : IsGap lon0 lon1 (foldLon lon0 lon1) := by
  unfold foldLon
  simp only
  split_ifs with h
  · have h1 := Int.floor_le ((|lon1 - lon0| + 180) / 360)
    have h2 := Int.lt_floor_add_one ((|lon1 - lon0| + 180) / 360)
    rw [le_div_iff₀ (by norm_num)] at h1
    rw [div_lt_iff₀ (by norm_num)] at h2
    unfold fmod360
    refine ⟨abs_le.2 ⟨by linarith, by linarith⟩, ?_⟩
    rcases abs_choice (lon1 - lon0) with e | e
    · refine ⟨-⌊(|lon1 - lon0| + 180) / 360⌋, ?_⟩
      rw [e]
      push_cast
      congr 1
      ring
    · refine ⟨⌊(|lon1 - lon0| + 180) / 360⌋, ?_⟩
      rw [e, ← abs_neg]
      congr 1
      ring
  · exact ⟨not_lt.1 h, 0, by simp⟩

theorem sin_gap {lon0 lon1 g : ℝ} (h : IsGap lon0 lon1 g) :
    sin (g * 0.5 * D2R) ^ 2 = sin ((lon1 - lon0) * 0.5 * D2R) ^ 2 := by
  obtain ⟨_, k, hk⟩ := h
  have h1 : cos (g * D2R) = cos ((lon1 - lon0) * D2R) := by
    have hp : (0 : ℝ) < D2R := by unfold D2R; positivity
    rw [hk, ← abs_of_pos hp, ← abs_mul, cos_abs, abs_of_pos hp]
    have : (lon1 - lon0 + 360 * k) * D2R = (lon1 - lon0) * D2R + k * (2 * π) := by
      unfold D2R; ring
    rw [this, cos_add_int_mul_two_pi]
  have e1 := cos_two_mul' (g * 0.5 * D2R)
  have e2 := cos_two_mul' ((lon1 - lon0) * 0.5 * D2R)
  have f1 := sin_sq_add_cos_sq (g * 0.5 * D2R)
  have f2 := sin_sq_add_cos_sq ((lon1 - lon0) * 0.5 * D2R)
  rw [show 2 * (g * 0.5 * D2R) = g * D2R by ring] at e1
  rw [show 2 * ((lon1 - lon0) * 0.5 * D2R) = (lon1 - lon0) * D2R by ring] at e2
  linarith

theorem sin_abs_sq (x c d : ℝ) : sin (|x| * c * d) ^ 2 = sin (x * c * d) ^ 2 := by
  rcases abs_choice x with e | e <;> rw [e]
  rw [show -x * c * d = -(x * c * d) by ring, sin_neg, neg_sq]

/-- A cell of `distance_grid` is the distance of `distance` in kilometres, unless the latitudes are
more than 15 degrees apart or the longitudes more than 20 degrees apart the short way round:
then, and only then, it is nan. -/
theorem grid_cell_spec (lon0 lat0 lon1 lat1 g : ℝ) (hg : IsGap lon0 lon1 g) :
    gridCell lon0 lat0 lon1 lat1
      = if |lat1 - lat0| ≤ 15 ∧ g ≤ 20 then some (distance lon0 lat0 lon1 lat1 / 1000) else none := by
  have hf : foldLon lon0 lon1 = g := isGap_unique (foldLon_spec lon0 lon1) hg
  unfold gridCell
  simp only [hf]
  by_cases h1 : |lat1 - lat0| ≤ 15
  · by_cases h2 : g ≤ 20
    · rw [if_neg (not_lt.2 h1), if_neg (not_lt.2 h2), if_pos ⟨h1, h2⟩, sin_gap hg, sin_abs_sq,
        distance, aVal]
      congr 1
      ring
    · rw [if_neg (not_lt.2 h1), if_pos (not_le.1 h2), if_neg (fun h => h2 h.2)]
  · rw [if_pos (not_le.1 h1), if_neg (fun h => h1 h.1)]

/-- A chord is never longer than its arc. -/
theorem distance_lower (lon0 lat0 lon1 lat1 s : ℝ)
    (h : s ^ 2 ≤ aVal lon0 lat0 lon1 lat1) : 2 * 6370997 * s ≤ distance lon0 lat0 lon1 lat1 := by
  have h0 := aVal_nonneg lon0 lat0 lon1 lat1
  have h1 := aVal_le_one lon0 lat0 lon1 lat1
  have ht : 2 * arctan2 (√(aVal lon0 lat0 lon1 lat1)) (√(1 - aVal lon0 lat0 lon1 lat1))
      = arccos (1 - 2 * aVal lon0 lat0 lon1 lat1) := two_arctan2 _ h0 h1
  set t := arccos (1 - 2 * aVal lon0 lat0 lon1 lat1) with hdef
  have hc : cos t = 1 - 2 * aVal lon0 lat0 lon1 lat1 :=
    cos_arccos (by linarith) (by linarith)
  have ht0 : 0 ≤ t := arccos_nonneg _
  have hb := one_sub_sq_div_two_le_cos (x := t)
  have h2 : (2 * s) ^ 2 ≤ t ^ 2 := by nlinarith
  have h3 : 2 * s ≤ t := le_trans (le_abs_self _) (abs_le_of_sq_le_sq h2 ht0)
  unfold distance
  simp only
  nlinarith

theorem gap_nonneg {lon0 lon1 g : ℝ} (h : IsGap lon0 lon1 g) : 0 ≤ g := by
  obtain ⟨_, k, hk⟩ := h
  rw [hk]
  exact abs_nonneg _

/-- Up to 80 degrees of latitude, a nan cell is a pair of points further than 125 km, the largest
distance which the tracker accepts.

Missing: the neighbourhood of the poles, see `grid_cell_pole_wrong`. -/
theorem grid_cell_far_partial (lon0 lat0 lon1 lat1 : ℝ) (h0 : |lat0| ≤ 80) (h1 : |lat1| ≤ 80)
    (h : gridCell lon0 lat0 lon1 lat1 = none) : 125000 < distance lon0 lat0 lon1 lat1 := by
  have hg := foldLon_spec lon0 lon1
  rw [grid_cell_spec _ _ _ _ _ hg] at h
  have hD : (0 : ℝ) < D2R := by unfold D2R; positivity
  have hcos : ∀ l : ℝ, |l| ≤ 80 → 1 / 9 ≤ cos (l * D2R) := by
    intro l hl
    rw [← cos_abs, abs_mul, abs_of_pos hD, ← sin_pi_div_two_sub]
    have hx : 1 / 9 * (π / 2) ≤ π / 2 - |l| * D2R := by
      unfold D2R
      nlinarith [pi_pos]
    have := mul_le_sin (x := π / 2 - |l| * D2R) (by linarith [pi_pos]) (by nlinarith [abs_nonneg l])
    have h2 : 2 / π * (1 / 9 * (π / 2)) ≤ 2 / π * (π / 2 - |l| * D2R) :=
      mul_le_mul_of_nonneg_left hx (by positivity)
    have h3 : 2 / π * (1 / 9 * (π / 2)) = 1 / 9 := by field_simp
    linarith
  have hc0 := hcos lat0 h0
  have hc1 := hcos lat1 h1
  have hsin : ∀ x m : ℝ, 0 ≤ m → m ≤ x → x ≤ 180 → m / 180 ≤ sin (x * 0.5 * D2R) := by
    intro x m hm hmx hx
    have := mul_le_sin (x := x * 0.5 * D2R) (by have : 0 ≤ x := by linarith
                                                positivity) (by unfold D2R; nlinarith [pi_pos])
    have h3 : 2 / π * (x * 0.5 * D2R) = x / 180 := by unfold D2R; field_simp; ring
    rw [h3] at this
    linarith
  have hlat0 := abs_le.1 h0
  have hlat1 := abs_le.1 h1
  have hcc : (1 / 9) * (1 / 9) ≤ cos (lat0 * D2R) * cos (lat1 * D2R) :=
    mul_le_mul hc0 hc1 (by norm_num) (by linarith)
  by_cases h15 : |lat1 - lat0| ≤ 15
  · have h20 : ¬ foldLon lon0 lon1 ≤ 20 := by
      intro h20
      rw [if_pos ⟨h15, h20⟩] at h
      exact absurd h (by simp)
    have hs := hsin (foldLon lon0 lon1) 20 (by norm_num) (not_le.1 h20).le hg.1
    have hs2 : (20 / 180) ^ 2 ≤ sin ((lon1 - lon0) * 0.5 * D2R) ^ 2 := by
      rw [← sin_gap hg]
      exact pow_le_pow_left₀ (by norm_num) hs 2
    have ha : (1 / 81) ^ 2 ≤ aVal lon0 lat0 lon1 lat1 := by
      unfold aVal
      simp only
      have := mul_le_mul hs2 hcc (by norm_num) (sq_nonneg _)
      nlinarith [sq_nonneg (sin ((lat1 - lat0) * 0.5 * D2R))]
    have := distance_lower lon0 lat0 lon1 lat1 (1 / 81) ha
    linarith
  · have hs := hsin |lat1 - lat0| 15 (by norm_num) (not_le.1 h15).le
      (abs_le.2 ⟨by linarith, by linarith⟩)
    have hs2 : (15 / 180) ^ 2 ≤ sin ((lat1 - lat0) * 0.5 * D2R) ^ 2 := by
      rw [← sin_abs_sq]
      exact pow_le_pow_left₀ (by norm_num) hs 2
    have ha : (15 / 180) ^ 2 ≤ aVal lon0 lat0 lon1 lat1 := by
      unfold aVal
      simp only
      have := mul_nonneg (sq_nonneg (sin ((lon1 - lon0) * 0.5 * D2R)))
        (show 0 ≤ cos (lat0 * D2R) * cos (lat1 * D2R) by linarith)
      nlinarith
    have := distance_lower lon0 lat0 lon1 lat1 (15 / 180) ha
    linarith

/-- Full statement: a nan cell is a pair of points further than 125 km. -/
def GridCellFar : Prop :=
  ∀ lon0 lat0 lon1 lat1 : ℝ, |lat0| ≤ 90 → |lat1| ≤ 90 → gridCell lon0 lat0 lon1 lat1 = none →
    125000 < distance lon0 lat0 lon1 lat1

theorem isGap_21 : IsGap 0 21 21 := ⟨by norm_num, 0, by norm_num⟩

/-- Near a pole two points 20 degrees of longitude apart may be close: a quarter of a degree from the pole,
the cell of two points nearer than 125 km is nan, so that they are never associated. -/
theorem grid_cell_pole_wrong : ¬ GridCellFar := by
  intro h
  have hn : gridCell 0 89.75 21 89.75 = none := by
    rw [grid_cell_spec _ _ _ _ _ isGap_21, if_neg (by norm_num)]
  have := h 0 89.75 21 89.75 (by norm_num [abs_le]) (by norm_num [abs_le]) hn
  have ht := distance_triangle 0 89.75 0 90 21 89.75
  have hp : onSphere 0 90 = onSphere 21 90 := by
    have : (90 : ℝ) * (π / 180) = π / 2 := by ring
    simp only [onSphere, this, cos_pi_div_two, zero_mul]
  have h1 := distance_meridian 0 89.75 90 (by norm_num [abs_le])
  have h2 : distance 0 90 21 89.75 = distance 21 90 21 89.75 := by
    rw [distance_spec, distance_spec, hp]
  have h3 := distance_meridian 21 90 89.75 (by norm_num [abs_le])
  rw [h2] at ht
  rw [h1, h3] at ht
  rw [show |(90 : ℝ) - 89.75| = 1 / 4 by norm_num, show |(89.75 : ℝ) - 90| = 1 / 4 by norm_num] at ht
  have := pi_le_four
  linarith

/-- The mask of the default tracker accepts a pair exactly when the points are nearer than 125 km,
for points up to 80 degrees of latitude.

Missing: the neighbourhood of the poles, see `grid_cell_pole_wrong`. -/
theorem mask_function_partial (p0 p1 : List (ℝ × ℝ)) (h0 : ∀ p ∈ p0, |p.2| ≤ 80)
    (h1 : ∀ q ∈ p1, |q.2| ≤ 80) (i j : Nat) (p q : ℝ × ℝ) (hi : p0[i]? = some p)
    (hj : p1[j]? = some q) :
    ∃ row, (maskFunction (distanceGrid p0 p1))[i]? = some row ∧ ∃ b, row[j]? = some b ∧
      (b = true ↔ distance p.1 p.2 q.1 q.2 < 125000) := by
  refine ⟨p1.map fun q => _, by simp only [maskFunction, distanceGrid, List.getElem?_map, hi,
    Option.map_some, List.map_map, Function.comp_def]; rfl, _, by
      simp only [List.getElem?_map, hj, Option.map_some]; rfl, ?_⟩
  cases hc : gridCell p.1 p.2 q.1 q.2 with
  | none =>
    have := grid_cell_far_partial _ _ _ _ (h0 p (List.mem_of_getElem? hi))
      (h1 q (List.mem_of_getElem? hj)) hc
    simp only [Bool.false_eq_true, false_iff, not_lt]
    exact this.le
  | some d =>
    rw [grid_cell_spec _ _ _ _ _ (foldLon_spec p.1 q.1)] at hc
    split_ifs at hc
    obtain rfl := Option.some.inj hc
    simp only [decide_eq_true_eq]
    constructor <;> intro h <;> linarith

/-- Two points of the equator, 0.5 degree apart across the meridian 180: the cell is a number. -/
example : ∃ d, gridCell 179.75 0 (-179.75) 0 = some d := by
  have hg : IsGap 179.75 (-179.75) 0.5 := ⟨by norm_num, 1, by norm_num⟩
  exact ⟨_, by rw [grid_cell_spec _ _ _ _ _ hg, if_pos (by norm_num)]⟩

/-! ## C98: local coordinates -/

/-- `arctan2` is the polar angle. -/
theorem polar (x y : ℝ) :
    √(x ^ 2 + y ^ 2) * cos (arctan2 y x) = x ∧ √(x ^ 2 + y ^ 2) * sin (arctan2 y x) = y := by
  have hn : ‖(⟨x, y⟩ : ℂ)‖ = √(x ^ 2 + y ^ 2) := by
    rw [Complex.norm_def, Complex.normSq_mk]
    congr 1
    ring
  by_cases h : (⟨x, y⟩ : ℂ) = 0
  · obtain ⟨rfl, rfl⟩ : x = 0 ∧ y = 0 := by simpa [Complex.ext_iff] using h
    simp
  · have h0 : √(x ^ 2 + y ^ 2) ≠ 0 := by rw [← hn]; exact norm_ne_zero_iff.2 h
    unfold arctan2
    rw [Complex.cos_arg h, Complex.sin_arg, hn]
    exact ⟨mul_div_cancel₀ _ h0, mul_div_cancel₀ _ h0⟩

theorem arctan2_polar (r t : ℝ) (hr : 0 < r) :
    ∃ k : ℤ, arctan2 (r * sin t) (r * cos t) = t + k * (2 * π) := by
  refine ⟨⌊(π - t) / (2 * π)⌋, ?_⟩
  have h := Complex.arg_mul_cos_add_sin_mul_I_sub hr t
  have e : (r : ℂ) * (Complex.cos t + Complex.sin t * Complex.I) = ⟨r * cos t, r * sin t⟩ := by
    apply Complex.ext <;> simp [← Complex.ofReal_cos, ← Complex.ofReal_sin]
  rw [e] at h
  unfold arctan2
  linarith

theorem arctan2_mem (y x : ℝ) : -π < arctan2 y x ∧ arctan2 y x ≤ π :=
  ⟨Complex.neg_pi_lt_arg _, Complex.arg_le_pi _⟩

theorem R_pos : (0 : ℝ) < 6370997 := by norm_num

theorem D2R_pos : 0 < D2R := by unfold D2R; positivity

/-- The polar form of the local coordinates: the distance is the arc from the origin, the direction
is the bearing. -/
theorem local_polar (lon lat lon0 lat0 : ℝ) :
    ∃ c β : ℝ, 0 ≤ c ∧ c ≤ π ∧
      cos c = sin (lat0 * D2R) * sin (lat * D2R)
        + cos (lat0 * D2R) * cos (lat * D2R) * cos ((lon - lon0) * D2R) ∧
      sin c * sin β = cos (lat * D2R) * sin ((lon - lon0) * D2R) ∧
      sin c * cos β = cos (lat0 * D2R) * sin (lat * D2R)
        - sin (lat0 * D2R) * cos (lat * D2R) * cos ((lon - lon0) * D2R) ∧
      6370997 * c = distance lon0 lat0 lon lat ∧
      coordinatesToLocal lon lat lon0 lat0 = (6370997 * c * sin β, 6370997 * c * cos β) := by
  have ht := two_arctan2 _ (aVal_nonneg lon0 lat0 lon lat) (aVal_le_one lon0 lat0 lon lat)
  have hcos : cos (arccos (1 - 2 * aVal lon0 lat0 lon lat))
      = sin (lat0 * D2R) * sin (lat * D2R)
        + cos (lat0 * D2R) * cos (lat * D2R) * cos ((lon - lon0) * D2R) := by
    rw [cos_arccos (by linarith [aVal_le_one lon0 lat0 lon lat])
      (by linarith [aVal_nonneg lon0 lat0 lon lat]), aVal_eq, inner_onSphere]
  have h0 := arccos_nonneg (1 - 2 * aVal lon0 lat0 lon lat)
  have hpi := arccos_le_pi (1 - 2 * aVal lon0 lat0 lon lat)
  set c := arccos (1 - 2 * aVal lon0 lat0 lon lat) with hc
  set X := cos (lat * D2R) * sin ((lon - lon0) * D2R) with hX
  set Y := cos (lat0 * D2R) * sin (lat * D2R)
    - sin (lat0 * D2R) * cos (lat * D2R) * cos ((lon - lon0) * D2R) with hY
  have hsin : sin c = √(Y ^ 2 + X ^ 2) := by
    rw [← sqrt_sq (sin_nonneg_of_nonneg_of_le_pi h0 hpi), sin_sq, hcos]
    congr 1
    rw [hX, hY]
    have e0 := sin_sq_add_cos_sq (lat0 * D2R)
    have e1 := sin_sq_add_cos_sq (lat * D2R)
    have e2 := sin_sq_add_cos_sq ((lon - lon0) * D2R)
    generalize sin (lat0 * D2R) = s0 at *
    generalize cos (lat0 * D2R) = c0 at *
    generalize sin (lat * D2R) = s1 at *
    generalize cos (lat * D2R) = c1 at *
    generalize sin ((lon - lon0) * D2R) = s2 at *
    generalize cos ((lon - lon0) * D2R) = c2 at *
    linear_combination (-s1 ^ 2 - c1 ^ 2 * c2 ^ 2) * e0 - e1 - c1 ^ 2 * e2
  have hp := polar Y X
  rw [← hsin] at hp
  have hd : 6370997 * c = distance lon0 lat0 lon lat := by
    unfold distance
    simp only
    rw [mul_assoc, ht]
  refine ⟨c, arctan2 X Y, h0, hpi, hcos, hp.2, hp.1, hd, ?_⟩
  have hm : distance lon0 lat0 lon lat = 6370997 * 2 * arctan2
      (√(sin ((lon - lon0) * D2R * 0.5) ^ 2 * cos (lat0 * D2R) * cos (lat * D2R)
        + sin ((lat - lat0) * 0.5 * D2R) ^ 2))
      (√(1 - (sin ((lon - lon0) * D2R * 0.5) ^ 2 * cos (lat0 * D2R) * cos (lat * D2R)
        + sin ((lat - lat0) * 0.5 * D2R) ^ 2))) := by
    unfold distance aVal
    simp only
    rw [show (lon - lon0) * D2R * 0.5 = (lon - lon0) * 0.5 * D2R by ring]
  unfold coordinatesToLocal
  simp only
  rw [← hm, ← hd, cos_pi_div_two_sub, sin_pi_div_two_sub]

/-- The local coordinates keep the distance to the origin. -/
theorem coordinates_to_local_distance (lon lat lon0 lat0 : ℝ) :
    √((coordinatesToLocal lon lat lon0 lat0).1 ^ 2 + (coordinatesToLocal lon lat lon0 lat0).2 ^ 2)
      = distance lon0 lat0 lon lat := by
  obtain ⟨c, β, h0, _, _, _, _, hd, he⟩ := local_polar lon lat lon0 lat0
  rw [he, ← hd]
  simp only
  rw [show (6370997 * c * sin β) ^ 2 + (6370997 * c * cos β) ^ 2 = (6370997 * c) ^ 2 by
    have := sin_sq_add_cos_sq β
    linear_combination (6370997 * c) ^ 2 * this]
  exact sqrt_sq (by positivity)

theorem cos_pos_lat {lat : ℝ} (h : |lat| < 90) : 0 < cos (lat * D2R) := by
  obtain ⟨h1, h2⟩ := abs_lt.1 h
  have := pi_pos
  apply cos_pos_of_mem_Ioo
  constructor <;> unfold D2R <;> nlinarith

theorem arcsin_lat {lat : ℝ} (h : |lat| ≤ 90) : arcsin (sin (lat * D2R)) / D2R = lat := by
  obtain ⟨h1, h2⟩ := abs_le.1 h
  have := pi_pos
  rw [arcsin_sin]
  · exact mul_div_cancel_right₀ _ D2R_pos.ne'
  all_goals (unfold D2R; nlinarith)

/-- What `local_to_coordinates` computes, from the polar form of its arguments. -/
theorem local_to_coordinates_polar (x y lon0 lat0 : ℝ) :
    ∃ a : ℝ, x = √(x ^ 2 + y ^ 2) * sin a ∧ y = √(x ^ 2 + y ^ 2) * cos a ∧
      (localToCoordinates x y lon0 lat0).2 = arcsin (sin (lat0 * D2R) * cos (√(x ^ 2 + y ^ 2) / 6370997)
        + cos (lat0 * D2R) * sin (√(x ^ 2 + y ^ 2) / 6370997) * cos a) / D2R ∧
      (localToCoordinates x y lon0 lat0).1 = lon0 + arctan2
        (sin a * sin (√(x ^ 2 + y ^ 2) / 6370997) * cos (lat0 * D2R))
        (cos (√(x ^ 2 + y ^ 2) / 6370997) - sin (lat0 * D2R) *
          sin (arcsin (sin (lat0 * D2R) * cos (√(x ^ 2 + y ^ 2) / 6370997)
            + cos (lat0 * D2R) * sin (√(x ^ 2 + y ^ 2) / 6370997) * cos a))) / D2R := by
  refine ⟨-(arctan2 y x - π / 2), ?_, ?_, rfl, rfl⟩
  · rw [neg_sub, sin_pi_div_two_sub, (polar x y).1]
  · rw [neg_sub, cos_pi_div_two_sub, (polar x y).2]

/-- Going to the local coordinates and back gives the point: its latitude, and its longitude up to a
number of turns, less than half a turn away from the longitude of the origin.  The antipode of the
origin is no exception. -/
theorem local_round_trip (lon lat lon0 lat0 : ℝ) (h0 : |lat0| < 90) (h : |lat| < 90) :
    ∃ lon' : ℝ, localToCoordinates (coordinatesToLocal lon lat lon0 lat0).1
        (coordinatesToLocal lon lat lon0 lat0).2 lon0 lat0 = (lon', lat) ∧
      (∃ k : ℤ, lon' = lon + 360 * k) ∧ -180 < lon' - lon0 ∧ lon' - lon0 ≤ 180 := by
  have hdist := coordinates_to_local_distance lon lat lon0 lat0
  obtain ⟨c, β, hc0, hcpi, hcos, hX, hY, hd, he⟩ := local_polar lon lat lon0 lat0
  obtain ⟨a, hx, hy, hlat, hlon⟩ := local_to_coordinates_polar
    (coordinatesToLocal lon lat lon0 lat0).1 (coordinatesToLocal lon lat lon0 lat0).2 lon0 lat0
  rw [hdist, ← hd, mul_div_cancel_left₀ _ R_pos.ne'] at hlat hlon
  rw [hdist, ← hd] at hx hy
  have hs : sin a * sin c = cos (lat * D2R) * sin ((lon - lon0) * D2R) ∧
      sin c * cos a = cos (lat0 * D2R) * sin (lat * D2R)
        - sin (lat0 * D2R) * cos (lat * D2R) * cos ((lon - lon0) * D2R) := by
    rw [← hX, ← hY]
    rcases eq_or_lt_of_le hc0 with hz | hz
    · rw [← hz]
      simp
    · rw [he] at hx hy
      have hne : (6370997 : ℝ) * c ≠ 0 := by positivity
      simp only at hx hy
      rw [← mul_left_cancel₀ hne hx, ← mul_left_cancel₀ hne hy]
      exact ⟨mul_comm _ _, rfl⟩
  have e0 := sin_sq_add_cos_sq (lat0 * D2R)
  have hS : sin (lat0 * D2R) * cos c + cos (lat0 * D2R) * sin c * cos a = sin (lat * D2R) := by
    rw [mul_assoc, hs.2, hcos]
    linear_combination sin (lat * D2R) * e0
  rw [hS] at hlat hlon
  rw [arcsin_lat h.le] at hlat
  have hsl : sin (arcsin (sin (lat * D2R))) = sin (lat * D2R) :=
    sin_arcsin (neg_one_le_sin _) (sin_le_one _)
  rw [hsl, hs.1, hcos] at hlon
  set r := cos (lat0 * D2R) * cos (lat * D2R) with hr
  have hrpos : 0 < r := mul_pos (cos_pos_lat h0) (cos_pos_lat h)
  obtain ⟨k, hk⟩ := arctan2_polar r ((lon - lon0) * D2R) hrpos
  rw [show cos (lat * D2R) * sin ((lon - lon0) * D2R) * cos (lat0 * D2R)
      = r * sin ((lon - lon0) * D2R) by rw [hr]; ring,
    show sin (lat0 * D2R) * sin (lat * D2R) + r * cos ((lon - lon0) * D2R)
        - sin (lat0 * D2R) * sin (lat * D2R) = r * cos ((lon - lon0) * D2R) by ring] at hlon
  have hm := arctan2_mem (r * sin ((lon - lon0) * D2R)) (r * cos ((lon - lon0) * D2R))
  refine ⟨_, Prod.ext hlon hlat, ⟨k, ?_⟩, ?_, ?_⟩
  · rw [hk]
    unfold D2R
    have := pi_pos
    field_simp
    ring
  · rw [add_sub_cancel_left, lt_div_iff₀ D2R_pos]
    have : -180 * D2R = -π := by unfold D2R; ring
    linarith [hm.1]
  · rw [add_sub_cancel_left, div_le_iff₀ D2R_pos]
    have : 180 * D2R = π := by unfold D2R; ring
    linarith [hm.2]

/-- In particular the longitude is the same when it is within half a turn of the origin. -/
theorem local_round_trip_near (lon lat lon0 lat0 : ℝ) (h0 : |lat0| < 90) (h : |lat| < 90)
    (hl : -180 < lon - lon0) (hl' : lon - lon0 ≤ 180) :
    localToCoordinates (coordinatesToLocal lon lat lon0 lat0).1
      (coordinatesToLocal lon lat lon0 lat0).2 lon0 lat0 = (lon, lat) := by
  obtain ⟨lon', he, ⟨k, hk⟩, h1, h2⟩ := local_round_trip lon lat lon0 lat0 h0 h
  have hk1 : (k : ℝ) < 1 := by linarith
  have hk2 : (-1 : ℝ) < k := by linarith
  have hk1' : k < 1 := by exact_mod_cast hk1
  have hk2' : -1 < k := by exact_mod_cast hk2
  obtain rfl : k = 0 := by omega
  rw [he, hk]
  simp

/-- Going to the longitudes and latitudes and back gives the local coordinates, for points nearer
than half of the perimeter. -/
theorem coordinates_round_trip (x y lon0 lat0 : ℝ) (h0 : |lat0| < 90)
    (hxy : √(x ^ 2 + y ^ 2) < 6370997 * π) :
    coordinatesToLocal (localToCoordinates x y lon0 lat0).1 (localToCoordinates x y lon0 lat0).2
      lon0 lat0 = (x, y) := by
  obtain ⟨a, hx, hy, hlat, hlon⟩ := local_to_coordinates_polar x y lon0 lat0
  set d := √(x ^ 2 + y ^ 2) / 6370997 with hdd
  have hd0 : 0 ≤ d := div_nonneg (sqrt_nonneg _) R_pos.le
  have hdpi : d < π := by rw [hdd, div_lt_iff₀ R_pos]; linarith
  have hRd : √(x ^ 2 + y ^ 2) = 6370997 * d := by rw [hdd]; field_simp
  rw [hRd] at hx hy
  have e0 := sin_sq_add_cos_sq (lat0 * D2R)
  have ea := sin_sq_add_cos_sq a
  have ed := sin_sq_add_cos_sq d
  set s0 := sin (lat0 * D2R) with hs0
  set c0 := cos (lat0 * D2R) with hc0
  have hc0pos : 0 < c0 := cos_pos_lat h0
  set S := s0 * cos d + c0 * sin d * cos a with hS
  set P := c0 * cos d - s0 * sin d * cos a with hP
  set Q := sin a * sin d with hQ
  have hPQS : P ^ 2 + Q ^ 2 + S ^ 2 = 1 := by
    rw [hS, hP, hQ]
    linear_combination (cos d ^ 2 + sin d ^ 2 * cos a ^ 2) * e0 + sin d ^ 2 * ea + ed
  have hS1 : -1 ≤ S ∧ S ≤ 1 := abs_le.1 (abs_le_one_iff_mul_self_le_one.2 (by nlinarith [sq_nonneg P, sq_nonneg Q]))
  have hsin : sin (arcsin S) = S := sin_arcsin hS1.1 hS1.2
  have hcosn : cos (arcsin S) = √(P ^ 2 + Q ^ 2) := by
    rw [cos_arcsin]
    congr 1
    linarith
  rw [hsin] at hlon
  have hlon' : arctan2 (Q * c0) (cos d - s0 * S) = arctan2 (c0 * Q) (c0 * P) := by
    rw [mul_comm Q c0]
    congr 1
    rw [hS, hP]
    linear_combination -cos d * e0
  rw [hlon'] at hlon
  have hp := polar (c0 * P) (c0 * Q)
  have hnorm : √((c0 * P) ^ 2 + (c0 * Q) ^ 2) = c0 * √(P ^ 2 + Q ^ 2) := by
    rw [show (c0 * P) ^ 2 + (c0 * Q) ^ 2 = c0 ^ 2 * (P ^ 2 + Q ^ 2) by ring,
      sqrt_mul (sq_nonneg _), sqrt_sq hc0pos.le]
  rw [hnorm, ← hcosn] at hp
  set t := arctan2 (c0 * Q) (c0 * P) with ht
  have hcP : cos (arcsin S) * cos t = P := by
    apply mul_left_cancel₀ hc0pos.ne'
    rw [← mul_assoc]
    exact hp.1
  have hcQ : cos (arcsin S) * sin t = Q := by
    apply mul_left_cancel₀ hc0pos.ne'
    rw [← mul_assoc]
    exact hp.2
  have hlatD : (localToCoordinates x y lon0 lat0).2 * D2R = arcsin S := by
    rw [hlat, div_mul_cancel₀ _ D2R_pos.ne']
  have hlonD : ((localToCoordinates x y lon0 lat0).1 - lon0) * D2R = t := by
    rw [hlon, add_sub_cancel_left, div_mul_cancel₀ _ D2R_pos.ne']
  obtain ⟨c, β, hcn, hcpi, hcos, hX, hY, _, he⟩ := local_polar
    (localToCoordinates x y lon0 lat0).1 (localToCoordinates x y lon0 lat0).2 lon0 lat0
  rw [hlatD, hlonD, hsin, ← hs0, ← hc0] at hcos hY
  rw [hlatD, hlonD, hcQ] at hX
  rw [mul_assoc, hcP] at hcos hY
  have hcd : c = d := by
    apply injOn_cos ⟨hcn, hcpi⟩ ⟨hd0, hdpi.le⟩
    rw [hcos, hS, hP]
    linear_combination cos d * e0
  have hYa : sin d * cos β = sin d * cos a := by
    rw [← hcd, hY, hcd, hS, hP]
    linear_combination sin d * cos a * e0
  have hXa : sin d * sin β = sin d * sin a := by
    rw [← hcd, hX, hQ, hcd]
    ring
  rw [he, hcd]
  rcases eq_or_lt_of_le hd0 with hz | hz
  · rw [hx, hy, ← hz]
    simp
  · have hsd : sin d ≠ 0 := (sin_pos_of_pos_of_lt_pi hz hdpi).ne'
    rw [mul_left_cancel₀ hsd hYa, mul_left_cancel₀ hsd hXa, ← hx, ← hy]

/-- A point of the region of the Canary Islands, in the local coordinates of another. -/
example : localToCoordinates (coordinatesToLocal (-16) 28 (-15) 29).1
    (coordinatesToLocal (-16) 28 (-15) 29).2 (-15) 29 = (-16, 28) :=
  local_round_trip_near _ _ _ _ (by norm_num [abs_lt]) (by norm_num [abs_lt]) (by norm_num) (by norm_num)

example : coordinatesToLocal (localToCoordinates 3000 4000 (-15) 29).1
    (localToCoordinates 3000 4000 (-15) 29).2 (-15) 29 = (3000, 4000) := by
  apply coordinates_round_trip _ _ _ _ (by norm_num [abs_lt])
  rw [show (3000 : ℝ) ^ 2 + 4000 ^ 2 = 5000 ^ 2 by norm_num, sqrt_sq (by norm_num)]
  nlinarith [two_le_pi]

end

end Verif.Sphere
