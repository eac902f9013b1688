import Verif.Resample.Model
import Verif.Sphere.Props
import Mathlib.Algebra.Order.BigOperators.Group.Finset
import Mathlib.Tactic.Linarith
import Mathlib.Tactic.FieldSimp
import Mathlib.Tactic.NormNum

namespace Verif.Resample

noncomputable section

open Real Finset

/-! ## Specification -/

/-- `p` is the point of the line of the vertices `0 .. n` at the distance `d` from its start, where the segment `i` has the
length `len i`. -/
def At (n : ℕ) (x y : ℕ → ℝ) (len : ℕ → ℝ) (d : ℝ) (p : ℝ × ℝ) : Prop :=
  ∃ k < n, ∃ t : ℝ, 0 ≤ t ∧ t ≤ 1 ∧ d = ∑ i ∈ range k, len i + t * len k ∧
    p = ((1 - t) * x k + t * x (k + 1), (1 - t) * y k + t * y (k + 1))

/-- The length in metres of a segment, which counts for one millimetre at least. -/
def length (x y : ℕ → ℝ) (i : ℕ) : ℝ := max 0.001 (Sphere.distance (x i) (y i) (x (i + 1)) (y (i + 1)))

/-! ## Lemmas -/

theorem step_eq (x y : ℕ → ℝ) : step x y = length x y := by
  funext i
  unfold step length
  simp only
  split_ifs with h
  · rw [max_eq_left (le_trans h.le (by norm_num))]
  · rw [max_eq_right]
    have := not_lt.1 h
    exact le_trans (by norm_num) this

theorem length_pos (x y : ℕ → ℝ) (i : ℕ) : 0 < length x y i := lt_of_lt_of_le (by norm_num) (le_max_left _ _)

theorem cumul_succ (x y : ℕ → ℝ) (k : ℕ) : cumul x y (k + 1) = cumul x y k + length x y k := by
  unfold cumul
  rw [sum_range_succ, step_eq]

theorem cumul_mono (x y : ℕ → ℝ) (j : ℕ) : ∀ k, cumul x y j ≤ cumul x y (j + k)
  | 0 => le_refl _
  | k + 1 => by
    rw [← Nat.add_assoc, cumul_succ]
    linarith [cumul_mono x y j k, length_pos x y (j + k)]

theorem cumul_nonneg (x y : ℕ → ℝ) (k : ℕ) : 0 ≤ cumul x y k := by
  have := cumul_mono x y 0 k
  rw [Nat.zero_add] at this
  simpa [cumul] using this

/-- The interpolation picks one segment and one place on it, the same for every value. -/
theorem interp_spec (x y : ℕ → ℝ) (d : ℝ) (h0 : 0 ≤ d) : ∀ n, 0 < n → d ≤ cumul x y n →
    ∃ k < n, ∃ t : ℝ, 0 ≤ t ∧ t ≤ 1 ∧ d = cumul x y k + t * length x y k ∧
      ∀ f : ℕ → ℝ, interp (cumul x y) f d n = (1 - t) * f k + t * f (k + 1)
  | 0, h, _ => absurd h (by omega)
  | n + 1, _, hd => by
    by_cases h1 : cumul x y (n + 1) ≤ d
    · refine ⟨n, by omega, 1, by norm_num, le_refl _, ?_, ?_⟩
      · rw [cumul_succ] at h1 hd
        linarith
      · intro f
        rw [interp, if_pos h1]
        ring
    · by_cases h2 : cumul x y n ≤ d
      · have hl := length_pos x y n
        have h1' := not_le.1 h1
        rw [cumul_succ] at h1'
        refine ⟨n, by omega, (d - cumul x y n) / length x y n, div_nonneg (by linarith) hl.le, ?_, ?_, ?_⟩
        · rw [div_le_one hl]
          linarith
        · rw [div_mul_cancel₀ _ hl.ne']
          ring
        · intro f
          rw [interp, if_neg h1, if_pos h2, cumul_succ, add_sub_cancel_left]
          field_simp
          ring
      · have hn : 0 < n := by
          rcases Nat.eq_zero_or_pos n with rfl | h
          · exact absurd (by simpa [cumul] using h0) h2
          · exact h
        obtain ⟨k, hk, t, ht0, ht1, he, hf⟩ := interp_spec x y d h0 n hn (not_le.1 h2).le
        refine ⟨k, by omega, t, ht0, ht1, he, fun f => ?_⟩
        rw [interp, if_neg h1, if_neg h2, hf f]

theorem interp_zero (x y f : ℕ → ℝ) : ∀ n, interp (cumul x y) f 0 n = f 0
  | 0 => rfl
  | n + 1 => by
    have h : 0 < cumul x y (n + 1) := by
      rw [cumul_succ]
      linarith [cumul_nonneg x y n, length_pos x y n]
    rw [interp, if_neg (not_le.2 h)]
    split_ifs with h2
    · have hz : n = 0 := by
        cases n with
        | zero => rfl
        | succ m =>
          rw [cumul_succ] at h2
          linarith [cumul_nonneg x y m, length_pos x y m]
      subst hz
      simp [cumul]
    · exact interp_zero x y f n

theorem interp_end (x y f : ℕ → ℝ) (n : ℕ) : interp (cumul x y) f (cumul x y n) n = f n := by
  cases n with
  | zero => rfl
  | succ n => rw [interp, if_pos (le_refl _)]

/-! ## C103 -/

/-- The number of vertices of the new contour: the size which is given, else the size of the contour times the factor. -/
theorem resample_length (n : ℕ) (x y : ℕ → ℝ) (fac : ℕ) (size : Option ℕ) :
    (resample n x y fac size).length = (size.getD ((n + 1) * fac)) := by
  unfold resample newSize
  simp only [List.length_map, List.length_range]
  cases size <;> rfl

/-- Every new vertex is on the contour: the vertex `j` of `m + 1` is at the fraction `j / m` of its length. -/
theorem resample_spec (n : ℕ) (hn : 0 < n) (x y : ℕ → ℝ) (fac : ℕ) (size : Option ℕ) (m : ℕ) (hm : 0 < m)
    (hs : size.getD ((n + 1) * fac) = m + 1) (j : ℕ) (hj : j ≤ m) :
    ∃ p, (resample n x y fac size)[j]? = some p ∧
      At n x y (length x y) ((∑ i ∈ range n, length x y i) * (j / m)) p := by
  have hsize : newSize n fac size = m + 1 := by
    rw [← hs]
    cases size <;> rfl
  have hm' : (0 : ℝ) < m := by exact_mod_cast hm
  have hlin : linspace (cumul x y n) (m + 1) j = cumul x y n * (j / m) := by
    unfold linspace
    rw [if_neg (by omega), Nat.add_sub_cancel]
  have hfrac : (j : ℝ) / m ≤ 1 := by
    rw [div_le_one hm']
    exact_mod_cast hj
  have hc := cumul_nonneg x y n
  have hd0 : 0 ≤ cumul x y n * (j / m) := by positivity
  have hd1 : cumul x y n * (j / m) ≤ cumul x y n := mul_le_of_le_one_right hc hfrac
  obtain ⟨k, hk, t, ht0, ht1, he, hf⟩ := interp_spec x y _ hd0 n hn hd1
  refine ⟨(interp (cumul x y) x (cumul x y n * (j / m)) n, interp (cumul x y) y (cumul x y n * (j / m)) n), ?_, ?_⟩
  · unfold resample
    simp only [hsize]
    rw [List.getElem?_map, List.getElem?_range (by omega), Option.map_some, hlin]
  · refine ⟨k, hk, t, ht0, ht1, ?_, by rw [hf x, hf y]⟩
    have e : ∀ q, cumul x y q = ∑ i ∈ range q, length x y i := by
      intro q
      unfold cumul
      rw [step_eq]
    rw [← e, ← e]
    exact he

/-- The first and the last vertices are kept; in particular a closed contour stays closed. -/
theorem resample_ends (n : ℕ) (x y : ℕ → ℝ) (fac : ℕ) (size : Option ℕ) (m : ℕ) (hm : 0 < m)
    (hs : size.getD ((n + 1) * fac) = m + 1) :
    (resample n x y fac size)[0]? = some (x 0, y 0) ∧ (resample n x y fac size)[m]? = some (x n, y n) := by
  have hsize : newSize n fac size = m + 1 := by
    rw [← hs]
    cases size <;> rfl
  have hm' : (m : ℝ) ≠ 0 := by exact_mod_cast hm.ne'
  have hlin : ∀ j, linspace (cumul x y n) (m + 1) j = cumul x y n * (j / m) := by
    intro j
    unfold linspace
    rw [if_neg (by omega), Nat.add_sub_cancel]
  unfold resample
  simp only [hsize]
  constructor
  · rw [List.getElem?_map, List.getElem?_range (by omega), Option.map_some, hlin]
    simp only [Nat.cast_zero, zero_div, mul_zero]
    rw [interp_zero, interp_zero]
  · rw [List.getElem?_map, List.getElem?_range (by omega), Option.map_some, hlin, div_self hm', mul_one,
      interp_end, interp_end]

/-- When no segment is shorter than one millimetre, the fractions are those of the true length. -/
theorem length_true (x y : ℕ → ℝ) (i : ℕ) (h : 0.001 ≤ Sphere.distance (x i) (y i) (x (i + 1)) (y (i + 1))) :
    length x y i = Sphere.distance (x i) (y i) (x (i + 1)) (y (i + 1)) := max_eq_right h

/-- A contour of three vertices resampled with 5 vertices: the vertex 2 is at the middle of the length. -/
example (x y : ℕ → ℝ) : ∃ p, (resample 2 x y 2 (some 5))[2]? = some p ∧
    At 2 x y (length x y) ((∑ i ∈ range 2, length x y i) * ((2 : ℕ) / (4 : ℕ))) p :=
  resample_spec 2 (by norm_num) x y 2 (some 5) 4 (by norm_num) rfl 2 (by norm_num)

/-! ### `build_circle` -/

/-- The 50 points of `build_circle` are on the circle, the first one in the direction of the abscissas, and the last
one is the first one. -/
theorem build_circle_spec (x0 y0 r : ℝ) :
    (buildCircle x0 y0 r).length = 50 ∧
      (∀ p ∈ buildCircle x0 y0 r, (p.1 - x0) ^ 2 + (p.2 - y0) ^ 2 = r ^ 2) ∧
      (buildCircle x0 y0 r)[0]? = some (x0 + r, y0) ∧ (buildCircle x0 y0 r)[49]? = some (x0 + r, y0) := by
  refine ⟨by simp [buildCircle], ?_, ?_, ?_⟩
  · intro p hp
    unfold buildCircle at hp
    rw [List.mem_map] at hp
    obtain ⟨j, _, rfl⟩ := hp
    simp only
    have := sin_sq_add_cos_sq (linspace 360 50 j * (π / 180))
    linear_combination r ^ 2 * this
  · unfold buildCircle
    rw [List.getElem?_map, List.getElem?_range (by omega), Option.map_some]
    unfold linspace
    simp [add_comm]
  · unfold buildCircle
    rw [List.getElem?_map, List.getElem?_range (by omega), Option.map_some]
    unfold linspace
    have : (360 : ℝ) * (((49 : ℕ) : ℝ) / ((50 - 1 : ℕ) : ℝ)) * (π / 180) = 2 * π := by
      norm_num
      ring
    simp only [if_neg (show ¬ 50 ≤ 1 by norm_num)]
    rw [this, cos_two_pi, sin_two_pi]
    simp [add_comm]

/-- Two neighbours of the circle are seen from the centre under the same angle, 360 / 49 degrees. -/
theorem build_circle_angle (x0 y0 r : ℝ) (j : ℕ) (hj : j < 50) :
    (buildCircle x0 y0 r)[j]? = some (cos (j * (360 / 49) * (π / 180)) * r + x0, sin (j * (360 / 49) * (π / 180)) * r + y0) := by
  unfold buildCircle
  rw [List.getElem?_map, List.getElem?_range hj, Option.map_some]
  unfold linspace
  simp only [if_neg (show ¬ 50 ≤ 1 by norm_num)]
  have : (360 : ℝ) * ((j : ℝ) / ((50 - 1 : ℕ) : ℝ)) = j * (360 / 49) := by
    norm_num
    ring
  rw [this]

end

end Verif.Resample
