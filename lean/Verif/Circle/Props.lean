import Verif.Circle.Model
import Verif.Sphere.Props
import Mathlib.Algebra.Order.BigOperators.Group.Finset
import Mathlib.Analysis.InnerProductSpace.Projection.Minimal
import Mathlib.Analysis.InnerProductSpace.PiL2
import Mathlib.Analysis.Real.Pi.Bounds
import Mathlib.Tactic.Linarith
import Mathlib.Tactic.LinearCombination
import Mathlib.Tactic.FieldSimp
import Mathlib.Tactic.NormNum

namespace Verif.Circle

noncomputable section

open Real Finset
open Verif.Sphere (coordinatesToLocal localToCoordinates fmod360)

/-! ## Specification -/

/-- `s` is a least squares solution of the `n` equations `A i · s = b i`. -/
def LeastSquares (n : ℕ) (A : ℕ → ℝ × ℝ × ℝ) (b : ℕ → ℝ) (s : ℝ × ℝ × ℝ) : Prop :=
  ∀ s' : ℝ × ℝ × ℝ,
    ∑ i ∈ range n, ((A i).1 * s.1 + (A i).2.1 * s.2.1 + (A i).2.2 * s.2.2 - b i) ^ 2
      ≤ ∑ i ∈ range n, ((A i).1 * s'.1 + (A i).2.1 * s'.2.1 + (A i).2.2 * s'.2.2 - b i) ^ 2

/-- The error of a circle on the vertices `1 .. n` of a contour: the sum of the squares of the powers of
the vertices with respect to the circle. -/
def powerError (n : ℕ) (x y : ℕ → ℝ) (cx cy ρ : ℝ) : ℝ :=
  ∑ i ∈ range n, ((x (i + 1) - cx) ^ 2 + (y (i + 1) - cy) ^ 2 - ρ) ^ 2

/-- A circle which has the smallest error of all the circles. -/
def BestCircle (n : ℕ) (x y : ℕ → ℝ) (f : ℝ × ℝ × ℝ) : Prop :=
  0 ≤ f.2.2 ∧ ∀ cx cy r : ℝ, powerError n x y f.1 f.2.1 (f.2.2 ^ 2) ≤ powerError n x y cx cy (r ^ 2)

/-- Three vertices among `1 .. n` which are not on one line. -/
def Wide (n : ℕ) (x y : ℕ → ℝ) : Prop :=
  ∃ i j k : ℕ, i < n ∧ j < n ∧ k < n ∧
    (x (j + 1) - x (i + 1)) * (y (k + 1) - y (i + 1)) ≠ (x (k + 1) - x (i + 1)) * (y (j + 1) - y (i + 1))

/-- The vertices `1 .. n` are on the circle. -/
def OnCircle (n : ℕ) (x y : ℕ → ℝ) (f : ℝ × ℝ × ℝ) : Prop :=
  0 ≤ f.2.2 ∧ ∀ i < n, (x (i + 1) - f.1) ^ 2 + (y (i + 1) - f.2.1) ^ 2 = f.2.2 ^ 2

/-! ## Lemmas -/

/-- The best among all the values of the square of the radius, even negative. -/
def IsFit (n : ℕ) (x y : ℕ → ℝ) (cx cy ρ : ℝ) : Prop :=
  ∀ cx' cy' ρ' : ℝ, powerError n x y cx cy ρ ≤ powerError n x y cx' cy' ρ'

theorem powerError_neg (n : ℕ) (x y : ℕ → ℝ) (cx cy ρ : ℝ) (h : ρ ≤ 0) :
    powerError n x y cx cy 0 ≤ powerError n x y cx cy ρ := by
  apply sum_le_sum
  intro i _
  nlinarith [sq_nonneg (x (i + 1) - cx), sq_nonneg (y (i + 1) - cy)]

theorem isFit_nonneg {n : ℕ} {x y : ℕ → ℝ} {cx cy ρ : ℝ} (hn : 0 < n) (h : IsFit n x y cx cy ρ) :
    0 ≤ ρ := by
  by_contra hneg
  have hneg := not_le.1 hneg
  have : powerError n x y cx cy 0 < powerError n x y cx cy ρ := by
    apply sum_lt_sum_of_nonempty ⟨0, mem_range.2 hn⟩
    intro i _
    nlinarith [sq_nonneg (x (i + 1) - cx), sq_nonneg (y (i + 1) - cy)]
  exact absurd (h cx cy 0) (not_le.2 this)

theorem bestCircle_iff {n : ℕ} {x y : ℕ → ℝ} {f : ℝ × ℝ × ℝ} :
    BestCircle n x y f ↔ 0 ≤ f.2.2 ∧ IsFit n x y f.1 f.2.1 (f.2.2 ^ 2) := by
  constructor
  · rintro ⟨h0, h⟩
    refine ⟨h0, fun cx cy ρ => ?_⟩
    rcases le_total ρ 0 with hρ | hρ
    · have := h cx cy 0
      rw [zero_pow two_ne_zero] at this
      exact this.trans (powerError_neg n x y cx cy ρ hρ)
    · have := h cx cy (√ρ)
      rwa [sq_sqrt hρ] at this
  · rintro ⟨h0, h⟩
    exact ⟨h0, fun cx cy r => h cx cy _⟩

theorem isFit_unique {n : ℕ} {x y : ℕ → ℝ} {cx cy ρ cx' cy' ρ' : ℝ} (hw : Wide n x y)
    (h : IsFit n x y cx cy ρ) (h' : IsFit n x y cx' cy' ρ') : cx = cx' ∧ cy = cy' ∧ ρ = ρ' := by
  have heq : powerError n x y cx cy ρ = powerError n x y cx' cy' ρ' := le_antisymm (h _ _ _) (h' _ _ _)
  -- the circle in the middle of the pencil
  set mx := (cx + cx') / 2 with hmx
  set my := (cy + cy') / 2 with hmy
  set mρ := (ρ - cx ^ 2 - cy ^ 2 + (ρ' - cx' ^ 2 - cy' ^ 2)) / 2 + mx ^ 2 + my ^ 2 with hmρ
  have hmid := h mx my mρ
  set d : ℕ → ℝ := fun i => ((x (i + 1) - cx) ^ 2 + (y (i + 1) - cy) ^ 2 - ρ)
    - ((x (i + 1) - cx') ^ 2 + (y (i + 1) - cy') ^ 2 - ρ') with hd
  have hsum : ∑ i ∈ range n, d i ^ 2 ≤ 0 := by
    have e : 4 * powerError n x y mx my mρ + ∑ i ∈ range n, d i ^ 2
        = 2 * powerError n x y cx cy ρ + 2 * powerError n x y cx' cy' ρ' := by
      unfold powerError
      rw [mul_sum, mul_sum, mul_sum, ← sum_add_distrib, ← sum_add_distrib]
      apply sum_congr rfl
      intro i _
      simp only [hd, hmρ, hmx, hmy]
      ring
    linarith
  have hz : ∀ i < n, d i = 0 := by
    intro i hi
    have h1 := single_le_sum (f := fun i => d i ^ 2) (fun j _ => sq_nonneg (d j)) (mem_range.2 hi)
    have h2 : d i ^ 2 ≤ 0 := le_trans h1 hsum
    exact pow_eq_zero_iff two_ne_zero |>.1 (le_antisymm h2 (sq_nonneg _))
  obtain ⟨i, j, k, hi, hj, hk, hne⟩ := hw
  have ei := hz i hi
  have ej := hz j hj
  have ek := hz k hk
  simp only [hd] at ei ej ek
  have hdet : (x (j + 1) - x (i + 1)) * (y (k + 1) - y (i + 1))
      - (x (k + 1) - x (i + 1)) * (y (j + 1) - y (i + 1)) ≠ 0 := sub_ne_zero.2 hne
  have hx : cx = cx' := by
    have : ((x (j + 1) - x (i + 1)) * (y (k + 1) - y (i + 1))
      - (x (k + 1) - x (i + 1)) * (y (j + 1) - y (i + 1))) * (cx - cx') = 0 := by
      linear_combination (-1 / 2) * (y (k + 1) - y (i + 1)) * (ej - ei)
        + (1 / 2) * (y (j + 1) - y (i + 1)) * (ek - ei)
    exact sub_eq_zero.1 ((mul_eq_zero.1 this).resolve_left hdet)
  have hy : cy = cy' := by
    have : ((x (j + 1) - x (i + 1)) * (y (k + 1) - y (i + 1))
      - (x (k + 1) - x (i + 1)) * (y (j + 1) - y (i + 1))) * (cy - cy') = 0 := by
      linear_combination (1 / 2) * (x (k + 1) - x (i + 1)) * (ej - ei)
        - (1 / 2) * (x (j + 1) - x (i + 1)) * (ek - ei)
    exact sub_eq_zero.1 ((mul_eq_zero.1 this).resolve_left hdet)
  refine ⟨hx, hy, ?_⟩
  rw [hx, hy] at ei
  linarith

theorem bestCircle_unique {n : ℕ} {x y : ℕ → ℝ} {f g : ℝ × ℝ × ℝ} (hw : Wide n x y)
    (hf : BestCircle n x y f) (hg : BestCircle n x y g) : f = g := by
  rw [bestCircle_iff] at hf hg
  obtain ⟨h1, h2, h3⟩ := isFit_unique hw hf.2 hg.2
  have h4 : f.2.2 = g.2.2 := (sq_eq_sq₀ hf.1 hg.1).1 h3
  exact Prod.ext h1 (Prod.ext h2 h4)

theorem le_arrMax (f : ℕ → ℝ) : ∀ (n i : ℕ), i ≤ n → f i ≤ arrMax f n
  | 0, i, h => by
    obtain rfl : i = 0 := by omega
    exact le_refl _
  | n + 1, i, h => by
    rcases Nat.lt_or_ge n i with hi | hi
    · obtain rfl : i = n + 1 := by omega
      exact le_max_right _ _
    · exact (le_arrMax f n i hi).trans (le_max_left _ _)

/-- The hypothesis that the vertices are not all the same makes the scale positive. -/
theorem scale_pos {n : ℕ} {x y : ℕ → ℝ} (hw : ∃ i j, i < n ∧ j < n ∧ (x (i + 1), y (i + 1)) ≠ (x (j + 1), y (j + 1)))
    (xm ym : ℝ) : 0 < arrMax (fun i => (x (i + 1) - xm) ^ 2 + (y (i + 1) - ym) ^ 2) (n - 1) := by
  by_contra h
  have h := not_lt.1 h
  have hz : ∀ i < n, x (i + 1) = xm ∧ y (i + 1) = ym := by
    intro i hi
    have h1 := le_arrMax (fun i => (x (i + 1) - xm) ^ 2 + (y (i + 1) - ym) ^ 2) (n - 1) i (by omega)
    have h2 := h1.trans h
    have a := sq_nonneg (x (i + 1) - xm)
    have b := sq_nonneg (y (i + 1) - ym)
    have a0 : (x (i + 1) - xm) ^ 2 = 0 := by linarith
    have b0 : (y (i + 1) - ym) ^ 2 = 0 := by linarith
    exact ⟨sub_eq_zero.1 (pow_eq_zero_iff two_ne_zero |>.1 a0), sub_eq_zero.1 (pow_eq_zero_iff two_ne_zero |>.1 b0)⟩
  obtain ⟨i, j, hi, hj, hne⟩ := hw
  apply hne
  rw [(hz i hi).1, (hz i hi).2, (hz j hj).1, (hz j hj).2]

/-! ## C99: the fit of a circle -/

/-- The rows and the right hand side which `fit_circle` gives to `lstsq`. -/
def rows (n : ℕ) (x y : ℕ → ℝ) : (ℕ → ℝ × ℝ × ℝ) × (ℕ → ℝ) :=
  let norme := fun i => (x (i + 1) - meanTail n x) ^ 2 + (y (i + 1) - meanTail n y) ^ 2
  let m := arrMax norme (n - 1)
  (fun i => (2 * (x (i + 1) - meanTail n x) / √m, 2 * (y (i + 1) - meanTail n y) / √m, 1), fun i => norme i / m)

/-- The circle of `fit_circle` has the smallest error of all the circles, whatever the contour not reduced
to a dot, when `lstsq` solves its least squares problem. -/
theorem fit_circle_spec (lstsq : Lstsq) (n : ℕ) (x y : ℕ → ℝ)
    (hw : ∃ i j, i < n ∧ j < n ∧ (x (i + 1), y (i + 1)) ≠ (x (j + 1), y (j + 1)))
    (hl : LeastSquares n (rows n x y).1 (rows n x y).2 (lstsq n (rows n x y).1 (rows n x y).2)) :
    BestCircle n x y (fitCircle lstsq n x y) := by
  have hn : 0 < n := by obtain ⟨i, _, hi, _⟩ := hw; omega
  have hm := scale_pos hw (meanTail n x) (meanTail n y)
  set xm := meanTail n x with hxm
  set ym := meanTail n y with hym
  set m := arrMax (fun i => (x (i + 1) - xm) ^ 2 + (y (i + 1) - ym) ^ 2) (n - 1) with hmdef
  set s := lstsq n (rows n x y).1 (rows n x y).2 with hs
  have hsc : 0 < √m := sqrt_pos.2 hm
  have hsq : √m ^ 2 = m := sq_sqrt hm.le
  have key : ∀ a b c : ℝ, powerError n x y (a * √m + xm) (b * √m + ym) (m * (c + (a ^ 2 + b ^ 2)))
      = m ^ 2 * ∑ i ∈ range n, (((rows n x y).1 i).1 * a + ((rows n x y).1 i).2.1 * b
        + ((rows n x y).1 i).2.2 * c - (rows n x y).2 i) ^ 2 := by
    intro a b c
    unfold powerError
    rw [mul_sum]
    apply sum_congr rfl
    intro i _
    simp only [rows, ← hxm, ← hym, ← hmdef]
    have e : m * (2 * (x (i + 1) - xm) / √m * a + 2 * (y (i + 1) - ym) / √m * b + 1 * c
          - ((x (i + 1) - xm) ^ 2 + (y (i + 1) - ym) ^ 2) / m)
        = -((x (i + 1) - (a * √m + xm)) ^ 2 + (y (i + 1) - (b * √m + ym)) ^ 2 - m * (c + (a ^ 2 + b ^ 2))) := by
      have h1 : m * ((((x (i + 1) - xm) ^ 2 + (y (i + 1) - ym) ^ 2)) / m)
          = (x (i + 1) - xm) ^ 2 + (y (i + 1) - ym) ^ 2 := mul_div_cancel₀ _ hm.ne'
      have h2 : ∀ u : ℝ, m * (u / √m) = √m * u := by
        intro u
        field_simp
        rw [hsq, mul_comm]
      rw [mul_sub, h1, mul_add, mul_add, ← mul_assoc, h2, ← mul_assoc m, h2]
      linear_combination (a ^ 2 + b ^ 2) * hsq
    rw [← mul_pow, e, neg_sq]
  have hfit : IsFit n x y (s.1 * √m + xm) (s.2.1 * √m + ym) (m * (s.2.2 + (s.1 ^ 2 + s.2.1 ^ 2))) := by
    intro cx cy ρ
    have h := hl ((cx - xm) / √m, (cy - ym) / √m, ρ / m - ((cx - xm) / √m) ^ 2 - ((cy - ym) / √m) ^ 2)
    have k2 := key ((cx - xm) / √m) ((cy - ym) / √m) (ρ / m - ((cx - xm) / √m) ^ 2 - ((cy - ym) / √m) ^ 2)
    rw [div_mul_cancel₀ _ hsc.ne', div_mul_cancel₀ _ hsc.ne', sub_add_cancel, sub_add_cancel,
      show m * (ρ / m - ((cx - xm) / √m) ^ 2 - ((cy - ym) / √m) ^ 2
        + (((cx - xm) / √m) ^ 2 + ((cy - ym) / √m) ^ 2)) = ρ by
          rw [show ρ / m - ((cx - xm) / √m) ^ 2 - ((cy - ym) / √m) ^ 2
            + (((cx - xm) / √m) ^ 2 + ((cy - ym) / √m) ^ 2) = ρ / m by ring]
          exact mul_div_cancel₀ _ hm.ne'] at k2
    rw [key, k2]
    exact mul_le_mul_of_nonneg_left h (sq_nonneg m)
  have hρ := isFit_nonneg hn hfit
  have hr : 0 ≤ s.2.2 + (s.1 ^ 2 + s.2.1 ^ 2) := nonneg_of_mul_nonneg_right hρ hm
  rw [bestCircle_iff]
  have hval : fitCircle lstsq n x y
      = (s.1 * √m + xm, s.2.1 * √m + ym, √(s.2.2 + (s.1 ^ 2 + s.2.1 ^ 2)) * √m) := rfl
  rw [hval]
  refine ⟨mul_nonneg (sqrt_nonneg _) (sqrt_nonneg _), ?_⟩
  simp only
  rw [mul_pow, sq_sqrt hr, hsq, mul_comm _ m]
  exact hfit

/-- The same for `fit_circle_`, whose equations are neither centred nor scaled. -/
theorem fit_circle'_spec (lstsq : Lstsq) (n : ℕ) (x y : ℕ → ℝ) (hn : 0 < n)
    (hl : LeastSquares n (fun i => (x (i + 1), y (i + 1), 1)) (fun i => x (i + 1) ^ 2 + y (i + 1) ^ 2)
      (lstsq n (fun i => (x (i + 1), y (i + 1), 1)) (fun i => x (i + 1) ^ 2 + y (i + 1) ^ 2))) :
    BestCircle n x y (fitCircle' lstsq n x y) := by
  set s := lstsq n (fun i => (x (i + 1), y (i + 1), 1)) (fun i => x (i + 1) ^ 2 + y (i + 1) ^ 2) with hs
  have key : ∀ cx cy ρ : ℝ, powerError n x y cx cy ρ
      = ∑ i ∈ range n, (x (i + 1) * (2 * cx) + y (i + 1) * (2 * cy) + 1 * (ρ - cx ^ 2 - cy ^ 2)
        - (x (i + 1) ^ 2 + y (i + 1) ^ 2)) ^ 2 := by
    intro cx cy ρ
    unfold powerError
    apply sum_congr rfl
    intro i _
    ring
  have hfit : IsFit n x y (s.1 / 2) (s.2.1 / 2) (s.2.2 + (s.1 / 2) ^ 2 + (s.2.1 / 2) ^ 2) := by
    intro cx cy ρ
    have h := hl (2 * cx, 2 * cy, ρ - cx ^ 2 - cy ^ 2)
    rw [key, key cx]
    simp only at h
    rw [show 2 * (s.1 / 2) = s.1 by ring, show 2 * (s.2.1 / 2) = s.2.1 by ring,
      show s.2.2 + (s.1 / 2) ^ 2 + (s.2.1 / 2) ^ 2 - (s.1 / 2) ^ 2 - (s.2.1 / 2) ^ 2 = s.2.2 by ring]
    exact h
  have hρ := isFit_nonneg hn hfit
  rw [bestCircle_iff]
  have hval : fitCircle' lstsq n x y
      = (s.1 / 2, s.2.1 / 2, √(s.2.2 + (s.1 / 2) ^ 2 + (s.2.1 / 2) ^ 2)) := rfl
  rw [hval]
  refine ⟨sqrt_nonneg _, ?_⟩
  simp only
  rw [sq_sqrt hρ]
  exact hfit

theorem wide_distinct {n : ℕ} {x y : ℕ → ℝ} (hw : Wide n x y) :
    ∃ i j, i < n ∧ j < n ∧ (x (i + 1), y (i + 1)) ≠ (x (j + 1), y (j + 1)) := by
  obtain ⟨i, j, k, hi, hj, hk, hne⟩ := hw
  refine ⟨i, j, hi, hj, ?_⟩
  intro h
  rw [Prod.mk.injEq] at h
  apply hne
  rw [h.1, h.2]
  ring

/-- The two functions agree on every contour which is not flat: the `FIXME` of the code is right, one is
enough. -/
theorem fit_circle_agree (lstsq : Lstsq) (n : ℕ) (x y : ℕ → ℝ) (hw : Wide n x y)
    (hl : ∀ A b, LeastSquares n A b (lstsq n A b)) :
    fitCircle lstsq n x y = fitCircle' lstsq n x y := by
  have hn : 0 < n := by obtain ⟨i, _, _, hi, _⟩ := hw; omega
  exact bestCircle_unique hw (fit_circle_spec lstsq n x y (wide_distinct hw) (hl _ _))
    (fit_circle'_spec lstsq n x y hn (hl _ _))

theorem bestCircle_of_onCircle {n : ℕ} {x y : ℕ → ℝ} {f : ℝ × ℝ × ℝ} (h : OnCircle n x y f) :
    BestCircle n x y f := by
  refine ⟨h.1, fun cx cy r => ?_⟩
  have : powerError n x y f.1 f.2.1 (f.2.2 ^ 2) = 0 := by
    apply sum_eq_zero
    intro i hi
    rw [h.2 i (mem_range.1 hi)]
    simp
  rw [this]
  exact sum_nonneg fun i _ => sq_nonneg _

/-- A contour drawn on a circle gives this circle. -/
theorem fit_circle_exact (lstsq : Lstsq) (n : ℕ) (x y : ℕ → ℝ) (f : ℝ × ℝ × ℝ) (hw : Wide n x y)
    (hl : LeastSquares n (rows n x y).1 (rows n x y).2 (lstsq n (rows n x y).1 (rows n x y).2))
    (hf : OnCircle n x y f) : fitCircle lstsq n x y = f :=
  bestCircle_unique hw (fit_circle_spec lstsq n x y (wide_distinct hw) hl) (bestCircle_of_onCircle hf)

/-- A similarity of the plane: rotation and dilation by the complex number `a + i b`, then translation. -/
def simX (a b u : ℝ) (x y : ℕ → ℝ) : ℕ → ℝ := fun i => a * x i - b * y i + u

def simY (a b v : ℝ) (x y : ℕ → ℝ) : ℕ → ℝ := fun i => b * x i + a * y i + v

theorem powerError_sim (n : ℕ) (x y : ℕ → ℝ) (a b u v cx cy ρ : ℝ) :
    powerError n (simX a b u x y) (simY a b v x y) (a * cx - b * cy + u) (b * cx + a * cy + v)
        ((a ^ 2 + b ^ 2) * ρ) = (a ^ 2 + b ^ 2) ^ 2 * powerError n x y cx cy ρ := by
  unfold powerError
  rw [mul_sum]
  apply sum_congr rfl
  intro i _
  simp only [simX, simY]
  ring

/-- The fit follows the moves, the rotations and the dilations of the contour. -/
theorem fit_circle_similarity (lstsq : Lstsq) (n : ℕ) (x y : ℕ → ℝ) (a b u v : ℝ) (hab : 0 < a ^ 2 + b ^ 2)
    (hw : Wide n x y) (hl : ∀ A b, LeastSquares n A b (lstsq n A b)) (cx cy r : ℝ)
    (hf : fitCircle lstsq n x y = (cx, cy, r)) :
    fitCircle lstsq n (simX a b u x y) (simY a b v x y)
      = (a * cx - b * cy + u, b * cx + a * cy + v, √(a ^ 2 + b ^ 2) * r) := by
  have hw' : Wide n (simX a b u x y) (simY a b v x y) := by
    obtain ⟨i, j, k, hi, hj, hk, hne⟩ := hw
    refine ⟨i, j, k, hi, hj, hk, ?_⟩
    intro h
    apply hne
    simp only [simX, simY] at h
    apply mul_left_cancel₀ hab.ne'
    linear_combination h
  have h1 := fit_circle_spec lstsq n x y (wide_distinct hw) (hl _ _)
  rw [hf, bestCircle_iff] at h1
  refine bestCircle_unique hw' (fit_circle_spec lstsq n _ _ (wide_distinct hw') (hl _ _)) ?_
  rw [bestCircle_iff]
  refine ⟨mul_nonneg (sqrt_nonneg _) h1.1, ?_⟩
  simp only
  rw [mul_pow, sq_sqrt hab.le]
  intro cx' cy' ρ'
  rw [powerError_sim]
  -- the circle which is sent to the other one
  have e := powerError_sim n x y a b u v ((a * (cx' - u) + b * (cy' - v)) / (a ^ 2 + b ^ 2))
    ((-b * (cx' - u) + a * (cy' - v)) / (a ^ 2 + b ^ 2)) (ρ' / (a ^ 2 + b ^ 2))
  rw [show a * ((a * (cx' - u) + b * (cy' - v)) / (a ^ 2 + b ^ 2))
      - b * ((-b * (cx' - u) + a * (cy' - v)) / (a ^ 2 + b ^ 2)) + u = cx' by field_simp; ring,
    show b * ((a * (cx' - u) + b * (cy' - v)) / (a ^ 2 + b ^ 2))
      + a * ((-b * (cx' - u) + a * (cy' - v)) / (a ^ 2 + b ^ 2)) + v = cy' by field_simp; ring,
    mul_div_cancel₀ _ hab.ne'] at e
  rw [e]
  exact mul_le_mul_of_nonneg_left (h1.2 _ _ _) (sq_nonneg _)

/-- The hypothesis on `lstsq` is met by a function: every least squares problem has a solution. -/
theorem lstsq_exists : ∃ lstsq : Lstsq, ∀ n A b, LeastSquares n A b (lstsq n A b) := by
  have key : ∀ (n : ℕ) (A : ℕ → ℝ × ℝ × ℝ) (b : ℕ → ℝ), ∃ s, LeastSquares n A b s := by
    intro n A b
    let L : (ℝ × ℝ × ℝ) →ₗ[ℝ] EuclideanSpace ℝ (Fin n) :=
      { toFun := fun s => WithLp.toLp 2 fun i : Fin n => (A i).1 * s.1 + (A i).2.1 * s.2.1 + (A i).2.2 * s.2.2
        map_add' := by
          intro s t
          ext i
          simp
          ring
        map_smul' := by
          intro c s
          ext i
          simp
          ring }
    let u : EuclideanSpace ℝ (Fin n) := WithLp.toLp 2 fun i : Fin n => b i
    obtain ⟨v, hv, hmin⟩ := (LinearMap.range L).exists_norm_eq_iInf_of_complete_subspace
      (Submodule.complete_of_finiteDimensional _) u
    obtain ⟨s, rfl⟩ := hv
    have hsum : ∀ t : ℝ × ℝ × ℝ, ‖u - L t‖ ^ 2
        = ∑ i ∈ range n, ((A i).1 * t.1 + (A i).2.1 * t.2.1 + (A i).2.2 * t.2.2 - b i) ^ 2 := by
      intro t
      rw [EuclideanSpace.norm_sq_eq, ← Fin.sum_univ_eq_sum_range
        (fun i => ((A i).1 * t.1 + (A i).2.1 * t.2.1 + (A i).2.2 * t.2.2 - b i) ^ 2) n]
      apply sum_congr rfl
      intro i _
      rw [Real.norm_eq_abs, sq_abs]
      simp only [L, u, PiLp.sub_apply, LinearMap.coe_mk, AddHom.coe_mk]
      ring
    refine ⟨s, fun t => ?_⟩
    rw [← hsum s, ← hsum t]
    apply pow_le_pow_left₀ (norm_nonneg _)
    rw [hmin]
    exact ciInf_le ⟨0, by rintro _ ⟨w, rfl⟩; exact norm_nonneg _⟩ (⟨L t, LinearMap.mem_range_self L t⟩ : LinearMap.range L)
  exact ⟨fun n A b => (key n A b).choose, fun n A b => (key n A b).choose_spec⟩

/-- The square `(0, 0) (2, 0) (2, 2) (0, 2)`. -/
def sqX : ℕ → ℝ := fun i => if i % 4 = 1 ∨ i % 4 = 2 then 2 else 0

def sqY : ℕ → ℝ := fun i => if i % 4 = 2 ∨ i % 4 = 3 then 2 else 0

theorem square_wide : Wide 4 sqX sqY := ⟨0, 1, 2, by norm_num, by norm_num, by norm_num, by norm_num [sqX, sqY]⟩

theorem square_on : OnCircle 4 sqX sqY (1, 1, √2) := by
  refine ⟨sqrt_nonneg _, ?_⟩
  intro i hi
  simp only
  rw [sq_sqrt (by norm_num)]
  interval_cases i <;> norm_num [sqX, sqY]

/-- The circle through the corners of a square, of both functions. -/
example : ∃ lstsq : Lstsq, fitCircle lstsq 4 sqX sqY = (1, 1, √2) ∧ fitCircle' lstsq 4 sqX sqY = (1, 1, √2) := by
  obtain ⟨lstsq, hl⟩ := lstsq_exists
  have h := fit_circle_exact lstsq 4 sqX sqY _ square_wide (hl _ _ _) square_on
  exact ⟨lstsq, h, by rw [← fit_circle_agree lstsq 4 sqX sqY square_wide (hl 4), h]⟩

/-! ## C100: the shape error -/

/-- Twice the signed area of a closed contour: the shoelace formula. -/
def shoelace (n : ℕ) (x y : ℕ → ℝ) : ℝ := ∑ i ∈ range n, (x i * y (i + 1) - x (i + 1) * y i)

/-- A closed contour of `n + 1` vertices, at least two. -/
def Closed (n : ℕ) (x y : ℕ → ℝ) : Prop := 0 < n ∧ x n = x 0 ∧ y n = y 0

theorem polyArea_shoelace {n : ℕ} {x y : ℕ → ℝ} (h : Closed n x y) : polyArea n x y = |shoelace n x y| / 2 := by
  obtain ⟨hn, hx, hy⟩ := h
  obtain ⟨m, rfl⟩ : ∃ m, n = m + 1 := ⟨n - 1, by omega⟩
  have e1 : ∑ i ∈ Ico 1 (m + 1), x i * (y (i + 1) - y (i - 1))
      = ∑ i ∈ range m, x (i + 1) * (y (i + 2) - y i) := by
    rw [sum_Ico_eq_sum_range, Nat.add_sub_cancel]
    apply sum_congr rfl
    intro i _
    rw [show 1 + i = i + 1 by omega, show i + 1 + 1 = i + 2 by omega, show i + 1 - 1 = i by omega]
  have e2 : shoelace (m + 1) x y = x 0 * y 1 + ∑ i ∈ range m, x (i + 1) * (y (i + 2) - y i) - x 0 * y m := by
    unfold shoelace
    rw [sum_sub_distrib, sum_range_succ', sum_range_succ (fun i => x (i + 1) * y i), hx]
    simp only [mul_sub, sum_sub_distrib, zero_add]
    have : ∀ i, i + 1 + 1 = i + 2 := fun i => rfl
    simp only [this]
    ring
  unfold polyArea
  rw [e1, e2, Nat.add_sub_cancel]
  rw [show x 0 * (y 1 - y m) + ∑ i ∈ range m, x (i + 1) * (y (i + 2) - y i)
    = x 0 * y 1 + ∑ i ∈ range m, x (i + 1) * (y (i + 2) - y i) - x 0 * y m by ring]
  ring

theorem shoelace_sim {n : ℕ} {x y : ℕ → ℝ} (h : Closed n x y) (a b u v : ℝ) :
    shoelace n (simX a b u x y) (simY a b v x y) = (a ^ 2 + b ^ 2) * shoelace n x y := by
  unfold shoelace
  have e : ∀ i, simX a b u x y i * simY a b v x y (i + 1) - simX a b u x y (i + 1) * simY a b v x y i
      = (a ^ 2 + b ^ 2) * (x i * y (i + 1) - x (i + 1) * y i)
        + ((fun j => u * (b * x j + a * y j) - v * (a * x j - b * y j)) (i + 1)
          - (fun j => u * (b * x j + a * y j) - v * (a * x j - b * y j)) i) := by
    intro i
    simp only [simX, simY]
    ring
  simp only [e]
  rw [sum_add_distrib, ← mul_sum]
  have := sum_range_sub (fun j => u * (b * x j + a * y j) - v * (a * x j - b * y j)) n
  rw [this, h.2.1, h.2.2]
  ring

theorem closed_sim {n : ℕ} {x y : ℕ → ℝ} (h : Closed n x y) (a b u v : ℝ) :
    Closed n (simX a b u x y) (simY a b v x y) :=
  ⟨h.1, by simp only [simX, h.2.1, h.2.2], by simp only [simY, h.2.1, h.2.2]⟩

theorem polyArea_sim {n : ℕ} {x y : ℕ → ℝ} (h : Closed n x y) (a b u v : ℝ) :
    polyArea n (simX a b u x y) (simY a b v x y) = (a ^ 2 + b ^ 2) * polyArea n x y := by
  rw [polyArea_shoelace h, polyArea_shoelace (closed_sim h a b u v), shoelace_sim h, abs_mul,
    abs_of_nonneg (by positivity)]
  ring

/-- `q` is the point of the disc which is the nearest to `p`: `p` itself in the disc, else the point of the
circle in the direction of `p`. -/
def Nearest (cx cy r px py qx qy : ℝ) : Prop :=
  (√((px - cx) ^ 2 + (py - cy) ^ 2) ≤ r ∧ qx = px ∧ qy = py) ∨
    (r < √((px - cx) ^ 2 + (py - cy) ^ 2) ∧ ∃ t : ℝ, 0 < t ∧ qx = cx + t * (px - cx) ∧ qy = cy + t * (py - cy) ∧
      √((qx - cx) ^ 2 + (qy - cy) ^ 2) = r)

theorem clip_nearest (cx cy r px py : ℝ) (hr : 0 < r) (h0 : 0 < √((px - cx) ^ 2 + (py - cy) ^ 2)) :
    Nearest cx cy r px py (clip (ratio cx cy r px py) cx px) (clip (ratio cx cy r px py) cy py) := by
  unfold clip
  by_cases h : ratio cx cy r px py < 1
  · right
    rw [if_pos h, if_pos h]
    have h' := h
    unfold ratio at h'
    rw [div_lt_one h0] at h'
    have hpos : 0 < ratio cx cy r px py := div_pos hr h0
    refine ⟨h', ratio cx cy r px py, hpos, by ring, by ring, ?_⟩
    rw [show (cx + (px - cx) * ratio cx cy r px py - cx) ^ 2 + (cy + (py - cy) * ratio cx cy r px py - cy) ^ 2
      = ratio cx cy r px py ^ 2 * ((px - cx) ^ 2 + (py - cy) ^ 2) by ring, sqrt_mul (sq_nonneg _),
      sqrt_sq hpos.le, ratio, div_mul_cancel₀ _ h0.ne']
  · left
    rw [if_neg h, if_neg h]
    unfold ratio at h
    rw [div_lt_one h0, not_lt] at h
    exact ⟨h, rfl, rfl⟩

theorem nearest_unique {cx cy r px py qx qy qx' qy' : ℝ} (hr : 0 ≤ r) (h : Nearest cx cy r px py qx qy)
    (h' : Nearest cx cy r px py qx' qy') : qx = qx' ∧ qy = qy' := by
  rcases h with ⟨h1, rfl, rfl⟩ | ⟨h1, t, ht, rfl, rfl, hq⟩
  · rcases h' with ⟨_, rfl, rfl⟩ | ⟨h2, _⟩
    · exact ⟨rfl, rfl⟩
    · linarith
  · rcases h' with ⟨h2, _⟩ | ⟨_, t', ht', rfl, rfl, hq'⟩
    · linarith
    · have e : ∀ s : ℝ, 0 < s → √((cx + s * (px - cx) - cx) ^ 2 + (cy + s * (py - cy) - cy) ^ 2)
          = s * √((px - cx) ^ 2 + (py - cy) ^ 2) := by
        intro s hs
        rw [show (cx + s * (px - cx) - cx) ^ 2 + (cy + s * (py - cy) - cy) ^ 2
          = s ^ 2 * ((px - cx) ^ 2 + (py - cy) ^ 2) by ring, sqrt_mul (sq_nonneg _), sqrt_sq hs.le]
      rw [e t ht] at hq
      rw [e t' ht'] at hq'
      have hpos : 0 < √((px - cx) ^ 2 + (py - cy) ^ 2) := lt_of_le_of_lt hr h1
      obtain rfl : t = t' := mul_right_cancel₀ hpos.ne' (hq.trans hq'.symm)
      exact ⟨rfl, rfl⟩

theorem shapeError_some {n : ℕ} {x y : ℕ → ℝ} {cx cy r : ℝ} (hr : 0 < r)
    (hc : ∀ i ≤ n, √((x i - cx) ^ 2 + (y i - cy) ^ 2) ≠ 0) :
    shapeError n x y cx cy r = some (100 + (polyArea n x y
      - 2 * polyArea n (fun i => clip (ratio cx cy r (x i) (y i)) cx (x i))
        (fun i => clip (ratio cx cy r (x i) (y i)) cy (y i))) / (r ^ 2 * π) * 100) := by
  have hn : ¬ ∃ i ≤ n, √((x i - cx) ^ 2 + (y i - cy) ^ 2) = 0 := by
    rintro ⟨i, hi, h⟩
    exact hc i hi h
  unfold shapeError
  simp only
  rw [if_neg hn, if_neg (by positivity)]

theorem polyArea_congr {n : ℕ} {x y x' y' : ℕ → ℝ} (h1 : 0 < n) (h : ∀ i ≤ n, x i = x' i ∧ y i = y' i) :
    polyArea n x y = polyArea n x' y' := by
  unfold polyArea
  rw [(h 0 (by omega)).1, (h 1 (by omega)).2, (h (n - 1) (by omega)).2]
  congr 3
  apply sum_congr rfl
  intro i hi
  rw [mem_Ico] at hi
  rw [(h i (by omega)).1, (h (i + 1) (by omega)).2, (h (i - 1) (by omega)).2]

/-- The shape error is `(P + C - 2 P') / C * 100` where `P` is the area of the contour, `C` the area of the disc
and `P'` the area of the contour whose vertices are moved to the nearest point of the disc.

Missing: the documentation takes the area of the intersection for `P'`, see `shape_error_square_wrong`; a
vertex at the centre raises an error, see `shape_error_centre_wrong`. -/
theorem shape_error_partial (n : ℕ) (x y : ℕ → ℝ) (cx cy r : ℝ) (hn : 0 < n) (hr : 0 < r)
    (hc : ∀ i ≤ n, √((x i - cx) ^ 2 + (y i - cy) ^ 2) ≠ 0) (qx qy : ℕ → ℝ)
    (hq : ∀ i ≤ n, Nearest cx cy r (x i) (y i) (qx i) (qy i)) :
    shapeError n x y cx cy r
      = some ((polyArea n x y + π * r ^ 2 - 2 * polyArea n qx qy) / (π * r ^ 2) * 100) := by
  rw [shapeError_some hr hc]
  have : polyArea n (fun i => clip (ratio cx cy r (x i) (y i)) cx (x i))
      (fun i => clip (ratio cx cy r (x i) (y i)) cy (y i)) = polyArea n qx qy := by
    apply polyArea_congr hn
    intro i hi
    have h0 : 0 < √((x i - cx) ^ 2 + (y i - cy) ^ 2) := lt_of_le_of_ne (sqrt_nonneg _) (Ne.symm (hc i hi))
    exact nearest_unique hr.le (clip_nearest cx cy r (x i) (y i) hr h0) (hq i hi)
  rw [this]
  congr 1
  have := pi_pos
  field_simp
  ring

/-- A contour inside of the disc: the error is the part of the disc which the contour misses. -/
theorem shape_error_inside (n : ℕ) (x y : ℕ → ℝ) (cx cy r : ℝ) (hn : 0 < n) (hr : 0 < r)
    (hc : ∀ i ≤ n, √((x i - cx) ^ 2 + (y i - cy) ^ 2) ≠ 0)
    (hin : ∀ i ≤ n, √((x i - cx) ^ 2 + (y i - cy) ^ 2) ≤ r) :
    shapeError n x y cx cy r = some ((π * r ^ 2 - polyArea n x y) / (π * r ^ 2) * 100) := by
  rw [shape_error_partial n x y cx cy r hn hr hc x y fun i hi => Or.inl ⟨hin i hi, rfl, rfl⟩]
  congr 1
  ring

/-- The shape error does not depend on the place, on the direction and on the size of the contour. -/
theorem shape_error_similarity (n : ℕ) (x y : ℕ → ℝ) (cx cy r a b u v : ℝ) (hcl : Closed n x y) (hr : 0 < r)
    (hab : 0 < a ^ 2 + b ^ 2) :
    shapeError n (simX a b u x y) (simY a b v x y) (a * cx - b * cy + u) (b * cx + a * cy + v)
      (√(a ^ 2 + b ^ 2) * r) = shapeError n x y cx cy r := by
  set k := √(a ^ 2 + b ^ 2) with hk
  have hk0 : 0 < k := sqrt_pos.2 hab
  have hk2 : k ^ 2 = a ^ 2 + b ^ 2 := sq_sqrt hab.le
  have hdist : ∀ i, √((simX a b u x y i - (a * cx - b * cy + u)) ^ 2 + (simY a b v x y i - (b * cx + a * cy + v)) ^ 2)
      = k * √((x i - cx) ^ 2 + (y i - cy) ^ 2) := by
    intro i
    rw [show (simX a b u x y i - (a * cx - b * cy + u)) ^ 2 + (simY a b v x y i - (b * cx + a * cy + v)) ^ 2
      = k ^ 2 * ((x i - cx) ^ 2 + (y i - cy) ^ 2) by rw [hk2]; simp only [simX, simY]; ring,
      sqrt_mul (sq_nonneg _), sqrt_sq hk0.le]
  by_cases hc : ∀ i ≤ n, √((x i - cx) ^ 2 + (y i - cy) ^ 2) ≠ 0
  · rw [shapeError_some hr hc, shapeError_some (mul_pos hk0 hr)
      (fun i hi => by rw [hdist i]; exact mul_ne_zero hk0.ne' (hc i hi))]
    have hratio : ∀ i, ratio (a * cx - b * cy + u) (b * cx + a * cy + v) (k * r) (simX a b u x y i) (simY a b v x y i)
        = ratio cx cy r (x i) (y i) := by
      intro i
      unfold ratio
      rw [hdist i, mul_div_mul_left _ _ hk0.ne']
    set x' := fun i => clip (ratio cx cy r (x i) (y i)) cx (x i) with hx'
    set y' := fun i => clip (ratio cx cy r (x i) (y i)) cy (y i) with hy'
    have ex : (fun i => clip (ratio (a * cx - b * cy + u) (b * cx + a * cy + v) (k * r) (simX a b u x y i)
        (simY a b v x y i)) (a * cx - b * cy + u) (simX a b u x y i)) = simX a b u x' y' := by
      funext i
      rw [hratio i]
      simp only [simX, hx', hy', clip]
      split_ifs
      · ring
      · rfl
    have ey : (fun i => clip (ratio (a * cx - b * cy + u) (b * cx + a * cy + v) (k * r) (simX a b u x y i)
        (simY a b v x y i)) (b * cx + a * cy + v) (simY a b v x y i)) = simY a b v x' y' := by
      funext i
      rw [hratio i]
      simp only [simY, hx', hy', clip]
      split_ifs
      · ring
      · rfl
    have hcl' : Closed n x' y' := ⟨hcl.1, by simp only [hx', hcl.2.1, hcl.2.2], by simp only [hy', hcl.2.1, hcl.2.2]⟩
    rw [ex, ey, polyArea_sim hcl, polyArea_sim hcl', mul_pow, hk2]
    congr 3
    rw [show (a ^ 2 + b ^ 2) * polyArea n x y - 2 * ((a ^ 2 + b ^ 2) * polyArea n x' y')
      = (a ^ 2 + b ^ 2) * (polyArea n x y - 2 * polyArea n x' y') by ring, mul_assoc (a ^ 2 + b ^ 2),
      mul_div_mul_left _ _ hab.ne']
  · have hc' : ∃ i ≤ n, √((x i - cx) ^ 2 + (y i - cy) ^ 2) = 0 := by
      by_contra h
      exact hc fun i hi h0 => h ⟨i, hi, h0⟩
    unfold shapeError
    simp only
    rw [if_pos hc', if_pos]
    obtain ⟨i, hi, h0⟩ := hc'
    exact ⟨i, hi, by rw [hdist i, h0, mul_zero]⟩

/-- A vertex at the centre of the circle raises an error. -/
theorem shape_error_centre_wrong (n : ℕ) (x y : ℕ → ℝ) (cx cy r : ℝ) (i : ℕ) (hi : i ≤ n) (hx : x i = cx)
    (hy : y i = cy) : shapeError n x y cx cy r = none := by
  unfold shapeError
  simp only
  rw [if_pos ⟨i, hi, by rw [hx, hy]; simp⟩]

/-- What the formula of the documentation gives for a convex contour, in the direct sense, around the whole disc:
the intersection is the disc. -/
def ShapeErrorAround : Prop :=
  ∀ (n : ℕ) (x y : ℕ → ℝ) (cx cy r : ℝ), Closed n x y → 0 < r →
    (∀ i < n, ∀ j ≤ n, 0 ≤ (x (i + 1) - x i) * (y j - y i) - (y (i + 1) - y i) * (x j - x i)) →
    (∀ i < n, ∀ qx qy : ℝ, (qx - cx) ^ 2 + (qy - cy) ^ 2 ≤ r ^ 2 →
      0 ≤ (x (i + 1) - x i) * (qy - y i) - (y (i + 1) - y i) * (qx - x i)) →
    shapeError n x y cx cy r = some ((polyArea n x y - π * r ^ 2) / (π * r ^ 2) * 100)

theorem square_area : polyArea 4 sqX sqY = 4 := by
  rw [polyArea_shoelace ⟨by norm_num, by norm_num [sqX], by norm_num [sqY]⟩, shoelace]
  simp only [sum_range_succ, sum_range_zero]
  norm_num [sqX, sqY]

theorem square_corner (i : ℕ) : (sqX i - 1) ^ 2 + (sqY i - 1) ^ 2 = 2 := by
  unfold sqX sqY
  split_ifs <;> norm_num

/-- The square around the unit disc has a shape error of 100 %, where the documentation gives
`(4 - π) / π * 100`, less than 34 %: the vertices are moved to the circle and the contour is cut to the
inscribed square. -/
theorem shape_error_square_wrong : shapeError 4 sqX sqY 1 1 1 = some 100 ∧ ¬ ShapeErrorAround := by
  have hpos : 0 < √(2 : ℝ) := sqrt_pos.2 (by norm_num)
  have hsq : √(2 : ℝ) ^ 2 = 2 := sq_sqrt (by norm_num)
  have h1 : (1 : ℝ) < √2 := by nlinarith
  have hval : shapeError 4 sqX sqY 1 1 1 = some 100 := by
    have hc : ∀ i ≤ 4, √((sqX i - 1) ^ 2 + (sqY i - 1) ^ 2) ≠ 0 := by
      intro i _
      rw [square_corner]
      exact hpos.ne'
    rw [shape_error_partial 4 sqX sqY 1 1 1 (by norm_num) (by norm_num) hc
      (simX (1 / √2) 0 (1 - 1 / √2) sqX sqY) (simY (1 / √2) 0 (1 - 1 / √2) sqX sqY)]
    · rw [polyArea_sim ⟨by norm_num, by norm_num [sqX], by norm_num [sqY]⟩, square_area]
      congr 1
      have := pi_pos
      rw [div_pow, hsq]
      field_simp
      ring
    · intro i hi
      right
      rw [square_corner]
      refine ⟨h1, 1 / √2, by positivity, by simp only [simX]; ring, by simp only [simY]; ring, ?_⟩
      have e : (simX (1 / √2) 0 (1 - 1 / √2) sqX sqY i - 1) ^ 2 + (simY (1 / √2) 0 (1 - 1 / √2) sqX sqY i - 1) ^ 2
          = (1 / √2) ^ 2 * ((sqX i - 1) ^ 2 + (sqY i - 1) ^ 2) := by
        simp only [simX, simY]
        ring
      rw [e, square_corner, div_pow, hsq]
      norm_num
  refine ⟨hval, ?_⟩
  intro h
  have := h 4 sqX sqY 1 1 1 ⟨by norm_num, by norm_num [sqX], by norm_num [sqY]⟩ (by norm_num) (by
    intro i hi j hj
    interval_cases i <;> interval_cases j <;> norm_num [sqX, sqY]) (by
    intro i hi qx qy hq
    have hx : |qx - 1| ≤ 1 := by
      apply abs_le_of_sq_le_sq' _ (by norm_num) |> abs_le.2
      nlinarith [sq_nonneg (qy - 1)]
    have hy : |qy - 1| ≤ 1 := by
      apply abs_le_of_sq_le_sq' _ (by norm_num) |> abs_le.2
      nlinarith [sq_nonneg (qx - 1)]
    obtain ⟨hx1, hx2⟩ := abs_le.1 hx
    obtain ⟨hy1, hy2⟩ := abs_le.1 hy
    interval_cases i <;> norm_num [sqX, sqY] <;> linarith)
  rw [hval, square_area] at this
  have := Option.some.inj this
  have hpi := two_le_pi
  have hpi' := pi_le_four
  have hp : 0 < π := pi_pos
  have h3 : (4 - π * 1 ^ 2) / (π * 1 ^ 2) = 1 := by linarith
  rw [div_eq_one_iff_eq (by positivity)] at h3
  have h4 : π = 2 := by linarith
  have := pi_gt_three
  linarith

/-! ## C101: the circle of a contour in degrees -/

theorem coordinatesToLocal_period (lon lat lon0 lat0 : ℝ) (k : ℤ) :
    coordinatesToLocal (lon + 360 * k) lat lon0 lat0 = coordinatesToLocal lon lat lon0 lat0 := by
  have hd : (lon + 360 * k - lon0) * Sphere.D2R = (lon - lon0) * Sphere.D2R + k * (2 * π) := by
    unfold Sphere.D2R
    ring
  have h1 : sin ((lon + 360 * k - lon0) * Sphere.D2R) = sin ((lon - lon0) * Sphere.D2R) := by
    rw [hd, sin_add_int_mul_two_pi]
  have h2 : cos ((lon + 360 * k - lon0) * Sphere.D2R) = cos ((lon - lon0) * Sphere.D2R) := by
    rw [hd, cos_add_int_mul_two_pi]
  have h3 : sin ((lon + 360 * k - lon0) * Sphere.D2R * 0.5) ^ 2 = sin ((lon - lon0) * Sphere.D2R * 0.5) ^ 2 := by
    have half : ∀ t : ℝ, sin (t * 0.5) ^ 2 = (1 - cos t) / 2 := by
      intro t
      have e := cos_two_mul' (t * 0.5)
      have f := sin_sq_add_cos_sq (t * 0.5)
      rw [show 2 * (t * 0.5) = t by ring] at e
      linarith
    rw [half, half, h2]
  unfold Sphere.coordinatesToLocal
  simp only [h1, h2, h3]

theorem fmod360_spec (t : ℝ) : 0 ≤ fmod360 t ∧ fmod360 t < 360 ∧ ∃ k : ℤ, fmod360 t = t + 360 * k := by
  have h1 := Int.floor_le (t / 360)
  have h2 := Int.lt_floor_add_one (t / 360)
  rw [le_div_iff₀ (by norm_num)] at h1
  rw [div_lt_iff₀ (by norm_num)] at h2
  unfold Sphere.fmod360
  refine ⟨by linarith, by linarith, -⌊t / 360⌋, ?_⟩
  push_cast
  ring

/-- The answer of `_fit_circle_path`, when it is not the one of a dot: the circle which has the smallest error of
all the circles in the coordinates local to the mean of the vertices; its centre is given in degrees within
half a turn of the mean. -/
theorem fit_circle_path_spec (lstsq : Lstsq) (n : ℕ) (lons lats : ℕ → ℝ) (clon clat r : ℝ)
    (hl : ∀ A b, LeastSquares n A b (lstsq n A b)) (hlat : |meanTail n lats| < 90)
    (h : fitCirclePath lstsq n lons lats = some (clon, clat, r)) :
    ∃ cx cy : ℝ,
      ((∃ i j, i < n ∧ j < n ∧
          coordinatesToLocal (lons (i + 1)) (lats (i + 1)) (meanTail n lons) (meanTail n lats)
            ≠ coordinatesToLocal (lons (j + 1)) (lats (j + 1)) (meanTail n lons) (meanTail n lats)) →
        BestCircle n (fun i => (coordinatesToLocal (lons i) (lats i) (meanTail n lons) (meanTail n lats)).1)
          (fun i => (coordinatesToLocal (lons i) (lats i) (meanTail n lons) (meanTail n lats)).2) (cx, cy, r)) ∧
      (√(cx ^ 2 + cy ^ 2) < 6370997 * π →
        coordinatesToLocal clon clat (meanTail n lons) (meanTail n lats) = (cx, cy)) ∧
      meanTail n lons - 180 ≤ clon ∧ clon < meanTail n lons + 180 := by
  unfold fitCirclePath at h
  simp only at h
  split_ifs at h with hdot
  set lon0 := meanTail n lons with hlon0
  set lat0 := meanTail n lats with hlat0
  set f := fitCircle lstsq n (fun i => (coordinatesToLocal (lons i) (lats i) lon0 lat0).1)
    (fun i => (coordinatesToLocal (lons i) (lats i) lon0 lat0).2) with hf
  simp only [Option.some.injEq, Prod.mk.injEq] at h
  obtain ⟨h1, h2, h3⟩ := h
  obtain ⟨m1, m2, k, m3⟩ := fmod360_spec ((localToCoordinates f.1 f.2.1 lon0 lat0).1 - lon0 + 180)
  refine ⟨f.1, f.2.1, ?_, ?_, ?_, ?_⟩
  · intro hw
    rw [← h3]
    apply fit_circle_spec lstsq n _ _ _ (hl _ _)
    obtain ⟨i, j, hi, hj, hne⟩ := hw
    exact ⟨i, j, hi, hj, hne⟩
  · intro hn
    rw [← h1, ← h2, m3, show (localToCoordinates f.1 f.2.1 lon0 lat0).1 - lon0 + 180 + 360 * (k : ℝ) + lon0 - 180
      = (localToCoordinates f.1 f.2.1 lon0 lat0).1 + 360 * k by ring, coordinatesToLocal_period]
    exact Sphere.coordinates_round_trip _ _ _ _ hlat hn
  · linarith
  · linarith

theorem arrMax_mem (f : ℕ → ℝ) : ∀ n, ∃ i ≤ n, arrMax f n = f i
  | 0 => ⟨0, le_refl _, rfl⟩
  | n + 1 => by
    obtain ⟨i, hi, e⟩ := arrMax_mem f n
    unfold arrMax
    rcases max_choice (arrMax f n) (f (n + 1)) with h | h
    · exact ⟨i, by omega, by rw [h, e]⟩
    · exact ⟨n + 1, le_refl _, h⟩

theorem arrMin_neg (f : ℕ → ℝ) : ∀ n, arrMin f n = -arrMax (fun i => -f i) n
  | 0 => by simp [arrMin, arrMax]
  | n + 1 => by
    unfold arrMin arrMax
    rw [arrMin_neg f n, ← min_neg_neg, neg_neg]

theorem spread_lt (f : ℕ → ℝ) (n : ℕ) (e : ℝ) : arrMax f n - arrMin f n < e ↔ ∀ i ≤ n, ∀ j ≤ n, |f i - f j| < e := by
  rw [arrMin_neg]
  constructor
  · intro h i hi j hj
    have a := le_arrMax f n i hi
    have b := le_arrMax f n j hj
    have c := le_arrMax (fun i => -f i) n i hi
    have d := le_arrMax (fun i => -f i) n j hj
    rw [abs_lt]
    constructor <;> linarith
  · intro h
    obtain ⟨i, hi, ei⟩ := arrMax_mem f n
    obtain ⟨j, hj, ej⟩ := arrMax_mem (fun i => -f i) n
    have := (abs_lt.1 (h i hi j hj)).2
    rw [ei, ej]
    linarith

/-- The answer of a dot (nan) is given exactly for the contours smaller than 1e-7 degree in both directions. -/
theorem fit_circle_path_dot (lstsq : Lstsq) (n : ℕ) (lons lats : ℕ → ℝ) :
    fitCirclePath lstsq n lons lats = none ↔
      ∀ i ≤ n, ∀ j ≤ n, |lons i - lons j| < 1e-7 ∧ |lats i - lats j| < 1e-7 := by
  unfold fitCirclePath
  simp only
  split_ifs with h <;> rw [spread_lt, spread_lt] at h
  · exact ⟨fun _ i hi j hj => ⟨h.1 i hi j hj, h.2 i hi j hj⟩, fun _ => rfl⟩
  · simp only [reduceCtorEq, false_iff]
    exact fun h' => h ⟨fun i hi j hj => (h' i hi j hj).1, fun i hi j hj => (h' i hi j hj).2⟩

/-- A square of one degree near the equator is not a dot: the function answers a circle. -/
example (lstsq : Lstsq) : ∃ c, fitCirclePath lstsq 4 sqX sqY = some c := by
  unfold fitCirclePath
  simp only
  rw [if_neg]
  · exact ⟨_, rfl⟩
  · norm_num [arrMax, arrMin, sqX, sqY]

end

end Verif.Circle
