import Mathlib.Analysis.SpecialFunctions.Trigonometric.Arctan
import Mathlib.Algebra.BigOperators.Group.Finset.Basic

/-!
# The fit of ellipses

Model of `fit_ellipse` (`poly.py`).  Floats are exact reals; an array of `n` vertices is a pair of functions read at
`0 .. n - 1`; `lstsq` of numpy is a parameter.  `none` is the `ZeroDivisionError` which numba raises for a division of
floats by zero.  The square root of a negative number, `nan` in the code, is zero here: the properties only speak of the
cases where it does not happen.
-/

namespace Verif.Ellipse

noncomputable section

open Real

/-- The five unknowns. -/
structure Conic where
  a : ℝ
  b : ℝ
  c : ℝ
  d : ℝ
  e : ℝ

/-- The type of `lstsq(datas, ones(nb))` for five columns. -/
abbrev Lstsq5 := ℕ → (ℕ → ℝ × ℝ × ℝ × ℝ × ℝ) → (ℕ → ℝ) → Conic

/-- The answer `x0, y0, A, B, theta`. -/
structure Ell where
  x0 : ℝ
  y0 : ℝ
  A : ℝ
  B : ℝ
  theta : ℝ

open Classical in
/-- From the unknowns to the parameters of the ellipse (poly.py:599-610). -/
def params (s : Conic) : Option Ell :=
  let det := s.b ^ 2 - 4 * s.a * s.c
  if det = 0 then none
  else
    let x0 := (2 * s.c * s.d - s.b * s.e) / det
    let y0 := (2 * s.a * s.e - s.b * s.d) / det
    let AB1 := 2 * (s.a * s.e ^ 2 + s.c * s.d ^ 2 - s.b * s.d * s.e - det)
    let AB2 := s.a + s.c
    let AB3 := √((s.a - s.c) ^ 2 + s.b ^ 2)
    let A := -√(AB1 * (AB2 + AB3)) / det
    let B := -√(AB1 * (AB2 - AB3)) / det
    if s.b = 0 then none
    else some ⟨x0, y0, A, B, arctan ((s.c - s.a - AB3) / s.b)⟩

/-- `fit_ellipse(x, y)` (poly.py:575-610). -/
def fitEllipse (lstsq : Lstsq5) (n : ℕ) (x y : ℕ → ℝ) : Option Ell :=
  params (lstsq n (fun i => (x i ^ 2, x i * y i, y i ^ 2, x i, y i)) fun _ => 1)

end

end Verif.Ellipse
