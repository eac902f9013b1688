import Verif.Sphere.Model
import Mathlib.Algebra.BigOperators.Group.Finset.Basic

/-!
# The resampling of contours and the circles

Model of `uniform_resample` and `build_circle` (`generic.py`).  Floats are exact reals, an array of `n + 1` vertices is a
pair of functions read at the indices `0 .. n`.
-/

namespace Verif.Resample

noncomputable section

open Real Finset

open Classical in
/-- The distance between the vertices `i` and `i + 1`, at least one millimetre (generic.py:314-319). -/
def step (x y : ℕ → ℝ) (i : ℕ) : ℝ :=
  let d := Sphere.distance (x i) (y i) (x (i + 1)) (y (i + 1))
  if d < 1e-3 then 1e-3 else d

/-- `dist.cumsum()`: the distance along the contour of the vertex `k` (generic.py:320). -/
def cumul (x y : ℕ → ℝ) (k : ℕ) : ℝ := ∑ i ∈ range k, step x y i

/-- `linspace(0, stop, size)` at the index `j` (generic.py:324): `0` alone when the size is one. -/
def linspace (stop : ℝ) (size j : ℕ) : ℝ := if size ≤ 1 then 0 else stop * (j / ((size - 1 : ℕ) : ℝ))

open Classical in
/-- `interp(d, dist, f)` of numpy for increasing distances `dist` at `0 .. n`: constant outside, linear
between (generic.py:325-326). -/
def interp (dist f : ℕ → ℝ) (d : ℝ) : ℕ → ℝ
  | 0 => f 0
  | n + 1 =>
    if dist (n + 1) ≤ d then f (n + 1)
    else if dist n ≤ d then f n + (f (n + 1) - f n) / (dist (n + 1) - dist n) * (d - dist n)
    else interp dist f d n

/-- The size of the new contour, from the number of vertices `n + 1` (generic.py:321-323); `none` is the value -1. -/
def newSize (n num_fac : ℕ) (fixed_size : Option ℕ) : ℕ :=
  match fixed_size with
  | none => (n + 1) * num_fac
  | some s => s

/-- `uniform_resample(x_val, y_val, num_fac, fixed_size)`: the new vertices (generic.py:303-327). -/
def resample (n : ℕ) (x y : ℕ → ℝ) (num_fac : ℕ) (fixed_size : Option ℕ) : List (ℝ × ℝ) :=
  let size := newSize n num_fac fixed_size
  (List.range size).map fun j =>
    let d := linspace (cumul x y n) size j
    (interp (cumul x y) x d n, interp (cumul x y) y d n)

/-- `build_circle(x0, y0, r)` (generic.py:603-615): 50 points at the angles `linspace(0, 360, 50)` in degrees. -/
def buildCircle (x0 y0 r : ℝ) : List (ℝ × ℝ) :=
  (List.range 50).map fun j =>
    let angle := linspace 360 50 j * (π / 180)
    (cos angle * r + x0, sin angle * r + y0)

end

end Verif.Resample
