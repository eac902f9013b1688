import Verif.Sphere.Model
import Mathlib.Algebra.BigOperators.Group.Finset.Basic
import Mathlib.Algebra.BigOperators.Intervals

/-!
# The fit of circles and the shape error

Model of `fit_circle`, `fit_circle_`, `shape_error` (`poly.py`) and `_fit_circle_path`
(`dataset/grid.py`).

Floats are exact reals.  An array of `n + 1` vertices is a pair of functions `x y : ℕ → ℝ` read at the
indices `0 .. n`; the contours are closed, the vertices `0` and `n` are the same.  `lstsq` of numpy is a
parameter: a function of the number of rows, of the rows and of the right hand side, of which the
properties only use that it returns a least squares solution.  `none` is the `ZeroDivisionError` which
numba raises for a division of floats by zero.
-/

namespace Verif.Circle

noncomputable section

open Real Finset
open Verif.Sphere (coordinatesToLocal localToCoordinates fmod360)

/-- The type of `lstsq(datas, values)` for three columns. -/
abbrev Lstsq := ℕ → (ℕ → ℝ × ℝ × ℝ) → (ℕ → ℝ) → ℝ × ℝ × ℝ

/-- The maximum of the elements `0 .. n` of an array. -/
def arrMax (f : ℕ → ℝ) : ℕ → ℝ
  | 0 => f 0
  | n + 1 => max (arrMax f n) (f (n + 1))

/-- `x[1:].mean()` of an array of `n + 1` elements (poly.py:545-546). -/
def meanTail (n : ℕ) (x : ℕ → ℝ) : ℝ := (∑ i ∈ range n, x (i + 1)) / n

/-- `fit_circle(x, y)` without the shape error: `x0, y0, radius` (poly.py:529-570). -/
def fitCircle (lstsq : Lstsq) (n : ℕ) (x y : ℕ → ℝ) : ℝ × ℝ × ℝ :=
  let x_mean := meanTail n x
  let y_mean := meanTail n y
  let norme := fun i => (x (i + 1) - x_mean) ^ 2 + (y (i + 1) - y_mean) ^ 2
  let norme_max := arrMax norme (n - 1)
  let scale := √norme_max
  let datas := fun i => (2 * (x (i + 1) - x_mean) / scale, 2 * (y (i + 1) - y_mean) / scale, (1 : ℝ))
  let s := lstsq n datas fun i => norme i / norme_max
  let radius := √(s.2.2 + (s.1 ^ 2 + s.2.1 ^ 2))
  (s.1 * scale + x_mean, s.2.1 * scale + y_mean, radius * scale)

/-- `fit_circle_(x, y)` without the shape error: `x0, y0, radius` (poly.py:613-667). -/
def fitCircle' (lstsq : Lstsq) (n : ℕ) (x y : ℕ → ℝ) : ℝ × ℝ × ℝ :=
  let datas := fun i => (x (i + 1), y (i + 1), (1 : ℝ))
  let s := lstsq n datas fun i => x (i + 1) ^ 2 + y (i + 1) ^ 2
  let x0 := s.1 / 2
  let y0 := s.2.1 / 2
  (x0, y0, √(s.2.2 + x0 ^ 2 + y0 ^ 2))

/-- `poly_area(x, y)` of `n + 1` vertices (poly.py:85-99); `y[-2]` is the vertex `n - 1`. -/
def polyArea (n : ℕ) (x y : ℕ → ℝ) : ℝ :=
  |x 0 * (y 1 - y (n - 1)) + ∑ i ∈ Ico 1 n, x i * (y (i + 1) - y (i - 1))| * 0.5

/-- `rd` of a vertex (poly.py:698-699). -/
def ratio (x0 y0 r px py : ℝ) : ℝ := r / √((px - x0) ^ 2 + (py - y0) ^ 2)

open Classical in
/-- The new abscissa of a vertex, `d` is `dx` (poly.py:700-701); the ordinate is the same with `dy` (poly.py:702). -/
def clip (rd c p : ℝ) : ℝ := if rd < 1 then c + (p - c) * rd else p

open Classical in
/-- `shape_error(x, y, x0, y0, r)` (poly.py:672-703): a vertex at the centre and a null radius divide by
zero. -/
def shapeError (n : ℕ) (x y : ℕ → ℝ) (x0 y0 r : ℝ) : Option ℝ :=
  let c_area := r ^ 2 * π
  let p_area := polyArea n x y
  if ∃ i ≤ n, √((x i - x0) ^ 2 + (y i - y0) ^ 2) = 0 then none
  else
    let x' := fun i => clip (ratio x0 y0 r (x i) (y i)) x0 (x i)
    let y' := fun i => clip (ratio x0 y0 r (x i) (y i)) y0 (y i)
    if c_area = 0 then none
    else some (100 + (p_area - 2 * polyArea n x' y') / c_area * 100)

/-- The minimum of the elements `0 .. n` of an array. -/
def arrMin (f : ℕ → ℝ) : ℕ → ℝ
  | 0 => f 0
  | n + 1 => min (arrMin f n) (f (n + 1))

open Classical in
/-- `_fit_circle_path(vertice)` without the shape error: the longitude and the latitude of the centre and
the radius; `none` is the answer `0, -90, nan, nan` for a contour reduced to a dot (grid.py:166-183). -/
def fitCirclePath (lstsq : Lstsq) (n : ℕ) (lons lats : ℕ → ℝ) : Option (ℝ × ℝ × ℝ) :=
  let lon0 := meanTail n lons
  let lat0 := meanTail n lats
  let c_x := fun i => (coordinatesToLocal (lons i) (lats i) lon0 lat0).1
  let c_y := fun i => (coordinatesToLocal (lons i) (lats i) lon0 lat0).2
  let d_lon := arrMax lons n - arrMin lons n
  let d_lat := arrMax lats n - arrMin lats n
  if d_lon < 1e-7 ∧ d_lat < 1e-7 then none
  else
    let f := fitCircle lstsq n c_x c_y
    let g := localToCoordinates f.1 f.2.1 lon0 lat0
    let centlon := fmod360 (g.1 - lon0 + 180) + lon0 - 180
    some (centlon, g.2, f.2.2)

end

end Verif.Circle
