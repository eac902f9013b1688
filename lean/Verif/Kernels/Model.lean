import Verif.Sphere.Model
import Verif.Convolve.Model
import Mathlib.Analysis.SpecialFunctions.Trigonometric.Sinc

/-!
# Model of the kernels of the filters of a regular grid

`check_order`, `get_step_in_km`, `estimate_kernel_shape`, `kernel_lanczos`, `kernel_loess`, `kernel_bessel` (src/py_eddy_tracker/dataset/grid.py).
Values are exact reals. The Bessel function `j1` of scipy is a parameter.
-/

namespace Verif.Kernels

open Real Verif.Sphere Verif.Convolve

noncomputable section

/-- Steps of a regular grid, in degrees (`xstep`, `ystep`). -/
structure Steps where
  x : ℝ
  y : ℝ

/-- `check_order` (grid.py:1338-1342); an order which is not positive gives a warning only, kernels of such an order are not modelled. -/
def checkOrder (order : ℝ) : Nat := ⌈order⌉.toNat

/-- `get_step_in_km` (grid.py:1344-1354); `none` is the exception. -/
def stepInKm (g : Steps) (lat wl : ℝ) : Option (ℝ × ℝ) :=
  let stepY := g.y * distance 0 0 0 1 / 1000
  let stepX := g.x * distance 0 lat 1 lat / 1000
  if wl < max stepX stepY * 2 then none else some (stepX, stepY)

/-- `arange(start, stop, step)` of numpy. -/
def arange (start stop step : ℝ) : List ℝ := (List.range ⌈(stop - start) / step⌉.toNat).map (fun (k : Nat) => start + k * step)

/-- `half_x_pt`, `half_y_pt` and `dist_norm` (rows of longitude). -/
structure Shape where
  halfX : Nat
  halfY : Nat
  dist : List (List ℝ)

/-- `estimate_kernel_shape` (grid.py:1356-1373). At a pole the step in longitude is null, the size is not modelled there. -/
def shape (g : Steps) (lat wl : ℝ) (order : Nat) : Option Shape :=
  (stepInKm g lat wl).map (fun s =>
    let hx := ⌈wl / s.1⌉.toNat
    let hy := ⌈wl / s.2⌉.toNat
    let y := arange (lat - g.y * hy * order) (lat + g.y * hy * order + 0.01 * g.y) g.y
    let x := arange 0 (g.x * hx * order + 0.01 * g.x) g.x
    ⟨hx, hy, x.map (fun a => y.map (fun b => distance 0 lat a b / 1000 / wl))⟩)

/-- A kernel from its weights: `weight a b d` is the weight of the cell `(a, b)` at the distance `d` before the cut `kernel[dist_norm > order] = 0`.
`none` is an exception, also when the matrix has not the shape which `finalize_kernel` (grid.py:1375-1379) waits for. -/
def kernelOf (g : Steps) (lat wl : ℝ) (order : Nat) (weight : Shape → Nat → Nat → ℝ → ℝ) : Option (Kernel ℝ) :=
  (shape g lat wl order).bind (fun s =>
    if s.dist.length = s.halfX * order + 1 ∧ (∀ r ∈ s.dist, r.length = s.halfY * 2 * order + 1) then
      finalizeKernel (s.halfX * order) (s.halfY * 2 * order + 1) (fun a b =>
        let d := (s.dist.getD a []).getD b 0
        if d > order then 0 else weight s a b d)
    else none)

/-- `sinc` of numpy. -/
def npSinc (x : ℝ) : ℝ := sinc (π * x)

/-- `kernel_lanczos` (grid.py:1388-1399). -/
def lanczos (g : Steps) (lat wl order : ℝ) : Option (Kernel ℝ) :=
  let order := checkOrder order
  kernelOf g lat wl order (fun _ _ _ d => npSinc (d / order) * npSinc d)

/-- `kernel_loess` (grid.py:1401-1417). -/
def loess (g : Steps) (lat wl order : ℝ) : Option (Kernel ℝ) := kernelOf g lat wl (checkOrder order) (fun _ _ _ d => (1 - |d| ^ 3) ^ 3)

/-- `kernel_bessel` (grid.py:1419-1431): the centre, 0 / 0, is set to `pi`. Simplification: the `nan` of another cell at the distance 0 (a kernel
of a whole turn of longitudes) is 0 here. -/
def bessel (j1 : ℝ → ℝ) (g : Steps) (lat wl order : ℝ) : Option (Kernel ℝ) :=
  let order := checkOrder order
  kernelOf g lat wl order (fun s a b d => if a = 0 ∧ b = s.halfY * order then π else npSinc (d / order) * j1 (2 * π * d) / d)

end

end Verif.Kernels
