import Mathlib.Tactic.Linarith
import Mathlib.Tactic.Ring
import Mathlib.Tactic.FieldSimp
import Mathlib.Data.Rat.Floor
import Verif.Py

/-!
# Model of the filters of a regular grid

`finalize_kernel` and `convolve_filter_with_dynamic_kernel` (src/py_eddy_tracker/dataset/grid.py). Values are exact rationals.
The values of the kernels (sinc, Bessel and distance functions) are a parameter.
-/

namespace Verif.Convolve

/-- A kernel: sizes in longitude and latitude, weights. -/
structure Kernel (α : Type := Rat) where
  kx : Nat
  ky : Nat
  w : Nat → Nat → α

/-! ### finalize_kernel -/

/-- The kernel completed by symmetry (grid.py:1377-1379), `h = half_x_pt * order`. -/
def mirrored {α : Type} (h : Nat) (w : Nat → Nat → α) (a b : Nat) : α := if h ≤ a then w (a - h) b else w (h - a) b

/-- Rows with a value (grid.py:1381-1382), `v = 2 * half_y_pt * order + 1` columns. -/
def xValid {α : Type} [Zero α] [DecidableEq α] (h v : Nat) (w : Nat → Nat → α) : List Nat :=
  (List.range (2 * h + 1)).filter (fun a => (List.range v).any (fun b => decide (mirrored h w a b ≠ 0)))

/-- Columns with a value (grid.py:1384). -/
def yValid {α : Type} [Zero α] [DecidableEq α] (h v : Nat) (w : Nat → Nat → α) : List Nat :=
  (List.range v).filter (fun b => (List.range (2 * h + 1)).any (fun a => decide (mirrored h w a b ≠ 0)))

/-- `finalize_kernel` (grid.py:1375-1386); `none` is the exception of a kernel without value. -/
def finalizeKernel {α : Type} [Zero α] [DecidableEq α] (h v : Nat) (w : Nat → Nat → α) : Option (Kernel α) := do
  let x0 ← (xValid h v w).head?
  let x1 ← (xValid h v w).getLast?
  let y0 ← (yValid h v w).head?
  let y1 ← (yValid h v w).getLast?
  some ⟨x1 + 1 - x0, y1 + 1 - y0, fun a b => mirrored h w (x0 + a) (y0 + b)⟩

/-! ### convolve_filter_with_dynamic_kernel -/

/-- A grid `n` by `m` (longitude, latitude); `none` is a masked value. -/
structure Grid where
  n : Nat
  m : Nat
  v : Nat → Nat → Option Rat
  circular : Bool

/-- The temporary matrix (grid.py:1486-1502): rows of longitude extended by `dlon` on both sides, columns of the kernel. `r` row, `c` column.
The last write is tested first. -/
def tmp (g : Grid) (dlon dlat i : Nat) (r c : Nat) : Option Rat :=
  let start := i - dlat
  let stop := min (i + dlat + 1) g.m
  -- `sl_lat_in`
  if dlat - (i - start) ≤ c ∧ c < dlat + (stop - i) then
    let y := start + (c - (dlat - (i - start)))
    if dlon ≤ r ∧ r < dlon + g.n then g.v (r - dlon) y
    else if g.circular then
      if dlon + g.n ≤ r then g.v (r - (dlon + g.n)) y else g.v (g.n - dlon + r) y
    else none
  else none

/-- `filter2D(mat, -1, kernel)[r, c]` of OpenCV away of the borders: correlation with the anchor at the centre `(kx // 2, ky // 2)`. -/
def correlate (k : Kernel) (mat : Nat → Nat → Rat) (r c : Nat) : Rat :=
  ((List.range k.kx).map (fun a => ((List.range k.ky).map (fun b => k.w a b * mat (r + a - k.kx / 2) (c + b - k.ky / 2))).sum)).sum

/-- One latitude (grid.py:1483-1509): for each longitude `values_sum, kernel_sum`. `none` is an exception of numpy: a kernel of one longitude
makes the empty slice `d_lon:-d_lon`; on a circular grid a half kernel larger than the grid cannot be copied. The number of columns of the
kernel in longitude is odd (`finalize_spec`), grids have at least two longitudes. -/
def filterLat (g : Grid) (k : Kernel) (i : Nat) : Option (Nat → Rat × Rat) :=
  let dlat := (k.ky - 1) / 2
  let dlon := (k.kx - 1) / 2
  if dlon = 0 ∨ (g.circular = true ∧ g.n < dlon) then none
  else some (fun x =>
    (correlate k (fun r c => (tmp g dlon dlat i r c).getD 0) (x + k.kx / 2) (k.ky / 2),
     correlate k (fun r c => if (tmp g dlon dlat i r c).isSome then 1 else 0) (x + k.kx / 2) (k.ky / 2)))

/-- A value of the result: masked, or a number (`none` for the division by 0). -/
inductive Out where
  | masked
  | value (q : Option Rat)
  deriving DecidableEq

/-- `values_sum / kernel_sum`. -/
def quotient (p : Rat × Rat) : Option Rat := if p.2 = 0 then none else some (p.1 / p.2)

/-- Sum of the kernel. -/
def total (k : Kernel) : Rat := ((List.range k.kx).map (fun a => ((List.range k.ky).map (fun b => k.w a b)).sum)).sum

/-- Mask and value of one pixel (grid.py:1510-1527) from the two sums; `extend` is 0 for False. -/
def pixel (extend : Rat) (g : Grid) (k : Kernel) (i x : Nat) (p : Rat × Rat) : Out :=
  if extend ≠ 0 then (if p.2 < extend * total k then .masked else .value (quotient p))
  else if (g.v x i).isNone then .masked else .value (quotient p)

/-- `data[:, i].mask.all()` -/
def allMasked (g : Grid) (i : Nat) : Bool := (List.range g.n).all (fun x => (g.v x i).isNone)

/-- One latitude of the result (grid.py:1463-1470 for the ones which are not filtered). `far` is `abs(lat) > lat_max`. -/
def filterRow (extend : Rat) (g : Grid) (far : Nat → Bool) (kernel : Nat → Kernel) (i : Nat) : Option (List Out) :=
  if far i || allMasked g i then some ((List.range g.n).map (fun _ => Out.masked))
  else (filterLat g (kernel i) i).map (fun f => (List.range g.n).map (fun x => pixel extend g (kernel i) i x (f x)))

/-- `convolve_filter_with_dynamic_kernel` (grid.py:1439-1532): latitudes, then longitudes. -/
def convolveFilter (extend : Rat) (g : Grid) (far : Nat → Bool) (kernel : Nat → Kernel) : Option (List (List Out)) :=
  (List.range g.m).mapM (filterRow extend g far kernel)

end Verif.Convolve
