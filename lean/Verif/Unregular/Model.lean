import Verif.Poly.Indexs
import Verif.Boxes.Model
import Mathlib.Data.List.ProdSigma

/-!
# Model of the unregular grids

`UnRegularGridDataset` (src/py_eddy_tracker/dataset/grid.py:1077-1198): nodes of two dimensions, search of the pixels of a contour, low pass filter.
Coordinates and values are exact rationals. The tree of positions (`cKDTree`) is a parameter: any function which gives a nearest node. The filter of
the regular grid (`bessel_low_filter`) is a parameter, see the properties C81, C131 and C132.
-/

namespace Verif.Unregular

open Verif.Poly

/-- `x_c` and `y_c`: arrays of `nx` rows and `ny` columns (grid.py:1086-1101). -/
structure Grid where
  nx : Nat
  ny : Nat
  x : Nat → Nat → Rat
  y : Nat → Nat → Rat

/-- A node in the list of `reshape(-1)` (grid.py:1138-1140). -/
def Grid.node (g : Grid) (k : Nat) : Pt := (g.x (k / g.ny) (k % g.ny), g.y (k / g.ny) (k % g.ny))

/-- Square of the distance of the tree. -/
def dist2 (p q : Pt) : Rat := (p.1 - q.1) * (p.1 - q.1) + (p.2 - q.2) * (p.2 - q.2)

/-- Indices of a node of the list (grid.py:1110-1111, 1129-1130). -/
def decode (g : Grid) (k : Nat) : Nat × Nat := ((k - k % g.ny) / g.ny, k % g.ny)

/-- `nearest_grd_indice` (grid.py:1127-1131). -/
def nearest (g : Grid) (query : Pt → Nat) (p : Pt) : Nat × Nat := decode g (query p)

/-- Smallest element of a list of indices. -/
def least (l : List Nat) : Nat := l.foldl min (l.headD 0)

/-- Largest element of a list of indices. -/
def greatest (l : List Nat) : Nat := l.foldl max 0

/-- One slice of `bbox_indice` (grid.py:1113-1114): the difference of naturals is cut at 0. -/
def slice (N : Nat) (l : List Nat) : Nat × Nat := (least l - N, greatest l + N + 1)

/-- `bbox_indice` (grid.py:1108-1115). -/
def bbox (g : Grid) (query : Pt → Nat) (N : Nat) (v : List Pt) : (Nat × Nat) × (Nat × Nat) :=
  (slice N (v.map (fun p => (nearest g query p).1)), slice N (v.map (fun p => (nearest g query p).2)))

/-- `_get_pixel_in_unregular` (grid.py:187-198): `none` when the loop reads out of the arrays (there is no check). -/
def pixelsIn (g : Grid) (v : List Pt) (xb yb : Nat × Nat) : Option (List (Nat × Nat)) :=
  if xb.2 ≤ g.nx ∧ yb.2 ≤ g.ny then
    some (((List.range' xb.1 (xb.2 - xb.1)) ×ˢ (List.range' yb.1 (yb.2 - yb.1))).filter
      (fun p => decide (winding (g.x p.1 p.2, g.y p.1 p.2) v ≠ 0)))
  else none

/-- `get_pixels_in` of a contour (grid.py:204-209, 1117-1121). -/
def getPixels (g : Grid) (query : Pt → Nat) (N : Nat) (v : List Pt) : Option (List (Nat × Nat)) :=
  pixelsIn g v (bbox g query N v).1 (bbox g query N v).2

/-! ### Low pass filter -/

/-- `numpy.arange`. -/
def arange (start stop step : Rat) : List Rat := (List.range ⌈(stop - start) / step⌉.toNat).map (fun (k : Nat) => start + k * step)

/-- `x_array` (grid.py:1150). -/
def xEdges (xmin xmax step : Rat) : List Rat := arange xmin (xmax + step) step

/-- `y_array` (grid.py:1151). -/
def yEdges (ymin ymax step : Rat) : List Rat := arange ymin (min (ymax + step) 89) step

/-- A valid node with its value. -/
abbrev Obs := Boxes.Obs

/-- `z_grid` (grid.py:1158-1163): mean of the values of a cell, masked where there is no value. -/
def zGrid (xe ye : List Rat) (obs : List Obs) (a b : Nat) : Option Rat :=
  if Boxes.histogram xe ye obs (fun _ => 1) a b = 0 then none
  else some (Boxes.histogram xe ye obs (·.value) a b / Boxes.histogram xe ye obs (fun _ => 1) a b)

/-- `x_center`, `y_center` (grid.py:1174-1175). -/
def centres (e : List Rat) : List Rat := List.zipWith (fun a b => (a + b) / 2) e e.tail

/-- `x_c` of the regular grid made with the edges but the last one (grid.py:1164-1172, 462-466). -/
def cornersToCentres (e : List Rat) : List Rat :=
  let d := List.zipWith (fun a b => (b - a) / 2) e e.tail
  List.zipWith (· + ·) e (d ++ [d.getLastD 0])

/-- Position of a value between centres of constant step, as `RectBivariateSpline` of order 1 does it: cut at the ends (grid.py:1176-1184). The index of
the lower centre and the weight of the next one. -/
def place (c0 step : Rat) (n : Nat) (x : Rat) : Nat × Rat :=
  let t := max 0 (min ((x - c0) / step) ((n : Rat) - 1))
  let k := min ⌊t⌋.toNat (n - 2)
  (k, t - k)

/-- Weighted value of four corners. -/
def bilinear (z : Nat → Nat → Rat) (p q : Nat × Rat) : Rat :=
  z p.1 q.1 * ((1 - p.2) * (1 - q.2)) + z (p.1 + 1) q.1 * (p.2 * (1 - q.2)) + z p.1 (q.1 + 1) * ((1 - p.2) * q.2) +
    z (p.1 + 1) (q.1 + 1) * (p.2 * q.2)

/-- The value of the filtered grid at a node (grid.py:1177-1185): zeros under the mask, masked where the interpolated mask exceeds `0.00001`. -/
def back (z : Nat → Nat → Option Rat) (p q : Nat × Rat) : Option Rat :=
  if bilinear (fun a b => if (z a b).isNone then 1 else 0) p q > 1 / 100000 then none
  else some (bilinear (fun a b => (z a b).getD 0) p q)

/-- `_low_filter` (grid.py:1144-1185) at the position of one node; `F` is the filter of the regular grid. -/
def lowFilter (F : (Nat → Nat → Option Rat) → Nat → Nat → Option Rat) (step xmin xmax ymin ymax : Rat) (obs : List Obs) (x y : Rat) : Option Rat :=
  let xe := xEdges xmin xmax step
  let ye := yEdges ymin ymax step
  back (F (zGrid xe ye obs)) (place (xmin + step / 2) step (xe.length - 1) x) (place (ymin + step / 2) step (ye.length - 1) y)

end Verif.Unregular
