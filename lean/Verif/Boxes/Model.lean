import Verif.Py
import Verif.Basic

/-!
# Statistics and counts on a grid

Models of `grid_box_stat` (function, /repo/src/py_eddy_tracker/observations/observation.py:2512-2560), of the centred counts of
`grid_count` (observation.py:2219-2252) and of the method `grid_stat` (observation.py:2322-2365).

Simplifications: exact rational arithmetic, no nan; `argsort` is a parameter; the integers of cells are unbounded (`int32` in the
code); `numpy.histogram2d` follows its documentation and code (cells closed on the left, last cell closed on both sides).
-/

namespace Verif.Boxes

/-- A cell `(i, j)` of the grid. -/
abbrev Cell := Int × Int

/-- An observation: position and value. -/
structure Obs where
  x : Rat
  y : Rat
  value : Rat
deriving DecidableEq

/-- The grid of `grid_box_stat` (observation.py:2527-2530): origin (edge of the first cell), steps and sizes. -/
structure Grid where
  x0 : Rat
  y0 : Rat
  xstep : Rat
  ystep : Rat
  nbX : Nat
  nbY : Nat

/-! ### `grid_box_stat` -/

/-- Cell before the treatment of circular grids (observation.py:2531-2534). -/
def rawCell (g : Grid) (o : Obs) : Cell := (⌊(o.x - g.x0) / g.xstep⌋, ⌊(o.y - g.y0) / g.ystep⌋)

/-- `i %= nb_x` on circular grids (observation.py:2535-2536). -/
def cellOf (g : Grid) (circular : Bool) (o : Obs) : Cell :=
  if circular then ((rawCell g o).1 % g.nbX, (rawCell g o).2) else rawCell g o

/-- The checks of a grid which is not circular (observation.py:2537-2545). -/
def checked (g : Grid) (obs : List Obs) : Bool :=
  obs.all (fun o => decide (0 ≤ (rawCell g o).1)) && obs.all (fun o => decide ((rawCell g o).1 < g.nbX)) &&
  obs.all (fun o => decide (0 ≤ (rawCell g o).2)) && obs.all (fun o => decide ((rawCell g o).2 < g.nbY))

/-- `abs_i = j * nb_x + i` (observation.py:2546). -/
def absIndex (g : Grid) (c : Cell) : Int := c.2 * g.nbX + c.1

/-- `numpy.percentile(values, q)` with linear interpolation; 0 for an empty list (the code never asks for it). -/
def percentile (q : Rat) (values : List Rat) : Rat :=
  let s := values.insertionSort (· ≤ ·)
  let r := q / 100 * ((s.length : Rat) - 1)
  let k := ⌊r⌋.toNat
  s.getD k 0 + (r - k) * (s.getD (k + 1) (s.getD k 0) - s.getD k 0)

/-- The loop on the sorted observations (observation.py:2550-2560). `c0` is the current group, `vs` its values; the grid holds
`none` where the mask is still true. When the group changes, the statistic of the values is stored in the cell of the
observation at hand (`grid[i_, j_]`). -/
def boxLoop (stat : List Rat → Rat) (cell : Nat → Cell) (value : Nat → Rat) :
    List Nat → Cell → List Rat → (Cell → Option Rat) → Cell → Option Rat
  | [], _, _, g => g
  | k :: l, c0, vs, g =>
    if cell k ≠ c0 then boxLoop stat cell value l (cell k) [value k] (Function.update g (cell k) (some (stat vs)))
    else boxLoop stat cell value l c0 (vs ++ [value k]) g

/-- A missing observation (never used: the indices of the loop are valid). -/
def noObs : Obs := ⟨0, 0, 0⟩

/-- `grid_box_stat` (observation.py:2512-2560); `none`: exception, or read of the first element of an empty array. -/
def gridBoxStat (argsort : List Int → List Nat) (q : Rat) (g : Grid) (circular : Bool) (obs : List Obs) :
    Option (Cell → Option Rat) :=
  if circular || checked g obs then
    let order := argsort (obs.map (fun o => absIndex g (cellOf g circular o)))
    order.head?.map (fun k0 =>
      boxLoop (percentile q) (fun k => cellOf g circular (obs.getD k noObs)) (fun k => (obs.getD k noObs).value) order
        (cellOf g circular (obs.getD k0 noObs)) [] (fun _ => none))
  else none

/-! ### `histogram2d` -/

/-- Number of a value between edges (`numpy.histogramdd`): `searchsorted(edges, v, side="right")`, minus one on the last
edge; 0 and `edges.length` are outside. -/
def binNumber (edges : List Rat) (v : Rat) : Nat :=
  edges.countP (fun e => decide (e ≤ v)) - (if edges.getLast? = some v then 1 else 0)

/-- `histogram2d(x, y, (x_bins, y_bins), weights=w)[0][a, b]`: sum of the weights of the observations of the cell; the first
and the last numbers (outliers) are cut. -/
def histogram (xBins yBins : List Rat) (obs : List Obs) (w : Obs → Rat) (a b : Nat) : Rat :=
  ((obs.filter (fun o => decide (binNumber xBins o.x = a + 1 ∧ binNumber yBins o.y = b + 1))).map w).sum

/-- `(longitude - x0) % 360 + x0` (observation.py:2251). -/
def wrap (x0 : Rat) (o : Obs) : Obs := { o with x := Py.fmod (o.x - x0) 360 + x0 }

/-- `grid_count(bins, center=True)` (observation.py:2219-2253): the number of observations of the cell `(a, b)`. -/
def gridCount (xBins yBins : List Rat) (x0 : Rat) (obs : List Obs) (a b : Nat) : Rat :=
  histogram xBins yBins (obs.map (wrap x0)) (fun _ => 1) a b

/-- The method `grid_stat` (observation.py:2322-2365): sum of the values over their number, masked (`none`) where there is no
observation. -/
def gridStat (xBins yBins : List Rat) (x0 : Rat) (obs : List Obs) (a b : Nat) : Option Rat :=
  if gridCount xBins yBins x0 obs a b = 0 then none
  else some (histogram xBins yBins (obs.map (wrap x0)) (·.value) a b / gridCount xBins yBins x0 obs a b)

end Verif.Boxes
