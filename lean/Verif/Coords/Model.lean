import Verif.Pixels.Model

/-!
Model of the coordinates of a grid: `c_to_bounds`, `setup_coordinates`, `bounds`, `is_circular`, `display`
(/repo/src/py_eddy_tracker/dataset/grid.py). Coordinates are exact rationals; `none` is an exception.
-/

namespace Verif.Coords

open Verif.Poly (minR maxR)

/-- `a[1:] - a[:-1]`. -/
def diffs (l : List Rat) : List Rat := List.zipWith (· - ·) l.tail l

/-- `c_to_bounds` (grid.py:430-441). -/
def cToBounds (c : List Rat) : Option (List Rat) := do
  let z ← Py.get c (-1)
  let y ← Py.get c (-2)
  let bounds := c ++ [2 * z - y]
  let d := diffs bounds
  let e ← Py.get bounds (-1)
  let w ← Py.get d (-1)
  some (List.zipWith (fun b h => b - h / 2) bounds d ++ [e - w / 2])

/-- The centres of pixels given by their corners (grid.py:463-471). -/
def centresOf (b : List Rat) : Option (List Rat) := do
  let dx2 := (diffs b).map (· / 2)
  let e ← Py.get b (-1)
  let w ← Py.get dx2 (-1)
  some (List.zipWith (· + ·) b dx2 ++ [e + w])

/-- Centres and bounds of one axis. -/
structure Axis where
  centres : List Rat
  bounds : List Rat

/-- `setup_coordinates` of `GridDataset` for one axis of one dimension (grid.py:443-473); `is_centered` is at grid.py:330-340. -/
def setup (centered : Bool) (v : List Rat) : Option Axis :=
  if centered then (cToBounds v).map (fun b => ⟨v, b⟩) else (centresOf v).map (fun c => ⟨c, v⟩)

/-- `setup_coordinates` of `RegularGridDataset` for one axis (grid.py:1215-1229): the axis and its step. -/
def setupRegular (centered : Bool) (v : List Rat) : Option (Axis × Rat) :=
  (setup centered v).bind (fun a =>
    if (diffs a.bounds).any (fun d => decide (d < 0)) then none
    else some (a, (diffs a.centres).sum / ((diffs a.centres).length : Rat)))

/-- `bounds` of one axis (grid.py:618-625). -/
def extent (a : Axis) : Rat × Rat := (minR a.bounds, maxR a.bounds)

/-- `is_circular` (grid.py:1330-1336). -/
def isCircular (a : Axis) : Bool :=
  decide (|Py.fmod (a.bounds.headD 0) 360 - Py.fmod (a.bounds.getLastD 0) 360| < 1 / 10000)

/-- Column of a longitude (`nearest_grd_indice`, generic.py:559-573, with the arguments of grid.py:1289-1296; the same rounding is at
grid.py:2266-2269). -/
def column (a : Axis) (step x : Rat) : Int := Amplitude.rint (Py.fmod (x - a.bounds.headD 0) 360 / step)

/-- The axis drawn by `display` with `ref` (grid.py:1942-1945): the bounds and the columns in the order of drawing. -/
def drawn (ref : Rat) (c : List Rat) : Option (List Rat × List Nat) :=
  let x := c.map (fun v => Py.fmod (v - ref) 360 + ref)
  let s := (x.zipIdx).insertionSort (fun a b => a.1 ≤ b.1)
  (cToBounds (s.map Prod.fst)).map (fun b => (b, s.map Prod.snd))

end Verif.Coords
