import Verif.Poly.Indexs
import Verif.Amplitude.Model
import Mathlib.Data.List.ProdSigma

/-!
Model of the search of the pixels of a contour: `nearest_grd_indice`, `bbox_indice_regular` (/repo/src/py_eddy_tracker/generic.py),
`get_pixel_in_regular`, `winding_number_grid_in_poly` (poly.py), `grid_count_`, `grid_count_pixel_in`, `grid_stat`
(observations/observation.py). Coordinates are exact rationals.
-/

namespace Verif.Pixels

open Verif.Poly

/-- A regular grid: `x_bounds[0]`, `y_bounds[0]`, steps, sizes and `is_circular()`. -/
structure Grid where
  x0 : Rat
  y0 : Rat
  xs : Rat
  ys : Rat
  nx : Nat
  ny : Nat
  circular : Bool

/-- Longitude of the centre of a column. -/
def Grid.xc (g : Grid) (i : Nat) : Rat := g.x0 + g.xs / 2 + i * g.xs

/-- Latitude of the centre of a line. -/
def Grid.yc (g : Grid) (j : Nat) : Rat := g.y0 + g.ys / 2 + j * g.ys

/-- `x_c`. -/
def Grid.xC (g : Grid) : List Rat := (List.range g.nx).map g.xc

/-- `y_c`. -/
def Grid.yC (g : Grid) : List Rat := (List.range g.ny).map g.yc

/-- `nearest_grd_indice` (generic.py:559-573). -/
def nearest (g : Grid) (x y : Rat) : Int × Int :=
  (Amplitude.rint (Py.fmod (x - g.x0) 360 / g.xs), Amplitude.rint ((y - g.y0) / g.ys))

/-- `bbox_indice_regular` (generic.py:577-601): slices of columns and lines, for a margin of `N`. -/
def bbox (g : Grid) (N : Nat) (v : List Pt) : (Int × Int) × (Int × Int) :=
  let lo := nearest g (minR (v.map Prod.fst)) (minR (v.map Prod.snd))
  let hi := nearest g (maxR (v.map Prod.fst)) (maxR (v.map Prod.snd))
  (if g.circular then ((lo.1 - N) % (g.nx : Int), (hi.1 + N + 1) % (g.nx : Int)) else (max (lo.1 - N) 0, hi.1 + N + 1),
   (lo.2 - N, hi.2 + N + 1))

/-- `a[start:stop]`. -/
def slice (l : List Rat) (start stop : Int) : List Rat := (l.take (Py.bound l.length stop)).drop (Py.bound l.length start)

/-- `winding_number_grid_in_poly` (poly.py:233-263); `where` gives the indices in lexicographic order. -/
def gridIn (xa ya : List Rat) (ix0 ix1 : Int) (size : Nat) (iy0 : Int) (v : List Pt) : List (Int × Int) :=
  let found := ((List.range xa.length) ×ˢ (List.range ya.length)).filter
    (fun p => decide (winding (xa.getD p.1 0, ya.getD p.2 0) v ≠ 0))
  let l := found.map (fun p => ((p.1 : Int) + ix0, (p.2 : Int) + iy0))
  if ix1 < ix0 then l.map (fun p => (p.1 % (size : Int), p.2)) else l

/-- `get_pixel_in_regular` (poly.py:707-745). -/
def pixelsIn (g : Grid) (v : List Pt) (xb yb : Int × Int) : List (Int × Int) :=
  if xb.2 < xb.1 then
    let ref := (v.headD (0, 0)).1
    gridIn ((g.xC.drop (Py.bound g.xC.length xb.1) ++ g.xC.take (Py.bound g.xC.length xb.2)).map
      (fun x => Py.fmod (x - ref + 180) 360 + ref - 180)) (slice g.yC yb.1 yb.2) xb.1 xb.2 g.xC.length yb.1 v
  else gridIn (slice g.xC xb.1 xb.2) (slice g.yC yb.1 yb.2) xb.1 xb.2 g.xC.length yb.1 v

/-- `RegularGridDataset.get_pixels_in` (grid.py:1271-1288), `N` is the margin (1, grid.py:267). -/
def getPixels (g : Grid) (N : Nat) (v : List Pt) : List (Int × Int) := pixelsIn g v (bbox g N v).1 (bbox g N v).2

/-- `grid_count_` (observation.py:2450-2456) on a grid seen as a function; a negative index counts from the end. -/
def countIn (g : Grid) (grid : Nat → Nat → Int) : List (Int × Int) → (Nat → Nat → Int)
  | [] => grid
  | p :: l =>
    let i := if p.1 < 0 then p.1 + g.nx else p.1
    let j := if p.2 < 0 then p.2 + g.ny else p.2
    countIn g (fun a b => if (a : Int) = i ∧ (b : Int) = j then grid a b + 1 else grid a b) l

/-- Wrap of a contour around its reference and removal of the padding (observation.py:2493-2496). -/
def prepare (ref : Rat) (v : List Pt) : Option (List Pt) := reduceSize (v.map (fun w => (Py.fmod (w.1 - ref) 360 + ref, w.2)))

/-- `grid_count_pixel_in` (observation.py:2459-2508): contours with their references; `none` when `reduce_size` leaves the array. -/
def countPixels (g : Grid) (N : Nat) : List (Rat × List Pt) → (Nat → Nat → Int) → Option (Nat → Nat → Int)
  | [], grid => some grid
  | c :: l, grid =>
    match prepare c.1 c.2 with
    | none => none
    | some v => countPixels g N l (countIn g grid (getPixels g N v))

/-- `grid_count` with `center=False` (observation.py:2218-2272): eddies given by longitude and contour; `bins[0][0]` is the first bound
of the grid. The count starts from 0. -/
def gridCount (g : Grid) (N : Nat) (eddies : List (Rat × List Pt)) : Option (Nat → Nat → Int) :=
  countPixels g N (eddies.map (fun e => (Py.fmod (e.1 - g.x0) 360 + g.x0 - 180, e.2))) (fun _ _ => 0)

/-- `grid_stat` with the method `mean` (observation.py:2585-2607) for one contour: `none` is nan. -/
def meanIn (g : Grid) (mask : Int × Int → Bool) (val : Int × Int → Rat) (v : List Pt) : Option Rat :=
  let l := (getPixels g 1 v).filter (fun p => !mask p)
  if l.length = 0 then none else some ((l.map val).sum / (l.length : Rat))

end Verif.Pixels
