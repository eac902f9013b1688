import Verif.Py
import Verif.Amplitude.Model
import Verif.Poly.Model

/-!
# Model of the interpolation of a grid

`interp2d_bilinear` and `interp2d_nearest` (src/py_eddy_tracker/generic.py). Coordinates and values are exact rationals, `none` is nan.
`prange` without `parallel=True` is a sequential loop.
-/

namespace Verif.Interp

open Verif.Poly (Pt)

/-- The arguments of the interpolation: `x_g, y_g, z_g, m_g`. -/
structure Grid where
  xs : List Rat
  ys : List Rat
  z : Int → Int → Rat
  m : Int → Int → Bool

/-- `x_ref`, `x_step` (generic.py:216-218, 250-252); also for y. -/
def ref (l : List Rat) : Rat := l.getD 0 0

@[inherit_doc ref]
def step (l : List Rat) : Rat := l.getD 1 0 - ref l

/-- `is_circular` (generic.py:222, 256). -/
def isCircular (xs : List Rat) : Bool := decide (|Py.fmod (xs.getLastD 0) 360 - Py.fmod (ref xs - step xs) 360| < 1 / 100000)

/-- `z00, z01, z10, z11`. -/
structure Corners where
  z00 : Rat
  z01 : Rat
  z10 : Rat
  z11 : Rat

/-- The local variables kept from one point to the next one: `i0_old, j0_old`, and the corners (`none` if `masked`). -/
structure Cache where
  i : Int
  j : Int
  c : Option Corners

/-- The four corners, or masked (generic.py:275-291), for the indices after the wrapping. -/
def corners (g : Grid) (i0 i1 j0 j1 : Int) : Option Corners :=
  if i1 ≥ g.xs.length ∨ i0 < 0 ∨ j0 < 0 ∨ j1 ≥ g.ys.length then none
  else if g.m i0 j0 || g.m i0 j1 || g.m i1 j0 || g.m i1 j1 then none
  else some ⟨g.z i0 j0, g.z i0 j1, g.z i1 j0, g.z i1 j1⟩

/-- `i0 %= nb_x` if the grid is circular (generic.py:273-274); python modulo of integers with a positive divisor. -/
def wrap (g : Grid) (i : Int) : Int := if isCircular g.xs then i % (g.xs.length : Int) else i

/-- Formula of generic.py:296-300. -/
def blend (c : Corners) (xd yd : Rat) : Rat :=
  (c.z00 * (1 - xd) + (c.z10 * xd)) * (1 - yd) + (c.z01 * (1 - xd) + c.z11 * xd) * yd

/-- Body of the loop of `interp2d_bilinear` (generic.py:260-300). -/
def bilinearStep (g : Grid) (s : Cache) (p : Pt) : Cache × Option Rat :=
  let x := (p.1 - ref g.xs) / step g.xs
  let y := (p.2 - ref g.ys) / step g.ys
  let i0 := ⌊x⌋
  let j0 := ⌊y⌋
  let s' : Cache := if i0 ≠ s.i ∨ j0 ≠ s.j then ⟨wrap g i0, j0, corners g (wrap g i0) (wrap g (i0 + 1)) j0 (j0 + 1)⟩ else s
  (s', s'.c.map (fun c => blend c (x - i0) (y - j0)))

/-- The loop on the points. -/
def bilinearLoop (g : Grid) : Cache → List Pt → List (Option Rat)
  | _, [] => []
  | s, p :: l => (bilinearStep g s p).2 :: bilinearLoop g (bilinearStep g s p).1 l

/-- `interp2d_bilinear` (generic.py:238-300). `junk` is the content of the corners before they are set (`masked` is False at the start). -/
def bilinear (g : Grid) (junk : Corners) (pts : List Pt) : List (Option Rat) := bilinearLoop g ⟨-100000000, -10000000, some junk⟩ pts

/-- One point of `interp2d_nearest` (generic.py:225-233); the points are independent there. The mask is not an argument of the function.
`round` of numba on floats: half to even. -/
def nearestOne (g : Grid) (p : Pt) : Option Rat :=
  let i0 := wrap g (Amplitude.rint ((p.1 - ref g.xs) / step g.xs))
  let j0 := Amplitude.rint ((p.2 - ref g.ys) / step g.ys)
  if i0 ≥ g.xs.length ∨ i0 < 0 ∨ j0 < 0 ∨ j0 ≥ g.ys.length then none else some (g.z i0 j0)

/-- `interp2d_nearest` (generic.py:205-234). -/
def nearest (g : Grid) (pts : List Pt) : List (Option Rat) := pts.map (nearestOne g)

/-- `interp2d_geo` (generic.py:184-201). -/
def geo (g : Grid) (junk : Corners) (near : Bool) (pts : List Pt) : List (Option Rat) := if near then nearest g pts else bilinear g junk pts

end Verif.Interp
