import Verif.Interp.Model
import Verif.Detection.Model

/-!
# Model of the mean speed of a contour

`speed_coef_mean` of the two classes of grids and `get_uavg` with contours whose mean speed is nan (src/py_eddy_tracker/dataset/grid.py). The
vertices of the resampled contour are given (property C103), they are exact rationals; the norms of velocities (`init_speed_coef`) are the values of
the grid. `none` is nan, or masked.
-/

namespace Verif.Speed

open Verif.Poly (Pt)
open Verif.Interp (Grid Corners)

/-- `nanmean` (numba), and `mean` of a masked array: mean of what is neither nan nor masked, nan (masked) if there is nothing. -/
def nanmean (l : List (Option Rat)) : Option Rat :=
  let v := l.filterMap id
  if v = [] then none else some (v.sum / v.length)

/-- `mean_on_regular_contour` with `nan_remove` and `speed_coef_mean` of a regular grid (grid.py:125-135, 1908-1919): `pts` are the vertices given by
`uniform_resample`, the first one is left. -/
def speedMean (g : Grid) (junk : Corners) (pts : List Pt) : Option Rat := nanmean (Interp.geo g junk false pts.tail)

/-- `speed_coef_mean` of an unregular grid (grid.py:1187-1194): `near` gives the four nearest nodes of a position. -/
def speedUnregular (z : Nat → Option Rat) (near : Pt → List Nat) (pts : List Pt) : Option Rat :=
  nanmean (pts.tail.map (fun p => nanmean ((near p).map z)))

/-- `a >= b` of floats: false with nan. -/
def ge (a b : Option Rat) : Bool :=
  match a, b with
  | some a, some b => decide (a ≥ b)
  | _, _ => false

/-- The local variables of `get_uavg`. -/
structure Uavg (κ : Type) where
  maxSpeed : Option Rat
  selected : κ
  inner : κ
  speeds : List (Option Rat)
  contours : List κ
  iMax : Int
  iInner : Int

variable {κ : Type}

/-- One turn of the loop of `get_uavg` which is not left (grid.py:1019-1031). -/
def uavgStep (speed : κ → Option Rat) (nb : κ → Nat) (pixelMin : Nat) (i : Nat) (s : Uavg κ) (c : κ) : Uavg κ :=
  if pixelMin < nb c ∧ ge (speed c) s.maxSpeed then
    ⟨speed c, c, c, s.speeds ++ [speed c], s.contours ++ [c], i, i⟩
  else ⟨s.maxSpeed, s.selected, c, s.speeds ++ [speed c], s.contours ++ [c], s.iMax, i⟩

/-- The loop of `get_uavg` (grid.py:1005-1031). -/
def uavgLoop (nearest : Nat → Option κ) (inside : κ → Bool) (speed : κ → Option Rat) (nb : κ → Nat) (pixelMin : Nat) :
    List Nat → Nat → Uavg κ → Uavg κ
  | [], _, s => s
  | l :: ls, i, s =>
    match nearest l with
    | none => s
    | some c =>
      if inside c then uavgLoop nearest inside speed nb pixelMin ls (i + 1) (uavgStep speed nb pixelMin i s c) else s

/-- `get_uavg` (grid.py:982-1043). -/
def getUavg (n : Nat) (nearest : Nat → Option κ) (inside : κ → Bool) (speed : κ → Option Rat) (nb : κ → Nat) (orig : κ)
    (anti : Bool) (levelStart : Int) (pixelMin : Nat) : Uavg κ :=
  let step : Int := if anti then 1 else -1
  let s := uavgLoop nearest inside speed nb pixelMin (Detection.iterFrom n (levelStart + step) anti) 0
    ⟨speed orig, orig, orig, [speed orig], [orig], -1, -1⟩
  { s with iMax := levelStart + step + step * s.iMax, iInner := levelStart + step + step * s.iInner }

end Verif.Speed
