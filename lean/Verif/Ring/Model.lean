import Verif.Sphere.Model

/-!
Model of the replacement of contours by circles (/repo/src/py_eddy_tracker/observations/observation.py). Values are exact reals.
-/

namespace Verif.Ring

open Real Verif.Sphere

noncomputable section

/-- The columns read and written; `virtual` is `none` when the dataset has not this column. -/
structure Obs where
  lon : ℝ
  lat : ℝ
  radiusS : ℝ
  radiusE : ℝ
  virtual : Option Bool
  contourS : List (ℝ × ℝ)
  contourE : List (ℝ × ℝ)

/-- `radians(linspace(0, 360, n))[k]` (observation.py:474). -/
def angle (n k : Nat) : ℝ := (360 * k / (n - 1 : ℝ)) * (π / 180)

/-- The circle of `n` vertices (observation.py:475, 482-491). -/
def ring (n : Nat) (r lon lat : ℝ) : List (ℝ × ℝ) :=
  (List.range n).map (fun k => localToCoordinates (cos (angle n k) * r) (sin (angle n k) * r) lon lat)

/-- The body of the loop (observation.py:478-491); `none` for the missing column `virtual`. -/
def circleOne (n : Nat) (hasS hasE onlyVirtual : Bool) (factor : ℝ) (o : Obs) : Option Obs :=
  let new : Obs := { o with
    contourS := if hasS then ring n (o.radiusS * factor) o.lon o.lat else o.contourS
    contourE := if hasE then ring n (o.radiusE * factor) o.lon o.lat else o.contourE }
  if onlyVirtual then
    match o.virtual with
    | none => none
    | some v => some (if v then new else o)
  else some new

/-- `circle_contour` (observation.py:468-491): `n` is `track_array_variables`, `hasS` and `hasE` tell if the contours are in the fields. -/
def circleContour (n : Nat) (hasS hasE onlyVirtual : Bool) (factor : ℝ) (obs : List Obs) : Option (List Obs) :=
  obs.mapM (circleOne n hasS hasE onlyVirtual factor)

end

end Verif.Ring
