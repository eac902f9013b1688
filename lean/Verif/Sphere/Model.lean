import Mathlib.Analysis.SpecialFunctions.Complex.Arg

/-!
# Distances and local coordinates on the sphere

Model of the haversine functions of `generic.py`: `distance`, `distance_grid`,
`coordinates_to_local` and `local_to_coordinates`.

Floats are exact reals here (the rest of the development uses exact rationals; the
trigonometric functions need the reals), so the definitions are noncomputable.  `arctan2 (y, x)`
is the argument of the complex number `x + i y`, in `(-π, π]`, and `0` at the origin as in numpy.
`a ** 0.5` is the real square root; the code never takes it of a negative number (see
`aVal_nonneg`, `aVal_le_one` in `Props`, for every longitude and latitude).  `nan` is `none`.
-/

namespace Verif.Sphere

noncomputable section

open Real

/-- `arctan2(y, x)` of numpy: the angle of the point `(x, y)`, in `(-π, π]`. -/
def arctan2 (y x : ℝ) : ℝ := Complex.arg ⟨x, y⟩

/-- `D2R = pi / 180.0` (generic.py:118, 151, 516, 546). -/
def D2R : ℝ := π / 180

/-- The haversine `a_val` of two points in degrees (generic.py:152-156). -/
def aVal (lon0 lat0 lon1 lat1 : ℝ) : ℝ :=
  let sin_dlat := sin ((lat1 - lat0) * 0.5 * D2R)
  let sin_dlon := sin ((lon1 - lon0) * 0.5 * D2R)
  let cos_lat1 := cos (lat0 * D2R)
  let cos_lat2 := cos (lat1 * D2R)
  sin_dlon ^ 2 * cos_lat1 * cos_lat2 + sin_dlat ^ 2

/-- `distance(lon0, lat0, lon1, lat1)`, in metres (generic.py:139-157), for one pair of points: the
numba function runs on arrays element by element. -/
def distance (lon0 lat0 lon1 lat1 : ℝ) : ℝ :=
  let a_val := aVal lon0 lat0 lon1 lat1
  6370997 * 2 * arctan2 (√a_val) (√(1 - a_val))

/-- The Python remainder `x % 360` of a float: `x - 360 * floor(x / 360)`. -/
def fmod360 (x : ℝ) : ℝ := x - 360 * ⌊x / 360⌋

/-- `dlon = absolute(lon1[j] - lon0[i])`, folded when it is above 180 (generic.py:125-127). -/
def foldLon (lon0 lon1 : ℝ) : ℝ :=
  let dlon := |lon1 - lon0|
  if dlon > 180 then |fmod360 (dlon + 180) - 180| else dlon

/-- One cell of `distance_grid`, in kilometres, `none` for `nan` (generic.py:101-136). -/
def gridCell (lon0 lat0 lon1 lat1 : ℝ) : Option ℝ :=
  let dlat := |lat1 - lat0|
  if dlat > 15 then none
  else
    let dlon := foldLon lon0 lon1
    if dlon > 20 then none
    else
      let sin_dlat := sin (dlat * 0.5 * D2R)
      let sin_dlon := sin (dlon * 0.5 * D2R)
      let cos_lat1 := cos (lat0 * D2R)
      let cos_lat2 := cos (lat1 * D2R)
      let a_val := sin_dlon ^ 2 * cos_lat1 * cos_lat2 + sin_dlat ^ 2
      some (6370.997 * 2 * arctan2 (√a_val) (√(1 - a_val)))

/-- `distance_grid` of two lists of points, one row for each point of the first list
(generic.py:114-136). -/
def distanceGrid (p0 p1 : List (ℝ × ℝ)) : List (List (Option ℝ)) :=
  p0.map fun p => p1.map fun q => gridCell p.1 p.2 q.1 q.2

open Classical in
/-- `mask_function` of observations: `distance < 125`, where the comparison with `nan` is false
(observation.py:1288-1289). -/
def maskFunction (grid : List (List (Option ℝ))) : List (List Bool) :=
  grid.map fun row => row.map fun d => match d with
    | none => false
    | some d => decide (d < 125)

/-- `coordinates_to_local(lon, lat, lon0, lat0)` (generic.py:502-531). -/
def coordinatesToLocal (lon lat lon0 lat0 : ℝ) : ℝ × ℝ :=
  let dlon := (lon - lon0) * D2R
  let sin_dlat := sin ((lat - lat0) * 0.5 * D2R)
  let sin_dlon := sin (dlon * 0.5)
  let cos_lat0 := cos (lat0 * D2R)
  let cos_lat := cos (lat * D2R)
  let a_val := sin_dlon ^ 2 * cos_lat0 * cos_lat + sin_dlat ^ 2
  let module := 6370997 * 2 * arctan2 (√a_val) (√(1 - a_val))
  let azimuth := π / 2 - arctan2 (cos_lat * sin dlon)
    (cos_lat0 * sin (lat * D2R) - sin (lat0 * D2R) * cos_lat * cos dlon)
  (module * cos azimuth, module * sin azimuth)

/-- `local_to_coordinates(x, y, lon0, lat0)` (generic.py:533-558). -/
def localToCoordinates (x y lon0 lat0 : ℝ) : ℝ × ℝ :=
  let d := √(x ^ 2 + y ^ 2) / 6370997
  let a := -(arctan2 y x - π / 2)
  let lat := arcsin (sin (lat0 * D2R) * cos d + cos (lat0 * D2R) * sin d * cos a)
  let lon := lon0 + arctan2 (sin a * sin d * cos (lat0 * D2R))
    (cos d - sin (lat0 * D2R) * sin lat) / D2R
  (lon, lat / D2R)

end

end Verif.Sphere
