import Verif.Amplitude.Model
import Verif.Extract.Model

/-!
# Model of the files of observations

Packing of the variables (`VAR_DESCR`, `create_variable`, `create_variable_zarr`), loading (`load_from_netcdf`, `load_from_zarr`,
`copy_data_to_zarr`) and attributes (src/py_eddy_tracker/observations/observation.py, src/py_eddy_tracker/__init__.py). The libraries netCDF4
and zarr are modelled by their packing formula on exact rationals; codes equal to the default fill value of netCDF are not considered, nor the
precision of the types of floats. Files keep what is written.
-/

namespace Verif.Store

/-- A packed variable: bounds of the integers of `output_type`, `scale_factor`, `add_offset` (0 if there is none). -/
structure Code where
  lo : Int
  hi : Int
  scale : Rat
  offset : Rat

/-- Value written (observation.py:1656-1657 with the scale of netCDF4, 1716-1725, 1752-1753 with `FixedScaleOffset` of zarr):
`around((x - offset) / scale)` cast to the type. The cast of an integer out of the type depends on the machine: it is a parameter. -/
def encode (cast : Int → Int) (v : Code) (x : Rat) : Int := cast (Amplitude.rint ((x - v.offset) / v.scale))

/-- Value read without `raw_data`. -/
def decode (v : Code) (n : Int) : Rat := n * v.scale + v.offset

/-- What is known of the cast: integers of the type do not change, and the result is in the type. -/
def Casts (v : Code) (cast : Int → Int) : Prop := (∀ n, v.lo ≤ n → n ≤ v.hi → cast n = n) ∧ ∀ n, v.lo ≤ cast n ∧ cast n ≤ v.hi

/-- The usual cast of a machine: modulo the size of the type. -/
def wrapCast (v : Code) (n : Int) : Int := (n - v.lo) % (v.hi - v.lo + 1) + v.lo

/-- The packed variables (__init__.py:123-683). -/
def time : Code := ⟨0, 4294967295, 1 / 86400, 0⟩
@[inherit_doc time]
def distanceNext : Code := ⟨0, 65535, 50, 0⟩
@[inherit_doc time]
def amplitude : Code := ⟨0, 65535, 1 / 10000, 0⟩
@[inherit_doc time]
def speed : Code := ⟨0, 65535, 1 / 10000, 0⟩
@[inherit_doc time]
def radius : Code := ⟨0, 65535, 50, 0⟩
@[inherit_doc time]
def contourLon : Code := ⟨-32768, 32767, 1 / 100, 180⟩
@[inherit_doc time]
def contourLat : Code := ⟨-32768, 32767, 1 / 100, 0⟩
@[inherit_doc time]
def shapeError : Code := ⟨0, 255, 1 / 2, 0⟩
@[inherit_doc time]
def scoreCode : Code := ⟨0, 255, 2 / 5, 0⟩

/-! ### raw_data -/

/-- Conversion of a float to an integer type: toward 0. -/
def trunc (x : Rat) : Int := if 0 ≤ x then x.floor else -(-x).floor

/-- Raw value loaded from zarr (observation.py:921-930): `data -= add_offset; data /= scale_factor`, stored in an integer. `err` is the rounding
error of the floats of the whole formula. -/
def rawLoadZarr (v : Code) (err : Rat) (n : Int) : Int := trunc ((decode v n - v.offset) / v.scale + err)

/-- Raw value written in zarr (observation.py:1740-1749). -/
def rawWriteZarr (cast : Int → Int) (v : Code) (n : Int) : Int := encode cast v (n * v.scale + v.offset)

/-- A netcdf variable (observation.py:1656-1666): with `raw_data` the integers are written before the scale is set. -/
def writeNc (cast : Int → Int) (v : Code) (raw : Bool) (x : Rat) : Int := if raw then cast (trunc x) else encode cast v x

/-- Loading of a netcdf variable (observation.py:1004-1006, `set_auto_maskandscale(not raw_data)`). -/
def loadNc (v : Code) (raw : Bool) (n : Int) : Rat := if raw then n else decode v n

/-! ### Delta filter of zarr on contours -/

/-- `Delta("i2")` of zarr: differences in the type, with `cast = wrapCast`. -/
def delta (v : Code) : Int → List Int → List Int
  | _, [] => []
  | p, n :: l => wrapCast v (n - p) :: delta v n l

/-- Decoding: cumulative sum in the type. -/
def undelta (v : Code) : Int → List Int → List Int
  | _, [] => []
  | p, d :: l => wrapCast v (p + d) :: undelta v (wrapCast v (p + d)) l

/-! ### Rows loaded -/

/-- `l[start:stop:step]` for natural numbers. -/
def stepSlice {α : Type} (l : List α) (start stop step : Nat) : List α :=
  ((((l.take stop).drop start).zipIdx).filter (fun p => decide (p.2 % step = 0))).map (·.1)

/-- Assignment of a whole column of `size` rows. -/
def fill {α : Type} (size : Nat) (src : List α) : Option (List α) :=
  if src.length = size then some src else if src.length = 1 then some (List.replicate size src).flatten else none

/-- `load_from_netcdf` with `indexs=dict(obs=slice(start, stop, step))` (observation.py:973-984, 1025-1035): `sl` is built without the step, so
that the test of the step is never true and the step is used on the file. `none` is an exception. -/
def loadRowsNc {α : Type} (data : List α) (start stop step : Nat) : Option (List α) :=
  if data.length < start ∨ stop < start then none else fill (min stop data.length - start) (stepSlice data start stop step)

/-- One turn of the loop of `copy_data_to_zarr` (observation.py:918-930). -/
def copyBlock {α : Type} (data : List α) (start stop buffer : Nat) (out : List α) (i : Nat) : Option (List α) :=
  Extract.sliceAssign out ((i - start : Nat) : Int) ((i - start + buffer : Nat) : Int) ((data.take (min (i + buffer) stop)).drop i)

/-- The loop: `range(i_start, i_stop, buffer_size)`. -/
def copyLoop {α : Type} (data : List α) (start stop buffer : Nat) : Nat → Nat → List α → Option (List α)
  | 0, _, out => some out
  | k + 1, i, out => (copyBlock data start stop buffer out i).bind (copyLoop data start stop buffer k (i + buffer))

/-- `load_from_zarr` with `indexs` (observation.py:821-832) and `copy_data_to_zarr` (889-930): the step is not used. -/
def loadRowsZarr {α : Type} (blank : α) (data : List α) (start stop buffer : Nat) : Option (List α) :=
  if data.length < start ∨ stop < start then none
  else copyLoop data start stop buffer ((stop - start + buffer - 1) / buffer) start (List.replicate (min stop data.length - start) blank)

/-! ### Attributes -/

/-- `track_array_variables` in zarr (observation.py:1550-1552, 819): written when it is not 0, and needed to load. -/
def arrayAttr (n : Nat) : Option Nat := if n ≠ 0 then some n else none

/-- What a file tells about the rotation: first rows of `type_cyc` if the variable is there, `title`, `rotation_type`. -/
structure SignFile where
  typeCyc : Option (List Int)
  title : Option String
  rotation : Option Int

/-- Attributes of a netcdf of `EddiesObservations` (observation.py:1789-1805). -/
def signBase (s : Int) : SignFile := ⟨none, none, some s⟩

/-- Attributes of a netcdf of `TrackEddiesObservations` (tracking.py:225-227). -/
def signTrack (s : Int) : SignFile := ⟨none, some (if s = -1 then "Cyclonic" else "Anticyclonic"), none⟩

/-- `sign_type` of a netcdf (observation.py:1030-1043); `none` is an exception. -/
def loadSignNc (f : SignFile) : Option Int :=
  let s : Option Int :=
    match f.typeCyc with
    | some l => l.head?
    | none =>
      match f.title with
      | some t => some (if t = "Cyclonic" then -1 else 1)
      | none => some (f.rotation.getD 0)
  s.map (fun s => if s = 0 then -1 else s)

/-! ### Names -/

/-- An entry of `VAR_DESCR`: key, `nc_name`, `old_nc_name`. -/
structure Entry where
  key : String
  nc : String
  old : List String

/-- `VAR_DESCR_inv` (__init__.py:695-699): the last write of a name. -/
def inverse : List Entry → (String → Option String) → String → Option String
  | [], d => d
  | e :: l, d => inverse l (fun s => if s ∈ e.old then some e.key else if s = e.nc then some e.key else d s)

/-- Names of `VAR_DESCR` (__init__.py:123-683). -/
def table : List Entry :=
  [⟨"time", "time", ["j1"]⟩, ⟨"type_cyc", "cyclonic_type", ["cyc"]⟩, ⟨"segment_size", "segment_size", []⟩, ⟨"dlon", "dlon", []⟩, ⟨"dlat", "dlat", []⟩,
    ⟨"distance_next", "distance_next", []⟩, ⟨"virtual", "observation_flag", ["virtual"]⟩, ⟨"cost_association", "cost_association", []⟩,
    ⟨"lon", "longitude", ["lon", "Lon"]⟩, ⟨"lat", "latitude", ["lat", "Lat"]⟩, ⟨"lon_max", "longitude_max", ["lon_max"]⟩,
    ⟨"lat_max", "latitude_max", ["lat_max"]⟩, ⟨"amplitude", "amplitude", ["A"]⟩, ⟨"speed_area", "speed_area", []⟩,
    ⟨"effective_area", "effective_area", []⟩, ⟨"speed_average", "speed_average", ["U"]⟩, ⟨"uavg_profile", "uavg_profile", []⟩, ⟨"i", "i", []⟩,
    ⟨"j", "j", []⟩, ⟨"eke", "Teke", []⟩, ⟨"radius_e", "effective_radius", ["radius_e", "Dia"]⟩, ⟨"radius_s", "speed_radius", ["L", "radius_s"]⟩,
    ⟨"track", "track", ["Eddy_id"]⟩, ⟨"segment", "segment", []⟩, ⟨"previous_obs", "previous_obs", []⟩, ⟨"next_obs", "next_obs", []⟩,
    ⟨"previous_cost", "previous_cost", []⟩, ⟨"next_cost", "next_cost", []⟩, ⟨"n", "observation_number", ["n", "Eddy_tsp"]⟩,
    ⟨"contour_lon_e", "effective_contour_longitude", ["contour_lon_e"]⟩, ⟨"contour_lat_e", "effective_contour_latitude", ["contour_lat_e"]⟩,
    ⟨"num_point_e", "num_point_e", []⟩, ⟨"contour_lon_s", "speed_contour_longitude", ["contour_lon_s"]⟩,
    ⟨"contour_lat_s", "speed_contour_latitude", ["contour_lat_s"]⟩, ⟨"num_point_s", "num_point_s", []⟩,
    ⟨"shape_error_e", "effective_contour_shape_error", ["shape_error_e"]⟩, ⟨"score", "score", []⟩, ⟨"index_other", "index_other", []⟩,
    ⟨"shape_error_s", "speed_contour_shape_error", ["shape_error_s"]⟩,
    ⟨"height_max_speed_contour", "speed_contour_height", ["height_max_speed_contour"]⟩,
    ⟨"height_external_contour", "effective_contour_height", ["height_external_contour"]⟩,
    ⟨"height_inner_contour", "inner_contour_height", ["height_inner_contour"]⟩, ⟨"chl", "chl", ["Chl"]⟩, ⟨"dchl", "dchl", ["dChl"]⟩,
    ⟨"chl_bg", "chl_bg", ["Chl_bg"]⟩, ⟨"year", "year", ["Year"]⟩, ⟨"month", "month", ["Month"]⟩, ⟨"day", "day", ["Day"]⟩,
    ⟨"nb_contour_selected", "num_contours", ["nb_contour_selected"]⟩]

end Verif.Store
