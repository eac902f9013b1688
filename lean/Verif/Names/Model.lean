import Verif.Subset.Model
import Verif.Match.Model

/-!
# Models of the names of files and of the networks close to another atlas

`write_file` and `load_file` (src/py_eddy_tracker/observations/observation.py), `close_network` (src/py_eddy_tracker/observations/network.py).
Names are lists of characters; the store of a name is what was written last under this name.
-/

namespace Verif.Names

open Verif.Links (Row)
open Verif.Subset (Obs)

/-! ### Names of files -/

inductive Format where
  | netcdf
  | zarr
deriving DecidableEq

def nc : List Char := ['.', 'n', 'c']

def zarr : List Char := ['.', 'z', 'a', 'r', 'r']

/-- `filename.replace(".nc", ".zarr")` (observation.py:1774-1775): every occurrence, from the left. -/
def replaceNc : List Char → List Char
  | [] => []
  | '.' :: 'n' :: 'c' :: l => zarr ++ replaceNc l
  | c :: l => c :: replaceNc l

/-- `str.endswith`. -/
def endsWith (l suffix : List Char) : Bool := suffix.isSuffixOf l

/-- `write_file` (observation.py:1759-1786): name and format of what is written, for the name with its fields replaced. -/
def written (zarrFlag : Bool) (name : List Char) : List Char × Format :=
  let name := if zarrFlag then replaceNc name else name
  let zarrFlag := if endsWith name zarr then true else zarrFlag
  (name, if zarrFlag then .zarr else .netcdf)

/-- `load_file` (observation.py:767-783): reader used for a name, str or bytes. -/
def reader (name : List Char) : Format := if endsWith name zarr then .zarr else .netcdf

/-! ### Networks close to another atlas -/

/-- Dates of an atlas: numbers of days as floats, or the integers of the file (`raw_data=True`). -/
inductive Dates where
  | floats
  | integers
deriving DecidableEq

/-- `close_network` (network.py:661-683): `range(p0, p1 + 2)` raises with floats; then the loop is the one of `close_tracks` (`Verif.Match`), and the mask
is the one of `networks`: the slices of the networks. `groups` are the groups of `align_on` (property C32), `m` the couples of `match`. -/
def closeNetwork {β : Type} (dates : Dates) (m : List Nat → List Nat → List (Nat × Nat))
    (groups : List (((Nat × Nat) ⊕ List Nat) × ((Nat × Nat) ⊕ List Nat))) (nbMin : Nat) (other : List (Row (Obs β))) : Option (List (Row (Obs β))) :=
  match dates with
  | .floats => none
  | .integers => (Match.closeTracks m groups (Subset.tracks other) nbMin).bind (fun ids => Subset.byIds (ids.map (fun (n : Nat) => (n : Int))) other)

end Verif.Names
