import Verif.Compare.Model
import Verif.Tracks.Model

/-!
# Model of the tools of the command line

`run_compare`, `display_compare`, `quick_compare`, `merge_eddies` (src/py_eddy_tracker/appli/eddies.py). The datasets are lists of rows; names of files
are lists of characters without `%` (`write_file` replaces the fields of the name); the directories can be made. The couples of `match` (property C74)
are a parameter.
-/

namespace Verif.Tools

open Verif.Compare (Link Groups getGroup)

variable {R : Type}

/-! ### Comparison -/

/-- The groups with their keys, in the order of the dictionary (eddies.py:394-447). -/
def entries (g : Groups) : List (List Char × List Nat) :=
  [("nomatch".toList, g.noMatch), ("low".toList, g.low), ("intermediate".toList, g.intermediate), ("high".toList, g.high),
    ("multi_match".toList, g.multiMatch), ("parent".toList, g.parent), ("twin".toList, g.twin), ("complex".toList, g.complex)]

/-- `run_compare` (eddies.py:452-466) for one dataset. -/
def groupsOf (matches_ : List R → List R → List Link) (invalid low high : Rat) (ref other : List R) : Groups × Groups :=
  getGroup ref.length other.length (matches_ ref other) invalid low high

/-- `other_.replace('/', '_')` (eddies.py:571). -/
def flat (name : List Char) : List Char := name.map (fun c => if c = '/' then '_' else c)

/-- Name of the file of a group (eddies.py:571-581). -/
def fileName (out name side key : List Char) : List Char := out ++ '/' :: flat name ++ "//".toList ++ side ++ key ++ ".nc".toList

/-- `index(v)` for indices in the dataset (observation.py:719-731, property C121). -/
def rowsAt (d : List R) (l : List Nat) : List R := l.filterMap (fun i => d[i]?)

/-- Files written for one dataset (eddies.py:570-581). -/
def outputs (matches_ : List R → List R → List Link) (invalid low high : Rat) (out : List Char) (ref : List R) (name : List Char) (other : List R) :
    List (List Char × List R) :=
  let g := groupsOf matches_ invalid low high ref other
  (entries g.2).map (fun e => (fileName out name "other_".toList e.1, rowsAt other e.2)) ++
    (entries g.1).map (fun e => (fileName out name "ref_".toList e.1, rowsAt ref e.2))

/-- Write of files one after another on a disk. -/
def writeAll (disk : List Char → Option (List R)) (l : List (List Char × List R)) : List Char → Option (List R) :=
  l.foldl (fun d e => Function.update d e.1 (some e.2)) disk

/-- `quick_compare --path_out` (eddies.py:525-582); `load` gives the rows of a file. -/
def quickCompare (matches_ : List R → List R → List Link) (load : List Char → List R) (invalid low high : Rat) (out refName : List Char)
    (others : List (List Char)) (disk : List Char → Option (List R)) : List Char → Option (List R) :=
  writeAll disk (others.flatMap (fun o => outputs matches_ invalid low high out (load refName) o (load o)))

/-- The numbers of `display_compare` (eddies.py:491-498): rows of each group, or sum of their areas. -/
def counts (g : Groups) : List Nat := (entries g).map (fun e => e.2.length)

/-- The areas of `display_compare` (eddies.py:491-494), in the unit of the file. -/
def areas (area : Nat → Rat) (g : Groups) : List Rat := (entries g).map (fun e => (e.2.map area).sum)

/-! ### Merge -/

/-- A file of trajectories: rotation, and rows with their track. -/
structure File (α : Type) where
  sign : Int
  rows : List (Nat × α)

/-- A row of the merged file: track, variable of rotation if it was asked, other variables. -/
structure Row (α : Type) where
  track : Nat
  rotation : Option Int
  data : α
deriving DecidableEq

/-- `load_file` of `merge_eddies` (eddies.py:64-66): without `track` in the variables asked, the field `track` of the class is left with zeros
(tracking.py:219-223). -/
def loadFile {α : Type} (withTrack : Bool) (f : File α) : List (Nat × α) := if withTrack then f.rows else f.rows.map (fun r => (0, r.2))

/-- `merge_eddies` (eddies.py:45-71): rows and rotation of the result; `none` is an exception. -/
def mergeEddies {α : Type} (withTrack addRotation : Bool) (files : List (File α)) : Option (List (Row α) × Int) := do
  let blocks ← Tracks.concatenate (files.map (loadFile withTrack))
  let rows := (files.zip blocks).flatMap (fun p => p.2.map (fun r => Row.mk r.1 (if addRotation then some p.1.sign else none) r.2))
  let first ← files.head?
  some (rows, first.sign)

end Verif.Tools
