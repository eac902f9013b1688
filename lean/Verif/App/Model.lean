import Verif.Tracking.Merge
import Mathlib.Data.List.Sort
import Mathlib.Data.List.Dedup

/-!
Model of the application EddyTracking (/repo/src/py_eddy_tracker/appli/eddies.py): the list of files and the files written.
-/

namespace Verif.App

/-! ### The list of files -/

/-- A row of `dataset_list` (eddies.py:244-248): the date in seconds and the name. Names are of any ordered type; their cut at 500 bytes is not
modelled. -/
abbrev Item (ν : Type) := Int × ν

/-- The order of `sort(order=["date", "filename"])` (eddies.py:277). -/
def before {ν : Type} [LinearOrder ν] (a b : Item ν) : Prop := a.1 < b.1 ∨ (a.1 = b.1 ∧ a.2 ≤ b.2)

instance {ν : Type} [LinearOrder ν] : DecidableRel (before (ν := ν)) := fun a b => inferInstanceAs (Decidable (a.1 < b.1 ∨ (a.1 = b.1 ∧ a.2 ≤ b.2)))

/-- The dates (eddies.py:258-275): a file without date keeps what was in the memory given by `empty`, here `junk` at its position. -/
def dated {ν : Type} (date : ν → Option Int) (junk : Nat → Int) (names : List ν) : List (Item ν) :=
  names.zipIdx.map (fun n => ((date n.1).getD (junk n.2), n.1))

/-- `unique(date[1:] - date[:-1])` (eddies.py:278), without the order. -/
def gaps {ν : Type} (l : List (Item ν)) : List Int := (List.zipWith (fun a b => b.1 - a.1) l l.tail).dedup

/-- `l[::k]` (eddies.py:284). -/
def every {α : Type} (k : Nat) (l : List α) : List α := (l.zipIdx.filter (fun p => decide (p.2 % k = 0))).map Prod.fst

/-- The selection in time (eddies.py:286-295): the first row is read, and both bounds are compared, `none` is their exceptions (the comparison of
dates with `None`). -/
def between {ν : Type} (start stop : Option Int) (l : List (Item ν)) : Option (List (Item ν)) :=
  match start, stop with
  | none, none => some l
  | some a, some b => if l = [] then none else some (l.filter (fun i => decide (a ≤ i.1) && decide (i.1 ≤ b)))
  | _, _ => none

/-- `browse_dataset_in` (eddies.py:226-296); `date` is the reading of the date of one file, `none` when its name does not match. A negative step
is not modelled. -/
def browse {ν : Type} [LinearOrder ν] (date : ν → Option Int) (junk : Nat → Int) (names : List ν) (step : Nat) (start stop : Option Int) :
    Option (List (Item ν)) :=
  let l := (dated date junk names).insertionSort before
  if 1 < (gaps l).length then none
  else if step = 0 then none
  else between start stop (every step l)

/-! ### The files written -/

open Verif.Tracking

/-- What the application writes: for each dataset the positions of the untracked observations, and for the two files of tracks the sizes of the
tracks and the rows (dataset and position of the observation, `none` for a virtual one). -/
structure Out where
  untracked : List (List Nat)
  shortSizes : List Nat
  short : List (Option (Nat × Nat))
  longSizes : List Nat
  long : List (Option (Nat × Nat))
deriving DecidableEq

/-- `merge` after a selection (eddies.py:354-361). -/
def trackFile (virtual : Bool) (sel : Selection) : List (Option (Nat × Nat)) :=
  let nb := fun i => sel.nb.getD i 1
  (List.range (nbObs nb sel.currentId)).map (merge virtual nb sel.corrs).rows

/-- `datasets[:-blank_period]` (eddies.py:316-318). -/
def blanked {α : Type} (blank : Nat) (files : List α) : List α := if 0 < blank then files.take (files.length - blank) else files

/-- `track` (eddies.py:299-381) on the files in order; `none` is an exception: not enough files, no track (the maximum of nothing in the
message), no short track. The filling of virtual observations is not here. -/
def application {α δ : Type} (cfg : Cfg α δ) (all : List (List α)) (blank nbMin : Nat) : Option Out :=
  let files := blanked blank all
  if files.length < nbMin then none
  else do
    let s ← Tracking.track cfg files
    let nb := nbObsByTracks cfg.virtual s.corrs
    if s.currentId = 0 then none
    else do
      let u ← unused cfg.virtual (files.map List.length) s.corrs.reverse
      let short ← shorterThan nb s.currentId s.corrs nbMin
      match longerThan nb s.currentId s.corrs nbMin with
      | none => some ⟨u, short.nb, trackFile cfg.virtual short, [], []⟩
      | some long => some ⟨u, short.nb, trackFile cfg.virtual short, long.nb, trackFile cfg.virtual long⟩

end Verif.App
