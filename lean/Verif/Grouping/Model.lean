import Verif.Network.Group
import Verif.Match.Model

/-!
# Model of the building of a network dataset

`group_observations`, `build_dataset` and `get_next_index` (src/py_eddy_tracker/observations/network.py). The contours of a file are what the buffer
gives (property C21); `get_group_array` is the one of property C13, the overlaps are the ones of property C74.
-/

namespace Verif.Grouping

open Verif.Match Verif.Group

/-- First position of a group: `nb_obs_gr.cumsum() - nb_obs_gr`, network.py:2194-2195. -/
def firstPos (gr : List Nat) (g : Nat) : Nat := ((List.range g).map (fun k => gr.count k)).sum

/-- Loop of `get_next_index`, network.py:2197-2199; `pos` is `i_gr`. -/
def nextLoop : (Nat → Nat) → List Nat → List Nat
  | _, [] => []
  | pos, g :: l => pos g :: nextLoop (Function.update pos g (pos g + 1)) l

/-- `get_next_index`, network.py:2191-2200. -/
def getNextIndex (gr : List Nat) : List Nat := nextLoop (firstPos gr) gr

/-- Loop of `build_dataset` on the files, network.py:2083-2097. A row holds all the elements of an observation; all the files have the elements of the
last one. -/
def copyFiles {α : Type} (newI : List Nat) : (Nat → α) → Nat → List (List α) → (Nat → α)
  | a, _, [] => a
  | a, i, f :: fs => copyFiles newI (scatter a (((newI.drop i).take f.length).zip f)) (i + f.length) fs

/-- `build_dataset`, network.py:2072-2100: rows with their field `track`. `none`: there is no file (`filenames[-1]`), or less groups than observations
(numpy then raises, or repeats a single observation). -/
def buildDataset {α : Type} (zero : α) (files : List (List α)) (group : List Nat) : Option (List (α × Nat)) :=
  if files = [] ∨ group.length < files.flatten.length then none
  else
    let newI := getNextIndex group
    let rows := copyFiles newI (fun _ => zero) 0 files
    let track := scatter (fun _ => 0) (newI.zip group)
    some ((List.range group.length).map (fun p => (rows p, track p)))

/-- Couples of two files: boxes which meet and overlap not 0, network.py:2048-2061. -/
def comparePair (g : Areas) (o : Options) (li lj : List (List Poly.Pt)) : List (Nat × Nat) :=
  (bboxIntersection li lj).filter (fun p => decide (overlap g o (li.getD p.1 []) (lj.getD p.2 []) ≠ 0))

/-- Loops of `group_observations`, network.py:2039-2061. -/
def results (g : Areas) (o : Options) (window : Nat) (files : List (List (List Poly.Pt))) : List Result :=
  (List.range files.length).flatMap (fun i =>
    (List.range' (i + 1) (min (window + i + 1) files.length - (i + 1))).map (fun j =>
      ⟨i, j, comparePair g o (files.getD i []) (files.getD j [])⟩))

/-- `group_observations`, network.py:2025-2070 (the logged message is not modelled). -/
def groupObservations (g : Areas) (o : Options) (window : Nat) (files : List (List (List Poly.Pt))) : Option (List Nat) :=
  getGroupArray (results g o window files) (files.map List.length)

end Verif.Grouping
