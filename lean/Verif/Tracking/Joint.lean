import Verif.Tracking.Resume

/-!
# Model of the merge of two correspondence tables and of the names of their datasets

`Correspondances.merge_correspondance` (src/py_eddy_tracker/tracking.py:182-213), `append` (280-282), what `save` needs (405-496) and the names of the datasets
in the file (429-436, 519-520). Link tables are kept newest first as in `Verif.Tracking.Model`. A name is a value of an arbitrary type `ν`.
-/

namespace Verif.Tracking

/-- Attributes of `Correspondances` used here (tracking.py:94-110). -/
structure Joint (ν : Type) where
  corrs : List (List Link)
  currentId : Nat
  datasets : List ν
  nbVirtual : Nat
  nbLinkMax : Nat
deriving DecidableEq

/-- `nb_link_max` after the tracking: `append` keeps the largest number of links (tracking.py:280-282). -/
def linkMax (h : List (List Link)) : Nat := (h.map List.length).foldr max 0

/-- The object after a tracking. -/
def jointOf {ν α δ : Type} (cfg : Cfg α δ) (names : List ν) (s : St α δ) : Joint ν := ⟨s.corrs, s.currentId, names, cfg.nbVirtual, linkMax s.corrs⟩

/-- `where(other.datasets == array(self.datasets[-1]))[0]`, tracking.py:187. -/
def junctions {ν : Type} [DecidableEq ν] (names : List ν) (last : ν) : List Nat :=
  (List.range names.length).filter (fun j => decide (names[j]? = some last))

/-- `translate[other[i - 1]["id"]] = self[-1]["id"]`, tracking.py:193-196; a single value is broadcast, `none` is `UINT32_MAX`. -/
def common (c la : List Link) : Nat → Option Nat :=
  scatter (fun _ => none) ((ids c).zip ((if la.length = 1 then List.replicate c.length ((ids la).headD 0) else ids la).map some))

/-- `mask`, tracking.py:198-201. -/
def isNew (t : Nat → Option Nat) (nbMax k : Nat) : Bool := (t k).isNone && decide (nbMax ≤ k)

/-- `translate`, tracking.py:193-203. -/
def trJoint (t : Nat → Option Nat) (nbMax cid k : Nat) : Option Nat :=
  if isNew t nbMax k then some (cid + ((List.range k).filter (isNew t nbMax)).length) else t k

/-- `merge_correspondance`, tracking.py:182-213. `none` is an exception: other method of tracking, no or several junctions, no link table, an empty
link table at the junction (`max`), tables of different lengths at the junction, an identifier out of range. The index `i[0] - 1` is the last table when
`i[0]` is zero. -/
def joinCorr {ν : Type} [DecidableEq ν] (a b : Joint ν) : Option (Joint ν) := do
  if a.nbVirtual = b.nbVirtual then
    let last ← a.datasets.getLast?
    match junctions b.datasets last with
    | [i] => do
      let chron := b.corrs.reverse
      let la ← a.corrs.head?
      let c ← chron[if i = 0 then chron.length - 1 else i - 1]?
      let nbMax ← (ids c).max?
      let later := chron.drop i
      if (la.length = c.length ∨ la.length = 1) ∧ (∀ l ∈ c, l.id < b.currentId) ∧ ∀ d ∈ later, ∀ l ∈ d, l.id < b.currentId then do
        let tr := trJoint (common c la) nbMax a.currentId
        let cid ← tr (b.currentId - 1)
        some ⟨(later.map (fun d => d.map (fun l => l.setId ((tr l.id).getD 4294967295)))).reverse ++ a.corrs, cid + 1,
          a.datasets ++ b.datasets.drop (i + 1), a.nbVirtual, a.nbLinkMax⟩
      else none
    | _ => none
  else none

/-- `save` succeeds: `prepare_merging` writes at each identifier of an array of size `current_id` (tracking.py:570-572), each link table is written in a row
of `nb_link_max` values (464-469). -/
def savable {ν : Type} (a : Joint ν) : Bool := a.corrs.all (fun c => c.all (fun l => decide (l.id < a.currentId)) && decide (c.length ≤ a.nbLinkMax))

/-- A dataset given to the tracking: a name as text, as bytes, or an open file. -/
inductive Given
  | str (s : String)
  | bytes (s : String)
  | file
deriving DecidableEq

def Given.isStr : Given → Bool
  | .str _ => true
  | _ => false

def Given.isBytes : Given → Bool
  | .bytes _ => true
  | _ => false

/-- `get_filename`, tracking.py:429-432. -/
def fileName (d : Given) : Given := if !d.isStr || !d.isBytes then .str "In memory file" else d

/-- The names in the file, tracking.py:434-436: `FileIn` and `FileOut`. -/
def savedNames (ds : List Given) : List Given × List Given := (ds.dropLast.map fileName, ds.tail.map fileName)

/-- `list(FileIn)` and the last of `FileOut`, tracking.py:519-520; `none` is the `IndexError`. -/
def loadedNames (f : List Given × List Given) : Option (List Given) := f.2.getLast?.map (fun o => f.1 ++ [o])

end Verif.Tracking
