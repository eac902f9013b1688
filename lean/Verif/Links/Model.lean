import Verif.Basic
import Verif.Py
import Verif.Segments.Model

/-!
# Model of the functions which renumber the links of a network (`src/py_eddy_tracker/observations/network.py`)

A row is an observation: its two links (`-1`: absent) and its other fields. Indices are unbounded integers (`i4` in the
code). `none` is an exception.
-/

namespace Verif.Links

/-- One observation of a network. -/
structure Row (α : Type) where
  data : α
  prev : Int
  next : Int
deriving DecidableEq

/-- `translate`: `-ones(n + 1)`, then `translate[idx] = arange(len(idx))`, network.py:1631-1632 and 422-423. -/
def translate (n : Nat) (idx : List Nat) : List Int :=
  (List.range (n + 1)).map (scatter (fun _ => (-1 : Int)) (idx.zipIdx.map (fun p => (p.1, (p.2 : Int)))))

/-- `translate[next_obs]`, `translate[previous_obs]` for one row. -/
def relink {α : Type} (tr : List Int) (r : Row α) : Option (Row α) := do
  let n ← Py.get tr r.next
  let p ← Py.get tr r.prev
  some { r with next := n, prev := p }

/-- Rows of index `idx` with links renumbered. -/
def take {α : Type} (rows : List (Row α)) (idx : List Nat) : Option (List (Row α)) := do
  let sel ← idx.mapM (fun k => rows[k]?)
  sel.mapM (relink (translate rows.length idx))

/-- `nonzero` of a mask. -/
def maskIdx (mask : List Bool) : List Nat := (mask.zipIdx.filter (·.1)).map (·.2)

/-- `extract_with_mask` with a mask, network.py:1605-1637 (and the same lines of `extract_light_with_mask`,
network.py:1590-1601). A mask of another length raises. -/
def extractMask {α : Type} (rows : List (Row α)) (mask : List Bool) : Option (List (Row α)) :=
  if mask.length ≠ rows.length then none else take rows (maskIdx mask)

/-- `extract_with_mask` with `slice(a, b)`, `0 ≤ a ≤ b`; a bound beyond the end raises (sizes do not match). -/
def extractSlice {α : Type} (rows : List (Row α)) (a b : Nat) : Option (List (Row α)) :=
  if b ≤ rows.length then take rows (List.range' a (b - a)) else none

/-- `self.obs.argsort(order=…, kind="mergesort")`; `le` is the order of records of numpy (the named fields, then the
others). -/
def argsort {α : Type} (le : Row α → Row α → Bool) (rows : List (Row α)) : List Nat :=
  (rows.zipIdx.insertionSort (fun a b => le a.1 b.1 = true)).map (·.2)

/-- `sort`, network.py:409-427. -/
def sort {α : Type} (le : Row α → Row α → Bool) (rows : List (Row α)) : Option (List (Row α)) :=
  take rows (argsort le rows)

/-! ### `remove_dead_end` -/

/-- Fields used by `remove_dead_end`; `id` stands for the fields which are only moved. -/
structure Fields where
  track : Nat
  seg : Nat
  time : Int
  pcost : Rat
  ncost : Rat
  id : Nat
deriving DecidableEq

/-- The fields used by the segment graph. -/
def toObs (r : Row Fields) : Segments.Obs := ⟨r.data.track, r.data.seg, r.prev, r.next⟩

/-- Order of the fields `track`, `segment`, `time`; the other fields are not compared here. -/
def lexLe (a b : Row Fields) : Bool :=
  decide (a.data.track < b.data.track ∨ (a.data.track = b.data.track ∧
    (a.data.seg < b.data.seg ∨ (a.data.seg = b.data.seg ∧ a.data.time ≤ b.data.time))))

/-- Size of a set of `connexions`. -/
def degree (E : List (Nat × Nat)) (s : Nat) : Nat := (Segments.adjOf E s).dedup.length

/-- Mask of the segments which are kept, network.py:1469-1475: `m`. -/
def longEnough (rows : List (Row Fields)) (E : List (Nat × Nat)) (nobs : Nat) (ndays : Int) (s a b : Nat) : Option Bool := do
  let t1 ← Py.get (rows.map (·.data.time)) ((b : Int) - 1)
  let t0 ← Py.get (rows.map (·.data.time)) (a : Int)
  some ((decide (ndays ≤ t1 - t0 + 1) && decide (nobs ≤ b - a)) || decide (2 ≤ degree E s))

/-- `segment_track_array[mask]`, network.py:1477-1480; a mask of another length raises. -/
def protectedSegs (mask : Option (List Bool)) (sta : List Nat) : Option (List Nat) :=
  match mask with
  | none => some []
  | some mk => if mk.length ≠ sta.length then none else some (Py.select mk sta)

/-- Rows which are removed: `m` after line 1482, network.py:1468-1482. `segment_mask(ids)` (network.py:1512-1518,
2245-2259) is true on the slices of the segments of `ids`. -/
def removed (rows : List (Row Fields)) (nobs : Nat) (ndays : Int) (mask : Option (List Bool)) : Option (List Bool) := do
  let obs := rows.map toObs
  let sta ← Segments.segTrackArray obs
  let E ← Segments.connexions sta obs
  let idx ← Index.buildIndex (sta.map (fun (k : Nat) => (k : Int)))
  let m ← (idx.1.zip idx.2.1).zipIdx.mapM (fun p => longEnough rows E nobs ndays p.2 p.1.1 p.1.2)
  let protect ← protectedSegs mask sta
  some (sta.map (fun s => !(m.getD s false || protect.contains s)))

/-- Erasure of the removed rows, network.py:1483-1488. -/
def erase (r : Row Fields) : Row Fields :=
  ⟨{ r.data with track := 0, seg := 0, pcost := 0, ncost := 0 }, -1, -1⟩

/-- Erasure of the links to removed rows, network.py:1490-1495; `m[-1]` is read for an absent link. -/
def cut (m : List Bool) (r : Row Fields) : Option (Row Fields) := do
  let mp ← Py.get m r.prev
  let mn ← Py.get m r.next
  let r := if mp then { r with prev := -1, data := { r.data with pcost := 0 } } else r
  some (if mn then { r with next := -1, data := { r.data with ncost := 0 } } else r)

/-- One pass of `remove_dead_end`, network.py:1455-1497. -/
def removeOnce (le : Row Fields → Row Fields → Bool) (rows : List (Row Fields)) (nobs : Nat) (ndays : Int)
    (mask : Option (List Bool)) : Option (List (Row Fields)) := do
  let m ← removed rows nobs ndays mask
  let rows' := List.zipWith (fun r b => if b then erase r else r) rows m
  let rows'' ← rows'.mapM (cut m)
  sort le rows''

/-- `remove_dead_end`, network.py:1455-1499: state of the dataset after the call (the function returns `None`). The mask
is not given to the recursive call (line 1499). -/
def removeDeadEnd (le : Row Fields → Row Fields → Bool) (rows : List (Row Fields)) (nobs : Nat) (ndays : Int) :
    Nat → Option (List Bool) → Option (List (Row Fields))
  | 0, mask => removeOnce le rows nobs ndays mask
  | k + 1, mask => do
    let out ← removeOnce le rows nobs ndays mask
    removeDeadEnd le out nobs ndays k none

end Verif.Links
