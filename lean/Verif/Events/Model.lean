import Verif.Segments.Model

/-!
# Model of the events of a network (`src/py_eddy_tracker/observations/network.py`)

Rows are in file order, sorted by network, segment and time. `-1` is the absence of link. `none` is an exception. Times are integers.
-/

namespace Verif.Events

open Verif.Segments

/-- `index_segment_track` (network.py:186-189): first rows and rows after the last ones, for each segment. -/
def bounds (obs : List Obs) : Option (List Nat × List Nat) := do
  let sta ← segTrackArray obs
  let idx ← Index.buildIndex (sta.map (fun (k : Nat) => (k : Int)))
  some (idx.1, idx.2.1)

/-- `first_is_trash`, network.py:1407-1414. -/
def firstIsTrash (obs : List Obs) : Option Bool := do
  let b ← bounds obs
  let a ← b.1[0]?
  let z ← b.2[0]?
  let sl := (obs.take z).drop a
  some (sl.all (fun o => o.prev == -1) && sl.all (fun o => o.next == -1))

/-- `remove_trash`, network.py:1416-1423: mask of the rows which are kept. -/
def removeTrash (obs : List Obs) : Option (List Bool) := do
  let t ← firstIsTrash obs
  some (obs.map (fun o => if t then decide (o.track ≠ 0) else true))

/-- `birth_event`, network.py:1128-1134: indices given to `extract_event`. -/
def birth (obs : List Obs) : Option (List Nat) := do
  let b ← bounds obs
  let p ← b.1.mapM (fun (k : Nat) => Py.get (obs.map (·.prev)) (k : Int))
  let indices := Py.select (p.map (fun x => x == -1)) b.1
  let t ← firstIsTrash obs
  some (if t then indices.drop 1 else indices)

/-- `death_event`, network.py:1138-1144: indices given to `extract_event`. -/
def death (obs : List Obs) : Option (List Nat) := do
  let b ← bounds obs
  let n ← b.2.mapM (fun (k : Nat) => Py.get (obs.map (·.next)) ((k : Int) - 1))
  let indices := (Py.select (n.map (fun x => x == -1)) b.2).map (· - 1)
  let t ← firstIsTrash obs
  some (if t then indices.drop 1 else indices)

/-- `argsort` on the time of the targets, network.py:1163-1164 and 1202-1203. The order of equal times is not specified by numpy; here
it is the order of the file. -/
def byTime (time : List Int) (l : List (Int × Nat)) : Option (List (Int × Nat)) := do
  let keyed ← l.mapM (fun p => do
    let t ← Py.get time p.1
    some (t, p))
  some ((keyed.insertionSort (fun a b => a.1 ≤ b.1)).map (·.2))

/-- `merging_event`, network.py:1148-1185: couples (target, last row of the segment which stops), ordered by time. -/
def mergingPairs (obs : List Obs) (time : List Int) : Option (List (Int × Nat)) := do
  let b ← bounds obs
  let stop := b.2.map (· - 1)
  let target ← stop.mapM (fun (k : Nat) => Py.get (obs.map (·.next)) (k : Int))
  byTime time ((target.zip stop).filter (fun p => decide (p.1 ≠ -1)))

/-- `merging_event(triplet=True, only_index=True)`, network.py:1165-1173: target, row before the target, row which stops. -/
def merging3 (obs : List Obs) (time : List Int) : Option (List (Int × Int × Nat)) := do
  let l ← mergingPairs obs time
  l.mapM (fun p => do
    let before ← Py.get (obs.map (·.prev)) p.1
    some (p.1, before, p.2))

/-- `merging_event(only_index=True)`, network.py:1180-1183. -/
def merging1 (obs : List Obs) (time : List Int) : Option (List Nat) := do
  let l ← mergingPairs obs time
  some (Py.unique (l.map (fun p => p.1.toNat)))

/-- `splitting_event`, network.py:1187-1223: couples (source, first row of the segment which starts), ordered by time. -/
def splittingPairs (obs : List Obs) (time : List Int) : Option (List (Int × Nat)) := do
  let b ← bounds obs
  let source ← b.1.mapM (fun (k : Nat) => Py.get (obs.map (·.prev)) (k : Int))
  byTime time ((source.zip b.1).filter (fun p => decide (p.1 ≠ -1)))

/-- `splitting_event(triplet=True, only_index=True)`, network.py:1204-1211: source, row after the source, row which starts. -/
def splitting3 (obs : List Obs) (time : List Int) : Option (List (Int × Int × Nat)) := do
  let l ← splittingPairs obs time
  l.mapM (fun p => do
    let after ← Py.get (obs.map (·.next)) p.1
    some (p.1, after, p.2))

/-- `splitting_event(only_index=True)`, network.py:1219-1222. -/
def splitting1 (obs : List Obs) (time : List Int) : Option (List Nat) := do
  let l ← splittingPairs obs time
  some (Py.unique (l.map (fun p => p.1.toNat)))

/-- `extract_event`, network.py:1105-1119: rows of the given indices, -1 is the last row. -/
def extractEvent {α : Type} (rows : List α) (indices : List Int) : Option (List α) := indices.mapM (Py.get rows)

/-- Loop `while` of `mask_follow_obs`, network.py:2314-2318; the first argument bounds the number of turns (`none` beyond). -/
def followLoop (next time : List Int) (t0 dt : Int) : Nat → Int → List Bool → Option (List Bool)
  | 0, _, _ => none
  | fuel + 1, i, m => do
    let t ← Py.get time i
    if |t - t0| < dt ∧ i ≠ -1 then
      let m' ← Py.set m i true
      let j ← Py.get next i
      followLoop next time t0 dt fuel j m'
    else some m

/-- `mask_follow_obs`, network.py:2301-2318. -/
def maskFollow (next time : List Int) (dt : Int) : List Int → List Bool → Option (List Bool)
  | [], m => some m
  | i :: l, m => do
    let t0 ← Py.get time i
    let m' ← Py.set m i true
    let j ← Py.get next i
    let m'' ← followLoop next time t0 dt (time.length + 1) j m'
    maskFollow next time dt l m''

/-- Part of `mask_obs_close_event` on the mergings, network.py:1883-1887. -/
def markMerging (obs : List Obs) (time : List Int) (dt : Int) (m : List Bool) : Option (List Bool) := do
  let e ← merging3 obs time
  let m ← maskFollow (obs.map (·.prev)) time dt (e.map (·.2.1)) m
  let m ← maskFollow (obs.map (·.prev)) time dt (e.map (fun p => (p.2.2 : Int))) m
  maskFollow (obs.map (·.next)) time dt (e.map (·.1)) m

/-- Part of `mask_obs_close_event` on the splittings, network.py:1888-1892. -/
def markSplitting (obs : List Obs) (time : List Int) (dt : Int) (m : List Bool) : Option (List Bool) := do
  let e ← splitting3 obs time
  let m ← maskFollow (obs.map (·.next)) time dt (e.map (·.2.1)) m
  let m ← maskFollow (obs.map (·.next)) time dt (e.map (fun p => (p.2.2 : Int))) m
  maskFollow (obs.map (·.prev)) time dt (e.map (·.1)) m

/-- `mask_obs_close_event`, network.py:1874-1894. -/
def closeMask (obs : List Obs) (time : List Int) (merging spliting : Bool) (dt : Int) : Option (List Bool) :=
  let m := List.replicate obs.length false
  (if merging then markMerging obs time dt m else some m).bind
    (fun m => if spliting then markSplitting obs time dt m else some m)

/-- `new_numbering`, network.py:2228-2236: loop with the former value and the current number. -/
def renumberLoop : Nat → Nat → List Nat → List Nat
  | _, _, [] => []
  | s0, j, s :: l =>
    let j' := if s ≠ s0 then j + 1 else j
    j' :: renumberLoop s j' l

/-- `new_numbering`, network.py:2228-2236; `none`: read of `segs[0]` in an empty array. -/
def newNumbering (start : Nat) : List Nat → Option (List Nat)
  | [] => none
  | s :: l => some (renumberLoop s start (s :: l))

/-- The networks one after the other: the slices of `iter_on("track")` (property C31) on rows sorted by network. -/
def networks : List Obs → List (List Obs)
  | [] => []
  | o :: l =>
    match networks l with
    | (o' :: g) :: gs => if o'.track = o.track then (o :: o' :: g) :: gs else [o] :: (o' :: g) :: gs
    | gs => [o] :: gs

/-- `numbering_segment`, network.py:712-717: each network is renumbered on its own. -/
def numberingSegment (start : Nat) (obs : List Obs) : List Nat :=
  (networks obs).flatMap (fun g => (newNumbering start (g.map (·.seg))).getD [])

/-- The networks numbers and the index of the networks kept by the object (`_index_network`, network.py:180-184). -/
structure Cached where
  track : List Nat
  index : Option (List Nat × List Nat × Int)

/-- `index_network`, network.py:180-184: computed once. -/
def Cached.indexNetwork (c : Cached) : Option (List Nat × List Nat × Int) :=
  match c.index with
  | some i => some i
  | none => Index.buildIndex (c.track.map (fun (k : Nat) => (k : Int)))

/-- `network_slice`, network.py:245-253: bounds of the slice. -/
def Cached.networkSlice (c : Cached) (id : Nat) : Option (Nat × Nat) := do
  let x ← c.indexNetwork
  let a ← Py.get x.1 ((id : Int) - x.2.2)
  let b ← Py.get x.2.1 ((id : Int) - x.2.2)
  some (a, b)

/-- `numbering_network`, network.py:719-723: the index is not reset. -/
def Cached.numberingNetwork (c : Cached) (start : Nat) : Option Cached := do
  let t ← newNumbering start c.track
  some { c with track := t }

end Verif.Events
