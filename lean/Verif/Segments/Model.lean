import Verif.Py
import Verif.Index.Model

/-!
# Model of the segment graph of a network (`src/py_eddy_tracker/observations/network.py`)

Rows are in file order. Python sets and dictionaries: `connexions` is the list of the pairs it inserts; the iteration order
of its sets is a parameter `adj` of the functions which use it. Recursion depth is unbounded (Python raises
`RecursionError` beyond about a thousand nested calls).
-/

namespace Verif.Segments

/-- The fields of an observation of a network used here. `-1` is the absence of link. -/
structure Obs where
  track : Nat
  seg : Nat
  prev : Int
  next : Int
deriving DecidableEq

/-- Loop of `build_unique_array`, network.py:2212-2225 (called with `self.segment, self.track`). -/
def uniqLoop : Nat → Nat × Nat → List (Nat × Nat) → List Nat
  | _, _, [] => []
  | k, p, x :: l =>
    let k' := if x.1 ≠ p.1 ∨ x.2 ≠ p.2 then k + 1 else k
    k' :: uniqLoop k' x l

/-- `segment_track_array`, network.py:2212-2225 and 430-431. `none`: read of `id1[0]` in an empty array. -/
def segTrackArray (obs : List Obs) : Option (List Nat) :=
  match obs.map (fun o => (o.seg, o.track)) with
  | [] => none
  | x :: l => some (uniqLoop 0 x (x :: l))

/-- Edges of `connexions`, network.py:528-563: the pairs given to `add_seg`. `labels` is `segment_track_array` or
`segment`. `none` is an `IndexError`. -/
def connexions (labels : List Nat) (obs : List Obs) : Option (List (Nat × Nat)) := do
  let sta ← segTrackArray obs
  let idx ← Index.buildIndex (sta.map (fun (k : Nat) => (k : Int)))
  let i0 := idx.1
  let i1 := idx.2.1
  let iNext ← i1.mapM (fun (k : Nat) => Py.get (obs.map (·.next)) ((k : Int) - 1))
  let iPrev ← i0.mapM (fun (k : Nat) => Py.get (obs.map (·.prev)) (k : Int))
  let split ← ((iPrev.zip i0).filter (fun p => decide (p.1 ≠ -1))).mapM (fun p => do
    let a ← Py.get labels p.1
    let b ← Py.get labels (p.2 : Int)
    some (a, b))
  let merge ← ((iNext.zip i1).filter (fun p => decide (p.1 ≠ -1))).mapM (fun p => do
    let a ← Py.get labels p.1
    let b ← Py.get labels ((p.2 : Int) - 1)
    some (a, b))
  some (split ++ merge)

/-- Neighbours of `a` in one of the possible orders. -/
def adjOf (E : List (Nat × Nat)) (a : Nat) : List Nat :=
  E.flatMap (fun p => (if p.1 = a then [p.2] else []) ++ (if p.2 = a then [p.1] else []))

/-- `__tag_segment`, network.py:1356-1375. The first argument bounds the recursion depth. -/
def dfs (adj : Nat → List Nat) (tag : Nat) : Nat → (Nat → Nat) → Nat → (Nat → Nat)
  | 0, g, _ => g
  | fuel + 1, g, s =>
    if g s ≠ 0 then g
    else (adj s).foldl (fun g x => dfs adj tag fuel g x) (Function.update g s tag)

/-- One iteration of the loop of `tag_segment`, network.py:1387-1398. A segment is a key of the dictionary iff it has a
neighbour. -/
def tagStep (adj : Nat → List Nat) (nb : Nat) (s : (Nat → Nat) × Nat) (i : Nat) : (Nat → Nat) × Nat :=
  if adj i = [] then (Function.update s.1 i s.2, s.2 + 1)
  else if s.1 i ≠ 0 then s
  else (dfs adj s.2 (nb + 1) s.1 i, s.2 + 1)

/-- `tag_segment`, network.py:1377-1399. -/
def tagSegment (adj : Nat → List Nat) (nb : Nat) : (Nat → Nat) × Nat :=
  (List.range nb).foldl (tagStep adj nb) (fun _ => 0, 1)

/-- New network numbers of `dissociate_network`, network.py:1225-1232, before the final sort. -/
def dissociate (adj : List (Nat × Nat) → Nat → List Nat) (obs : List Obs) : Option (List Nat) := do
  let sta ← segTrackArray obs
  let nb := sta.getLastD 0 + 1
  let E ← connexions sta obs
  let tags := (tagSegment (adj E) nb).1
  let shift := if (obs.map (·.track)).head? = some 0 then 1 else 0
  some (sta.map (fun s => tags s - shift))

/-- `__close_segment`, network.py:565-578. `distance[seg - shift]` is written `d seg`, `-1` is `none`. The first argument
bounds the recursion depth. -/
def close (adj : Nat → List Nat) : Nat → (Nat → Option Nat) → Nat → (Nat → Option Nat)
  | 0, d, _ => d
  | fuel + 1, d, father =>
    let d := if d father = none then Function.update d father (some 0) else d
    let target := (d father).getD 0 + 1
    (adj father).foldl (fun d son =>
      if d son = none ∨ target < (d son).getD 0 then close adj fuel (Function.update d son (some target)) son else d) d

/-- `segment_relative_order`, network.py:580-594: `-1` for the segments which are not reached. `none`: several networks, or
a segment of origin outside of the numbers of the network (not modelled: Python would take it modulo the size). -/
def relativeOrder (adj : List (Nat × Nat) → Nat → List Nat) (obs : List Obs) (origin : Nat) : Option (List Int) := do
  let tracks := obs.map (·.track)
  if tracks.dedup.length ≠ 1 then none
  else
    let segs := obs.map (·.seg)
    let idx ← Index.buildIndex (segs.map (fun (k : Nat) => (k : Int)))
    let E ← connexions segs obs
    let nb := idx.1.length
    if (origin : Int) < idx.2.2 ∨ idx.2.2 + nb ≤ origin then none
    else
      let d := close (adj E) (nb + 1) (fun _ => none) origin
      let rel := (List.range nb).map (fun (k : Nat) => match d (idx.2.2.toNat + k) with
        | none => (-1 : Int)
        | some v => (v : Int))
      some ((idx.1.zip (idx.2.1.zip rel)).foldl (fun out p =>
        if p.1 = p.2.1 then out else Py.sliceFill out p.1 p.2.1 p.2.2) (List.replicate obs.length (-1)))

end Verif.Segments
