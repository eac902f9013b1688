import Verif.Py
import Verif.Basic
import Verif.Index.Model

/-!
# Model of `TrackEddiesObservations` (`src/py_eddy_tracker/observations/tracking.py`)

A dataset is the list of its observations; an observation is its track identifier and its other fields (an arbitrary type
`α`). Identifiers are unbounded naturals (the code uses `u4`). `none` is an exception.
-/

namespace Verif.Tracks

variable {α : Type}

/-- What `compute_index` stores: size of the two arrays, first index of each track (`-1` when there is none), number of
observations of each track. -/
structure TIndex where
  size : Nat
  index : Nat → Int
  number : Nat → Nat

/-- Loop of the numba function `compute_index`, tracking.py:797-803. `prev` is `previous_track`. -/
def indexLoop : Nat → Int → (Nat → Int) → (Nat → Nat) → List Nat → (Nat → Int) × (Nat → Nat)
  | _, _, index, number, [] => (index, number)
  | i, prev, index, number, t :: ts =>
    indexLoop (i + 1) t (if (t : Int) ≠ prev then Function.update index t (i : Int) else index)
      (Function.update number t (number t + 1)) ts

/-- `tracks.max() + 1`, `none` when empty. -/
def sizeOf : List Nat → Option Nat
  | [] => none
  | t :: ts => some (ts.foldl max t + 1)

/-- `compute_index`, tracking.py:300-314 (`index_from_track`, `nb_obs_by_track`). -/
def computeIndex (tracks : List Nat) : Option TIndex :=
  (sizeOf tracks).map (fun s =>
    let r := indexLoop 0 (-1) (fun _ => -1) (fun _ => 0) tracks
    ⟨s, r.1, r.2⟩)

/-- `index_from_track` as an array. -/
def TIndex.firsts (ti : TIndex) : List Int := (List.range ti.size).map ti.index
/-- `nb_obs_by_track` as an array. -/
def TIndex.numbers (ti : TIndex) : List Nat := (List.range ti.size).map ti.number

/-- `count_by_track`, tracking.py:329-340, 806-811. -/
def countByTrack (tracks : List Nat) (mask : List Bool) : Option (List Nat) :=
  (sizeOf tracks).map (fun s => (List.range s).map
    ((tracks.zip mask).foldl (fun f p => if p.2 then Function.update f p.1 (f p.1 + 1) else f) (fun _ => 0)))

/-- `compute_mask_from_id`, tracking.py:814-817. numba does not check the index of `first_index[track]`: an identifier
outside the arrays reads foreign memory, modelled by `none`. -/
def maskFromId (ti : TIndex) (ids : List Nat) (mask : List Bool) : Option (List Bool) :=
  ids.foldlM (fun m t => if t < ti.size then
      some (Py.sliceFill m (ti.index t) (ti.index t + ti.number t) true) else none) mask

/-- `get_mask_from_id`, tracking.py:295-298. -/
def getMaskFromId (tracks : List Nat) (ids : List Nat) : Option (List Bool) :=
  (computeIndex tracks).bind (fun ti => maskFromId ti ids (List.replicate tracks.length false))

/-- Renumbering of `compress_id`, tracking.py:509-513: `id_translate` is the identity except on the listed identifiers, numbered
from 1. The maximum of an empty array raises, but the code is then not executed. -/
def compress (data : List (Nat × α)) : List (Nat × α) :=
  let ids := Py.unique (data.map Prod.fst)
  let translate := scatter id (ids.zip ((List.range ids.length).map (· + 1)))
  data.map (fun o => (translate o.1, o.2))

/-- The record array of the result of `extract_with_mask`, tracking.py:465-507. `virt` is the field `virtual`. -/
def extractWithMask (data : List (Nat × α)) (virt : List Bool) (mask : List Bool)
    (fullPath removeIncomplete rejectVirtual : Bool) : Option (List (Nat × α)) := do
  let tracks := data.map Prod.fst
  let mask ←
    if fullPath then
      let mask := if rejectVirtual then List.zipWith (fun m v => m && !v) mask virt else mask
      getMaskFromId tracks (Py.unique (Py.select mask tracks))
    else if removeIncomplete then
      (getMaskFromId tracks (Py.unique (Py.select (mask.map (!·)) tracks))).map (fun m => m.map (!·))
    else some mask
  some (Py.select mask data)

/-- A dataset as a Python object: its record array, and the attribute `track` when it was set. The class has no `__setattr__` and its
instances have a `__dict__` (groups.py:270 has no `__slots__`): `new.track = …` does not write in the record array. -/
structure Object (α : Type) where
  obs : List (Nat × α)
  attr : Option (List Nat)
deriving DecidableEq

/-- `object.track` (and `object.tracks`, observation.py:243-245): the attribute, or the field, observation.py:400-402. -/
def Object.track (o : Object α) : List Nat := o.attr.getD (o.obs.map Prod.fst)

/-- `object["track"]`, observation.py:391-393, and the field which `write_file` stores or an extraction copies. -/
def Object.written (o : Object α) : List Nat := o.obs.map Prod.fst

/-- `extract_with_mask`, tracking.py:465-514, with line 513: `new.track = id_translate[new.track]`. -/
def extractObject (data : List (Nat × α)) (virt : List Bool) (mask : List Bool)
    (fullPath removeIncomplete compressId rejectVirtual : Bool) : Option (Object α) :=
  (extractWithMask data virt mask fullPath removeIncomplete rejectVirtual).map (fun new =>
    ⟨new, if compressId && !new.isEmpty then some ((compress new).map Prod.fst) else none⟩)

/-- `extract_ids`, tracking.py:362-364. -/
def extractIds (data : List (Nat × α)) (ids : List Nat) : Option (List (Nat × α)) :=
  (getMaskFromId (data.map Prod.fst) ids).map (fun m => Py.select m data)

/-- The loop of `concatenate`, tracking.py:319-326: `none` is the `ValueError` of `new_track.max()` on an empty input. -/
def concatLoop : Nat → List (List (Nat × α)) → Option (List (List (Nat × α)))
  | _, [] => some []
  | last, d :: ds => do
    let new := d.map (fun o => (o.1 + last, o.2))
    let s ← sizeOf (new.map Prod.fst)
    let rest ← concatLoop s ds
    some (new :: rest)

/-- `concatenate`, tracking.py:316-327, one block per input (the code stores them one after the other). -/
def concatenate (ds : List (List (Nat × α))) : Option (List (List (Nat × α))) := concatLoop 0 ds

/-- Fancy assignment `d[idxs] = v` with Python indices; `none` is an `IndexError`. -/
def assignAll {β : Type} (d : List β) (idxs : List Int) (v : β) : Option (List β) :=
  idxs.foldlM (fun d i => Py.set d i v) d

/-- `distance_to_next`, tracking.py:156-171. `dist` is the distance of two observations. -/
def distanceToNext (dist : α → α → Rat) (data : List (Nat × α)) : Option (List Rat) := do
  let d := List.zipWith (fun a b => dist a.2 b.2) data data.tail
  let ti ← computeIndex (data.map Prod.fst)
  let d ← assignAll d (ti.firsts.tail.map (· - 1)) 0
  some (d ++ [0])

/-- `add_distance`, tracking.py:148-154, column `distance_next` of the new dataset when the field is absent: the whole
array is assigned to the slice `[:1]`; numpy broadcasts a single value, otherwise the shapes differ (`ValueError`). The
column is first filled with `fill`. -/
def addDistance (dist : α → α → Rat) (fill : Rat) (data : List (Nat × α)) : Option (List Rat) := do
  let d ← distanceToNext dist data
  match d with
  | [v] => some (Py.sliceFill (List.replicate data.length fill) 0 1 v)
  | _ => if d.length = min 1 data.length then some d else none

/-- Longitudes: centre, position of the maximum, contour. -/
structure Lon where
  lon : Rat
  lonMax : Rat
  contour : List Rat
deriving DecidableEq, Repr

/-- `(x - c + 180) % 360 + c - 180`: longitude `x` in the range centred on `c`. -/
def recentre (x c : Rat) : Rat := Py.fmod (x - c + 180) 360 + c - 180

/-- `normalize_longitude`, tracking.py:173-199, fields present and not `raw_data`. Simplification: one contour field. -/
def normalizeLongitude (data : List (Nat × Lon)) : Option (List (Nat × Lon)) :=
  if data.isEmpty then some data else do
    let ti ← computeIndex (data.map Prod.fst)
    let firsts ← ti.firsts.mapM (fun i => Py.get (data.map (·.2.lon)) i)
    let lon0 := Py.rep (firsts.map (· - 180)) ti.numbers
    some (List.zipWith (fun (o : Nat × Lon) l0 =>
      let lon := Py.fmod (o.2.lon - l0) 360 + l0
      (o.1, ⟨lon, recentre o.2.lonMax lon, o.2.contour.map (fun x => recentre x lon)⟩)) data lon0)

/-- `extract_with_length`, tracking.py:414-436. -/
def extractWithLength (data : List (Nat × α)) (b0 b1 : Int) : Option (List (Nat × α)) :=
  if data.isEmpty then some []
  else do
    let ti ← computeIndex (data.map Prod.fst)
    let m ←
      if 0 ≤ b0 ∧ b1 ≠ -1 then some (ti.numbers.map (fun (n : Nat) => decide (b0 ≤ n) && decide ((n : Int) ≤ b1)))
      else if b0 = -1 ∧ 0 ≤ b1 then some (ti.numbers.map (fun (n : Nat) => decide ((n : Int) ≤ b1)))
      else if 0 ≤ b0 ∧ b1 = -1 then some (ti.numbers.map (fun (n : Nat) => decide (b0 ≤ n)))
      else none
    some (Py.select (Py.rep m ti.numbers) data)

/-- `delta_lon < d_lon`, or true without `delta_lon`, tracking.py:382-383. -/
def deltaOK : Option Rat → Rat → Bool
  | none, _ => true
  | some dl, d => decide (dl < d)

/-- `extract_toward_direction`, tracking.py:366-385. -/
def extractTowardDirection (lon : α → Rat) (data : List (Nat × α)) (west : Bool) (deltaLon : Option Rat) :
    Option (List (Nat × α)) := do
  let ti ← computeIndex (data.map Prod.fst)
  let lons := data.map (fun o => lon o.2)
  let l1 ← (List.range ti.size).mapM (fun t => Py.get lons (ti.index t - 1 + ti.number t))
  let l0 ← (List.range ti.size).mapM (fun t => Py.get lons (ti.index t))
  let dLon := List.zipWith (· - ·) l1 l0
  let m := dLon.map (fun d => (if west then decide (d < 0) else decide (0 < d)) && deltaOK deltaLon d)
  some (Py.select (Py.rep m ti.numbers) data)

end Verif.Tracks
