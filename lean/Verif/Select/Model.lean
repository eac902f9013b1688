import Verif.Py
import Verif.Index.Model
import Verif.Bins.Model
import Verif.Events.Model
import Verif.Extract.Model
import Verif.Tracks.Model

/-!
# Model of the selections of a dataset of networks

`networks`, `network`, sizes, `longer_than`, `extract_with_period`, `keep_tracks_by_date`, `normalize_longitude`, `unique_segment_to_id`
(src/py_eddy_tracker/observations/network.py, groups.py, tracking.py). The translation of the links in `extract_with_mask` is the one of property C24.
-/

namespace Verif.Select

/-- A dataset: networks of the rows with the other fields, and its memory of `index_network` (`_index_network`). -/
structure Net (α : Type) where
  rows : List (Nat × α)
  index : Option (List Nat × List Nat × Int)

/-- The field `track`. -/
def Net.track {α : Type} (d : Net α) : List Int := d.rows.map (fun r => (r.1 : Int))

/-- `index_network`, network.py:179-183. -/
def Net.indexNetwork {α : Type} (d : Net α) : Option (List Nat × List Nat × Int) :=
  match d.index with
  | some x => some x
  | none => Index.buildIndex d.track

/-- Loop of `generate_mask_from_ids`, network.py:2256-2258. A negative position counts from the end; `none`: position out of the index. -/
def maskLoop (first last : List Nat) (i0 : Int) : List Int → (Nat → Bool) → Option (Nat → Bool)
  | [], m => some m
  | i :: l, m => (Py.get first (i - i0)).bind (fun a => (Py.get last (i - i0)).bind (fun b => maskLoop first last i0 l (Index.sliceSet m a b true)))

/-- `generate_mask_from_ids`, network.py:2245-2259. -/
def maskFromIds (ids : List Int) (nb : Nat) (first last : List Nat) (i0 : Int) : Option (List Bool) :=
  (maskLoop first last i0 ids (fun _ => false)).map (fun m => (List.range nb).map m)

/-- `networks_mask`, network.py:1241-1249 (without `segment`). -/
def networksMask {α : Type} (d : Net α) (ids : List Int) : Option (List Bool) :=
  d.indexNetwork.bind (fun x => maskFromIds ids d.rows.length x.1 x.2.1 x.2.2)

/-- `networks`, network.py:1251-1256: rows kept. -/
def networks {α : Type} (d : Net α) (ids : List Int) : Option (List (Nat × α)) := (networksMask d ids).map (Extract.extractMask d.rows)

/-- `network_slice` and `network`, network.py:245-253, 1238-1239: rows kept. -/
def network {α : Type} (d : Net α) (id : Int) : Option (List (Nat × α)) :=
  d.indexNetwork.bind (fun x => (Py.get x.1 (id - x.2.2)).bind (fun a => (Py.get x.2.1 (id - x.2.2)).map (fun b => (d.rows.take b).drop a)))

/-- `network_size`, network.py:216-226. -/
def networkSize {α : Type} (d : Net α) : Option (List Nat) := d.indexNetwork.map (fun x => List.zipWith (fun a b => b - a) x.1 x.2.1)

/-- `nb_network`, network.py:1258-1263. -/
def nbNetwork {α : Type} (d : Net α) : Option Nat := (networkSize d).map (fun l => (l.filter (fun n => decide (n ≠ 0))).length)

/-- `numbering_network`, network.py:719-723: `new_numbering` of the networks, in place. The memory of `index_network` is not reset. -/
def numberingNetwork {α : Type} (d : Net α) (start : Nat) : Option (Net α) :=
  (Events.newNumbering start (d.rows.map (·.1))).map (fun t => ⟨t.zip (d.rows.map (·.2)), d.index⟩)

/-! ### Durations and dates -/

/-- The groups of `iter_on(track)`, observation.py:579-630: network numbers are unsigned integers. -/
def groups (argsort : List Int → List Nat) (track : List Nat) : Bins.Run Bins.Group := Bins.iterOnDefault argsort true (track.map (fun (n : Nat) => (n : Rat)))

/-- Loops which set a mask to true on the groups which meet a condition. -/
def markGroups (cond : List Nat → Bool) : List Bins.Group → (Nat → Bool) → (Nat → Bool)
  | [], m => m
  | g :: l, m => markGroups cond l (if cond g.obs then (fun j => m j || decide (j ∈ g.obs)) else m)

/-- Times of some rows. -/
def times (time : List Rat) (obs : List Nat) : List Rat := obs.map (fun j => time.getD j 0)

/-- Test of `mask_longer_than`, network.py:296-303. -/
def longTest (time : List Rat) (nbMin nbMax : Rat) (obs : List Nat) : Bool :=
  let d := Poly.maxR (times time obs) - Poly.minR (times time obs) + 1
  decide (nbMin ≤ d) && decide (d ≤ (if nbMax < 0 then 1000000000000 else nbMax))

/-- `mask_longer_than`, network.py:287-304; `none` is an exception (empty dataset; `i.stop` when `iter_on` gives lists of rows). -/
def maskLongerThan (argsort : List Int → List Nat) (track : List Nat) (time : List Rat) (nbMin nbMax : Rat) : Option (List Bool) :=
  let r := groups argsort track
  if r.ok = false ∨ ∃ g ∈ r.items, g.arr = true then none
  else some ((List.range track.length).map (markGroups (longTest time nbMin nbMax) r.items (fun _ => false)))

/-- Mask of `keep_tracks_by_date`, groups.py:330-351. -/
def maskByDate (argsort : List Int → List Nat) (track : List Nat) (time : List Rat) (date nbDays : Rat) : Option (List Bool) :=
  let r := groups argsort track
  if r.ok = false then none
  else some ((List.range track.length).map
    (markGroups (fun obs => decide (date ∈ times time obs) && decide (date + nbDays ∈ times time obs)) r.items (fun _ => false)))

/-- Lower test of `get_mask_with_period` (network.py:1530-1535, tracking.py:258-263); comparisons with `nan` (empty dataset) do not matter. -/
def fromTest (period : Option (Rat × Rat)) (pMin t : Rat) : Bool :=
  if pMin > 0 then decide (t ≥ pMin)
  else if pMin < 0 then period.elim false (fun p => decide (t ≥ p.1 - pMin))
  else true

/-- Upper test (network.py:1536-1539, tracking.py:264-267). -/
def toTest (period : Option (Rat × Rat)) (pMax t : Rat) : Bool :=
  if pMax > 0 then decide (t ≤ pMax)
  else if pMax < 0 then period.elim false (fun p => decide (t ≤ p.2 + pMax))
  else true

/-- `get_mask_with_period` (network.py:1519-1540) and mask of `extract_with_period` of trajectories (tracking.py:245-268). -/
def maskPeriod (d : Extract.Data) (pMin pMax : Rat) : List Bool :=
  d.time.map (fun t => fromTest d.period.2 pMin t && toTest d.period.2 pMax t)

/-! ### Longitudes and unique numbers -/

/-- `normalize_longitude` of networks, network.py:685-710, fields present and not `raw_data`. Simplification: one contour field. -/
def normalizeLongitude (d : Net Tracks.Lon) : Option (List (Nat × Tracks.Lon)) :=
  d.indexNetwork.bind (fun x =>
    (x.1.mapM (fun i => (d.rows.map (·.2.lon))[i]?)).map (fun firsts =>
      List.zipWith (fun (o : Nat × Tracks.Lon) l0 =>
        let lon := Py.fmod (o.2.lon - l0) 360 + l0
        (o.1, ⟨lon, Tracks.recentre o.2.lonMax lon, o.2.contour.map (fun c => Tracks.recentre c lon)⟩))
        d.rows (Py.rep (firsts.map (· - 180)) (List.zipWith (fun a b => b - a) x.1 x.2.1))))

/-- `unique_segment_to_id`, network.py:228-234, for one number. -/
def uniqueSegmentToId (obs : List Segments.Obs) (k : Int) : Option (Nat × Nat) :=
  (Segments.segTrackArray obs).bind (fun sta => (Index.buildIndex (sta.map (fun (n : Nat) => (n : Int)))).bind (fun x =>
    (Py.get x.1 k).bind (fun i => (Py.get obs ((i : Int) - x.2.2)).map (fun o => (o.track, o.seg)))))

end Verif.Select
