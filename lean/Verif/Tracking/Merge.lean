import Verif.Tracking.Spec

/-!
# Model of the counting, merging and selection of tracks (`tracking.py`, lines 567-755)

Arrays indexed by track identifier or by output row are total functions together with their length (`current_id`,
`nb_obs`); identifiers met in the link tables are below `current_id` (`Inv.idlt`), so that no `IndexError` is hidden.
-/

namespace Verif.Tracking

/-- numpy `a[idx] += vals` on an index array: one read of the old values, then a fancy assignment. -/
def addAt (a : Nat → Nat) (ws : List (Nat × Nat)) : Nat → Nat := scatter a (ws.map (fun w => (w.1, a w.1 + w.2)))

/-- Loop body of `prepare_merging`, tracking.py:571-578. -/
def countStep (virtual : Bool) (c : List Link) (a : Nat → Nat) : Nat → Nat :=
  let a := addAt a (c.map (fun l => (l.id, 1)))
  if virtual then addAt a ((c.filter (·.virt)).map (fun l => (l.id, l.vlen))) else a

/-- `nb_obs_by_tracks`, tracking.py:570-578. Simplification: unbounded counts (the code uses `u2`). -/
def nbObsByTracks (virtual : Bool) (h : List (List Link)) : Nat → Nat := h.foldr (countStep virtual) (fun _ => 1)

/-- `i_current_by_tracks = cumsum - nb` (tracking.py:581-583): sum of the counts of the smaller identifiers. -/
def start (nb : Nat → Nat) (i : Nat) : Nat := ((List.range i).map nb).sum

/-- `nb_obs = nb_obs_by_tracks.sum()`, tracking.py:585. -/
def nbObs (nb : Nat → Nat) (cid : Nat) : Nat := ((List.range cid).map nb).sum

/-- Column `track`: `arange(current_id).repeat(nb_obs_by_tracks)`, tracking.py:659. -/
def trackColumn (nb : Nat → Nat) (cid : Nat) : List Nat :=
  (List.range cid).flatMap (fun i => List.replicate (nb i) i)

/-- Column `n`: `arange(nb_obs) - i_current_by_tracks.repeat(nb_obs_by_tracks)`, tracking.py:654-657. Simplification: the
code truncates to `u2`. -/
def nColumn (nb : Nat → Nat) (cid : Nat) : List Int :=
  List.zipWith (fun (r s : Nat) => (r : Int) - s) (List.range (nbObs nb cid))
    ((List.range cid).flatMap (fun i => List.replicate (nb i) (start nb i)))

/-- State of the loop of `merge`: write position by track, `first_obs_save_in_tracks`, and for each output row the
(dataset, index) copied there and the association cost written there. `none` is an untouched row. -/
structure MSt where
  ptr : Nat → Nat
  saved : Nat → Bool
  rows : Nat → Option (Nat × Nat)
  cost : Nat → Option Rat

/-- Loop body of `merge` for link table `k`, tracking.py:674-721. The copy of all fields of one observation is modelled by
recording where it comes from. -/
def mergeStep (virtual : Bool) (k : Nat) (c : List Link) (m : MSt) : MSt :=
  let first := c.filter (fun l => !m.saved l.id)
  let rows1 := scatter m.rows (first.map (fun l => (m.ptr l.id, some (k, l.inp))))
  let ptr1 := addAt m.ptr (first.map (fun l => (l.id, 1)))
  let saved1 := if first.isEmpty then m.saved else scatter m.saved (c.map (fun l => (l.id, true)))
  let ptr2 := if virtual then addAt ptr1 ((c.filter (·.virt)).map (fun l => (l.id, l.vlen))) else ptr1
  { ptr := addAt ptr2 (c.map (fun l => (l.id, 1)))
    saved := saved1
    rows := scatter rows1 (c.map (fun l => (ptr2 l.id, some (k + 1, l.out))))
    cost := scatter m.cost (c.map (fun l => (ptr2 l.id - 1, some l.cost))) }

/-- `merge`, tracking.py:632-722 with `until = -1`, for given counts `nb`. -/
def merge (virtual : Bool) (nb : Nat → Nat) : List (List Link) → MSt
  | [] => ⟨start nb, fun _ => false, fun _ => none, fun _ => none⟩
  | c :: h => mergeStep virtual h.length c (merge virtual nb h)

/-! ## longer_than, shorter_than -/

/-- `where(mask)[0]` on the `cid` tracks. -/
def keepTracks (cid : Nat) (p : Nat → Bool) : List Nat := (List.range cid).filter p

/-- Filtering and renumbering of the link tables, tracking.py:604-609 and 624-629: `translate[i_keep_track] =
arange(...)`, links whose identifier is not kept are removed. -/
def renumber (keep : List Nat) (h : List (List Link)) : List (List Link) :=
  let translate : Nat → Nat := scatter (fun _ => 0) (keep.zip (List.range keep.length))
  h.map (fun c => (c.filter (fun l => decide (l.id ∈ keep))).map (fun l => l.setId (translate l.id)))

/-- Result of a selection: new link tables, new `current_id`, new counts (as a list). -/
structure Selection where
  corrs : List (List Link)
  currentId : Nat
  nb : List Nat

/-- `longer_than`, tracking.py:589-610. `none` is the value `False`, returned with the object unchanged. -/
def longerThan (nb : Nat → Nat) (cid : Nat) (h : List (List Link)) (sizeMin : Nat) : Option Selection :=
  let keep := keepTracks cid (fun i => decide (sizeMin ≤ nb i))
  if keep.isEmpty then none else some ⟨renumber keep h, keep.length, keep.map nb⟩

/-- `shorter_than`, tracking.py:612-630. `none` is the `ValueError` raised by `i_keep_track.max()` (line 624) on an empty
array. -/
def shorterThan (nb : Nat → Nat) (cid : Nat) (h : List (List Link)) (sizeMax : Nat) : Option Selection :=
  let keep := keepTracks cid (fun i => decide (nb i < sizeMax))
  if keep.isEmpty then none else some ⟨renumber keep h, keep.length, keep.map nb⟩

/-! ## get_unused_data -/

/-- `reverse_index(index, nb)`, generic.py:50-62: the indices below `nb` which are not listed. -/
def reverseIndex (idx : List Nat) (nb : Nat) : List Nat := (List.range nb).filter (fun i => decide (i ∉ idx))

/-- Indices used in dataset `d`, tracking.py:733-746. `tables` is `self` in chronological order. `none` is an
`IndexError`. Simplification: `unique` is omitted, it does not change which indices occur. -/
def indexUsed (hasVirtual : Bool) (nbDataset : Nat) (tables : List (List Link)) (d : Nat) : Option (List Nat) :=
  let last := decide (d + 1 = nbDataset)
  if d = 0 then (tables[0]?).map (fun c => c.map (·.inp))
  else if last then (tables[d - 1]?).map (fun c => c.map (·.out))
  else do
    let a ← tables[d - 1]?
    let b ← tables[d]?
    let b := if hasVirtual then b.filter (fun l => !l.virt) else b
    some (a.map (·.out) ++ b.map (·.inp))

/-- `get_unused_data`, tracking.py:724-755: for each dataset, the indices of its untracked observations. -/
def unused (hasVirtual : Bool) (sizes : List Nat) (tables : List (List Link)) : Option (List (List Nat)) :=
  ((List.range sizes.length).zip sizes).mapM (fun ds =>
    (indexUsed hasVirtual sizes.length tables ds.1).map (fun u => reverseIndex u ds.2))

end Verif.Tracking
