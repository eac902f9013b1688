import Verif.Basic
import Mathlib.Data.List.Sort
import Mathlib.Data.List.Dedup

/-!
# Model of the correspondence table (`src/py_eddy_tracker/tracking.py`)

`Correspondances` is a list of link tables; link table `k` joins dataset `k` to dataset `k + 1`. The model keeps that list
newest first (`self[-1]` is the head), so that a Python `for` loop over `self` is a `foldr`.
An observation is a value of an arbitrary type `α`, a drift (`dlon`, `dlat`) a value of an arbitrary type `δ`; the matching
function and the two formulas of `propagate` are parameters. An exception is `none`.
Simplifications: identifiers and counters are unbounded naturals (the code uses `u4`, `u2`, `u1`), costs are rationals,
`UINT32_MAX` ("no identifier yet") is `none`.
-/

namespace Verif.Tracking

/-- One row of a link table, dtype at tracking.py:81-86 and 120-125. `ι` is the type of the identifier field. -/
structure LinkOf (ι : Type) where
  inp : Nat
  out : Nat
  id : ι
  cost : Rat
  virt : Bool
  vlen : Nat
deriving DecidableEq, Repr

/-- A finished row. -/
abbrev Link := LinkOf Nat

/-- A row whose identifier may still be `UINT32_MAX`, tracking.py:240-248. -/
abbrev PreLink := LinkOf (Option Nat)

/-- Write the identifier field of a row. -/
def LinkOf.setId {ι : Type} (l : LinkOf ι) (i : Nat) : Link := ⟨l.inp, l.out, i, l.cost, l.virt, l.vlen⟩

/-- A virtual observation: fields used by `propagate`, observation.py:1128-1178 and 2617-2626. -/
structure VObs (α δ : Type) where
  track : Nat
  seg : Nat
  obs : α
  drift : δ
deriving DecidableEq, Repr

/-- What the tracking class supplies: `tracking` (returns `i_previous, i_current, cost`), the position formula for a track
which just died (`C = B + AB`, observation.py:1153-1160) and for one already extended (1164-1173), and `nb_virtual`. -/
structure Cfg (α δ : Type) where
  tracking : List α → List α → List (Nat × Nat × Rat)
  extend : α → α → α × δ
  prolong : α → δ → α
  nbVirtual : Nat

/-- `self.virtual`, tracking.py:108. -/
def Cfg.virtual {α δ : Type} (cfg : Cfg α δ) : Bool := decide (0 < cfg.nbVirtual)

/-- Attributes of `Correspondances` read or written while tracking (tracking.py:94-110), plus the local `flg_virtual` of
`track` (368). -/
structure St (α δ : Type) where
  corrs : List (List Link)
  currentId : Nat
  virtualObs : Option (List (VObs α δ))
  prevVirtualObs : Option (List (VObs α δ))
  previous2 : Option (List α)
  previous : Option (List α)
  current : Option (List α)
  flg : Bool
deriving DecidableEq, Repr

/-- `numpy.setdiff1d`: sorted distinct values of `a` which are not in `b`. -/
def setdiff1d (a b : List Nat) : List Nat := ((a.filter (fun x => decide (x ∉ b))).dedup).insertionSort (· ≤ ·)

/-- Identifiers of a link table. -/
def ids (c : List Link) : List Nat := c.map (·.id)

/-- `swap_dataset`, tracking.py:170-180 (reading the file is supplying its list of observations). -/
def swap {α δ : Type} (s : St α δ) (file : List α) : St α δ :=
  { s with previous2 := s.previous, previous := s.current, current := some file }

/-- `correspondance["id"][mask_new_id] = self.id_generator(nb_new_tracks)`, tracking.py:270-274 and 284-288: rows without
identifier receive `cid, cid + 1, …` in order. -/
def fillNew : Nat → List PreLink → List Link
  | _, [] => []
  | cid, l :: ls =>
    match l.id with
    | some i => l.setId i :: fillNew cid ls
    | none => l.setId cid :: fillNew (cid + 1) ls

/-- `nb_new_tracks`, tracking.py:271. -/
def nbNew (ls : List PreLink) : Nat := ls.countP (fun l => l.id.isNone)

/-- `id_previous` (tracking.py:241-245): `UINT32_MAX` everywhere, then `id_previous[self[-1]["out"]] = self[-1]["id"]`. -/
def idPrevious (last : List Link) : Nat → Option Nat :=
  scatter (fun _ => none) (last.map (fun l => (l.out, some l.id)))

/-- A row before any identifier is known (tracking.py:220-230). -/
def rawLink (virtual : Bool) (nbReal : Nat) (m : Nat × Nat × Rat) : PreLink :=
  ⟨m.1, m.2.1, none, m.2.2, virtual && decide (nbReal ≤ m.1), 255⟩

/-- Identifier and virtual length of one row, tracking.py:248-266. `nbPrev` is `len(self.previous_obs)`; an index out of
range is an `IndexError`. -/
def preLink {α δ : Type} (virtual : Bool) (nbReal nbPrev : Nat) (last : List Link) (vobs : Option (List (VObs α δ)))
    (m : Nat × Nat × Rat) : Option PreLink :=
  let r := rawLink virtual nbReal m
  if m.1 < nbPrev then
    if r.virt then
      (vobs.bind (fun vs => vs[m.1 - nbReal]?)).map
        (fun v => { r with id := some v.track, vlen := v.seg })
    else some { r with id := idPrevious last m.1 }
  else none

/-- `store_correspondance`, tracking.py:215-278. The Boolean is the returned value. -/
def store {α δ : Type} (cfg : Cfg α δ) (s : St α δ) (nbReal : Nat) (links : List (Nat × Nat × Rat)) :
    Option (St α δ × Bool) :=
  match s.previous2 with
  | none =>
    let pre := links.map (rawLink cfg.virtual nbReal)
    some ({ s with corrs := fillNew s.currentId pre :: s.corrs, currentId := s.currentId + links.length }, true)
  | some _ => do
    let last ← s.corrs.head?
    let prev ← s.previous
    let pre ← links.mapM (preLink cfg.virtual nbReal prev.length last s.virtualObs)
    some ({ s with corrs := fillNew s.currentId pre :: s.corrs, currentId := s.currentId + nbNew pre }, false)

/-- Tracks which died at this step, with the position proposed for the next dataset: tracking.py:316-333 and `propagate`,
observation.py:1153-1162, 1177. -/
def deadVirtual {α δ : Type} (cfg : Cfg α δ) (prev2 prev : List α) (c2 : List Link) (dead : List Nat) :
    Option (List (VObs α δ)) :=
  dead.mapM (fun i => do
    let l ← c2.find? (fun l => l.id == i)
    let a ← prev2[l.inp]?
    let b ← prev[l.out]?
    let cd := cfg.extend a b
    some ⟨i, 1, cd.1, cd.2⟩)

/-- Virtual observations prolonged once more: tracking.py:299-311 and `propagate`, observation.py:1164-1177. -/
def prolonged {α δ : Type} (cfg : Cfg α δ) (vobs : List (VObs α δ)) (lastIds : List Nat) : List (VObs α δ) :=
  (setdiff1d (vobs.map (·.track)) lastIds).filterMap (fun i =>
    (vobs.find? (fun v => v.track == i)).bind (fun v =>
      if v.seg < cfg.nbVirtual then some ⟨v.track, v.seg + 1, cfg.prolong v.obs v.drift, v.drift⟩ else none))

/-- `recense_dead_id_to_extend`, tracking.py:290-333. -/
def recense {α δ : Type} (cfg : Cfg α δ) (s : St α δ) : Option (St α δ) :=
  match s.corrs with
  | c1 :: c2 :: _ =>
    if cfg.virtual then do
      let prev2 ← s.previous2
      let prev ← s.previous
      let dead ← deadVirtual cfg prev2 prev c2 (setdiff1d (ids c2) (ids c1))
      let ext := match s.virtualObs with
        | none => []
        | some vs => prolonged cfg vs (ids c1)
      some { s with prevVirtualObs := s.virtualObs, virtualObs := some (dead ++ ext) }
    else some s
  | _ => none

/-- `self.previous_obs.merge(self.virtual_obs)`, tracking.py:385-389: virtual observations are appended to the real ones
(`EddiesObservations.merge`, observation.py:547-563). -/
def mergeVirtual {α δ : Type} (s : St α δ) : Option (St α δ) :=
  if s.flg then do
    let prev ← s.previous
    let vs ← s.virtualObs
    some { s with previous := some (prev ++ vs.map (·.obs)) }
  else some s

/-- One turn of the loop of `track`, tracking.py:376-403. -/
def step {α δ : Type} (cfg : Cfg α δ) (s : St α δ) (file : List α) : Option (St α δ) := do
  let s := swap s file
  let real ← s.previous
  let s ← mergeVirtual s
  let prev ← s.previous
  let r ← store cfg s real.length (cfg.tracking prev file)
  if r.2 then some r.1
  else do
    let s ← recense cfg r.1
    some (if cfg.virtual then { s with flg := true } else s)

/-- State after `__init__` and `reset_dataset_cache`, tracking.py:94-110, 150-153, without previous correspondences. -/
def init {α δ : Type} : St α δ := ⟨[], 0, none, none, none, none, none, false⟩

/-- The loop of `track` once the state is loaded, tracking.py:374-403: `first` is `datasets[first_dataset - 1]`. -/
def trackFrom {α δ : Type} (cfg : Cfg α δ) (s : St α δ) (first : List α) (rest : List (List α)) : Option (St α δ) :=
  rest.foldlM (step cfg) (swap s first)

/-- `track` without previous correspondences, tracking.py:365-403. -/
def track {α δ : Type} (cfg : Cfg α δ) (files : List (List α)) : Option (St α δ) :=
  match files with
  | [] => none
  | f :: fs => trackFrom cfg init f fs

end Verif.Tracking
