import Verif.Tracking.Model

/-!
# Model of saving and resuming (`tracking.py`, lines 335-363, 405-558)

What the netCDF file keeps of a `Correspondances` object. The byte format, the class name and the file names are not
modelled; the datasets given on resumption are the complete list.
-/

namespace Verif.Tracking

variable {α δ : Type}

/-- Content of the file: link tables, `virtual_max_segment`, `last_current_id`, the groups `LastVirtualObs` and
`LastPreviousVirtualObs` (tracking.py:464-484). -/
structure Saved (α δ : Type) where
  corrs : List (List Link)
  nbVirtual : Nat
  lastId : Nat
  groups : Option (List (VObs α δ) × List (VObs α δ))

/-- `to_netcdf`, tracking.py:405-489. `none` is the `AttributeError` raised at line 484 when `previous_virtual_obs` is
`None` while `virtual_obs` is not. -/
def save (cfg : Cfg α δ) (s : St α δ) : Option (Saved α δ) :=
  match s.virtualObs with
  | none => some ⟨s.corrs, cfg.nbVirtual, s.currentId, none⟩
  | some v => (s.prevVirtualObs).map (fun pv => ⟨s.corrs, cfg.nbVirtual, s.currentId, some (v, pv)⟩)

/-- `from_netcdf` and `load_compatible`, tracking.py:498-558: fails on a file without any link table (line 520), on an
empty link table (`max` of an empty array, line 555) and on a different virtual segment size (502-506). -/
def loadable (cfg : Cfg α δ) (sv : Saved α δ) : Bool :=
  !sv.corrs.isEmpty && sv.corrs.all (fun c => !c.isEmpty) && decide (cfg.nbVirtual = sv.nbVirtual)

/-- `load_state` with previous correspondences, tracking.py:335-362; `first_dataset` is the number of datasets named in the
file, one more than the number of link tables. A missing group is a `KeyError`, a missing dataset an `IndexError`. -/
def loadState (cfg : Cfg α δ) (sv : Saved α δ) (files : List (List α)) : Option (St α δ) :=
  if loadable cfg sv then do
    let cur ← files[sv.corrs.length - 1]?
    if decide (0 < sv.nbVirtual) then do
      let g ← sv.groups
      some ⟨sv.corrs, sv.lastId, some g.1, some g.2, none, none, some (cur ++ g.2.map (·.obs)), true⟩
    else some ⟨sv.corrs, sv.lastId, none, none, none, none, some cur, false⟩
  else none

/-- `track` with previous correspondences, tracking.py:365-403. -/
def resume (cfg : Cfg α δ) (sv : Saved α δ) (files : List (List α)) : Option (St α δ) := do
  let s ← loadState cfg sv files
  let first ← files[sv.corrs.length]?
  trackFrom cfg s first (files.drop (sv.corrs.length + 1))

end Verif.Tracking
