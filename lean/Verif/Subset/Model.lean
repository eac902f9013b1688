import Verif.Links.Model
import Verif.Select.Model

/-!
# Model of the application EddyNetworkSubSetter

`subset_network` (src/py_eddy_tracker/appli/network.py) on top of the selections of networks (`Verif.Select`) and of `extract_with_mask`
(`Verif.Links`).
-/

namespace Verif.Subset

open Verif.Links (Row)

/-- One observation: network, date in days since 1950, other fields. -/
structure Obs (β : Type) where
  track : Nat
  time : Rat
  other : β
deriving DecidableEq

/-- Arguments of the command (network.py:109-141). -/
structure Args where
  ids : Option (List Int) := none
  length : Option (Int × Int) := none
  deadEnd : Option (Int × Int) := none
  trash : Bool := false
  period : Option (Int × Int) := none

/-- The dates of a file loaded with `raw_data=True` (network.py:142): what is stored, `unit` for one day. The library stores 86400 for one day
(`scale_factor` of `time`, __init__.py:124-130; observation.py:1006); `unit = 1` for the files which store days. -/
def raw {β : Type} (unit : Rat) (rows : List (Row (Obs β))) : List Rat := rows.map (fun r => r.data.time * unit)

def tracks {β : Type} (rows : List (Row (Obs β))) : List Nat := rows.map (·.data.track)

/-- `networks` (observations/network.py:1251-1256). -/
def byIds {β : Type} (ids : List Int) (rows : List (Row (Obs β))) : Option (List (Row (Obs β))) :=
  (Select.networksMask ⟨rows.map (fun r => (r.data.track, ())), none⟩ ids).bind (Links.extractMask rows)

/-- `longer_than` (observations/network.py:277-285). -/
def byLength {β : Type} (argsort : List Int → List Nat) (unit : Rat) (b : Int × Int) (rows : List (Row (Obs β))) : Option (List (Row (Obs β))) :=
  (Select.maskLongerThan argsort (tracks rows) (raw unit rows) b.1 b.2).bind (Links.extractMask rows)

/-- `extract_with_period` (observations/network.py:1542-1553). -/
def byPeriod {β : Type} (unit : Rat) (p : Int × Int) (rows : List (Row (Obs β))) : Option (List (Row (Obs β))) :=
  Links.extractMask rows (Select.maskPeriod ⟨raw unit rows, none⟩ p.1 p.2)

/-- A step which is done when its argument is given. -/
def optStep {α γ : Type} (f : α → γ → Option γ) : Option α → γ → Option γ
  | none, x => some x
  | some a, x => f a x

/-- `subset_network` (appli/network.py:108-152): rows written; `none` is an exception. `remove_dead_end` works in place and gives `None`
(observations/network.py:1455-1499), which has neither `extract_with_period` nor `write_file`. `remove_trash` is not read. -/
def subset {β : Type} (argsort : List Int → List Nat) (unit : Rat) (a : Args) (rows : List (Row (Obs β))) : Option (List (Row (Obs β))) :=
  (optStep byIds a.ids rows).bind (fun rows =>
    (optStep (byLength argsort unit) a.length rows).bind (fun rows =>
      (optStep (fun _ _ => none) a.deadEnd rows).bind (fun rows => optStep (byPeriod unit) a.period rows)))

end Verif.Subset
