import Verif.Boxes.Model

/-!
Model of the statistics of coherence around the events of networks (/repo/src/py_eddy_tracker/observations/network.py). Times and percents are
exact rationals; arrays are lists, a read or a write outside of an array (no check in compiled code) is `none`.
-/

namespace Verif.Around

/-- Columns of the network which are read, and the tables of the coherence (two columns: primary and secondary target). -/
structure Net where
  time : List Rat
  segment : List Int
  follow : List Int
  indexs : List (List Int)
  percents : List (List Rat)

/-- The inner loop (network.py:2126-2129): the percents of the row added to the array of `window` places, in use up to `acc.length`. -/
def pushRow (segment : List Int) (target : Int) (window : Nat) : List (Int × Rat) → List Rat → Option (List Rat)
  | [], acc => some acc
  | (index, percent) :: l, acc =>
    if index = -1 then pushRow segment target window l acc
    else
      match Py.get segment index with
      | none => none
      | some s =>
        if s = target then (if acc.length < window then pushRow segment target window l (acc ++ [percent]) else none)
        else pushRow segment target window l acc

/-- The loop (network.py:2124-2130) with a number of turns; the time is read before the test of `-1`, as in the code. -/
def walk (n : Net) (t0 : Rat) (s0 target : Int) (window : Nat) : Nat → Int → List Rat → Option (List Rat)
  | 0, _, _ => none
  | fuel + 1, i, acc => do
    let t ← Py.get n.time i
    if |t0 - t| < window ∧ i ≠ -1 then
      let s ← Py.get n.segment i
      if s0 = s then
        let ind ← Py.get n.indexs i
        let pct ← Py.get n.percents i
        let acc ← pushRow n.segment target window (ind.zip pct) acc
        walk n t0 s0 target window fuel (← Py.get n.follow i) acc
      else some acc
    else some acc

/-- `get_percentile_on_following_obs` (network.py:2104-2134); outside `none` an error, inside `none` is nan. -/
def onFollowing (n : Net) (fuel : Nat) (i itarget : Int) (window : Nat) (q : Rat) (nbMin : Nat) : Option (Option Rat) := do
  let t0 ← Py.get n.time i
  let s0 ← Py.get n.segment i
  let target ← Py.get n.segment itarget
  let l ← walk n t0 s0 target window fuel i []
  if l.length < nbMin ∨ l = [] then some none else some (some (Boxes.percentile q l))

/-- `get_percentile_around_event` (network.py:2138-2188): one pair for each event `(i, i1, i2)`. -/
def aroundEvent (n : Net) (fuel : Nat) (events : List (Int × Int × Int)) (window : Nat) (parent : Bool) (q : Rat) (nbMin : Nat) :
    Option (List (Option Rat × Option Rat)) :=
  events.mapM (fun e =>
    if parent then do
      let a ← onFollowing n fuel e.1 e.2.1 window q nbMin
      let b ← onFollowing n fuel e.1 e.2.2 window q nbMin
      some (a, b)
    else do
      let a ← onFollowing n fuel e.2.1 e.1 window q nbMin
      let b ← onFollowing n fuel e.2.2 e.1 window q nbMin
      some (a, b))

end Verif.Around
