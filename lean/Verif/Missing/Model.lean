import Verif.Smooth.Model

/-!
# Model of the insertion of virtual observations (`src/py_eddy_tracker/observations/groups.py`, lines 15-67 and 282-328)

Times and interpolated fields are rationals, integers are unbounded.
-/

namespace Verif.Missing

/-- `int(x)` of a float: truncation toward zero. -/
def trunc (x : Rat) : Int := if 0 ≤ x then ⌊x⌋ else -⌊-x⌋

/-- Number of missing steps between two consecutive rows, groups.py:38-54 (`flag`, `untrack` are `flag_untrack` and
`indice_untrack`). -/
def nbrStep (dt : Rat) (flag : Bool) (untrack : Nat) (r0 r1 : Nat × Rat) : Int :=
  if flag ∧ r1.1 = untrack then 0
  else if r1.1 ≠ r0.1 then 0
  else if dt < r1.2 - r0.2 then trunc ((r1.2 - r0.2) / dt) - 1
  else 0

/-- The loop, groups.py:36-54, on the rows `(track, time)`; one value by row, the last one is 0. -/
def nbrSteps (dt : Rat) (flag : Bool) (untrack : Nat) : List (Nat × Rat) → List Int
  | [] => []
  | [_] => [0]
  | r0 :: r1 :: rest => nbrStep dt flag untrack r0 r1 :: nbrSteps dt flag untrack (r1 :: rest)

/-- The second loop, groups.py:58-66: `i + 1` repeated. -/
def repeatFrom : Nat → List Int → List Nat
  | _, [] => []
  | i, g :: gs => List.replicate g.toNat (i + 1) ++ repeatFrom (i + 1) gs

/-- `get_missing_indices`, groups.py:15-67. `none` for an exception or a write outside of `indices`: no row, `dt = 0`
(division), negative counts. -/
def getMissing (dt : Rat) (flag : Bool) (untrack : Nat) (rows : List (Nat × Rat)) : Option (List Nat) :=
  if rows = [] ∨ dt = 0 then none
  else
    let steps := nbrSteps dt flag untrack rows
    let out := repeatFrom 0 steps
    if (out.length : Int) = steps.sum then some out else none

/-- `mask[idx] = 1` one index at a time. -/
def setTrue (mask : List Bool) (idx : List Nat) : List Bool := idx.foldl (fun m k => m.set k true) mask

/-- The mask, groups.py:313-321. -/
def insertMask (n : Nat) (indices : List Nat) : List Bool :=
  setTrue (List.replicate (n + indices.length) false) (indices.mapIdx (fun k i => i + k))

/-- `new.obs[~mask] = self.obs` on a zero-filled dataset, groups.py:323-324 (`none` if the counts differ). -/
def place {α : Type} (zero : α) : List Bool → List α → Option (List α)
  | [], [] => some []
  | [], _ :: _ => none
  | true :: m, l => (place zero m l).map (zero :: ·)
  | false :: _, [] => none
  | false :: m, a :: l => (place zero m l).map (a :: ·)

/-- `numpy.interp` for increasing abscissa. -/
def interp (p : Rat) : List (Rat × Rat) → Rat
  | [] => 0
  | [a] => a.2
  | a :: b :: rest =>
    if p < a.1 then a.2
    else if p < b.1 then a.2 + (b.2 - a.2) / (b.1 - a.1) * (p - a.1)
    else interp p (b :: rest)

/-- The points `index[~mask], obs[field][~mask]`, numbered from `k`. -/
def points : Nat → List Bool → List Rat → List (Rat × Rat)
  | k, false :: m, v :: vs => ((k : Rat), v) :: points (k + 1) m vs
  | k, true :: m, _ :: vs => points (k + 1) m vs
  | _, _, _ => []

/-- `filled_by_interpolation` of one field, groups.py:286-303. -/
def fillField (mask : List Bool) (col : List Rat) : List Rat :=
  (mask.zip col).mapIdx (fun k q => if q.1 then interp k (points 0 mask col) else q.2)

/-- An observation: track number, time, one other field which is interpolated, flag `virtual`. -/
structure Row where
  track : Nat
  time : Rat
  val : Rat
  virt : Bool
deriving DecidableEq

/-- Differences of consecutive values. -/
def diffs : List Rat → List Rat
  | a :: b :: l => (b - a) :: diffs (b :: l)
  | _ => []

/-- The new rows once the mask is known, groups.py:313-326: `track` and `virtual` are not interpolated. -/
def rebuild (mask : List Bool) (placed : List Row) : List Row :=
  let time := fillField mask (placed.map (·.time))
  let val := fillField mask (placed.map (·.val))
  (mask.zip (placed.zip (time.zip val))).map
    (fun q => { track := q.2.1.track, time := q.2.2.1, val := q.2.2.2, virt := q.1 })

/-- `insert_virtual`, groups.py:305-328 (links of networks: see `fixLinks`). `flag`, `untrack`: `true, 0` for networks
(network.py:162-172), `false, 0` for tracks (tracking.py:84-95). -/
def insertVirtual (flag : Bool) (untrack : Nat) (rows : List Row) : Option (List Row) := do
  let dt ← Smooth.median (diffs (rows.map (·.time)))
  let indices ← getMissing dt flag untrack (rows.map (fun r => (r.track, r.time)))
  let mask := insertMask rows.length indices
  let placed ← place ⟨0, 0, 0, false⟩ mask rows
  some (rebuild mask placed)

/-- `fix_next_previous_obs`, network.py:86-103, on the arrays `(next_obs, previous_obs)`; the loop over the indices of the
virtual observations (`i_o - 1 = -1` designates the last element). -/
def fixLinks (virt : List Bool) (next prev : List Int) : Option (List Int × List Int) :=
  (List.range virt.length).foldlM (fun (s : List Int × List Int) (i : Nat) =>
    if virt[i]? = some true then do
      let n1 ← Py.set s.1 ((i : Int) - 1) i
      let n2 ← Py.set n1 i ((i : Int) + 1)
      let p1 ← Py.set s.2 i ((i : Int) - 1)
      let p2 ← Py.set p1 ((i : Int) + 1) i
      some (n2, p2)
    else some s) (next, prev)

/-- The links of a network after `insert_virtual`, groups.py:321-327 and network.py:174-179: `next_obs` and `previous_obs`
are copied, interpolated (stored as integers) and fixed. -/
def insertLinks (mask : List Bool) (next prev : List Int) : Option (List Int × List Int) := do
  let n0 ← place 0 mask next
  let p0 ← place 0 mask prev
  let n1 := (fillField mask (n0.map (fun (k : Int) => (k : Rat)))).map trunc
  let p1 := (fillField mask (p0.map (fun (k : Int) => (k : Rat)))).map trunc
  fixLinks mask n1 p1

end Verif.Missing
