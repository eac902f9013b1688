import Mathlib.Order.Defs.LinearOrder

/-!
# Association of observations of two time steps: model

Model of `EddiesObservations.solve_simultaneous`, `solve_first` (`observations/observation.py:1404-1514`) and of
`CheltonTracker.post_process_link` (`featured_tracking/old_tracker_reference.py:60-76`).

A cost matrix is `nr`, `nc`, a mask and a cost function.  `none` as cost stands for `+inf`, which is also the value with
which `numpy.ma` fills masked entries before `argmin` (`ma.minimum_fill_value`).  `nan` costs are not modelled.
Matrix and mask are functions of (row, column) read only inside `nr × nc`.
-/

namespace Verif.Matching

variable {κ : Type} [LinearOrder κ]

/-- Strict order on costs, `none = +inf`. -/
def clt : Option κ → Option κ → Bool
  | some a, some b => a < b
  | some _, none => true
  | none, _ => false

/-- `numpy.argmin`: first position of a smallest element; `none` is the `ValueError` on an empty array. -/
def argmin : List (Option κ) → Option Nat
  | [] => none
  | x :: xs =>
    match argmin xs with
    | none => some 0
    | some k =>
      match xs[k]? with
      | some y => if clt y x then some (k + 1) else some 0
      | none => some 0

/-- observation.py:2636-2648 `sum_row_column`, row sums (also `mask.sum(axis=1)` of line 1470). -/
def rowSum (nc : Nat) (mask : Nat → Nat → Bool) (i : Nat) : Nat := (List.range nc).countP fun j => mask i j

/-- observation.py:2636-2648 `sum_row_column`, column sums (also `mask.sum(axis=0)` of line 1471). -/
def colSum (nr : Nat) (mask : Nat → Nat → Bool) (j : Nat) : Nat := (List.range nr).countP fun i => mask i j

/-- observation.py:1422, 1428-1429 (and 1477, 1483-1484): rows of the conflict matrix. -/
def selfKeep (nr nc : Nat) (mask : Nat → Nat → Bool) : List Nat :=
  (List.range nr).filter fun i =>
    ((List.range nc).any fun j => decide (1 < colSum nr mask j) && mask i j) || decide (1 < rowSum nc mask i)

/-- observation.py:1423, 1427, 1430 (and 1478, 1482, 1485): columns of the conflict matrix. -/
def otherKeep (nr nc : Nat) (mask : Nat → Nat → Bool) : List Nat :=
  (List.range nc).filter fun j =>
    ((List.range nr).any fun i => decide (1 < rowSum nc mask i) && mask i j) || decide (1 < colSum nr mask j)

/-- observation.py:1424 / 1479: some observation has several links. -/
def conflict (nr nc : Nat) (mask : Nat → Nat → Bool) : Bool :=
  ((List.range nr).any fun i => decide (1 < rowSum nc mask i)) ||
    ((List.range nc).any fun j => decide (1 < colSum nr mask j))

/-- Loop state: the link mask and the mask of `cost_reduce` (`true` = masked). -/
structure LState where
  mask : Nat → Nat → Bool
  red : Nat → Nat → Bool

/-- Exceptions raised by the two functions. -/
inductive Err where
  | tooManyIteration
  | valueError
  | indexError
  | duplicateTarget
deriving DecidableEq, Repr

/-- observation.py:1447 `False in cost_reduce.mask`. -/
def anyLive (r c : Nat) (red : Nat → Nat → Bool) : Bool :=
  (List.range r).any fun i => (List.range c).any fun j => !red i j

/-- observation.py:1433 / 1488 `cost_reduce = cost[i_self_keep][:, i_other_keep]`, entry (i, j) as `argmin` sees it
(masked entries filled with `+inf`). -/
def entry (S O : List Nat) (cost : Nat → Nat → Option κ) (red : Nat → Nat → Bool) (i j : Nat) : Option κ :=
  if red i j then none else
    match S[i]?, O[j]? with
    | some a, some b => cost a b
    | _, _ => none

/-- observation.py:1433 / 1488: the mask of `cost_reduce`. -/
def initRed (S O : List Nat) (cand : Nat → Nat → Bool) (i j : Nat) : Bool :=
  match S[i]?, O[j]? with
  | some a, some b => !cand a b
  | _, _ => true

/-- The values seen by `cost_reduce.argmin()` (line 1453), row-major. -/
def filled (S O : List Nat) (cost : Nat → Nat → Option κ) (red : Nat → Nat → Bool) : List (Option κ) :=
  (List.range (S.length * O.length)).map fun k => entry S O cost red (k / O.length) (k % O.length)

/-- The values seen by `cost_reduce[i].argmin()` (line 1500). -/
def rowView (S O : List Nat) (cost : Nat → Nat → Option κ) (red : Nat → Nat → Bool) (i : Nat) : List (Option κ) :=
  (List.range O.length).map fun j => entry S O cost red i j

/-- observation.py:1456-1461: clear row and column of the chosen link, then set it. -/
def choose (s : LState) (a b i j : Nat) (clearCol : Bool) : LState where
  mask := fun x y => if x = a ∧ y = b then true else if x = a then false else if clearCol && y = b then false else s.mask x y
  red := fun x y => if x = i then true else if clearCol && y = j then true else s.red x y

/-- observation.py:1447-1462. `fuel` counts the iterations allowed by the guard of lines 1448-1452. -/
def resolve (S O : List Nat) (cost : Nat → Nat → Option κ) : Nat → LState → Except Err LState
  | fuel, s =>
    if anyLive S.length O.length s.red then
      match fuel with
      | 0 => .error .tooManyIteration
      | fuel + 1 =>
        match argmin (filled S O cost s.red) with
        | none => .error .valueError
        | some k =>
          let i := k / O.length
          let j := k % O.length
          match S[i]?, O[j]? with
          | some a, some b => resolve S O cost fuel (choose s a b i j true)
          | _, _ => .error .indexError
    else .ok s

/-- observation.py:1405-1464 `solve_simultaneous`; `cand` is `~cost.mask`. Logging is omitted. -/
def solveSimultaneous (nr nc : Nat) (cand : Nat → Nat → Bool) (cost : Nat → Nat → Option κ) :
    Except Err (Nat → Nat → Bool) :=
  if nr * nc = 0 then .ok cand
  else if conflict nr nc cand then
    let S := selfKeep nr nc cand
    let O := otherKeep nr nc cand
    match resolve S O cost (max S.length O.length + 1) { mask := cand, red := initRed S O cand } with
    | .ok s => .ok s.mask
    | .error e => .error e
  else .ok cand

/-- observation.py:1499-1511: one row of the loop of `solve_first`. -/
def firstStep (S O : List Nat) (cost : Nat → Nat → Option κ) (multipleLink : Bool) (s : LState) (i : Nat) :
    Except Err LState :=
  match argmin (rowView S O cost s.red i) with
  | none => .error .valueError
  | some j =>
    if s.red i j then .ok s           -- line 1501-1502: `cost_reduce[i, j]` is the masked constant
    else
      match S[i]?, O[j]? with
      | some a, some b => .ok (choose s a b i j (!multipleLink))
      | _, _ => .error .indexError

/-- observation.py:1467-1514 `solve_first`. Unlike `solve_simultaneous` there is no guard for an empty matrix:
`self_links.max()` or `other_links.max()` (line 1472) raises `ValueError`. -/
def solveFirst (nr nc : Nat) (cand : Nat → Nat → Bool) (cost : Nat → Nat → Option κ) (multipleLink : Bool) :
    Except Err (Nat → Nat → Bool) :=
  if nr = 0 ∨ nc = 0 then .error .valueError
  else if conflict nr nc cand then
    let S := selfKeep nr nc cand
    let O := otherKeep nr nc cand
    match (List.range S.length).foldlM (firstStep S O cost multipleLink) { mask := cand, red := initRed S O cand } with
    | .ok s => .ok s.mask
    | .error e => .error e
  else .ok cand

/-- observation.py:2630-2632 `numba_where` / `numpy.where` on a mask: row-major list of the true positions. -/
def whereMask (nr nc : Nat) (mask : Nat → Nat → Bool) : List (Nat × Nat) :=
  (List.range nr).flatMap fun i => ((List.range nc).filter fun j => mask i j).map fun j => (i, j)

/-- `numpy.argmax`: first position of a largest element; `none` is the `ValueError` on an empty array. -/
def argmax : List κ → Option Nat
  | [] => none
  | x :: xs =>
    match argmax xs with
    | none => some 0
    | some k =>
      match xs[k]? with
      | some y => if x < y then some (k + 1) else some 0
      | none => some 0

/-- old_tracker_reference.py:68-71: `m[where(m)[0][i_keep]] = False` for target `t`; the position of the link which is
kept.  Links are paired with their position. -/
def keepPos (amp : Nat → κ) (links : List ((Nat × Nat) × Nat)) (t : Nat) : Option Nat :=
  let sel := links.filter fun e => e.1.2 = t
  (argmax (sel.map fun e => amp e.1.1)).bind fun k => (sel[k]?).map Prod.snd

/-- old_tracker_reference.py:68-72: one iteration of the loop over the shared targets. -/
def dropLinks (amp : Nat → κ) (links : List ((Nat × Nat) × Nat)) (mask : Nat → Bool) (t : Nat) : Nat → Bool :=
  fun p => if (links.any fun e => e.2 = p && e.1.2 = t) && some p != keepPos amp links t then false else mask p

/-- old_tracker_reference.py:60-76 `CheltonTracker.post_process_link` on the list of pairs `(i_self, i_other)`;
`amp` is `self.amplitude`. `where(nb_link > 1)` enumerates the targets in increasing order. -/
def postProcess (amp : Nat → κ) (links : List (Nat × Nat)) : List (Nat × Nat) :=
  if (links.map Prod.snd).Nodup then links
  else
    let le := links.zipIdx
    let ts := (List.range ((links.map Prod.snd).foldl max 0 + 1)).filter fun t => 1 < (links.map Prod.snd).count t
    let mask := ts.foldl (dropLinks amp le) (fun _ => true)
    (le.filter fun e => mask e.2).map Prod.fst

/-- observation.py:1516-1522 `solve_function` + `post_process_link` of the default tracker, as composed by `tracking`
(lines 1540-1542): the links, or the exception of line 1521 when a target is used twice. -/
def trackingDefault (nr nc : Nat) (cand : Nat → Nat → Bool) (cost : Nat → Nat → Option κ) :
    Except Err (List (Nat × Nat)) :=
  match solveSimultaneous nr nc cand cost with
  | .error e => .error e
  | .ok mask =>
    let links := whereMask nr nc mask
    if (links.map Prod.snd).Nodup then .ok links else .error .duplicateTarget

/-- old_tracker_reference.py:56-76 with observation.py:1540-1542: the links of the Chelton tracker. -/
def trackingChelton (nr nc : Nat) (cand : Nat → Nat → Bool) (cost : Nat → Nat → Option κ) (amp : Nat → κ) :
    Except Err (List (Nat × Nat)) :=
  match solveFirst nr nc cand cost true with
  | .error e => .error e
  | .ok mask => .ok (postProcess amp (whereMask nr nc mask))

end Verif.Matching
