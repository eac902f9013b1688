import Mathlib.Algebra.Order.Ring.Rat
import Mathlib.Data.Rat.Floor
import Mathlib.Logic.Function.Basic

/-!
Model of `get_targets`, `get_matrix`, the end of `particle_candidate_step` and `merge_particle_result` of
/repo/src/py_eddy_tracker/observations/groups.py. Percentages are exact rationals; numba does not check bounds, an index outside of
an array gives `none`.
-/

namespace Verif.Targets

/-- `counts` and `ref` (groups.py:195-197, 240-242). -/
structure Counts where
  counts : Nat → Nat → Nat
  ref : Nat → Nat

/-- The loop on the particles (groups.py:199-204, 244-249): a particle is the number of its first contour and of its last contour
(-1: in no contour). -/
def countLoop (nbStart nbEnd : Nat) : List (Nat × Int) → Counts → Option Counts
  | [], c => some c
  | (s, e) :: l, c =>
    if s < nbStart then
      if e = -1 then countLoop nbStart nbEnd l ⟨c.counts, Function.update c.ref s (c.ref s + 1)⟩
      else if 0 ≤ e ∧ e < nbEnd then
        countLoop nbStart nbEnd l
          ⟨Function.update c.counts s (Function.update (c.counts s) e.toNat (c.counts s e.toNat + 1)),
            Function.update c.ref s (c.ref s + 1)⟩
      else none
    else none

/-- One line of `i_target` and `pct`. -/
structure Row where
  t0 : Int
  t1 : Int
  p0 : Rat
  p1 : Rat
deriving DecidableEq, Repr

/-- `count / ref * 100` (groups.py:211, 256). -/
def percent (c r : Nat) : Rat := (c : Rat) / (r : Rat) * 100

/-- The body of the loop on the last contours (groups.py:208-223, 252-266). `tr` is the number stored for a contour, `st` the
conversion to the type of the array `pct` when a value is stored. -/
def rowStep (st : Rat → Rat) (tr : Nat → Int) (cnt : Nat → Nat) (ref : Nat) (s : Row) (j : Nat) : Row :=
  if cnt j = 0 then s
  else if percent (cnt j) ref > s.p0 then ⟨tr j, s.t0, st (percent (cnt j) ref), s.p0⟩
  else if percent (cnt j) ref > s.p1 then ⟨s.t0, tr j, s.p0, st (percent (cnt j) ref)⟩
  else s

/-- The loop on the last contours (groups.py:207, 251). -/
def rowLoop (st : Rat → Rat) (tr : Nat → Int) (cnt : Nat → Nat) (ref nbEnd : Nat) (s : Row) : Row :=
  (List.range nbEnd).foldl (rowStep st tr cnt ref) s

/-- `get_targets` (groups.py:184-223) on the lines given by its caller; `pct` holds floats. -/
def getTargets (parts : List (Nat × Int)) (nbStart nbEnd : Nat) (init : Nat → Row) : Option (List Row) :=
  (countLoop nbStart nbEnd parts ⟨fun _ _ => 0, fun _ => 0⟩).map (fun c =>
    (List.range nbStart).map (fun i => rowLoop id (fun j => (j : Int)) (c.counts i) (c.ref i) nbEnd (init i)))

/-- The line given by the callers: no target (groups.py:126; network.py:1753-1754, 1825-1826). -/
def emptyRow : Row := ⟨-1, -1, 0, 0⟩

/-- Conversion of a positive float to an integer type: the fraction is dropped. -/
def trunc (x : Rat) : Rat := (x.floor : Rat)

/-- End of `particle_candidate_step` (groups.py:124-129): percentages are converted to `i1`. -/
def stepTargets (parts : List (Nat × Int)) (nbStart nbEnd : Nat) : Option (List Row) :=
  (getTargets parts nbStart nbEnd (fun _ => emptyRow)).map
    (fun l => l.map (fun r => ⟨r.t0, r.t1, trunc r.p0, trunc r.p1⟩))

/-- The loop on the first contours of `get_matrix` (groups.py:250-266): the line of the contour `i` is `translate_start[i]`. -/
def matrixLoop (st : Rat → Rat) (ts te : List Nat) (c : Counts) : List Nat → (Nat → Row) → (Nat → Row)
  | [], a => a
  | i :: l, a =>
    matrixLoop st ts te c l (Function.update a (ts.getD i 0)
      (rowLoop st (fun j => ((te.getD j 0 : Nat) : Int)) (c.counts i) (c.ref i) te.length (a (ts.getD i 0))))

/-- `get_matrix` (groups.py:226-267); `a` are the lines of the whole dataset given by the caller. -/
def getMatrix (st : Rat → Rat) (parts : List (Nat × Int)) (ts te : List Nat) (a : Nat → Row) : Option (Nat → Row) :=
  (countLoop ts.length te.length parts ⟨fun _ _ => 0, fun _ => 0⟩).map (fun c =>
    matrixLoop st ts te c (List.range ts.length) a)

/-- `merge_particle_result` (groups.py:459-477): the targets of the rows `origin` in global numbers. -/
def mergeResult (te : List Nat) : List Nat → List Row → (Nat → Row) → (Nat → Row)
  | o :: origin, r :: rows, a =>
    mergeResult te origin rows (Function.update a o
      ⟨if r.t0 ≠ -1 then ((te.getD r.t0.toNat 0 : Nat) : Int) else -1,
        if r.t1 ≠ -1 then ((te.getD r.t1.toNat 0 : Nat) : Int) else -1, r.p0, r.p1⟩)
  | _, _, a => a

end Verif.Targets
