import Verif.Py

/-!
# Model of the track filters (`src/py_eddy_tracker/observations/tracking.py`, lines 820-892)

`x`, `y`, `track` are arrays of length `n`, seen as functions of the index; the loops read them only at indices checked to
be below `n` (an unchecked read is `none`). Floats are rationals.
-/

namespace Verif.Smooth

/-- `numpy.median`: middle of the sorted values, mean of the two middle values for an even number; `none` (`nan`) when
empty. -/
def median (l : List Rat) : Option Rat :=
  let s := l.insertionSort (· ≤ ·)
  if l.length % 2 = 1 then s[l.length / 2]?
  else match s[l.length / 2 - 1]?, s[l.length / 2]? with
    | some a, some b => some ((a + b) / 2)
    | _, _ => none

/-- First `while`, tracking.py:881-882. An index reaching `n` is a read outside of the array. -/
def prevLoop (hw : Rat) (x : Nat → Rat) (tr : Nat → Nat) (n i : Nat) : Nat → Nat → Option Nat
  | 0, _ => none
  | fuel + 1, k =>
    if n ≤ k then none
    else if hw < x i - x k ∨ tr i ≠ tr k then prevLoop hw x tr n i fuel (k + 1) else some k

/-- Second `while`, tracking.py:883-888. -/
def nextLoop (hw : Rat) (x : Nat → Rat) (tr : Nat → Nat) (n i : Nat) : Nat → Nat → Nat
  | 0, k => k
  | fuel + 1, k =>
    if k < n ∧ x k - x i ≤ hw ∧ tr i = tr k then nextLoop hw x tr n i fuel (k + 1) else k

/-- State of the loop after `m` iterations (`i_previous`, `i_next`, output), `track_median_filter`,
tracking.py:865-891. -/
def medianUpTo (hw : Rat) (x y : Nat → Rat) (tr : Nat → Nat) (n : Nat) : Nat → Option (Nat × Nat × List (Option Rat))
  | 0 => some (0, 0, [])
  | i + 1 => do
    let s ← medianUpTo hw x y tr n i
    let ip ← prevLoop hw x tr n i (n + 1) s.1
    let nx := nextLoop hw x tr n i (n + 1) s.2.1
    some (ip, nx, s.2.2 ++ [median ((List.range' ip (nx - ip)).map y)])

/-- `track_median_filter`, tracking.py:865-892. -/
def medianFilter (hw : Rat) (x y : Nat → Rat) (tr : Nat → Nat) (n : Nat) : Option (List (Option Rat)) :=
  (medianUpTo hw x y tr n n).map (·.2.2)

/-- The weight, tracking.py:845 and 855. -/
def weight (hw dx : Rat) : Rat := (1 - (dx / hw) ^ 3) ^ 3

/-- Backward loop of the loess filter, tracking.py:840-849: the second argument is `i_previous`. -/
def back (hw : Rat) (x y : Nat → Rat) (tr : Nat → Nat) (i : Nat) : Nat → Rat × Rat → Rat × Rat
  | 0, acc => acc
  | k + 1, acc =>
    if x i - x (k + 1) < hw ∧ tr i = tr (k + 1) then
      back hw x y tr i k (acc.1 + y (k + 1) * weight hw (x i - x (k + 1)), acc.2 + weight hw (x i - x (k + 1)))
    else acc

/-- Forward loop of the loess filter, tracking.py:850-859: `i_next = last - m`. -/
def fwd (hw : Rat) (x y : Nat → Rat) (tr : Nat → Nat) (i last : Nat) : Nat → Rat × Rat → Rat × Rat
  | 0, acc => acc
  | m + 1, acc =>
    let k := last - (m + 1)
    if x k - x i < hw ∧ tr i = tr k then
      fwd hw x y tr i last m (acc.1 + y k * weight hw (x k - x i), acc.2 + weight hw (x k - x i))
    else acc

/-- One value of `track_loess_filter`, tracking.py:835-860. -/
def loessAt (hw : Rat) (x y : Nat → Rat) (tr : Nat → Nat) (n i : Nat) : Rat :=
  let acc := (y i, 1)
  let acc := if i ≠ 0 then back hw x y tr i (i - 1) acc else acc
  let acc := if i ≠ n - 1 then fwd hw x y tr i (n - 1) (n - 1 - (i + 1)) acc else acc
  acc.1 / acc.2

/-- `track_loess_filter`, tracking.py:820-861. -/
def loess (hw : Rat) (x y : Nat → Rat) (tr : Nat → Nat) (n : Nat) : List Rat := (List.range n).map (loessAt hw x y tr n)

end Verif.Smooth
