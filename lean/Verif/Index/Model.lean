import Verif.Basic

/-!
# Model of `build_index` (`src/py_eddy_tracker/generic.py`, lines 66-92)
-/

namespace Verif.Index

/-- `a[lo:hi] = v` on an array seen as a function of the index (`lo`, `hi` not negative). -/
def sliceSet {α : Type} (f : Nat → α) (lo hi : Nat) (v : α) : Nat → α := fun k => if lo ≤ k ∧ k < hi then v else f k

/-- The loop on consecutive groups, generic.py:83-88. `pos` is the position of the head of the list. The bounds of the
slice are never negative, because `i0` is the minimum. -/
def scan (i0 : Int) : Nat → (Nat → Nat) → List Int → Nat → Nat
  | _, f, [] => f
  | _, f, [_] => f
  | pos, f, x :: y :: l =>
    scan i0 (pos + 1)
      (if x ≠ y then sliceSet f (x - i0 + 1).toNat (y - i0 + 1).toNat (pos + 1) else f) (y :: l)

/-- `groups.min()`. -/
def minOf (x : Int) (l : List Int) : Int := l.foldl min x
/-- `groups.max()`. -/
def maxOf (x : Int) (l : List Int) : Int := l.foldl max x

/-- `build_index`, generic.py:66-92: first index of each group, last index (excluded), value of the first group. `none` is
the `ValueError` of the minimum of an empty array. -/
def buildIndex : List Int → Option (List Nat × List Nat × Int)
  | [] => none
  | x :: l =>
    let i0 := minOf x l
    let amplitude := (maxOf x l - i0 + 1).toNat
    let first := (List.range amplitude).map (scan i0 0 (fun _ => 0) (x :: l))
    some (first, first.tail ++ [(x :: l).length], i0)

end Verif.Index
