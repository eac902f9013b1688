import Verif.Py
import Verif.Index.Model

/-!
# Grouping of observations by bins

Model of `numba_digitize`, `iter_mode_reduce`, `iter_on` (without moving window) and `align_on`
(/repo/src/py_eddy_tracker/observations/observation.py:579-663 and 2652-2713).

Simplifications:
* values and bounds are exact rationals (no rounding, no nan);
* `digitize` of numpy is used on increasing bounds only;
* `argsort` is a parameter (numpy's default sort is not stable: the order inside a group is not specified).
-/

namespace Verif.Bins

/-- One yielded group of `iter_on` (observation.py:589): observations, lower and upper bound; `arr` tells if the
observations are given by an index array (`true`) or by a slice (`false`). -/
structure Group where
  obs : List Nat
  arr : Bool
  lo : Rat
  hi : Rat
deriving DecidableEq

/-- Run of a generator: the values yielded, and whether it ended without exception. -/
structure Run (α : Type) where
  items : List α
  ok : Bool
deriving DecidableEq

/-- A generator `for x in l: …` whose body raises (`none`), continues (`some none`) or yields a value. -/
def emit {α β : Type} (f : β → Option (Option α)) : List β → Run α
  | [] => ⟨[], true⟩
  | x :: l =>
    match f x with
    | none => ⟨[], false⟩
    | some none => emit f l
    | some (some y) => ⟨y :: (emit f l).items, (emit f l).ok⟩

/-! ### `numba_digitize` -/

/-- Test of regular bounds (observation.py:2656-2663): every following difference is equal to `step`. -/
def regular (step : Rat) : Rat → List Rat → Bool
  | _, [] => true
  | prev, b :: l => if step ≠ b - prev then false else regular step b l

/-- `numpy.digitize(values, bins)` for increasing bounds: number of bounds which are not above the value. -/
def digitize (bins : List Rat) (v : Rat) : Int := (bins.countP (fun b => decide (b ≤ v)) : Nat)

/-- The body of the loop for regular bounds (observation.py:2667-2674). The conversion to integer truncates; the value is
positive there. -/
def digitizeRegular (bins : List Rat) (up down step v : Rat) : Int :=
  if down ≤ v then bins.length else if v < up then 0 else ⌊(v - up) / step + 1⌋

/-- `numba_digitize` (observation.py:2652-2675); `none`: fewer than two bounds (`bins[1]` is outside of the array). -/
def numbaDigitize (values bins : List Rat) : Option (List Int) :=
  match bins with
  | b0 :: b1 :: l =>
    if regular (b1 - b0) b1 l then
      some (values.map (digitizeRegular bins b0 ((b0 :: b1 :: l).getLast (by simp)) (b1 - b0)))
    else some (values.map (digitize bins))
  | _ => none

/-! ### `iter_mode_reduce` -/

/-- First loop of `iter_mode_reduce` (observation.py:2696-2704): the mask of the values between the bounds, or `none` as soon
as more than `limit` values are between the bounds. -/
def reduceMask (limit : Nat) (x0 x1 : Rat) : Nat → List Rat → Option (List Bool)
  | _, [] => some []
  | c, x :: l =>
    if x0 ≤ x ∧ x ≤ x1 then
      if c + 1 > limit then none else (reduceMask limit x0 x1 (c + 1) l).map (true :: ·)
    else (reduceMask limit x0 x1 c l).map (false :: ·)

/-- `iter_mode_reduce` (observation.py:2679-2713): translation from reduced to full indices (`none` when not reduced) and
values to use. `b0` and `b1` are the first and the last bound. -/
def iterModeReduce (x : List Rat) (b0 b1 : Rat) : Option (List Nat) × List Rat :=
  match reduceMask (x.length / 2) b0 b1 0 x with
  | none => (none, x)
  | some m => (some (Py.select m (List.range x.length)), Py.select m x)

/-! ### `iter_on` -/

/-- Non empty slices of `build_index` (observation.py:615-617, 625-627). -/
def slices (first last : List Nat) : List (Nat × Nat) := (first.zip last).filter (fun p => !decide (p.1 = p.2))

/-- Elements `a[i0:i1]`. -/
def slice {α : Type} (a : List α) (p : Nat × Nat) : List α := (a.drop p.1).take (p.2 - p.1)

/-- Body of the loop of the branch for data which is not monotonous (observation.py:618-622). `i` are the bin numbers,
`order` is `i_sort` and `order'` is `i_sort_`. -/
def bodySorted (bins : List Rat) (i : List Int) (order order' : List Nat) (p : Nat × Nat) : Option (Option Group) := do
  let k ← order[p.1]?
  let b ← i[k]?
  if b = -1 ∨ b = (bins.length : Int) - 1 then some none
  else do
    let lo ← Py.get bins b
    let hi ← Py.get bins (b + 1)
    some (some ⟨slice order' p, true, lo, hi⟩)

/-- Body of the loop of the branch for monotonous data (observation.py:628-630). -/
def bodyMonotone (n : Nat) (bins : List Rat) (i : List Int) (p : Nat × Nat) : Option (Option Group) := do
  let b ← i[p.1]?
  let lo ← Py.get bins b
  let hi ← Py.get bins (b + 1)
  some (some ⟨slice (List.range n) p, false, lo, hi⟩)

/-- `a[idx]` for an array of indices. -/
def takeAt {α : Type} (a : List α) (idx : List Nat) : Option (List α) := idx.mapM (fun k => a[k]?)

/-- `x[1:] - x[:-1] < 0` somewhere (observation.py:598, 606). For unsigned integers the difference wraps around and is never
negative. -/
def decreases (unsigned : Bool) : List Rat → Bool
  | x :: y :: l => (!unsigned && decide (y - x < 0)) || decreases unsigned (y :: l)
  | _ => false

/-- `i_sort_ = translate[i_sort] if test else i_sort` (observation.py:614). -/
def translate (t : Option (List Nat)) (order : List Nat) : Option (List Nat) :=
  match t with
  | none => some order
  | some t => takeAt t order

/-- Branch for data which is not monotonous (observation.py:607-622). -/
def iterSorted (argsort : List Int → List Nat) (x bins : List Rat) :
    Option (List (Nat × Nat) × List Int × List Nat × List Nat) := do
  let b0 ← bins.head?
  let b1 ← bins.getLast?
  let i ← (numbaDigitize (iterModeReduce x b0 b1).2 bins).map (List.map (· - 1))
  let order' ← translate (iterModeReduce x b0 b1).1 (argsort i)
  let s ← takeAt i (argsort i)
  let r ← Index.buildIndex s
  some (slices r.1 r.2.1, i, argsort i, order')

/-- Branch for monotonous data (observation.py:623-630). -/
def iterMonotone (x bins : List Rat) : Option (List (Nat × Nat) × List Int) := do
  let i ← (numbaDigitize x bins).map (List.map (· - 1))
  let r ← Index.buildIndex i
  some (slices r.1 r.2.1, i)

/-- `iter_on(x, bins=bins)` (observation.py:597-630). -/
def iterOn (argsort : List Int → List Nat) (unsigned : Bool) (x bins : List Rat) : Run Group :=
  if decreases unsigned x then
    match iterSorted argsort x bins with
    | none => ⟨[], false⟩
    | some (l, i, order, order') => emit (bodySorted bins i order order') l
  else
    match iterMonotone x bins with
    | none => ⟨[], false⟩
    | some (l, i) => emit (bodyMonotone x.length bins i) l

/-- `arange(a, b)`. -/
def arange (a b : Rat) : List Rat := (List.range ⌈b - a⌉.toNat).map (fun (k : Nat) => a + k)

/-- Minimum and maximum of an array (`none`: `ValueError` for an empty array). -/
def extent : List Rat → Option (Rat × Rat)
  | [] => none
  | x :: l => some (l.foldl min x, l.foldl max x)

/-- Default bounds (observation.py:599-600). -/
def defaultBins (x : List Rat) : Option (List Rat) := (extent x).map (fun e => arange e.1 (e.2 + 2))

/-- `iter_on(x)` without bounds. -/
def iterOnDefault (argsort : List Int → List Nat) (unsigned : Bool) (x : List Rat) : Run Group :=
  match defaultBins x with
  | none => ⟨[], false⟩
  | some bins => iterOn argsort unsigned x bins

/-! ### `align_on` -/

/-- One yielded value of `align_on` (observation.py:640): observations of both datasets and bounds. -/
structure Pair where
  self : List Nat
  other : List Nat
  lo : Rat
  hi : Rat
deriving DecidableEq

/-- `while b0_other < b0_self: … = iter_other.__next__()` (observation.py:653-654): the current group and the groups left, or
`none` at the end of the iterator. -/
def advance (b : Rat) : Group → List Group → Option (Group × List Group)
  | o, [] => if o.lo < b then none else some (o, [])
  | o, o' :: l => if o.lo < b then advance b o' l else some (o, o' :: l)

/-- `iter_self` is exhausted or `break`: the generator ends. `otherOk`: what the end of the iterator `other` is, `true` for
`StopIteration` and `false` for an exception. -/
def alignLoop (allRef selfOk otherOk : Bool) : Group → List Group → List Group → Run Pair
  | _, _, [] => ⟨[], selfOk⟩
  | o, rest, g :: l =>
    match advance g.lo o rest with
    | none => ⟨[], otherOk⟩
    | some (o', rest') =>
      if g.lo < o'.lo then
        if allRef then
          if g.arr then
            ⟨⟨g.obs, [], g.lo, g.hi⟩ :: (alignLoop allRef selfOk otherOk o' rest' l).items,
              (alignLoop allRef selfOk otherOk o' rest' l).ok⟩
          else ⟨[], false⟩
        else alignLoop allRef selfOk otherOk o' rest' l
      else
        ⟨⟨g.obs, o'.obs, g.lo, g.hi⟩ :: (alignLoop allRef selfOk otherOk o' rest' l).items,
          (alignLoop allRef selfOk otherOk o' rest' l).ok⟩

/-- `align_on` (observation.py:632-663) on the two runs of `iter_on`. An empty `other` raises (`StopIteration` inside of a
generator is a `RuntimeError`); with `all_ref` a group given by a slice raises (a slice has no `dtype`). -/
def alignOn (allRef : Bool) (self other : Run Group) : Run Pair :=
  match other.items with
  | [] => ⟨[], false⟩
  | o :: rest => alignLoop allRef self.ok other.ok o rest self.items

end Verif.Bins
