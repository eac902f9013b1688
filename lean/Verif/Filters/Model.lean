import Verif.Py

/-!
# Merging of filters

Model of `merge_filters` and `__merge_filters__` of `EddiesObservations`
(/repo/src/py_eddy_tracker/observations/observation.py:1965-2049).

Simplifications:
* exceptions are `none`;
* the shapes of masks are compared exactly (numpy would broadcast a mask of length 1);
* a filter is one of the three kinds of the docstring, or `None`, or a callable which returns one of these for the dataset.
-/

namespace Verif.Filters

/-- A Python `slice(start, stop, step)`; `none` is Python's `None`. -/
structure Slice where
  start : Option Int
  stop : Option Int
  step : Option Int
deriving DecidableEq, Repr

/-- A filter as numpy understands it: slice, Boolean mask or array of (possibly negative) indices. -/
inductive Filter
  | slice (s : Slice)
  | mask (m : List Bool)
  | index (a : List Int)
deriving DecidableEq, Repr

/-- A filter as accepted by `merge_filters` (observation.py:2017-2025): nothing, a value, or a callable which gets the
dataset (type `D`). -/
inductive Arg (D : Type)
  | nothing
  | value (f : Filter)
  | call (g : D → Option Filter)

/-- Step of a slice (`None` is 1). -/
def Slice.by (s : Slice) : Int := s.step.getD 1

/-- A bound of `slice.indices`: negative values count from the end, then clipping between `lo` and `hi`. -/
def clip (n : Nat) (lo hi i : Int) : Int := if i < 0 then max (i + n) lo else min i hi

/-- First bound of `slice.indices(n)` (Python language, sequence slicing). -/
def Slice.first (s : Slice) (n : Nat) : Int :=
  if 0 < s.by then s.start.elim 0 (clip n 0 n) else s.start.elim ((n : Int) - 1) (clip n (-1) ((n : Int) - 1))

/-- Second bound of `slice.indices(n)`. -/
def Slice.last (s : Slice) (n : Nat) : Int :=
  if 0 < s.by then s.stop.elim n (clip n 0 n) else s.stop.elim (-1) (clip n (-1) ((n : Int) - 1))

/-- The loop `range(i, stop, step)`, at most `fuel` values. -/
def rangeLoop (stop step : Int) : Nat → Int → List Int
  | 0, _ => []
  | fuel + 1, i =>
    if (0 < step ∧ i < stop) ∨ (step < 0 ∧ stop < i) then i :: rangeLoop stop step fuel (i + step) else []

/-- Positions of `a[s]` for a sequence of length `n`; `none`: `ValueError: slice step cannot be zero`. The positions are
distinct and in `0..n-1` so that `n` values are enough. -/
def Slice.positions (s : Slice) (n : Nat) : Option (List Int) :=
  if s.by = 0 then none else some (rangeLoop (s.last n) s.by n (s.first n))

/-- `select = zeros(n, bool); select[s] = True` (observation.py:1992-1993); also the complement of
`reject = ones(n, bool); reject[s] = False` (observation.py:1980-1981). -/
def sliceMask (n : Nat) (s : Slice) : Option (List Bool) :=
  (s.positions n).map (fun p => (List.range n).map (fun (k : Nat) => decide ((k : Int) ∈ p)))

/-- `a * b` for two masks of the same shape. -/
def both (a b : List Bool) : Option (List Bool) :=
  if a.length = b.length then some (a.zipWith (fun x y => x && y) b) else none

/-- `a[m[a]]` for an array of indices `a` and a mask `m`: the indices whose mask is true, `IndexError` for an index out of
bounds. -/
def pick (m : List Bool) (a : List Int) : Option (List Int) :=
  (a.mapM (Py.get m)).map (fun t => Py.select t a)

/-- One merging of two filters (observation.py:1978-2015), for a dataset of `n` observations. Two slices: the two calls
write `False` in the same array `reject` (observation.py:1980-1984). -/
def merge2 (n : Nat) : Filter → Filter → Option Filter
  | .slice s, .slice t => do
    let m ← sliceMask n s
    let m' ← sliceMask n t
    some (.mask (m.zipWith (fun x y => x || y) m'))
  | .slice s, .mask m => do
    let m' ← sliceMask n s
    (both m' m).map .mask
  | .slice s, .index a => do
    let m ← sliceMask n s
    (pick m a).map .index
  | .mask m, .slice s => do
    let m' ← sliceMask n s
    (both m' m).map .mask
  | .mask m, .mask m' => (both m' m).map .mask
  | .mask m, .index a => (pick m a).map .index
  | .index a, .slice s => do
    let m ← sliceMask n s
    (pick m a).map .index
  | .index a, .mask m => (pick m a).map .index
  | .index a, .index b => some (.index (a.filter (fun v => decide (v ∈ b))))

/-- `__merge_filters__` (observation.py:1965-1977): the filters are merged from the right; fewer than two filters: `filter2`
is unbound. -/
def mergeAll (n : Nat) : List Filter → Option Filter
  | [] => none
  | [_] => none
  | [f, g] => merge2 n f g
  | f :: g :: h :: l => (mergeAll n (g :: h :: l)).bind (merge2 n f)

/-- Result of the evaluation of one argument (observation.py:2031-2034). -/
def Arg.eval {D : Type} (d : D) : Arg D → Option Filter
  | .nothing => none
  | .value f => some f
  | .call g => g d

/-- Filters which are left out (observation.py:2035-2040): `slice(None)` and masks which are true everywhere. -/
def skipped : Filter → Bool
  | .slice s => decide (s = ⟨none, none, none⟩)
  | .mask m => m.all id
  | .index _ => false

/-- Masks which are false everywhere end the loop (observation.py:2041-2042). -/
def stops : Filter → Bool
  | .slice _ => false
  | .mask m => !m.any id
  | .index _ => false

/-- The loop over the evaluated filters (observation.py:2029-2043): the filters kept, or `none` for the early
`return empty(0, dtype=int)`. -/
def clean : List Filter → Option (List Filter)
  | [] => some []
  | f :: l => if skipped f then clean l else if stops f then none else (clean l).map (f :: ·)

/-- The end of `merge_filters` (observation.py:2044-2049). -/
def conclude (n : Nat) : List Filter → Option Filter
  | [] => some (.slice ⟨none, none, none⟩)
  | [f] => some f
  | f :: g :: l => mergeAll n (f :: g :: l)

/-- `merge_filters` (observation.py:2017-2049) on a dataset `d` of `n` observations. A callable after a mask without any
observation is not called; this has no effect on the result as callables are functions here. -/
def mergeFilters {D : Type} (n : Nat) (d : D) (args : List (Arg D)) : Option Filter :=
  match clean (args.filterMap (Arg.eval d)) with
  | none => some (.index [])
  | some l => conclude n l

end Verif.Filters
