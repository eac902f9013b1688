import Verif.Basic
import Mathlib.Data.List.Sort
import Mathlib.Data.List.Dedup
import Mathlib.Algebra.Order.Ring.Unbundled.Rat

/-!
# Model of the comparison groups of `EddyQuickCompare` (`src/py_eddy_tracker/appli/eddies.py`, lines 384-449)

Scores are rationals (no `nan`). Indices are assumed in range by the theorems (the bincount arrays are total functions).
-/

namespace Verif.Compare

/-- One association returned by `match`: index in dataset 1, index in dataset 2, score. -/
structure Link where
  i : Nat
  j : Nat
  score : Rat
deriving DecidableEq, Repr

/-- `numpy.unique`: sorted distinct values. -/
def unique (a : List Nat) : List Nat := a.dedup.insertionSort (· ≤ ·)

/-- `reverse_index`, generic.py:50-62. -/
def reverseIndex (idx : List Nat) (nb : Nat) : List Nat := (List.range nb).filter (fun k => decide (k ∉ idx))

/-- `m[m] = vals`: the true positions of a mask receive the values in order. -/
def fillMask : List Bool → List Bool → List Bool
  | [], _ => []
  | false :: m, vs => false :: fillMask m vs
  | true :: m, v :: vs => v :: fillMask m vs
  | true :: m, [] => true :: m

/-- `a[m]`: the values at the true positions of a mask. -/
def select {α : Type} (m : List Bool) (a : List α) : List α := (m.zip a).filterMap (fun p => if p.1 then some p.2 else none)

/-- `get_twin(j2, j1)`, eddies.py:426-435. `bincount(a)[b]` is the number of occurrences in `a`. -/
def getTwin (j2 j1 : List Nat) : List Bool :=
  let m := j1.map (fun x => decide (j1.count x = 1))
  let j2' := select m j2
  fillMask m (j2'.map (fun x => decide (j2'.count x = 2) && decide (j2.count x = 2)))

/-- The entries of one of the two returned dictionaries. -/
structure Groups where
  noMatch : List Nat
  low : List Nat
  intermediate : List Nat
  high : List Nat
  multiMatch : List Nat
  parent : List Nat
  twin : List Nat
  complex : List Nat
deriving DecidableEq, Repr

/-- `m_valid`, eddies.py:395-396. The returned scores are the percentages. -/
def valid (links : List Link) (invalid : Rat) : List Link :=
  (links.filter (fun l => decide (invalid ≤ l.score * 100))).map (fun l => ⟨l.i, l.j, l.score * 100⟩)

/-- `m_multi`, eddies.py:401-405: index present at least twice on one of the sides. -/
def multi (i1 i2 : List Nat) : List Bool :=
  let multi1 := (unique i1).filter (fun x => decide (2 ≤ i1.count x))
  let multi2 := (unique i2).filter (fun x => decide (2 ≤ i2.count x))
  List.zipWith (fun a b => decide (a ∈ multi1) || decide (b ∈ multi2)) i1 i2

/-- Pointwise `a * ~b`. -/
def andNot (a b : List Bool) : List Bool := List.zipWith (fun x y => x && !y) a b

/-- `get_group`, eddies.py:384-449. -/
def getGroup (n1 n2 : Nat) (links : List Link) (invalid low high : Rat) : Groups × Groups :=
  let v := valid links invalid
  let i1 := v.map (·.i)
  let i2 := v.map (·.j)
  let score := v.map (·.score)
  let mm := multi i1 i2
  let mLow := andNot (score.map (fun s => decide (s < low))) mm
  let mI := andNot (score.map (fun s => decide (low ≤ s) && decide (s < high))) mm
  let mHigh := andNot (score.map (fun s => decide (high ≤ s))) mm
  let m1 := getTwin i1 i2
  let m2 := getTwin i2 i1
  let m := andNot (andNot mm m1) m2
  ( ⟨reverseIndex i1 n1, select mLow i1, select mI i1, select mHigh i1, unique (select mm i1),
      unique (select m1 i1), select m2 i1, unique (select m i1)⟩,
    ⟨reverseIndex i2 n2, select mLow i2, select mI i2, select mHigh i2, unique (select mm i2),
      unique (select m2 i2), select m1 i2, unique (select m i2)⟩ )

end Verif.Compare
