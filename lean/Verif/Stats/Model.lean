import Verif.Boxes.Model
import Verif.Poly.Indexs

/-!
Model of the extraction by index and of the statistics in bins of observations (/repo/src/py_eddy_tracker/observations/observation.py) and of the
resampling of profiles (/repo/src/py_eddy_tracker/dataset/grid.py). Values are exact rationals.
-/

namespace Verif.Stats

open Verif.Boxes (binNumber)
open Verif.Poly (minR maxR)

/-! ### `index` -/

/-- What is given to `index`: a list of positions, a mask, one position, or `slice(start, stop)`. -/
inductive Ix
  | list (l : List Int)
  | mask (m : List Bool)
  | one (i : Int)
  | slice (start stop : Int)

/-- `self.obs[index]` of numpy: `none` for an `IndexError`. -/
def take {α : Type} (obs : List α) : Ix → Option (List α)
  | .list l => l.mapM (Py.get obs)
  | .mask m => if m.length = obs.length then some (Py.select m obs) else none
  | .one i => (Py.get obs i).map (fun r => [r])
  | .slice a b => some ((obs.take (Py.bound obs.length b)).drop (Py.bound obs.length a))

/-- The size of the new dataset (observation.py:723-727): `none` for a negative size, which numpy refuses. -/
def sizeOf : Ix → Option Nat
  | .list l => some l.length
  | .mask m => some m.length
  | .one _ => some 1
  | .slice a b => if 0 ≤ b - a then some (b - a).toNat else none

/-- `eddies.obs[:] = rows`: same size, or one row for all (observation.py:729). -/
def assign {α : Type} (size : Nat) (rows : List α) : Option (List α) :=
  if rows.length = size then some rows
  else
    match rows with
    | [r] => some (List.replicate size r)
    | _ => none

/-- `reverse_index` (generic.py:50-62): the positions which are not in the list; `none` for a write outside. -/
def reverseIndex (index : List Int) (nb : Nat) : Option (List Int) := do
  let m ← index.foldlM (fun (m : List Bool) i => Py.set m i false) (List.replicate nb true)
  some ((List.range nb).filter (fun k => m.getD k false) |>.map (fun (k : Nat) => (k : Int)))

/-- `index` (observation.py:719-731) without `reverse`. -/
def index {α : Type} (obs : List α) (ix : Ix) : Option (List α) := do
  let size ← sizeOf ix
  let rows ← take obs ix
  assign size rows

/-- `index(l, reverse=True)` (observation.py:719-731). -/
def indexReverse {α : Type} (obs : List α) (l : List Int) : Option (List α) := do
  let l ← reverseIndex l obs.length
  index obs (.list l)

/-! ### Bins -/

/-- `histogram(x, bins, weights)[0][a]`, with weights 1 for `hist_numba` (generic.py:96-98): the pairs are (value, weight). -/
def histo (bins : List Rat) (obs : List (Rat × Rat)) (a : Nat) : Rat :=
  ((obs.filter (fun o => decide (binNumber bins o.1 = a + 1))).map Prod.snd).sum

/-- The numbers by bin. -/
def counts (bins : List Rat) (obs : List (Rat × Rat)) : List Rat := (List.range (bins.length - 1)).map (histo bins (obs.map (fun o => (o.1, 1))))

/-- The sums by bin. -/
def sums (bins : List Rat) (obs : List (Rat × Rat)) : List Rat := (List.range (bins.length - 1)).map (histo bins obs)

/-- `hist` (observation.py:285-306); the pairs are (x, variable). Outside `none`: numpy refuses the division in place of integers; inside `none`
is nan. -/
def hist (bins : List Rat) (obs : List (Rat × Rat)) (percent mean nb : Bool) : Option (List (Option Rat)) :=
  let v := if nb then counts bins obs else sums bins obs
  if percent then some (v.map (fun x => if v.sum = 0 then none else some (x / v.sum * 100)))
  else if mean then (if nb then none else some (List.zipWith (fun x c => if c = 0 then none else some (x / c)) v (counts bins obs)))
  else some (v.map some)

/-- `arange(lo, hi + 2)`. -/
def unitBins (lo hi : Rat) : List Rat := (List.range ⌈hi + 2 - lo⌉.toNat).map (fun (k : Nat) => lo + k)

/-- `bins_stat` (observation.py:2051-2076) of the rows selected by the mask: centres and values of the bins; `none` for the minimum of nothing. -/
def binsStat (bins : Option (List Rat)) (obs : List (Rat × Rat)) (mask : List Bool) (mean : Bool) : Option (List Rat × List (Option Rat)) :=
  let v := Py.select mask obs
  let b := match bins with
    | some b => some b
    | none => if v = [] then none else some (unitBins (minR (v.map Prod.fst)) (maxR (v.map Prod.fst)))
  b.map (fun b =>
    let x := List.zipWith (fun p q => (p + q) / 2) b.tail b
    let y := counts b v
    (x, if mean then List.zipWith (fun s c => if c = 0 then none else some (s / c)) (sums b v) y else y.map some))

/-! ### Resampling -/

/-- `numpy.interp(x, xp, fp)` for one `x`: the points are (xp, fp) in order. -/
def interp1 (pts : List (Rat × Rat)) (x : Rat) : Option Rat :=
  let k := pts.countP (fun p => decide (p.1 ≤ x))
  match k with
  | 0 => pts.head?.map Prod.snd
  | k + 1 =>
    match pts[k]?, pts[k + 1]? with
    | some p, none => some p.2
    | some p, some q => some (if p.1 = x then p.2 else p.2 + (q.2 - p.2) / (q.1 - p.1) * (x - p.1))
    | none, _ => none

/-- `raw_resample` (grid.py:78-84); `none` for the exceptions (one value, refused here, and no value, refused by numpy). -/
def rawResample (datas : List Rat) (size : Nat) : Option (List Rat) :=
  let nb := datas.length
  if nb ≤ 1 then none
  else
    let pts := datas.zipIdx.map (fun d => ((d.2 : Rat) * ((size : Rat) - 1) / ((nb : Rat) - 1), d.1))
    (List.range size).mapM (fun (k : Nat) => interp1 pts k)

end Verif.Stats
