import Verif.Py
import Verif.Poly.Indexs

/-!
# Model of the insertion and of the selection of observations

`insert_observations`, `__add__`, `period`, `extract_with_area`, `time_sub_sample`, `first_obs`, `last_obs`, `contains`,
`mask_from_polygons` (src/py_eddy_tracker/observations/observation.py). A dataset is the list of its rows, all fields together. Times and
coordinates are exact rationals.
-/

namespace Verif.Extract

open Verif.Poly (Pt)

/-! ### Insertion -/

/-- `a[lo:hi] = src` of numpy: same size, or one value repeated; `none` is an exception. -/
def sliceAssign {α : Type} (dst : List α) (lo hi : Int) (src : List α) : Option (List α) :=
  let a := Py.bound dst.length lo
  let b := Py.bound dst.length hi
  if src.length = b - a then some (dst.take a ++ src ++ dst.drop (max a b))
  else if src.length = 1 then some (dst.take a ++ (List.replicate (b - a) src).flatten ++ dst.drop (max a b))
  else none

/-- `insert_observations` (observation.py:665-684) for two coherent datasets; `blank` is the content of a new array. -/
def insert {α : Type} (blank : α) (s o : List α) (index : Int) : Option (List α) :=
  if s = [] then some o
  else if o = [] then some s
  else
    let p : Int := if index < 0 then (s.length : Int) + index + 1 else index
    (sliceAssign (List.replicate (s.length + o.length) blank) 0 p (s.take (Py.bound s.length p))).bind (fun e1 =>
      (sliceAssign e1 p (p + o.length) o).bind (fun e2 => sliceAssign e2 (p + o.length) (s.length + o.length) (s.drop (Py.bound s.length p))))

/-- A dataset with its memory of the period (attribute `period_`). -/
structure Data where
  time : List Rat
  cache : Option (Option (Rat × Rat))

/-- `period` (observation.py:2408-2421). -/
def Data.period (d : Data) : Data × Option (Rat × Rat) :=
  match d.cache with
  | some p => (d, p)
  | none =>
    let p := if d.time = [] then none else some (Poly.minR d.time, Poly.maxR d.time)
    ({ d with cache := some p }, p)

/-- `insert_observations` on a dataset with its memory (observation.py:673, 683): only `observations` is replaced. -/
def Data.insert (d : Data) (o : List Rat) (index : Int) : Option Data := (Extract.insert 0 d.time o index).map (fun t => { d with time := t })

/-! ### Selection -/

/-- `extract_with_mask` (observation.py:1865-1883): rows of the mask. -/
def extractMask {α : Type} (rows : List α) (mask : List Bool) : List α := Py.select mask rows

/-- Test of `extract_with_area` (observation.py:1842-1847). -/
def areaTest (lon0 lon1 lat0 lat1 : Rat) (p : Pt) : Bool :=
  let lon := Py.fmod (p.1 - lon0) 360 + lon0
  (decide (p.2 > lat0) && decide (p.2 < lat1)) && (decide (lon > lon0) && decide (lon < lon1))

/-- `extract_with_area` (observation.py:1827-1848), positions given by `pos`. -/
def extractArea {α : Type} (pos : α → Pt) (lon0 lon1 lat0 lat1 : Rat) (rows : List α) : List α :=
  extractMask rows (rows.map (fun r => areaTest lon0 lon1 lat0 lat1 (pos r)))

/-- `time_sub_sample` (observation.py:1855-1863). -/
def timeSubSample {α : Type} (time : α → Rat) (t0 step : Rat) (rows : List α) : List α :=
  extractMask rows (rows.map (fun r => decide (Py.fmod (time r - t0) step = 0)))

/-- `first_obs` (observation.py:2154-2162); `n` is the age. -/
def firstObs {α : Type} (n : α → Nat) (rows : List α) : List α := extractMask rows (rows.map (fun r => decide (n r = 0)))

/-- `last_obs` (observation.py:2164-2175): the last row, and the rows before an age of 0; `none` is the exception on an empty dataset. -/
def lastObs {α : Type} (n : α → Nat) (rows : List α) : Option (List α) :=
  if rows = [] then none
  else some (extractMask rows ((rows.drop 1).map (fun r => decide (n r = 0)) ++ [true]))

/-! ### Contours -/

/-- `l[m] = values` for a mask. -/
def putMask {α : Type} : List Bool → List α → List α → List α
  | true :: m, _ :: l, v :: vs => v :: putMask m l vs
  | false :: m, a :: l, vs => a :: putMask m l vs
  | _, l, _ => l

/-- `contains` (observation.py:2188-2204); `none` in the points is nan. -/
def contains (argsort : List Int → List Nat) (pts : List (Option Pt)) (contours : List (List Pt)) : Option (List Int) :=
  let m := pts.map Option.isSome
  if m.any id then (Poly.polyIndexs argsort (pts.filterMap id) contours).map (fun r => putMask m (pts.map (fun _ => (-1 : Int))) r)
  else some (pts.map (fun _ => -1))

/-- Loop of `mask_from_polygons` on the next polygons (observation.py:1817-1824). -/
def maskLoop (argsort : List Int → List Nat) (pts : List Pt) : List (List Pt) → List Bool → Option (List Bool)
  | [], m => some m
  | c :: l, m =>
    (Poly.insidePoly argsort (Py.select (m.map (!·)) pts) [c]).bind (fun r => maskLoop argsort pts l (putMask (m.map (!·)) m r))

/-- `mask_from_polygons` (observation.py:1807-1825). -/
def maskFromPolygons (argsort : List Int → List Nat) (pts : List Pt) : List (List Pt) → Option (List Bool)
  | [] => none
  | c :: l => (Poly.insidePoly argsort pts [c]).bind (maskLoop argsort pts l)

end Verif.Extract
