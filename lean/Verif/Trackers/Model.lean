import Verif.Matching.Model
import Verif.Match.Model
import Verif.PixelPath
import Verif.Sphere.Model
import Verif.Amplitude.Model
import Mathlib.Algebra.Order.Ring.Unbundled.Rat

/-!
Model of the two featured trackers: `AreaTracker` (/repo/src/py_eddy_tracker/featured_tracking/area_tracker.py) and `CheltonTracker`
(featured_tracking/old_tracker_reference.py), with the functions of observations/observation.py which they use. Floats are exact
rationals, reals where distances are needed; `none` is an exception. Matrices are functions of the row and the column.
-/

namespace Verif.Trackers

open Verif.Poly

/-! ### AreaTracker -/

/-- `mask_cmin` (area_tracker.py:69-75): `none` is a masked cell; costs are written in the order of the couples. -/
def maskCmin (cmin : Rat) : List (Nat × Nat × Rat) → (Nat → Nat → Option Rat) → Nat → Nat → Option Rat
  | [], m => m
  | (i, j, c) :: l, m =>
    maskCmin cmin l (if c > cmin then fun x y => if x = i ∧ y = j then some (1 - c) else m x y else m)

/-- The cost matrix of `AreaTracker.tracking` (area_tracker.py:41-44); the contours are those of `intern(False)`. -/
def areaCosts (g : Match.Areas) (cmin : Rat) (l0 l1 : List (List Pt)) : Nat → Nat → Option Rat :=
  maskCmin cmin (Match.matchOverlap g {} 0 l0 l1) (fun _ _ => none)

/-- `AreaTracker.tracking` (area_tracker.py:37-49): links with their costs. -/
def areaTracking (g : Match.Areas) (cmin : Rat) (l0 l1 : List (List Pt)) : Except Matching.Err (List (Nat × Nat × Option Rat)) :=
  let m := areaCosts g cmin l0 l1
  match Matching.trackingDefault l0.length l1.length (fun i j => (m i j).isSome) m with
  | .error e => .error e
  | .ok links => .ok (links.map (fun p => (p.1, p.2, m p.1 p.2)))

/-! ### CheltonTracker -/

/-- `basic_formula_ellipse_major_axis` of one latitude (observation.py:1380-1398); `none` is the division by zero. `c0` is not used
by the code. -/
def majorAxis (cmin cmax lat1 lat2 : Rat) (degrees : Bool) (lat : Rat) : Option Rat :=
  if lat1 - lat2 = 0 then none
  else
    let a := (cmin - cmax) / (lat1 - lat2)
    let b := a * -lat1 + cmin
    let x := |lat|
    let y := if x < lat2 then cmax else cmin
    let m := decide (x > lat1) || decide (x < lat2)
    let y := if !m then a * x + b else y
    some (if degrees then y else y * (1112 / 10))

/-- The part of an observation which the tracker reads. -/
structure Obs where
  lon : Rat
  lat : Rat
  amp : Rat
  rad : Rat

/-- The gap of longitudes (observation.py:129-131). -/
def gap (x c : Rat) : Rat :=
  let dx := |x - c|
  if dx > 180 then |Py.fmod (dx + 180) 360 - 180| else dx

/-- One cell of `shifted_ellipsoid_degrees_mask2` (observation.py:106-138); `none` is the division by zero of numba. -/
def ellipseCell (minor major : Rat) (p q : Obs) : Option Bool :=
  let c := major
  let major := minor + (1 / 2) * (major - minor)
  let f_right := p.lon
  let f_left := f_right - (c - minor)
  let x_c := (f_left + f_right) * (1 / 2)
  let dy := |q.lat - p.lat|
  if dy > minor then some false
  else
    let dx := gap q.lon x_c
    if dx > major then some false
    else if major = 0 ∨ minor = 0 then none
    else some (decide (dx ^ 2 / major ^ 2 + dy ^ 2 / minor ^ 2 < 1))

/-- A ratio accepted by `check_ratio` (old_tracker_reference.py:98-101, 102-104): `none` is the division by zero of numba. -/
def ratioTest (other self_ : Rat) : Option Bool :=
  if self_ = 0 then none
  else
    let r := other / self_
    some (!(decide (r ≥ 5 / 2) || decide (r ≤ 1 / (5 / 2))))

/-- One cell of `check_ratio` (old_tracker_reference.py:80-105). -/
def ratioCell (m : Bool) (p q : Obs) : Option Bool :=
  if m then do
    let a ← ratioTest q.amp p.amp
    if a then ratioTest q.rad p.rad else some false
  else some false

/-- The cells of the mask before the ground (old_tracker_reference.py:24-38): rows of self, columns of other. The first exception stops
all; its place does not matter here. -/
def nearMask (self_ other : List Obs) : Option (List (List Bool)) :=
  self_.mapM (fun p => do
    let y ← majorAxis (105 / 100) (3 / 2) 23 5 true p.lat
    other.mapM (fun q => do
      let m ← ellipseCell (105 / 100) y p q
      ratioCell m p q))

/-- The grid of the ground: first bounds, steps, number of columns and the pixels of ground. -/
structure Ground where
  x0 : Rat
  y0 : Rat
  xs : Rat
  ys : Rat
  nx : Nat
  land : Int × Int → Bool

/-- The pixels of the ends of a path (grid.py:2266-2269, with the arguments of grid.py:1308-1320). -/
def ends (g : Ground) (p q : Obs) : PixelPath.Segment :=
  ⟨Amplitude.rint (Py.fmod (p.lon - g.x0) 360 / g.xs), Amplitude.rint ((p.lat - g.y0) / g.ys),
   Amplitude.rint (Py.fmod (q.lon - g.x0) 360 / g.xs), Amplitude.rint ((q.lat - g.y0) / g.ys)⟩

/-- `across_ground` on couples of observations (old_tracker_reference.py:44-54): True when the path is free. -/
def acrossGround (g : Ground) (couples : List (Obs × Obs)) : Option (List Bool) :=
  match PixelPath.pixelPath g.nx (couples.map (fun c => ends g c.1 c.2)) with
  | none => none
  | some (path, d_pix) =>
    let owner := Py.rep (List.range couples.length) (d_pix.map (· + 1))
    let i_ground := Py.unique (Py.select (path.map g.land) owner)
    some (scatter (fun _ => true) (i_ground.map (fun k => (k, false))) |> fun f => (List.range couples.length).map f)

/-- `mask[indexs_closest] = values` (old_tracker_reference.py:39-41), with the couples of `where`. -/
def setCells (m : Nat → Nat → Bool) (l : List ((Nat × Nat) × Bool)) : Nat → Nat → Bool :=
  l.foldl (fun m c => fun x y => if x = c.1.1 ∧ y = c.1.2 then c.2 else m x y) m

/-- `CheltonTracker.mask_function` (old_tracker_reference.py:22-42). -/
def cheltonMask (g : Ground) (self_ other : List Obs) : Option (Nat → Nat → Bool) := do
  let rows ← nearMask self_ other
  let m := fun i j => ((rows[i]?).bind (fun r => r[j]?)).getD false
  let closest := Matching.whereMask self_.length other.length m
  let obs := closest.filterMap (fun c => (self_[c.1]?).bind (fun p => (other[c.2]?).map (fun q => (p, q))))
  let free ← acrossGround g obs
  some (setCells m (closest.zip free))

/-- `tracking` of the class (observation.py:1524-1545 with old_tracker_reference.py:17-20, 56-76): the cost is the distance. The
distances are exact reals, the matrix is not rounded to 32 bits. -/
noncomputable def cheltonTracking (g : Ground) (self_ other : List Obs) : Option (List (Nat × Nat)) :=
  (cheltonMask g self_ other).bind (fun m =>
    let dist : Nat → Nat → Option ℝ := fun i j =>
      (self_[i]?).bind (fun p => (other[j]?).bind (fun q => Sphere.gridCell p.lon p.lat q.lon q.lat))
    match Matching.trackingChelton self_.length other.length m dist (fun i => (((self_[i]?).map (·.amp)).getD 0 : Rat)) with
    | .ok links => some links
    | .error _ => none)

/-! ### The default tracker -/

/-- An observation with exact reals. -/
structure RObs where
  lon : ℝ
  lat : ℝ
  amp : ℝ
  rad : ℝ

open Classical in
/-- `cost_function` (observation.py:1292-1318): a null amplitude or radius gives infinity or nan, `none` here. -/
noncomputable def costFunction (p q : RObs) (distance : ℝ) : Option ℝ :=
  if p.amp = 0 ∨ p.rad = 0 then none
  else some √(((p.amp - q.amp) / p.amp) ^ 2 + ((p.rad - q.rad) / p.rad) ^ 2 + (distance / 125) ^ 2)

/-- The couples accepted by `mask_function` (observation.py:1288-1289), read in the matrix. -/
noncomputable def defaultMask (self_ other : List RObs) : Nat → Nat → Bool :=
  let m := Sphere.maskFunction (Sphere.distanceGrid (self_.map (fun p => (p.lon, p.lat))) (other.map (fun q => (q.lon, q.lat))))
  fun i j => ((m[i]?).bind (fun r => r[j]?)).getD false

/-- The costs (observation.py:1530-1538), `none` where the matrix is not written. The matrix is not rounded to 32 bits. -/
noncomputable def defaultCosts (self_ other : List RObs) : Nat → Nat → Option ℝ := fun i j =>
  (self_[i]?).bind (fun p => (other[j]?).bind (fun q =>
    (Sphere.gridCell p.lon p.lat q.lon q.lat).bind (costFunction p q)))

/-- `EddiesObservations.tracking` (observation.py:1524-1545). -/
noncomputable def defaultTracking (self_ other : List RObs) : Except Matching.Err (List (Nat × Nat)) :=
  Matching.trackingDefault self_.length other.length (defaultMask self_ other) (defaultCosts self_ other)

/-! ### Cost of the common area -/

/-- One cost of `cost_function_common_area` (observation.py:1271-1284): `none` outside is the division by zero, `none` inside a masked
cost (observation.py:1285). The areas are those of the library `Polygon`. -/
def commonArea (g : Match.Areas) (a b : List Pt) : Option (Option Rat) :=
  let cost : Option Rat :=
    if maxR (a.map (·.1)) < minR (b.map (·.1)) ∨ minR (a.map (·.1)) > maxR (b.map (·.1)) then some 1
    else if maxR (a.map (·.2)) < minR (b.map (·.2)) ∨ minR (a.map (·.2)) > maxR (b.map (·.2)) then some 1
    else
      let x0 := (a.headD (0, 0)).1
      let b' := if |x0 - (b.headD (0, 0)).1| > 180 then b.map (fun w => (Py.fmod (w.1 - (x0 - 180)) 360 + x0 - 180, w.2)) else b
      if min (g.area a) (g.area b') = 0 then none else some (1 - g.inter a b' / min (g.area a) (g.area b'))
  cost.map (fun c => if c = 1 then none else some c)

end Verif.Trackers
