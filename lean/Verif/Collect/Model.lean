import Verif.Interp.Model
import Verif.Advect.Time
import Verif.Sphere.Model

/-!
Model of the functions of collections of grids and of the grids interpolated on others: `GridCollection.interp`, `GridCollection.path`,
`uv_for_advection`, `regrid`, `clean_land` (/repo/src/py_eddy_tracker/dataset/grid.py). Floats are exact rationals, reals where angles are
needed; a value `none` is nan.
-/

namespace Verif.Collect

open Verif.Interp (Grid Corners geo)
open Verif.Poly (Pt)

/-- `__getitem__` (grid.py:2430-2435); `none` is the `KeyError`. -/
def getItem (ds : List (Rat × Grid)) (item : Rat) : Option Grid := (ds.find? (fun d => decide (d.1 = item))).map Prod.snd

/-- `int(t)`: the whole part, toward zero. -/
def pyInt (t : Rat) : Int := if 0 ≤ t then ⌊t⌋ else ⌈t⌉

/-- `v1 * w + v0 * (1 - w)` with nan (grid.py:2415). -/
def mix (w : Rat) (v0 v1 : Option Rat) : Option Rat := v0.bind (fun a => v1.map (fun b => b * w + a * (1 - w)))

/-- `GridCollection.interp` (grid.py:2393-2415); `none` is the `KeyError`. `get_mask` gives the mask of each grid. -/
def interp (ds : List (Rat × Grid)) (junk : Corners) (near : Bool) (t : Rat) (pts : List Pt) : Option (List (Option Rat)) :=
  let t0 := pyInt t
  let t1 := t0 + 1
  match getItem ds t0, getItem ds t1 with
  | some h0, some h1 =>
    let v0 := geo h0 junk near pts
    let v1 := geo h1 junk near pts
    let w := (t - t0) / ((t1 : Rat) - t0)
    some (List.zipWith (mix w) v0 v1)
  | _, _ => none

/-- The values of the generator of `GridCollection.advect` (grid.py:2594-2595): time and positions after the turn `n`. -/
def advected (a : Advect.Axes) (backward rk4 : Bool) (nbStep : Nat) (step : Rat) (c : Advect.Clock Advect.Layer) (ps : List Advect.Particle)
    (n : Nat) : Option (Rat × List Advect.Particle) := do
  let k ← Advect.turn backward (Advect.dtOf backward nbStep step) n c
  let ps ← Advect.run a backward rk4 nbStep step c ps (n + 1)
  some (k.t + Advect.dtOf backward nbStep step, ps)

/-- `GridCollection.path` (grid.py:2615-2635) with `t_init` given by its name: the rows of times and positions. The generator starts at
its first value; it raises when it has no value. -/
def path (a : Advect.Axes) (backward rk4 : Bool) (nbStep : Nat) (step : Rat) (ds : List (Rat × Advect.Layer)) (tInit : Rat)
    (ps : List Advect.Particle) (nbTime : Nat) : Option (List (Rat × List Advect.Particle)) :=
  if nbTime = 0 then some [(tInit, ps)]
  else do
    let c ← Advect.start backward ds tInit
    let rows ← (List.range nbTime).mapM (advected a backward rk4 nbStep step c ps)
    some ((tInit, ps) :: rows)

/-- `coef` of `uv_for_advection` (grid.py:2034). -/
noncomputable def coef (timeStep factor : ℝ) : ℝ := timeStep * 180 / Real.pi / 6370997 * factor

/-- One cell of `uv_for_advection` (grid.py:2031-2041): steps in degrees and mask; velocities in metres per second. -/
noncomputable def uvCell (timeStep factor : ℝ) (backward : Bool) (lat : ℝ) (u v : ℝ) (mu mv : Bool) : ℝ × ℝ × Bool :=
  let u := u * (coef timeStep factor / Real.cos (lat * Real.pi / 180))
  let v := v * coef timeStep factor
  let u := if backward then -u else u
  let v := if backward then -v else v
  (u, v, mu || mv)

/-- `meshgrid(x, y)` read line by line (grid.py:1981, 1325). -/
def mesh (x y : List Rat) : List Pt := y.flatMap (fun b => x.map (fun a => (a, b)))

/-- `v.reshape(x.shape).T` at column `i` and line `j` (grid.py:1983-1985, 1328). -/
def back {α : Type} (nx : Nat) (v : List α) (i j : Nat) : Option α := v[j * nx + i]?

/-- `regrid` (grid.py:1968-1988): the value at column `i` and line `j`, `none` inside is masked. -/
def regrid (other : Grid) (junk : Corners) (x y : List Rat) (i j : Nat) : Option (Option Rat) :=
  back x.length (geo other junk false (mesh x y)) i j

/-- `clean_land` (grid.py:1322-1328): the new mask at column `i` and line `j`; `ma.array` keeps the old mask; nan is True. -/
def cleanLand (land : Grid) (junk : Corners) (x y : List Rat) (old : Nat → Nat → Bool) (i j : Nat) : Option Bool :=
  (back x.length (geo land junk true (mesh x y)) i j).map (fun v => old i j || decide (v ≠ some 0))

end Verif.Collect
