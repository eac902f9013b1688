import Verif.Stencil.Model

/-!
Model of the velocities computed from the heights (/repo/src/py_eddy_tracker/dataset/grid.py), on exact rationals: the number π, the sines and
the cosines of the latitudes are parameters, the heights are fields of rationals with a mask.
-/

namespace Verif.Geos

open Verif.Stencil

/-- `EARTH_RADIUS` (grid.py:264). -/
def earth : Rat := 6370997

/-- `GRAVITY` (grid.py:263). -/
def gravity : Rat := 9807 / 1000

/-- The sidereal day in seconds (grid.py:1889). -/
def day : Rat := 23 * 3600 + 56 * 60 + 41 / 10

/-- A cell of a masked array; `infinite` is for inf and nan. -/
inductive Val
  | masked
  | infinite
  | val (q : Rat)
deriving DecidableEq, Repr

/-- The numbers of a grid: steps in degrees, cosines and sines of the latitudes. -/
structure Geometry where
  pi : Rat
  xstep : Rat
  ystep : Rat
  cosLat : Nat → Rat
  sinLat : Nat → Rat

/-- `d_` of the lines along longitudes (grid.py:2981). -/
def perLon (g : Geometry) (j : Nat) : Rat := 360 / (g.xstep * g.cosLat j * g.pi * 2 * earth)

/-- `d_` of the lines along latitudes (grid.py:2946). -/
def perLat (g : Geometry) : Rat := 360 / (g.ystep * g.pi * 2 * earth)

/-- `stencil_halfwidth` of the method (grid.py:1777). -/
def clamp (halfwidth : Int) : Int := max (min halfwidth 4) 1

/-- `gof` before the division (grid.py:1884-1890). -/
def coriolis (g : Geometry) (j : Nat) : Rat := g.sinLat j * 4 * g.pi / day

/-- A gradient times `gof` (grid.py:1891-1906): `gof` is inf where the sine is zero (`errstate(divide="ignore")`). -/
def scaled (g : Geometry) (j : Nat) (sign : Rat) : Option Rat → Val
  | none => .masked
  | some q => if coriolis g j = 0 then .infinite else .val (sign * q * (gravity / coriolis g j))

/-- `add_uv` (grid.py:1844-1906): the pair (u, v) of the cell `(i, j)`. `junk` are the variables of `compute_stencil` before each line. -/
def addUV (nx ny : Nat) (circular : Bool) (a : Nat → Nat → Rat × Bool) (junkV junkU : Nat → Int → Rat) (halfwidth : Int) (g : Geometry)
    (i j : Nat) : Val × Val :=
  (scaled g j (-1) (stencil nx ny circular a junkU true (clamp halfwidth) (fun _ => perLat g) i j),
   scaled g j 1 (stencil nx ny circular a junkV false (clamp halfwidth) (perLon g) i j))

end Verif.Geos
