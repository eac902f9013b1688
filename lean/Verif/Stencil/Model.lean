import Verif.Py

/-!
Model of `compute_stencil` and `compute_finite_difference` of /repo/src/py_eddy_tracker/dataset/grid.py on exact rationals. The factor
`d_` (degrees to metres, with the cosine of the latitude) is a parameter of each line.
-/

namespace Verif.Stencil

/-- Values and masks of one line of the grid (`h[:, j]`, `m[:, j]`). -/
abbrev Line := Nat → Rat × Bool

/-- The buffer `h_4 … h4`, `m_4 … m4`: the offset is from -4 to 4. -/
abbrev Buffer := Int → Rat × Bool

/-- The buffer before the first roll (grid.py:2949-2957); without circularity the variables `h_3 … h0` are not set in the line: `junk`
is what they hold (values of the former line). At least 4 columns. -/
def init (nb : Nat) (circular : Bool) (a : Line) (junk : Int → Rat) : Buffer := fun k =>
  if k ≤ 0 then (if circular then a ((nb : Int) + k - 1).toNat else (junk k, false)) else a (k - 1).toNat

/-- The roll of the column `i` (grid.py:2959-2974). -/
def roll (nb : Nat) (circular : Bool) (a : Line) (i : Nat) (b : Buffer) : Buffer := fun k =>
  if k = 4 then
    (if i + 4 ≥ nb then (if circular then a ((i + 4) % nb) else ((b 4).1, false)) else a (i + 4))
  else b (k + 1)

/-- The buffer at the column `i` (loop of grid.py:2958-2974). -/
def bufAt (nb : Nat) (circular : Bool) (a : Line) (junk : Int → Rat) : Nat → Buffer
  | 0 => roll nb circular a 0 (init nb circular a junk)
  | i + 1 => roll nb circular a (i + 1) (bufAt nb circular a junk i)

/-- The value of a cell (grid.py:2976-3009); `none` is masked. -/
def cell (b : Buffer) (halfwidth : Int) (d : Rat) : Option Rat :=
  let h := fun k : Int => (b k).1
  let m := fun k : Int => (b k).2
  if m 0 then none
  else if Bool.xor (m 1) (m (-1)) then
    if m (-1) then some ((h 1 - h 0) * d) else some ((h 0 - h (-1)) * d)
  else if m 2 || m (-2) || decide (halfwidth = 1) then some ((h 1 - h (-1)) / 2 * d)
  else if m 3 || m (-3) || decide (halfwidth = 2) then some ((h (-2) - h 2 + 8 * (h 1 - h (-1))) / 12 * d)
  else if m 4 || m (-4) || decide (halfwidth = 3) then
    some ((h 3 - h (-3) + 9 * (h (-2) - h 2) + 45 * (h 1 - h (-1))) / 60 * d)
  else some ((3 * (h (-4) - h 4) + 32 * (h 3 - h (-3)) + 168 * (h (-2) - h 2) + 672 * (h 1 - h (-1))) / 840 * d)

/-- One line of `compute_stencil` (grid.py:2947-3009). -/
def line (nb : Nat) (circular : Bool) (a : Line) (junk : Int → Rat) (halfwidth : Int) (d : Rat) (i : Nat) : Option Rat :=
  cell (bufAt nb circular a junk i) halfwidth d

/-- `compute_stencil` (grid.py:2902-3013): `a i j` for the longitude `i` and the latitude `j`. A vertical stencil works on the transposed
arrays and is never circular. -/
def stencil (nx ny : Nat) (circular : Bool) (a : Nat → Nat → Rat × Bool) (junk : Nat → Int → Rat) (vertical : Bool) (halfwidth : Int)
    (d : Nat → Rat) (i j : Nat) : Option Rat :=
  if vertical then line ny false (fun k => a i k) (junk i) halfwidth (d i) j
  else line nx circular (fun k => a k j) (junk j) halfwidth (d j) i

/-- `compute_finite_difference` (grid.py:1673-1703) on one line of `n` values for a positive scheme `s`; `none` is nan or masked. `d` is
the distance of `2 * s` steps. -/
def finite (n : Nat) (wrap : Bool) (s : Nat) (h : Nat → Option Rat) (d : Rat) (i : Nat) : Option Rat :=
  let data1 := if i + s < n then h (i + s) else if wrap then h (i + s - n) else none
  let data2 := if s ≤ i then h (i - s) else if wrap then h (i + n - s) else none
  match data1, data2 with
  | some u, some v => some ((u - v) / d)
  | _, _ => none

end Verif.Stencil
