import Mathlib.Algebra.Field.Rat
import Mathlib.Algebra.Order.Ring.Unbundled.Rat
import Mathlib.Data.Rat.Defs

/-!
# Model of the spectra of a grid

`RegularGridDataset.spectrum_lonlat` (src/py_eddy_tracker/dataset/grid.py:1606-1671). `welch` of scipy is a parameter: from the values, the frequency of
the samples and the scaling, it gives the frequencies and the powers (`none` is nan). Floats are rationals. The first array given to the user is the inverse
of the frequencies; here it is the frequencies themselves. Other options of `welch` are the same everywhere and are part of the parameter.
-/

namespace Verif.Spectrum

/-- The two scalings of `welch`. -/
inductive Scaling
  | density
  | spectrum
deriving DecidableEq

/-- `scipy.signal.welch`. -/
abbrev Welch (V : Type) := List V → Rat → Scaling → List Rat × List (Option Rat)

/-- The area of a grid: its values, columns first, and the steps in km along the columns and along each line (grid.py:1611-1618, 1634). -/
structure Area (V : Type) where
  nx : Nat
  ny : Nat
  value : Nat → Nat → V
  stepY : Rat
  stepX : Nat → Rat

/-- Frequencies and mean powers; the powers are nan when nothing is averaged. -/
structure Content where
  freq : List Rat
  power : Option (List Rat)
deriving DecidableEq

/-- `pw` when it has no nan (grid.py:1622-1625, 1636-1638). -/
def valid (r : List Rat × List (Option Rat)) : Option (List Rat × List Rat) := (r.2.mapM id).map (fun p => (r.1, p))

/-- `array(pws).mean(axis=0)`: mean at each index; nan without any list. -/
def meanRows : List (List Rat) → Option (List Rat)
  | [] => none
  | p :: l => some ((List.range p.length).map (fun j => ((p :: l).map (fun q => q.getD j 0)).sum / ((p :: l).length : Nat)))

/-- `interp1d(f, pw, fill_value=0.0, bounds_error=False)(z)` for increasing frequencies (grid.py:1651-1656). -/
def interpAt : List (Rat × Rat) → Rat → Rat
  | [], _ => 0
  | [(a, p)], z => if z = a then p else 0
  | (a, p) :: (b, q) :: l, z =>
    if z < a then 0 else if z ≤ b then p + (z - a) / (b - a) * (q - p) else interpAt ((b, q) :: l) z

/-- `linspace(a, b, n)`. -/
def linspace (a b : Rat) (n : Nat) : List Rat := (List.range n).map (fun (j : Nat) => if n = 1 then a else a + (b - a) * ((j : Rat) / ((n - 1 : Nat) : Rat)))

/-- Spectrum of the columns (grid.py:1617-1630); `none` is the exception without any column. -/
def latContent {V : Type} (welch : Welch V) (s : Scaling) (g : Area V) : Option Content := do
  let rs := (List.range g.nx).map (fun i => welch ((List.range g.ny).map (g.value i)) (1 / g.stepY) s)
  let last ← rs.getLast?
  some ⟨last.1, meanRows ((rs.filterMap valid).map (·.2))⟩

/-- Spectrum of the lines on common frequencies (grid.py:1632-1659); `none` is the exception without any valid line. -/
def lonContent {V : Type} (welch : Welch V) (s : Scaling) (g : Area V) : Option Content := do
  let rs := (List.range g.ny).map (fun j => welch ((List.range g.nx).map (fun i => g.value i j)) (1 / g.stepX j) s)
  let last ← rs.getLast?
  let vs := rs.filterMap valid
  let fmin ← (← vs.mapM (fun r => r.1.min?)).max?
  let fmax ← (← vs.mapM (fun r => r.1.max?)).min?
  let f := linspace fmin fmax last.1.length
  some ⟨f, meanRows (vs.map (fun r => f.map (interpAt (r.1.zip r.2))))⟩

/-- Without reference (grid.py:1606-1661): lines, then columns. -/
def spectrum {V : Type} (welch : Welch V) (s : Scaling) (g : Area V) : Option (Content × Content) := do
  let lat ← latContent welch s g
  let lon ← lonContent welch s g
  some (lon, lat)

/-- Division of two arrays of powers; the division by zero is nan or infinite. -/
def ratio (a b : Option (List Rat)) : Option (List (Option Rat)) := do
  let a ← a
  let b ← b
  if a.length = b.length then some ((a.zip b).map (fun p => if p.2 = 0 then none else some (p.1 / p.2))) else none

/-- With a reference (grid.py:1662-1671): `scaling` was taken out of the options, the reference is computed with the default one. -/
def spectrumRef {V : Type} (welch : Welch V) (s : Scaling) (g ref : Area V) : Option ((List Rat × Option (List (Option Rat))) × (List Rat × Option (List (Option Rat)))) := do
  let a ← spectrum welch s g
  let b ← spectrum welch .density ref
  some ((a.1.freq, ratio a.1.power b.1.power), (a.2.freq, ratio a.2.power b.2.power))

end Verif.Spectrum
