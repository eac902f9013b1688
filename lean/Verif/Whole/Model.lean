import Verif.Amplitude.Model
import Verif.Detection.Model

/-!
# Model of the whole identification

`eddy_identification` (src/py_eddy_tracker/dataset/grid.py:627-980) from the heights and their unit to the eddies, on top of the loop
(`Verif.Detection`) and of the amplitude (`Verif.Amplitude`). The contours of matplotlib with their pixels and their fits, the percentiles of numpy and
the contours marked by `get_uavg` are parameters. Heights are exact rationals.
-/

namespace Verif.Whole

open Verif.Detection Verif.Amplitude

/-! ### Levels -/

/-- `arange(start, stop, step)` of numpy. -/
def arange (start stop step : Rat) : List Rat := (List.range ⌈(stop - start) / step⌉.toNat).map (fun (k : Nat) => start + k * step)

/-- Levels of the contours (grid.py:723). -/
def levels (zmin zmax step : Rat) : List Rat := arange (zmin - Py.fmod zmin step) (zmax - Py.fmod zmax step + 2 * step) step

/-- The range is replaced by the one of the percentiles (grid.py:712): more than twice as wide (a division by zero is infinite, or nan for two
zeros). -/
def outliers (z p : Rat × Rat) : Bool := if p.2 - p.1 = 0 then decide (z.2 - z.1 > 0) else decide ((z.2 - z.1) / (p.2 - p.1) > 2)

/-- Range of the levels (grid.py:704-721). -/
def range (z p : Rat × Rat) : Rat × Rat := if outliers z p then p else z

/-- `(data / precision).round() * precision` (grid.py:701-702). -/
def rounded (precision : Option Rat) (h : Pixel → Rat) : Pixel → Rat :=
  match precision with
  | none => h
  | some q => fun p => (Amplitude.rint (h p / q) : Rat) * q

/-! ### One grid -/

/-- What does not depend on the heights: size, boxes of the contours (`bbox_slice`), pixels of the grid, arguments of the call, and the parameters
(contours at the levels, percentiles of the values, contours marked by `get_uavg` from the centre). -/
structure Grid where
  nx : Nat
  cells : List Pixel
  box : Contour → (Nat × Nat) × (Nat × Nat)
  contours : (Pixel → Rat) → (Pixel → Bool) → List Rat → List (List Contour)
  percentiles : List Rat → Rat × Rat
  nested : Bool → Int → Contour → Pixel → List Nat
  shapeError : Rat
  pixelMin : Nat
  pixelMax : Nat
  mle : Nat
  nbMin : Rat
  nbMle : Rat

/-- `grid_extract` and `pixel_mask` of a contour (eddy_feature.py:78-101). -/
def fieldOf (g : Grid) (h : Pixel → Rat) (mask : Pixel → Bool) (c : Contour) : Field where
  nx := (columns g.nx (g.box c).1.1 (g.box c).1.2).length
  ny := (g.box c).2.2 - (g.box c).2.1
  val := fun a b => h ((columns g.nx (g.box c).1.1 (g.box c).1.2).getD a 0, (g.box c).2.1 + b)
  mask := fun a b => mask ((columns g.nx (g.box c).1.1 (g.box c).1.2).getD a 0, (g.box c).2.1 + b)
  pixels := c.pixels.map (fun p => ((localColumn g.nx (g.box c).1.1 (g.box c).1.2 p.1).toNat, p.2 - (g.box c).2.1))

/-- `get_amplitude` (grid.py:1057-1075); the height of the contour and the level are the same value. -/
def test (g : Grid) (h : Pixel → Rat) (step : Rat) (lv : List Rat) (anti : Bool) (mask : Pixel → Bool) (i : Int) (c : Contour) :
    Option ((Nat × Nat) × Rat) :=
  let v := (Py.get lv i).getD 0
  if anti then above (fieldOf g h mask c) v (step * g.nbMle) g.mle v else below (fieldOf g h mask c) v (step * g.nbMle) g.mle v

/-- The parameters of the loop (grid.py:774-852). -/
def env (g : Grid) (h : Pixel → Rat) (step : Rat) (lv : List Rat) : Env where
  height := h
  shapeError := g.shapeError
  pixelMin := g.pixelMin
  pixelMax := g.pixelMax
  ampMin := step * g.nbMin
  amplitude := fun anti mask i c => amplitudeOf (test g h step lv anti mask i c)
  nested := fun anti mask i c => ((test g h step lv anti mask i c).map (fun r => g.nested anti i c r.1)).getD []

/-- Least and largest values which are not masked. -/
def extent (g : Grid) (h : Pixel → Rat) (mask : Pixel → Bool) : Rat × Rat :=
  let l := (g.cells.filter (fun p => !mask p)).map h
  (Poly.minR l, Poly.maxR l)

/-- Levels of a field (grid.py:704-723). -/
def levelsOf (g : Grid) (h : Pixel → Rat) (mask : Pixel → Bool) (step : Rat) : List Rat :=
  let r := range (extent g h mask) (g.percentiles ((g.cells.filter (fun p => !mask p)).map h))
  levels r.1 r.2 step

/-- The loop in the unit of the grid. -/
def run (g : Grid) (h : Pixel → Rat) (mask : Pixel → Bool) (step : Rat) : State :=
  identify (env g h step (levelsOf g h mask step)) (levelsOf g h mask step) (g.contours h mask (levelsOf g h mask step)) mask

/-- An eddy whose heights are multiplied (grid.py:958-968). -/
def inMetres (factor : Rat) (e : Eddy) : Eddy := { e with level := e.level * factor, amplitude := e.amplitude * factor }

/-- `eddy_identification` (grid.py:627-980): `factor` is the value in metres of the unit of the heights, `step` and `precision` are in metres. -/
def identification (g : Grid) (factor step : Rat) (precision : Option Rat) (h : Pixel → Rat) (mask : Pixel → Bool) : List Eddy :=
  (run g (rounded (precision.map (· / factor)) h) mask (step / factor)).eddies.map (inMetres factor)

/-! ### Longitudes of the result -/

/-- Longitude and contour of an eddy (grid.py:949-955). -/
def normalized (lon : Rat) (contour : List Rat) : Rat × List Rat :=
  let l := Py.fmod lon 360
  (l, contour.map (fun x => Py.fmod (x - (l - 180)) 360 + (l - 180)))

end Verif.Whole
