import Verif.Targets.Model
import Verif.Extract.Model
import Verif.Poly.Mesh
import Verif.Lines.Model

/-!
# Model of the coherence of eddies by particles

`particle_candidate`, `particle_candidate_step`, `particle_candidate_atlas` (src/py_eddy_tracker/observations/groups.py) and
`segment_coherence_backward`, `segment_coherence_forward` (network.py). The advection of a particle during `n_days` (properties C26, C41, ...)
is a parameter, `none` when the particle is lost.
-/

namespace Verif.Particles

open Verif.Targets
open Verif.Poly (Pt)

/-- A row of the dataset: date, contour where the particles start and contour where they are counted. -/
structure Eddy where
  time : Rat
  start : List Pt
  stop : List Pt

/-- Numbers of the first and of the last contour of each particle: groups.py:110-122 (`particle_candidate_step`), 163-177 (`particle_candidate`). -/
def particles (argsort : List Int → List Nat) (step : Rat) (flow : Pt → Option Pt) (starts stops : List (List Pt)) : Option (List (Nat × Int)) :=
  (Poly.meshedParticles step starts).bind (fun out =>
    (Extract.contains argsort (out.map (fun x => flow x.1)) stops).map (fun res => (out.map (·.2)).zip res))

/-- `where(eddies.time == t)[0]`, groups.py:157, 171. -/
def rowsAt (eddies : List Eddy) (t : Rat) : List Nat := (List.range eddies.length).filter (fun k => decide ((eddies[k]?).map (·.time) = some t))

/-- Contours of some rows. -/
def starts (eddies : List Eddy) (rows : List Nat) : List (List Pt) := (rows.filterMap (fun k => eddies[k]?)).map (·.start)

/-- Contours of some rows. -/
def stops (eddies : List Eddy) (rows : List Nat) : List (List Pt) := (rows.filterMap (fun k => eddies[k]?)).map (·.stop)

/-- `particle_candidate`, groups.py:132-180; the last date of `advect` (groups.py:70-90) is `n_days` after the first, and there is none when
`n_days` is zero (`UnboundLocalError`). -/
def particleCandidate (argsort : List Int → List Nat) (st : Rat → Rat) (step : Rat) (flow : Pt → Option Pt) (eddies : List Eddy) (t : Rat) (n : Int)
    (a : Nat → Row) : Option (Nat → Row) :=
  if n = 0 then none
  else
    (particles argsort step flow (starts eddies (rowsAt eddies t)) (stops eddies (rowsAt eddies (t + n)))).bind (fun parts =>
      getMatrix st parts (rowsAt eddies t) (rowsAt eddies (t + n)) a)

/-- Loop of the dates of `segment_coherence_backward` and `segment_coherence_forward`, network.py:1766-1796, 1840-1872. -/
def coherenceLoop (argsort : List Int → List Nat) (step : Rat) (flow : Int → Pt → Option Pt) (eddies : List Eddy) (n : Int) :
    List Int → (Nat → Row) → Option (Nat → Row)
  | [], a => some a
  | t :: l, a => (particleCandidate argsort trunc step (flow t) eddies t n a).bind (coherenceLoop argsort step flow eddies n l)

/-- `range(a, b)`. -/
def dates (a b : Int) : List Int := (List.range (b - a).toNat).map (fun (k : Nat) => a + (k : Int))

/-- The message of progress divides by the number of dates less one (network.py:1789-1793, 1866-1870): with one date it raises. -/
def progress (l : List Int) (r : Option (Nat → Row)) : Option (Nat → Row) := if l.length = 1 then none else r

/-- `segment_coherence_forward`, network.py:1801-1874; the period of the dataset is `lo`, `hi` (`int` of numbers which are not negative). The shift of the files of
the current is in `Verif.Particles.Window`. -/
def coherenceForward (argsort : List Int → List Nat) (step : Rat) (flow : Int → Pt → Option Pt) (eddies : List Eddy) (n : Nat) (lo hi : Rat) : Option (Nat → Row) :=
  let l := dates ⌊lo⌋ (⌊hi⌋ - n + 1)
  progress l (coherenceLoop argsort step flow eddies n l (fun _ => emptyRow))

/-- `segment_coherence_backward`, network.py:1722-1799. -/
def coherenceBackward (argsort : List Int → List Nat) (step : Rat) (flow : Int → Pt → Option Pt) (eddies : List Eddy) (n : Nat) (lo hi : Rat) : Option (Nat → Row) :=
  let l := dates (⌊lo⌋ + n) (⌊hi⌋ + 1)
  progress l (coherenceLoop argsort step flow eddies (-n) l (fun _ => emptyRow))

/-! ### Atlas -/

/-- `fill_coherence`, groups.py:423-457, with `particle_candidate_step` and `merge_particle_result`. -/
def fillCoherence (argsort : List Int → List Nat) (step : Rat) (flow : Pt → Option Pt) (eddies : List Eddy) (origin ends : List Nat) (a : Nat → Row) :
    Option (Nat → Row) :=
  (particles argsort step flow (starts eddies origin) (stops eddies ends)).bind (fun parts =>
    (stepTargets parts origin.length ends.length).map (fun rows => mergeResult ends origin rows a))

/-- `i_sort[i_start[i] : i_end[i]]`, groups.py:376-378, 398-402: rows of the window of the date `t`; `order` is the argsort of the dates. -/
def windowRows (eddies : List Eddy) (order : List Nat) (garbage : Rat) (lo hi : Int) (t : Int) : List Nat :=
  let w := Lines.windowIndex ((dates lo (hi + 1)).map (fun (i : Int) => (i : Rat))) garbage (1 / 2) (order.map (fun k => ((eddies[k]?).map (·.time)).getD 0))
  (order.take (w.2.getD (t - lo).toNat 0)).drop (w.1.getD (t - lo).toNat 0)

/-- Loop of `particle_candidate_atlas`, groups.py:391-419. -/
def atlasLoop (argsort : List Int → List Nat) (step : Rat) (flow : Int → Pt → Option Pt) (eddies : List Eddy) (rows : Int → List Nat) (dt : Int) :
    List Int → (Nat → Row) → Option (Nat → Row)
  | [], a => some a
  | t :: l, a =>
    if rows t = [] ∨ rows (t + dt) = [] then atlasLoop argsort step flow eddies rows dt l a
    else (fillCoherence argsort step (flow t) eddies (rows t) (rows (t + dt)) a).bind (atlasLoop argsort step flow eddies rows dt l)

/-- Dates of `particle_candidate_atlas`, groups.py:383. -/
def atlasDates (lo hi dt : Int) : List Int := if dt > 0 then dates lo (hi - dt) else dates (lo - dt) hi

/-- `particle_candidate_atlas`, groups.py:352-421, with the default function of coherence. -/
def atlas (argsort : List Int → List Nat) (step : Rat) (flow : Int → Pt → Option Pt) (eddies : List Eddy) (order : List Nat) (garbage : Rat) (lo hi : Rat)
    (dt : Int) : Option (Nat → Row) :=
  atlasLoop argsort step flow eddies (windowRows eddies order garbage ⌊lo⌋ ⌊hi⌋) dt (atlasDates ⌊lo⌋ ⌊hi⌋ dt) (fun _ => emptyRow)

end Verif.Particles
