import Verif.Py

/-!
Model of the loop of `eddy_identification` and of `get_uavg` of /repo/src/py_eddy_tracker/dataset/grid.py. The contours, the fit of
circles, the mean speed on a contour, the test of inclusion and the amplitude (`Verif.Amplitude`) are parameters.
-/

namespace Verif.Detection

/-- A pixel of the grid. -/
abbrev Pixel := Nat × Nat

/-- `has_masked_value` (grid.py:2324-2329) on the couples of indices. -/
def hasMasked (mask : Pixel → Bool) : List Pixel → Bool
  | [] => false
  | p :: l => if mask p then true else hasMasked mask l

/-- `has_value` (grid.py:2332-2342). -/
def hasValue (height : Pixel → Rat) (value : Rat) (below : Bool) : List Pixel → Bool
  | [] => false
  | p :: l =>
    if below then (if height p < value then true else hasValue height value below l)
    else if height p > value then true else hasValue height value below l

/-- A closed contour: identity, interior pixels, error of the fit (`none` is nan). -/
structure Contour where
  id : Nat
  pixels : List Pixel
  aerr : Option Rat

/-- What does not change during the identification. `amplitude` is `amp.amplitude` (grid.py:819-827) for the current mask, `nested`
are the contours marked as used by `get_uavg`, besides the contour itself (grid.py:1032-1033). -/
structure Env where
  height : Pixel → Rat
  shapeError : Rat
  pixelMin : Nat
  pixelMax : Nat
  ampMin : Rat
  amplitude : Bool → (Pixel → Bool) → Int → Contour → Rat
  nested : Bool → (Pixel → Bool) → Int → Contour → List Nat

/-- An eddy of the result; `marks` are the contours used by this eddy. -/
structure Eddy where
  contour : Contour
  anti : Bool
  level : Rat
  amplitude : Rat
  marks : List Nat

structure State where
  mask : Pixel → Bool
  used : Nat → Bool
  eddies : List Eddy

/-- The error of the shape is refused (grid.py:783). -/
def badShape (env : Env) (c : Contour) : Bool :=
  match c.aerr with
  | none => true
  | some a => decide (a < 0) || decide (a > env.shapeError)

/-- Index of the level (grid.py:758-760). -/
def corrected (anti : Bool) (k : Nat) : Int := if anti then (k : Int) else -(k : Int) - 1

/-- The body of the loop on contours (grid.py:774-934). -/
def step (env : Env) (anti : Bool) (i : Int) (cvalue : Rat) (s : State) (c : Contour) : State :=
  if s.used c.id then s
  else if badShape env c then s
  else if hasMasked s.mask c.pixels then s
  else if hasValue env.height cvalue anti c.pixels then s
  else if c.pixels.length < env.pixelMin ∨ c.pixels.length > env.pixelMax then s
  else if ¬ env.ampMin ≤ env.amplitude anti s.mask i c ∨ env.amplitude anti s.mask i c = 0 then s
  else
    { mask := fun p => if p ∈ c.pixels then true else s.mask p
      used := fun k => if k ∈ c.id :: env.nested anti s.mask i c then true else s.used k
      eddies := s.eddies ++ [⟨c, anti, cvalue, env.amplitude anti s.mask i c, c.id :: env.nested anti s.mask i c⟩] }

/-- The loop on the levels (grid.py:757-934): `colls` are the levels in the order of the search, from the position `k`. -/
def levels (env : Env) (anti : Bool) (cvalues : List Rat) : List (List Contour) → Nat → State → State
  | [], _, s => s
  | coll :: l, k, s =>
    levels env anti cvalues l (k + 1)
      (coll.foldl (step env anti (corrected anti k) ((Py.get cvalues (corrected anti k)).getD 0)) s)

/-- One search (grid.py:752-756): `contours.iter(step=1)` or `contours.iter(step=-1)`. -/
def search (env : Env) (anti : Bool) (cvalues : List Rat) (colls : List (List Contour)) (s : State) : State :=
  levels env anti cvalues (if anti then colls else colls.reverse) 0 s

/-- The two searches of `eddy_identification` (grid.py:751-934), on the same mask. -/
def identify (env : Env) (cvalues : List Rat) (colls : List (List Contour)) (mask : Pixel → Bool) : State :=
  search env false cvalues colls (search env true cvalues colls ⟨mask, fun _ => false, []⟩)

/-! ### get_uavg -/

/-- Positions of `collections[slice(start, None, step)]` for a step of 1 (`up`) or -1 (eddy_feature.py:535-536). -/
def iterFrom (n : Nat) (start : Int) (up : Bool) : List Nat :=
  if up then
    List.range' (if start < 0 then (start + n).toNat else min start.toNat n)
      (n - (if start < 0 then (start + n).toNat else min start.toNat n))
  else if start < 0 then (if start + n < 0 then [] else (List.range ((start + n).toNat + 1)).reverse)
  else (List.range (min (start.toNat + 1) n)).reverse

structure Uavg (κ : Type) where
  maxSpeed : Rat
  selected : κ
  inner : κ
  speeds : List Rat
  contours : List κ
  iMax : Int
  iInner : Int

/-- One turn of the loop of `get_uavg` which is not left (grid.py:1019-1031). -/
def uavgStep {κ : Type} (speed : κ → Rat) (nb : κ → Nat) (pixelMin : Nat) (i : Nat) (s : Uavg κ) (c : κ) : Uavg κ :=
  if pixelMin < nb c ∧ speed c ≥ s.maxSpeed then
    ⟨speed c, c, c, s.speeds ++ [speed c], s.contours ++ [c], i, i⟩
  else ⟨s.maxSpeed, s.selected, c, s.speeds ++ [speed c], s.contours ++ [c], s.iMax, i⟩

/-- The loop of `get_uavg` (grid.py:1005-1031). -/
def uavgLoop {κ : Type} (nearest : Nat → Option κ) (inside : κ → Bool) (speed : κ → Rat) (nb : κ → Nat) (pixelMin : Nat) :
    List Nat → Nat → Uavg κ → Uavg κ
  | [], _, s => s
  | l :: ls, i, s =>
    match nearest l with
    | none => s
    | some c =>
      if inside c then uavgLoop nearest inside speed nb pixelMin ls (i + 1) (uavgStep speed nb pixelMin i s c) else s

/-- `get_uavg` (grid.py:982-1043) for `n` levels: `nearest` gives the contour of a level around the centre, `inside` is the test of
inclusion in the original contour. -/
def getUavg {κ : Type} (n : Nat) (nearest : Nat → Option κ) (inside : κ → Bool) (speed : κ → Rat) (nb : κ → Nat) (orig : κ)
    (anti : Bool) (levelStart : Int) (pixelMin : Nat) : Uavg κ :=
  let step : Int := if anti then 1 else -1
  let s := uavgLoop nearest inside speed nb pixelMin (iterFrom n (levelStart + step) anti) 0
    ⟨speed orig, orig, orig, [speed orig], [orig], -1, -1⟩
  { s with iMax := levelStart + step + step * s.iMax, iInner := levelStart + step + step * s.iInner }

end Verif.Detection
