import Verif.Poly.Indexs

/-!
Model of the class `Amplitude` and of `detect_local_minima_` of /repo/src/py_eddy_tracker/eddy_feature.py. Heights are exact
rationals without nan. `int16` numbers of groups do not overflow.
-/

namespace Verif.Amplitude

/-- Columns of the extracted grid (eddy_feature.py:80-92): `data[x_start:x_stop]`, or `data[x_start:]` followed by `data[:x_stop]`
when the contour crosses the bound of a circular grid. -/
def columns (nx xs xe : Nat) : List Nat :=
  if xs > xe then List.range' xs (nx - xs) ++ List.range xe else List.range' xs (xe - xs)

/-- Column of a pixel in the extracted grid (eddy_feature.py:95-97): `pixels_index[0] - x_start`, modulo the size on the bound. -/
def localColumn (nx xs xe px : Nat) : Int :=
  if xs > xe then ((px : Int) - xs) % (nx : Int) else (px : Int) - xs

/-- The extracted grid: heights, mask, positions of the pixels of the contour (`pixel_mask`, eddy_feature.py:93-101). -/
structure Field where
  nx : Nat
  ny : Nat
  val : Nat → Nat → Rat
  mask : Nat → Nat → Bool
  pixels : List (Nat × Nat)

/-- The fake value of masked neighbours (eddy_feature.py:225). -/
def fake : Rat := 20000000000

/-- Value of a neighbour in the footprint (eddy_feature.py:222-227). -/
def foot (f : Field) (sign : Rat) (i j : Nat) : Rat := if f.mask i j then fake else f.val i j * sign

/-- The footprint of the pixel `(i + 1, j + 1)` (eddy_feature.py:222-227). -/
def footprint (f : Field) (sign : Rat) (i j : Nat) : List Rat :=
  (List.range 3).flatMap (fun a => (List.range 3).map (fun b => foot f sign (i + a) (j + b)))

/-- The test of the pixel `(i + 1, j + 1)` (eddy_feature.py:228-230). -/
def isExtremum (f : Field) (sign : Rat) (i j : Nat) : Bool :=
  decide (Poly.minR (footprint f sign i j) = f.val (i + 1) (j + 1) * sign) && decide ((i + 1, j + 1) ∈ f.pixels)

/-- All local extrema, without the border of the box (eddy_feature.py:219-232). -/
def extrema (f : Field) (sign : Rat) : List (Nat × Nat) :=
  (List.range (f.nx - 2)).flatMap (fun i =>
    ((List.range (f.ny - 2)).filter (fun j => isExtremum f sign i j)).map (fun j => (i + 1, j + 1)))

/-- Neighbour pixels (eddy_feature.py:242). -/
def touch (p q : Nat × Nat) : Bool :=
  decide (((p.1 : Int) - q.1).natAbs + ((p.2 : Int) - q.2).natAbs = 1)

/-- One couple of extrema (eddy_feature.py:242-257). -/
def groupStep (e : List (Nat × Nat)) (s : (Nat → Nat) × Nat) (p : Nat × Nat) : (Nat → Nat) × Nat :=
  if touch (e.getD p.1 (0, 0)) (e.getD p.2 (0, 0)) then
    if s.1 p.1 = 0 ∧ s.1 p.2 = 0 then (Function.update (Function.update s.1 p.1 s.2) p.2 s.2, s.2 + 1)
    else if s.1 p.1 = 0 ∧ s.1 p.2 ≠ 0 then (Function.update s.1 p.1 (s.1 p.2), s.2)
    else if s.1 p.2 = 0 ∧ s.1 p.1 ≠ 0 then (Function.update s.1 p.2 (s.1 p.1), s.2)
    else (fun a => if s.1 a = s.1 p.1 then s.1 p.2 else s.1 a, s.2)
  else s

/-- The couples of the two loops (eddy_feature.py:240-241). -/
def couples (n : Nat) : List (Nat × Nat) :=
  (List.range (n - 1)).flatMap (fun i0 => (List.range' (i0 + 1) (n - (i0 + 1))).map (fun i1 => (i0, i1)))

/-- The groups (eddy_feature.py:238-257): 0 for an extremum without neighbour. -/
def groups (e : List (Nat × Nat)) : Nat → Nat :=
  ((couples e.length).foldl (groupStep e) (fun _ => 0, 1)).1

/-- `round`: nearest integer, even when there are two. -/
def rint (x : Rat) : Int :=
  if x - x.floor < 1 / 2 then x.floor else if 1 / 2 < x - x.floor then x.floor + 1
  else if x.floor % 2 = 0 then x.floor else x.floor + 1

/-- Barycentre of one coordinate of a group (eddy_feature.py:271-284). -/
def mean (l : List Nat) : Nat := (rint ((l.sum : Rat) / (l.length : Rat))).toNat

/-- Barycentre of a group (eddy_feature.py:271-284). -/
def centre (l : List (Nat × Nat)) : Nat × Nat := (mean (l.map Prod.fst), mean (l.map Prod.snd))

/-- The separation of the extrema (eddy_feature.py:259-285). -/
def separate (e : List (Nat × Nat)) : List (Nat × Nat) :=
  ((List.range e.length).filter (fun a => decide (groups e a = 0))).map (fun a => e.getD a (0, 0)) ++
  (Py.unique (((List.range e.length).map (groups e)).filter (fun v => decide (v ≠ 0)))).map (fun v =>
    centre (((List.range e.length).filter (fun a => decide (v = groups e a))).map (fun a => e.getD a (0, 0))))

/-- `detect_local_minima_` (eddy_feature.py:205-286). -/
def detect (f : Field) (mle : Nat) (sign : Rat) : List (Nat × Nat) :=
  if (extrema f sign).length > mle then separate (extrema f sign) else extrema f sign

/-- `numpy.argmax`: first position of the largest value. -/
def argmax (l : List Rat) : Nat := l.findIdx (fun x => l.all (fun y => decide (y ≤ x)))

/-- `EPSILON` (eddy_feature.py:36). -/
def eps : Rat := 1 / 100000000

/-- Position and amplitude given by an extremum (eddy_feature.py:153, 197); the position is local, `x_start` and `y_start` are
added by the code (`centre_column`). -/
def verdict (f : Field) (h0 : Rat) (p : Nat × Nat) : (Nat × Nat) × Rat := (p, |f.val p.1 p.2 - h0|)

/-- `all_pixels_below_h0` (eddy_feature.py:115-157): position and amplitude, `none` for `False`. -/
def below (f : Field) (h0 sec : Rat) (mle : Nat) (level : Rat) : Option ((Nat × Nat) × Rat) :=
  if f.pixels.any (fun p => f.mask p.1 p.2) || f.pixels.any (fun p => decide (f.val p.1 p.2 - h0 > eps)) then none
  else
    match detect f mle 1 with
    | [] => none
    | [p] => some (verdict f h0 p)
    | p :: q :: l =>
      if (p :: q :: l).countP (fun p => decide (level - f.val p.1 p.2 ≥ sec)) > mle then none
      else some (verdict f h0
        ((p :: q :: l).getD (Poly.argmin ((p :: q :: l).map (fun p => f.val p.1 p.2))) (0, 0)))

/-- `all_pixels_above_h0` (eddy_feature.py:159-201). -/
def above (f : Field) (h0 sec : Rat) (mle : Nat) (level : Rat) : Option ((Nat × Nat) × Rat) :=
  if f.pixels.any (fun p => f.mask p.1 p.2) || f.pixels.any (fun p => decide (h0 - f.val p.1 p.2 > eps)) then none
  else
    match detect f mle (-1) with
    | [] => none
    | [p] => some (verdict f h0 p)
    | p :: q :: l =>
      if (p :: q :: l).countP (fun p => decide (f.val p.1 p.2 - level ≥ sec)) > mle then none
      else some (verdict f h0
        ((p :: q :: l).getD (argmax ((p :: q :: l).map (fun p => f.val p.1 p.2))) (0, 0)))

/-- The amplitude stored in the object (eddy_feature.py:107, 153): 0 before a verdict. -/
def amplitudeOf (r : Option ((Nat × Nat) × Rat)) : Rat := r.elim 0 (·.2)

/-- `within_amplitude_limits` (eddy_feature.py:111-113) and the test of the caller (grid.py:829): the contour goes on. -/
def retained (interval nbStepMin : Rat) (r : Option ((Nat × Nat) × Rat)) : Bool :=
  !(!decide (interval * nbStepMin ≤ amplitudeOf r) || decide (amplitudeOf r = 0))

end Verif.Amplitude
