import Verif.Py
import Verif.Basic

/-!
# Polygons: orientation test, winding number, padding, convexity

Model of functions of /repo/src/py_eddy_tracker/poly.py. Coordinates are exact rationals (the code uses floats: no rounding, no
nan here). Numba does not check bounds: a read outside of an array is `none`.
-/

namespace Verif.Poly

/-- A point `(x, y)`. -/
abbrev Pt := Rat × Rat

/-- Vector product of `is_left` (poly.py:44-46): twice the signed area of the triangle `a, b, c`. -/
def product (a b c : Pt) : Rat := (b.1 - a.1) * (c.2 - a.2) - (c.1 - a.1) * (b.2 - a.2)

/-- `is_left` (poly.py:17-47). -/
def isLeft (a b c : Pt) : Bool := decide (0 < product a b c)

/-- Contribution of one edge to the winding number (poly.py:218-228). -/
def edge (p a b : Pt) : Int :=
  if a.2 ≤ p.2 then (if p.2 < b.2 then (if isLeft a b p then 1 else 0) else 0)
  else (if b.2 ≤ p.2 then (if isLeft a b p then 0 else -1) else 0)

/-- The loop of `winding_number_poly` from a vertex on; `first` closes the polygon (poly.py:209-217). -/
def windLoop (p first : Pt) : List Pt → Int
  | [] => 0
  | [a] => edge p a first
  | a :: b :: l => edge p a b + windLoop p first (b :: l)

/-- `winding_number_poly` (poly.py:198-229). -/
def winding (p : Pt) : List Pt → Int
  | [] => 0
  | a :: l => windLoop p a (a :: l)

/-! ### Padding -/

/-- Search of the last vertex which is not the first one (poly.py:871-875). `i` is the index before the decrement, and
the value after the increment of line 875; negative indices count from the end as in numpy, then the array is left (`none`). -/
def reduceLoop (v : List Pt) (v0 : Pt) : Nat → Int → Option Int
  | 0, _ => none
  | fuel + 1, i =>
    match Py.get v (i - 1) with
    | none => none
    | some w => if w ≠ v0 then some i else reduceLoop v v0 fuel (i - 1)

/-- `reduce_size` (poly.py:860-878). After `2 * n` steps the index is outside of the array. -/
def reduceSize (v : List Pt) : Option (List Pt) :=
  match v with
  | [] => none
  | v0 :: _ => (reduceLoop v v0 (2 * v.length + 1) v.length).map (fun i => v.take (Py.bound v.length (max 3 i)))

/-! ### Convexity -/

/-- The loop of `convex` (poly.py:135-141). -/
def convexLoop (ref : Bool) : Pt → Pt → List Pt → Bool
  | _, _, [] => true
  | a, b, c :: l => if ref ≠ isLeft a b c then false else convexLoop ref b c l

/-- `convex` (poly.py:120-142), on an array of at least two points (`x[-2]`, `x[1]`). -/
def convex (v : List Pt) : Option Bool := do
  let a ← Py.get v (-2)
  let b ← Py.get v (-1)
  let c ← Py.get v 1
  some (convexLoop (isLeft a b c) b c (v.drop 2))

/-! ### Convex hull -/

/-- `x[:-1].argmin()` (poly.py:160): first position of the smallest value. -/
def argmin (l : List Rat) : Nat := l.findIdx (fun x => l.all (fun y => decide (x ≤ y)))

/-- The inner loop of `get_convex_hull` (poly.py:175-184) from `i_test = t`: `some none` when the first vertex is reached (all
vertices on the left), `some (some t)` when the test failed for `t`. -/
def testLoop (P : Nat → Pt) (nb first : Nat) (a b : Pt) : Nat → Nat → Option (Option Nat)
  | 0, _ => none
  | fuel + 1, t =>
    if isLeft a b (P t) then
      (if (t + 1) % nb = first then some none else testLoop P nb first a b fuel ((t + 1) % nb))
    else some (some t)

/-- End of one pass of the outer loop (poly.py:188-191): `some` when the loop stops. -/
def hullStop (P : Nat → Pt) (nb first : Nat) (a : Pt) (next : Nat) (acc : List Nat) : Option (List Nat) :=
  if next = (first + nb - 1) % nb then some (if isLeft a (P next) (P first) then acc ++ [next] else acc) else none

/-- The outer loop of `get_convex_hull` (poly.py:168-191). `a` is `x0, y0`, `next` is `i_next`; the second fuel is that of the
inner loop. -/
def hullLoop (P : Nat → Pt) (nb first : Nat) : Nat → Pt → Nat → List Nat → Option (List Nat)
  | 0, _, _, _ => none
  | fuel + 1, a, next, acc =>
    match testLoop P nb first a (P next) (nb + 1) ((next + 1) % nb) with
    | none => none
    | some none =>
      match hullStop P nb first (P next) ((next + 1) % nb) (acc ++ [next]) with
      | some r => some r
      | none => hullLoop P nb first fuel (P next) ((next + 1) % nb) (acc ++ [next])
    | some (some t) =>
      match hullStop P nb first a (if t ≠ first then t else next) acc with
      | some r => some r
      | none => hullLoop P nb first fuel a (if t ≠ first then t else next) acc

/-- The vertex `i`; all positions used are smaller than `nb`. -/
def vertex (v : List Pt) (i : Nat) : Pt := v.getD i (0, 0)

/-- `get_convex_hull` (poly.py:146-194), positions of the kept vertices. The array has at least two points (the polygon is closed,
`argmin` of an empty array raises). -/
def hullIndices (v : List Pt) : Option (List Nat) :=
  if v.length < 2 then none
  else (hullLoop (vertex v) (v.length - 1) (argmin (v.dropLast.map Prod.fst)) (v.length + 1)
      (vertex v (argmin (v.dropLast.map Prod.fst))) ((argmin (v.dropLast.map Prod.fst) + 1) % (v.length - 1))
      [argmin (v.dropLast.map Prod.fst)]).map (fun r => r ++ [argmin (v.dropLast.map Prod.fst)])

/-- `get_convex_hull` (poly.py:146-194). -/
def convexHull (v : List Pt) : Option (List Pt) := (hullIndices v).map (fun r => r.map (vertex v))

end Verif.Poly
