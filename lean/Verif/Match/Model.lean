import Verif.Poly.Indexs

/-!
# Model of the comparison of two sets of eddies

`bbox_intersection`, `get_wrap_vertice`, `vertice_overlap`, `close_center` (src/py_eddy_tracker/poly.py) and `match` (observation.py).
Coordinates are exact rationals. The areas of polygons and of intersections of polygons (library `Polygon`) are parameters.
-/

namespace Verif.Match

open Verif.Poly

/-- Longitude in the turn which starts at `ref`: `(x - ref) % 360 + ref`. -/
def wrapAt (ref x : Rat) : Rat := Py.fmod (x - ref) 360 + ref

/-- Couples (row, row) accepted by a test, in the order of the two loops (poly.py:276-288, 338-349). -/
def couples {α β : Type} (test : α → β → Bool) (l0 : List α) (l1 : List β) : List (Nat × Nat) :=
  l0.zipIdx.flatMap (fun a => (l1.zipIdx.filter (fun b => test a.1 b.1)).map (fun b => (a.2, b.2)))

/-- Test of the boxes, `bbox_intersection`, poly.py:338-347. -/
def boxTest (c0 c1 : List Pt) : Bool :=
  let xmin0 := minR (c0.map (·.1)); let xmax0 := maxR (c0.map (·.1))
  let ymin0 := minR (c0.map (·.2)); let ymax0 := maxR (c0.map (·.2))
  let xmin1 := minR (c1.map (·.1)); let xmax1 := maxR (c1.map (·.1))
  let ymin1 := minR (c1.map (·.2)); let ymax1 := maxR (c1.map (·.2))
  if ymax0 < ymin1 ∨ ymin0 > ymax1 then false
  else
    let wrap := decide (|xmin0 - xmin1| > 180)
    let a := if wrap then wrapAt (xmin0 - 180) xmin1 else xmin1
    let b := if wrap then wrapAt (xmin0 - 180) xmax1 else xmax1
    if xmax0 < a ∨ xmin0 > b then false else true

/-- `bbox_intersection`, poly.py:314-350. -/
def bboxIntersection (l0 l1 : List (List Pt)) : List (Nat × Nat) := couples boxTest l0 l1

/-- `get_wrap_vertice`, poly.py:391-407: second polygon. The first one is not changed. -/
def wrapVertice (c0 c1 : List Pt) : List Pt :=
  let x0 := (c0.headD (0, 0)).1
  if |x0 - (c1.headD (0, 0)).1| > 180 then c1.map (fun w => (wrapAt (x0 - 180) w.1, w.2)) else c1

/-- Options of `vertice_overlap` (poly.py:437-439). -/
structure Options where
  minimal : Bool := false
  p1 : Bool := false
  hybrid : Bool := false
  minOverlap : Rat := 0

/-- The score of `vertice_overlap` from the areas, poly.py:473-499. -/
def score (o : Options) (inter a0 a1 : Rat) : Rat :=
  if inter = 0 then 0
  else
    let cost := if o.minimal then inter / min a0 a1 else if o.p1 then inter / a1 else inter / (a0 + a1 - inter)
    if cost ≥ o.minOverlap then cost
    else if o.hybrid = true ∧ cost ≠ 0 ∧ inter / min a0 a1 > 99 / 100 then cost else 0

/-- The areas given by the library `Polygon`. -/
structure Areas where
  area : List Pt → Rat
  inter : List Pt → List Pt → Rat

/-- `vertice_overlap` on one couple, poly.py:467-499. -/
def overlap (g : Areas) (o : Options) (c0 c1 : List Pt) : Rat :=
  let v1 := wrapVertice c0 c1
  score o (g.inter c0 v1) (g.area c0) (g.area v1)

/-- `match` with the method "overlap", observation.py:1220-1234: rows of self, rows of other, scores. -/
def matchOverlap (g : Areas) (o : Options) (cmin : Rat) (l0 l1 : List (List Pt)) : List (Nat × Nat × Rat) :=
  ((bboxIntersection l0 l1).map (fun p => (p.1, p.2, overlap g o (l0.getD p.1 []) (l1.getD p.2 [])))).filter
    (fun p => decide (p.2.2 ≥ cmin))

/-- Test of `close_center`, poly.py:281-286. -/
def closeTest (delta : Rat) (p q : Pt) : Bool :=
  let d := q.1 - p.1
  let d := if |d| > 180 then Py.fmod (d + 180) 360 - 180 else d
  if |d| > delta then false else if |q.2 - p.2| > delta then false else true

/-- `close_center`, poly.py:262-289 (all scores are 1). -/
def closeCenter (delta : Rat) (l0 l1 : List Pt) : List (Nat × Nat) := couples (closeTest delta) l0 l1

/-- `re_reference_index`, observation.py:1237-1249: `ref` is a slice (its start) or a list of rows. -/
def reReference (index : List Nat) : Nat ⊕ List Nat → Option (List Nat)
  | .inl start => some (index.map (· + start))
  | .inr rows => index.mapM (fun k => rows[k]?)

/-- Rows of a group: slice (start, stop) or list of rows. -/
def rowsOf : (Nat × Nat) ⊕ List Nat → List Nat
  | .inl s => List.range' s.1 (s.2 - s.1)
  | .inr rows => rows

/-- Loop of `close_tracks` (observations/tracking.py:571-575) on the groups of `align_on` (property C32). `m` gives the couples of
`match` on the rows of two groups. -/
def closeRows (m : List Nat → List Nat → List (Nat × Nat)) : List (((Nat × Nat) ⊕ List Nat) × ((Nat × Nat) ⊕ List Nat)) → Option (List Nat)
  | [] => some []
  | (a, b) :: l => do
    let j ← reReference ((m (rowsOf a) (rowsOf b)).map (·.2)) (b.elim (fun s => .inl s.1) .inr)
    let r ← closeRows m l
    some (j ++ r)

/-- `close_tracks`, observations/tracking.py:555-577: tracks of the other dataset which are kept; `none` is an exception (no group:
`concatenate` of an empty list; row outside of the dataset). -/
def closeTracks (m : List Nat → List Nat → List (Nat × Nat)) (groups : List (((Nat × Nat) ⊕ List Nat) × ((Nat × Nat) ⊕ List Nat)))
    (track : List Nat) (nbMin : Nat) : Option (List Nat) := do
  let _ ← groups.head?
  let rows ← closeRows m groups
  let tr ← rows.mapM (fun k => track[k]?)
  some ((Py.unique tr).filter (fun t => decide (nbMin ≤ tr.count t)))

end Verif.Match
