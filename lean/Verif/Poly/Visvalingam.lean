import Verif.Poly.Model
import Mathlib.Data.Prod.Lex

/-!
# Model of `visvalingam`
-/

namespace Verif.Poly

/-- `tri_area2` (poly.py:748-763). -/
def triArea (P : Nat → Pt) (i0 i1 i2 : Nat) : Rat :=
  |((P i0).1 - (P i2).1) * ((P i1).2 - (P i0).2) - ((P i0).1 - (P i1).1) * ((P i2).2 - (P i0).2)|

/-- Elements of the heap `(area, (i0, i1, i2))`, compared as Python tuples. -/
abbrev Entry := Rat ×ₗ (Nat ×ₗ (Nat ×ₗ Nat))

/-- Entry of a triangle. -/
def entry (P : Nat → Pt) (i0 i1 i2 : Nat) : Entry := toLex (triArea P i0 i1 i2, toLex (i0, toLex (i1, i2)))

/-- `heapq.heappush`. The heap is represented by its sorted content: `heappop` gives the least element. -/
def push (e : Entry) (h : List Entry) : List Entry := h.orderedInsert (· ≤ ·) e

/-- Initial triangles (poly.py:810-819): `i0`, `i1` roll over the polygon. -/
def initLoop (P : Nat → Pt) : Nat → Nat → List Nat → List Entry → List Entry
  | _, _, [], h => h
  | i0, i1, i :: l, h => initLoop P i1 i l (push (entry P i0 i1 i) h)

/-- Variables of the main loop. `none` in `prev`/`next` is the `-1` of the code: no vertex removed yet on this side. -/
structure VState where
  heap : List Entry
  removed : Nat → Bool
  prev : Nat → Option Nat
  next : Nat → Option Nat
  nb : Nat

/-- Removal of the vertex `i1` between `i0` and `i2` (poly.py:829-845). -/
def vremove (P : Nat → Pt) (n : Nat) (s : VState) (i0 i1 i2 : Nat) (h : List Entry) : VState :=
  { removed := Function.update s.removed i1 true
    nb := s.nb - 1
    prev := Function.update s.prev i2 (some i0)
    next := Function.update s.next i0 (some i2)
    heap := push (entry P i0 i2 (((Function.update s.next i0 (some i2)) i2).getD ((i2 + 1) % n)))
      (push (entry P (((Function.update s.prev i2 (some i0)) i0).getD ((i0 + n - 1) % n)) i0 i2) h) }

/-- One pass of the main loop (poly.py:821-845); `none` when the heap is empty. -/
def vstep (P : Nat → Pt) (n : Nat) (s : VState) : Option VState :=
  match s.heap with
  | [] => none
  | e :: h =>
    if s.removed (ofLex (ofLex e).2).1 || s.removed (ofLex (ofLex (ofLex e).2).2).2 then some { s with heap := h }
    else some (vremove P n s (ofLex (ofLex e).2).1 (ofLex (ofLex (ofLex e).2).2).1 (ofLex (ofLex (ofLex e).2).2).2 h)

/-- The main loop (poly.py:821). -/
def vloop (P : Nat → Pt) (n fixed : Nat) : Nat → VState → Option VState
  | 0, _ => none
  | fuel + 1, s => if fixed ≤ s.nb then (vstep P n s).bind (vloop P n fixed fuel) else some s

/-- State before the main loop (poly.py:796-819), for at least two points. -/
def vinit (P : Nat → Pt) (n : Nat) : VState :=
  { heap := initLoop P (n - 1) 0 (List.range' 1 (n - 1)) [entry P (n - 2) (n - 1) 0]
    removed := fun _ => false
    prev := fun _ => none
    next := fun _ => none
    nb := n }

/-- Output arrays (poly.py:846-856): the vertices left, then the first of them up to the requested size. More vertices than the
size would be written outside of the array, no vertex would leave it undefined (`none`). -/
def vout (fixed : Nat) (l : List Pt) : Option (List Pt) :=
  match l with
  | [] => none
  | a :: _ => if l.length ≤ fixed then some (l ++ List.replicate (fixed - l.length) a) else none

/-- `visvalingam` (poly.py:767-856), for arrays of at least two points. -/
def visvalingam (v : List Pt) (fixed : Nat) : Option (List Pt) :=
  if v.length < 2 then none
  else (vloop (vertex v) v.length fixed (6 * v.length + 1) (vinit (vertex v) v.length)).bind
    (fun s => vout fixed (((List.range v.length).filter (fun i => !s.removed i)).map (vertex v)))

end Verif.Poly
