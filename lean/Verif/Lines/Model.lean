import Verif.Poly.Model

/-!
# Lines of points

Model of `flatten_line_matrix`, `simplify`, `split_line`, `wrap_longitude` and `window_index` of
/repo/src/py_eddy_tracker/generic.py. Coordinates are exact rationals, `none` is nan. Numba does not check bounds: the writes are
listed with their positions, then stored in an array of a given size.
-/

namespace Verif.Lines

/-- A coordinate, `none` is nan. -/
abbrev Val := Option Rat

/-- Content of an array of `size` cells after the writes (the last write of a cell counts); `none` when a write is outside of the
array or a cell is never written. -/
def store {α : Type} (size : Nat) (ws : List (Nat × α)) : Option (List α) :=
  if ws.all (fun w => decide (w.1 < size)) then
    (List.range size).mapM (fun k => (ws.reverse.find? (fun w => decide (w.1 = k))).map Prod.snd)
  else none

/-! ### flatten_line_matrix -/

/-- Writes of `flatten_line_matrix` (generic.py:348-354) from the position `inc`. -/
def flattenWrites {α : Type} (nan : α) : List (List α) → Nat → List (Nat × α)
  | [], _ => []
  | r :: rows, inc =>
    (r.zipIdx inc).map Prod.swap ++ (inc + r.length, nan) :: flattenWrites nan rows (inc + r.length + 1)

/-- `final_size` of `flatten_line_matrix` (generic.py:339-340) for `nb` lines of `sampling` points. -/
def finalSize (nb sampling : Nat) : Int := ((nb : Int) - 1) + nb * sampling

/-- `flatten_line_matrix` (generic.py:331-355); `sampling` is the number of columns of the matrix. -/
def flattenLines {α : Type} (nan : α) (rows : List (List α)) (sampling : Nat) : Option (List α) :=
  if finalSize rows.length sampling < 1 then some [nan]
  else store (finalSize rows.length sampling).toNat (flattenWrites nan rows 0)

/-! ### split_line -/

/-- `len(where(i[1:] - i[:-1] != 0)[0])` (generic.py:426). -/
def jumps {α : Type} : List (α × Int) → Nat
  | a :: b :: l => (if b.2 - a.2 ≠ 0 then 1 else 0) + jumps (b :: l)
  | _ => 0

/-- Writes of `split_line` (generic.py:431-440): the points and, at each change of the number, nan. -/
def splitWrites {α : Type} (nan : α) : List (α × Int) → Nat → List (Nat × α)
  | [], _ => []
  | [a], j => [(j, a.1)]
  | a :: b :: l, j =>
    (j, a.1) :: (if a.2 ≠ b.2 then (j + 1, nan) :: splitWrites nan (b :: l) (j + 2) else splitWrites nan (b :: l) (j + 1))

/-- `split_line` (generic.py:417-441) on the points and their numbers. -/
def splitLine {α : Type} (nan : α) (l : List (α × Int)) : Option (List α) :=
  store (jumps l + l.length) (splitWrites nan l 0)

/-! ### simplify -/

/-- The test of `simplify` (generic.py:391-402): the point is kept. -/
def far (precision : Rat) (a b : Poly.Pt) : Bool :=
  if b.1 - a.1 > precision then true
  else if b.2 - a.2 > precision then true
  else decide ((b.1 - a.1) ^ 2 + (b.2 - a.2) ^ 2 > precision ^ 2)

/-- The main loop of `simplify` (generic.py:381-403): mask of the kept points. `none` is a point with a nan coordinate. -/
def maskLoop (precision : Rat) : Poly.Pt → Bool → List (Option Poly.Pt) → List Bool
  | _, _, [] => []
  | prev, lastNan, none :: l => (!lastNan) :: maskLoop precision prev true l
  | prev, _, some p :: l =>
    if far precision prev p then true :: maskLoop precision p false l else false :: maskLoop precision prev false l

/-- Position of the first point without nan, or the last position (generic.py:373-378). -/
def firstValid (l : List (Option Poly.Pt)) : Nat := min (l.findIdx Option.isSome) (l.length - 1)

/-- `simplify` (generic.py:359-413): mask of the kept points; `none` for empty arrays (the variable of the first loop is not
defined). -/
def simplifyMask (precision : Rat) (l : List (Option Poly.Pt)) : Option (List Bool) :=
  if l.length = 0 then none
  else if firstValid l = l.length - 1 then some (List.replicate l.length false)
  else match l.drop (firstValid l) with
    | some p :: rest => some (List.replicate (firstValid l) false ++ true :: maskLoop precision p false rest)
    | _ => none

/-- `simplify` (generic.py:359-413). -/
def simplify (precision : Rat) (l : List (Option Poly.Pt)) : Option (List (Option Poly.Pt)) :=
  (simplifyMask precision l).map (fun m => Py.select m l)

/-! ### wrap_longitude -/

/-- `(x - ref) % 360 + ref` (generic.py:459, 463, 488, 497). -/
def wrap (ref x : Rat) : Rat := Py.fmod (x - ref) 360 + ref

/-- `wrap_longitude` without cut (generic.py:493-499). -/
def wrapAll (ref : Rat) (xs : List Val) : List Val := xs.map (fun x => x.map (wrap ref))

/-- The test of a jump between two consecutive longitudes (generic.py:464-468). -/
def isJump (ref : Rat) : Val → Val → Bool
  | some a, some b => decide (|(b - a) - (wrap ref b - wrap ref a)| > 1 / 100000)
  | _, _ => false

/-- A point: longitude, latitude. -/
abbrev VPt := Val × Val

/-- Correction at a jump (generic.py:480): `360 if x[i - 1] > x[i] else -360`. -/
def cor : Val → Val → Rat
  | some a, some b => if a > b then 360 else -360
  | _, _ => -360

/-- Writes of `wrap_longitude` with cut (generic.py:475-491) from the position `k` on; `prev` is the previous point. -/
def cutWrites (ref : Rat) : VPt → List VPt → Nat → List (Nat × VPt)
  | _, [], _ => []
  | prev, p :: l, k =>
    if isJump ref prev.1 p.1 then
      (k, (p.1.map (fun x => wrap ref x - cor prev.1 p.1), p.2)) :: (k + 1, (none, none)) ::
        (k + 2, (prev.1.map (fun x => wrap ref x + cor prev.1 p.1), prev.2)) ::
        (k + 3, (p.1.map (wrap ref), p.2)) :: cutWrites ref p l (k + 4)
    else (k, (p.1.map (wrap ref), p.2)) :: cutWrites ref p l (k + 1)

/-- Number of jumps (generic.py:457-471). -/
def nbJumps (ref : Rat) : VPt → List VPt → Nat
  | _, [] => 0
  | prev, p :: l => (if isJump ref prev.1 p.1 then 1 else 0) + nbJumps ref p l

/-- `wrap_longitude` with cut (generic.py:456-492); an empty array has no first element. -/
def wrapCut (ref : Rat) : List VPt → Option (List VPt)
  | [] => none
  | p :: l => store ((p :: l).length + nbJumps ref p l * 3) ((0, (p.1.map (wrap ref), p.2)) :: cutWrites ref p l 1)

/-! ### window_index -/

/-- Bound of the node `j` (generic.py:636-637, 645, 650). After the last node the code reads outside of `x0`: the value read is
`g`. -/
def bnd (x0 : List Rat) (g d : Rat) (j : Nat) : Rat := x0.getD j g + d

/-- The inner loops (generic.py:642-645 and 647-650) for the value `x` at the position `i`. -/
def advance (x0 : List Rat) (g d : Rat) (x : Rat) (i : Nat) : Nat → Nat → (Nat → Nat) → Nat × (Nat → Nat)
  | 0, j, f => (j, f)
  | fuel + 1, j, f =>
    if x > bnd x0 g d j ∧ j < x0.length then advance x0 g d x i fuel (j + 1) (Function.update f j i) else (j, f)

/-- State of the loop on the values: `j_min, first_index, j_max, last_index`. -/
structure WState where
  jmin : Nat
  first : Nat → Nat
  jmax : Nat
  last : Nat → Nat

/-- The loop on the sorted values (generic.py:639-652). -/
def windowLoop (x0 : List Rat) (g h : Rat) : List Rat → Nat → WState → WState
  | [], _, s => s
  | x :: l, i, s =>
    let a := advance x0 g (-h) x i (x0.length + 1) s.jmin s.first
    let b := advance x0 g h x i (x0.length + 1) s.jmax s.last
    if b.1 = x0.length then ⟨a.1, a.2, b.1, b.2⟩ else windowLoop x0 g h l (i + 1) ⟨a.1, a.2, b.1, b.2⟩

/-- Last state of `window_index` on sorted values, before the nodes without bound are filled. -/
def windowState (x0 : List Rat) (g h : Rat) (xs : List Rat) : WState := windowLoop x0 g h xs 0 ⟨0, fun _ => 0, 0, fun _ => 0⟩

/-- `window_index` (generic.py:619-656) on the sorted values `xs`: first and last (excluded) positions for each node. -/
def windowIndex (x0 : List Rat) (g h : Rat) (xs : List Rat) : List Nat × List Nat :=
  ((List.range x0.length).map (fun j => if j < (windowState x0 g h xs).jmin then (windowState x0 g h xs).first j else xs.length),
   (List.range x0.length).map (fun j => if j < (windowState x0 g h xs).jmax then (windowState x0 g h xs).last j else xs.length))

/-- A position of `x0` outside of the array has been read: `x0[j]` is read after each increment of `j` and before the loop. -/
def readsOutside (x0 : List Rat) (g h : Rat) (xs : List Rat) : Bool :=
  decide ((windowState x0 g h xs).jmin = x0.length ∨ (windowState x0 g h xs).jmax = x0.length)

/-! ### iter_on with a moving window -/

/-- `iter_on(x, window=w, bins=bins)` (observation.py:590-595): `order` is the result of `x.argsort()`; the observations, lower and
upper bound of each node. -/
def iterWindow (order : List Nat) (g w : Rat) (x bins : List Rat) : List (List Nat × Rat × Rat) :=
  let fl := windowIndex bins g w (order.map (fun k => x.getD k 0))
  (bins.zip (fl.1.zip fl.2)).map (fun t => ((order.take t.2.2).drop t.2.1, t.1 - w, t.1 + w))

/-- The nodes without `bins` (observation.py:591): `arange(x.min(), x.max())`; the minimum of an empty array raises. -/
def windowNodes : List Rat → Option (List Rat)
  | [] => none
  | a :: l =>
    let lo := l.foldl min a
    let hi := l.foldl max a
    some ((List.range (hi - lo).ceil.toNat).map (fun (k : Nat) => lo + (k : Rat)))

end Verif.Lines
