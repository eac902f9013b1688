import Verif.Bins.Model
import Mathlib.Data.Prod.Lex

/-!
Model of `same_position` and `identify_in` (network mode) of /repo/src/py_eddy_tracker/observations/network.py. Times and positions
are exact rationals without nan.
-/

namespace Verif.Identify

/-- Time, longitude, latitude of an observation, in the order used by `argsort(order=["time", "lon", "lat"])`. -/
abbrev Pos := Rat ×ₗ Rat ×ₗ Rat

/-- The test of two items (network.py:2286-2292): `s0`, `s1` are the first observations of the items and `l0`, `l1` their sorted
positions. The positions are assumed to be in the arrays (numba does not check bounds). -/
def sameItem (a0 a1 : List Pos) (s0 s1 : Nat) (l0 l1 : List Nat) : Bool :=
  (l0.zip l1).all (fun p => decide (a0[p.1 + s0]? = a1[p.2 + s1]?))

/-- The loop on the items of the second dataset (network.py:2283-2296). -/
def findTarget (test : Nat → Bool) (used : Nat → Bool) : List Nat → Option Nat
  | [] => none
  | j1 :: l => if used j1 then findTarget test used l else if test j1 then some j1 else findTarget test used l

/-- The loop on the items of the first dataset (network.py:2282-2296): targets. -/
def targetLoop (test : Nat → Nat → Bool) (nb1 : Nat) : List Nat → (Nat → Bool) → List Int
  | [], _ => []
  | j0 :: l, used =>
    match findTarget (test j0) used (List.range nb1) with
    | some j1 => (j1 : Int) :: targetLoop test nb1 l (Function.update used j1 true)
    | none => -1 :: targetLoop test nb1 l used

/-- `same_position` (network.py:2263-2297). -/
def samePosition (a0 a1 : List Pos) (i00 i01 : List Nat) (i0 i1 : List (List Nat)) : List Int :=
  targetLoop (fun j0 j1 => sameItem a0 a1 (i00.getD j0 0) (i01.getD j1 0) (i0.getD j0 []) (i1.getD j1 [])) i01.length
    (List.range i00.length) (fun _ => false)

/-- First position of each item in the array of all items (`sl_self.start`, network.py:1328, 1333). -/
def starts : List (List Pos) → Nat → List Nat
  | [], _ => []
  | l :: ls, k => k :: starts ls (k + l.length)

/-- The search for one size (network.py:1304-1351): `idsS` and `idsO` are the numbers of the networks of this size, in increasing
order (the observations are selected by a mask and then split by `iter_on` on their number). `order` is
`argsort(order=["time", "lon", "lat"])`. -/
def identifyGroup (order : List Pos → List Nat) (ours other : List (List Pos)) (idsS idsO : List Nat) : List (Nat × Int) :=
  let s := idsS.map (fun i => ours.getD i [])
  let o := idsO.map (fun i => other.getD i [])
  let t := samePosition s.flatten o.flatten (starts s 0) (starts o 0) (s.map order) (o.map order)
  idsS.zip (t.map (fun (t : Int) => if t = -1 then -1 else ((idsO.getD t.toNat 0 : Nat) : Int)))

/-- Numbers selected by `networks_mask` (network.py:1306-1308, 2245-2259), in the order of the dataset. -/
def inOrder (n : Nat) (ids : List Nat) : List Nat := (List.range n).filter (fun i => decide (i ∈ ids))

/-- One turn of the loop of `identify_in` (network.py:1292-1351). -/
def identifyStep (order : List Pos → List Nat) (ours other : List (List Pos)) (sizeMin : Rat) (p : Bins.Pair) :
    Option (List (Nat × Int)) :=
  if p.lo < sizeMin then some []
  else if p.other = [] then some (p.self.map (fun i => (i, -1)))
  else if p.lo < 1 then none -- no observation: `iter_on` of an empty array raises
  else some (identifyGroup order ours other (inOrder ours.length p.self) (inOrder other.length p.other))

/-- `network_size()` (network.py:214-223). -/
def sizes (l : List (List Pos)) : List Rat := l.map (fun n => (n.length : Rat))

/-- `identify_in` (network.py:1272-1353) on networks: the element `i` of a dataset is the network of the number `i` plus the first
number; the result is the list of couples, -1 without equal network. The mode `segment=True` is not modelled. -/
def identifyIn (argsort : List Int → List Nat) (order : List Pos → List Nat) (ours other : List (List Pos)) (sizeMin : Rat) :
    Option (List (Nat × Int)) :=
  let r := Bins.alignOn true (Bins.iterOnDefault argsort false (sizes ours)) (Bins.iterOnDefault argsort false (sizes other))
  if r.ok then
    (r.items.mapM (identifyStep order ours other sizeMin)).bind (fun l =>
      if r.items.all (fun p => decide (p.lo < sizeMin)) then none -- concatenation of nothing raises
      else some l.flatten)
  else none

end Verif.Identify
