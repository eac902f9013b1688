import Verif.Basic
import Verif.Py
import Verif.Index.Model

/-!
# Model of the segmentation of groups (`src/py_eddy_tracker/observations/tracking.py:607-793`)

The overlap of two observations is an arbitrary function `ov` (the code: `bbox_intersection` then `vertice_overlap`, `0` when
the boxes do not meet or below `min_overlap`); costs are exact rationals (`f4` in the code, where two different overlaps may
become equal). Time steps are integers. `none` is an `IndexError`.
-/

namespace Verif.Segmentation

/-- State of `ids` and `used` for one group; arrays are functions on the indices of the group. -/
structure St where
  track : Nat → Nat
  prev : Nat → Int
  next : Nat → Int
  pcost : Nat → Rat
  ncost : Nat → Rat
  used : Nat → Bool

/-- Initial values, tracking.py:629-634 and 675. -/
def init : St := ⟨fun _ => 0, fun _ => -1, fun _ => -1, fun _ => 0, fun _ => 0, fun _ => false⟩

/-- `argmax` over the candidates: the first maximum. -/
def argmaxFrom (f : Nat → Rat) : Nat → List Nat → Nat
  | b, [] => b
  | b, x :: l => argmaxFrom f (if f b < f x then x else b) l

/-- Loop over time steps, common to `get_previous_obs` (tracking.py:721-745) and `get_next_obs` (tracking.py:764-793): best
candidate of the first step where the greatest overlap is not 0, with its overlap. When no box meets, all overlaps are 0:
the two `continue` are the same. -/
def search (f : Nat → Rat) (s e : List Nat) : List Int → Option (Option (Nat × Rat))
  | [] => some none
  | t :: ts => do
    let i0 ← Py.get s t
    let i1 ← Py.get e t
    if i0 = i1 then search f s e ts
    else
      let i := argmaxFrom f i0 (List.range' (i0 + 1) (i1 - i0 - 1))
      if f i = 0 then search f s e ts else some (some (i, f i))

/-- `range(a, b)`. -/
def rangeUp (a b : Int) : List Int := (List.range (b - a).toNat).map (fun k => a + (k : Nat))

/-- `range(a, b, -1)`. -/
def rangeDown (a b : Int) : List Int := (List.range (a - b).toNat).map (fun k => a - (k : Nat))

/-- Result of `build_index` on the time steps of the group. -/
abbrev TimeIndex := List Nat × List Nat × Int

/-- Search of `get_next_obs`, tracking.py:748-793. -/
def getNext (ov : Nat → Nat → Rat) (T : Nat → Int) (ti : TimeIndex) (window : Int) (i : Nat) : Option (Option (Nat × Rat)) :=
  let timeMax : Int := (ti.2.1.length : Int) - 1
  let t0 := T i + 1 - ti.2.2
  let t1 := min (T i + window - ti.2.2) timeMax
  if t0 > timeMax then some none else search (ov i) ti.1 ti.2.1 (rangeUp t0 (t1 + 1))

/-- Search of `get_previous_obs`, tracking.py:708-745. -/
def getPrev (ov : Nat → Nat → Rat) (T : Nat → Int) (ti : TimeIndex) (window : Int) (i : Nat) : Option (Option (Nat × Rat)) :=
  let t0 := T i - 1 - ti.2.2
  let t1 := max (T i - window - ti.2.2) 0
  search (ov i) ti.1 ti.2.1 (rangeDown t0 (t1 - 1))

/-- `used[i] = True`, `ids["track"][i] = track_id`, tracking.py:688-690. -/
def mark (st : St) (i id : Nat) : St :=
  { st with used := Function.update st.used i true, track := Function.update st.track i id }

/-- Update of the costs by `get_next_obs` (tracking.py:787-791) and of `next_obs` (tracking.py:695). -/
def link (st : St) (i t : Nat) (c : Rat) : St :=
  { st with
    pcost := if (st.pcost t ≠ 0 ∧ st.pcost t < c) ∨ st.pcost t = 0 then Function.update st.pcost t c else st.pcost
    ncost := Function.update st.ncost i c
    next := Function.update st.next i t }

/-- `ids["track"][t:][m] = track_id` with `m` the observations of the segment of `t`, tracking.py:700-701. -/
def retag (track : Nat → Nat) (t id k : Nat) : Nat := if t ≤ k ∧ track k = track t then id else track k

/-- The target already belongs to a segment, tracking.py:697-702. -/
def join (st : St) (i t id : Nat) : St :=
  if st.ncost i = st.pcost t then
    { st with
      track := retag st.track t id
      prev := Function.update st.prev t i }
  else st

/-- `ids["previous_obs"][i_next_] = i_next`, tracking.py:704. -/
def back (st : St) (t i : Nat) : St := { st with prev := Function.update st.prev t i }

/-- End of one iteration of `follow_obs` when `get_next_obs` returned `r`: new state, and observation to continue with,
tracking.py:693-705. -/
def advance (st : St) (i id : Nat) : Option (Nat × Rat) → St × Option Nat
  | none => (st, none)
  | some (t, c) =>
    if st.used t then (join (link st i t c) i t id, none) else (back (link st i t c) t i, some t)

/-- `follow_obs`, tracking.py:683-705; the first argument bounds the number of iterations. -/
def follow (nx : Nat → Option (Option (Nat × Rat))) (id : Nat) : Nat → St → Nat → Option St
  | 0, _, _ => none
  | fuel + 1, st, i => do
    let r ← nx i
    let s := advance (mark st i id) i id r
    s.2.elim (some s.1) (follow nx id fuel s.1)

/-- Result of `get_previous_obs`, tracking.py:743-744. -/
def setPrev (st : St) (i : Nat) : Option (Nat × Rat) → St
  | none => st
  | some (p, c) => { st with pcost := Function.update st.pcost i c, prev := Function.update st.prev i p }

/-- One iteration of the loop of `set_tracks`, tracking.py:673-680. -/
def setStep (nx pv : Nat → Option (Option (Nat × Rat))) (n : Nat) (s : St × Nat) (i : Nat) : Option (St × Nat) :=
  if s.1.used i then some s
  else do
    let st ← follow nx s.2 (n + 1) s.1 i
    let r ← pv i
    some (setPrev st i r, s.2 + 1)

/-- `set_tracks`, tracking.py:658-680, for a group whose time steps are `T`. -/
def setTracks (ov : Nat → Nat → Rat) (T : List Int) (window : Int) : Option St := do
  let ti ← Index.buildIndex T
  let out ← (List.range T.length).foldlM
    (setStep (getNext ov (fun k => T.getD k 0) ti window) (getPrev ov (fun k => T.getD k 0) ti window) T.length) (init, 1)
  some out.1

/-- One observation of the result of `split_network`. -/
structure Row where
  group : Nat
  time : Int
  track : Nat
  prev : Int
  next : Int
  pcost : Rat
  ncost : Rat
deriving DecidableEq

/-- Shift of the links of one group, tracking.py:651-655. -/
def shift (start : Nat) (l : Int) : Int := if l ≠ -1 then l + start else l

/-- Copy of the local result in the slice of the group. -/
def paste (st loc : St) (a b : Nat) : St where
  track k := if a ≤ k ∧ k < b then loc.track (k - a) else st.track k
  prev k := if a ≤ k ∧ k < b then shift a (loc.prev (k - a)) else st.prev k
  next k := if a ≤ k ∧ k < b then shift a (loc.next (k - a)) else st.next k
  pcost k := if a ≤ k ∧ k < b then loc.pcost (k - a) else st.pcost k
  ncost k := if a ≤ k ∧ k < b then loc.ncost (k - a) else st.ncost k
  used k := st.used k

/-- Body of the loop over groups, tracking.py:642-655. -/
def groupStep (groups : List Nat) (ov : Nat → Nat → Rat) (steps : List Int) (window : Int) (st : St) (p : Nat × Nat) : Option St :=
  if p.1 = p.2 then some st
  else do
    let g ← groups[p.1]?
    if g = 0 then some st
    else
      let loc ← setTracks (fun i j => ov (p.1 + i) (p.1 + j)) ((steps.drop p.1).take (p.2 - p.1)) window
      some (paste st loc p.1 p.2)

/-- `split_network`, tracking.py:607-656, for given time steps (`int_(self.time / timestep)`, line 632). -/
def splitNetwork (groups : List Nat) (ov : Nat → Nat → Rat) (steps : List Int) (window : Int) : Option (List Row) := do
  let gi ← Index.buildIndex (groups.map (fun (g : Nat) => (g : Int)))
  let st ← (gi.1.zip gi.2.1).foldlM (groupStep groups ov steps window) init
  some ((List.range groups.length).map (fun k =>
    ⟨groups.getD k 0, steps.getD k 0, st.track k, st.prev k, st.next k, st.pcost k, st.ncost k⟩))

end Verif.Segmentation
