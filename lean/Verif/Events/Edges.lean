import Verif.Segments.Lemmas

/-!
# C188: edges of the points of networks

Model of `NetworkObservations.scatter` with `edgecolor_cycle` (src/py_eddy_tracker/observations/network.py:1058-1103). A colour is any value.
-/

namespace Verif.Events

open Verif.Segments (Obs IsNumbering)

variable {C : Type}

/-! ### Model -/

/-- The loop on the observations (network.py:1087-1094): `prev` is `seg_previous`, `j` the rank of the colour. -/
def edgeLoop : Nat → Nat → List Obs → List Nat
  | _, _, [] => []
  | prev, j, o :: l =>
    let j' := if o.seg ≠ prev then j + 1 else j
    j' :: edgeLoop o.seg j' l

/-- The ranks; `self.segment[0]` raises without observation (network.py:1085-1086). -/
def edgeRanks : List Obs → Option (List Nat)
  | [] => none
  | o :: l => some (edgeLoop o.seg 0 (o :: l))

/-- `edgecolors` (network.py:1080-1094): `none` when it raises. An empty cycle is no cycle (network.py:1080). -/
def edgeColours (cycle : List C) (obs : List Obs) : Option (List (Option C)) :=
  if cycle = [] then some [] else (edgeRanks obs).map (fun r => r.map (fun j => cycle[j % cycle.length]?))

/-! ### Specification -/

/-- The segments are numbered from 0 in the order of the rows, and each row has the colour of the number of its segment, the colours
being used in turn. -/
def ColouredBySegment (cycle : List C) (obs : List Obs) (colours : List (Option C)) : Prop :=
  ∃ num, IsNumbering obs num ∧ colours.length = obs.length ∧
    ∀ (k a : Nat), num[k]? = some a → ∃ c, cycle[a % cycle.length]? = some c ∧ colours[k]? = some (some c)

/-- Full statement. -/
def EdgesBySegment : Prop := ∀ (cycle : List Nat) (obs : List Obs), cycle ≠ [] → obs ≠ [] →
  ∃ colours, edgeColours cycle obs = some colours ∧ ColouredBySegment cycle obs colours

/-- Consecutive observations with the same number of segment are in the same network. -/
def NumbersDiffer (obs : List Obs) : Prop := ∀ (i : Nat) o o', obs[i]? = some o → obs[i + 1]? = some o' → o'.seg = o.seg → o'.track = o.track

/-! ### Proofs -/

theorem edgeLoop_length (l : List Obs) : ∀ prev j, (edgeLoop prev j l).length = l.length := by
  induction l with
  | nil => intro _ _; rfl
  | cons o l ih => intro prev j; simp only [edgeLoop, List.length_cons, ih]

theorem edgeLoop_step (l : List Obs) : ∀ (prev j i a : Nat) (o o' : Obs), (edgeLoop prev j l)[i]? = some a → l[i]? = some o → l[i + 1]? = some o' →
    (edgeLoop prev j l)[i + 1]? = some (if o'.seg = o.seg then a else a + 1) := by
  induction l with
  | nil => intro _ _ i a o o' _ h; simp at h
  | cons x l ih =>
    intro prev j i a o o' ha ho ho'
    cases i with
    | zero =>
      simp only [List.getElem?_cons_zero, Option.some.injEq] at ho
      subst ho
      simp only [edgeLoop, List.getElem?_cons_zero, Option.some.injEq] at ha
      cases l with
      | nil => simp at ho'
      | cons y l =>
        simp only [Nat.zero_add, List.getElem?_cons_succ, List.getElem?_cons_zero, Option.some.injEq] at ho'
        subst ho'
        simp only [edgeLoop, Nat.zero_add, List.getElem?_cons_succ, List.getElem?_cons_zero, Option.some.injEq]
        rw [ha]
        by_cases h : y.seg = x.seg <;> simp [h]
    | succ i =>
      simp only [edgeLoop, List.getElem?_cons_succ] at ha ho ho' ⊢
      exact ih _ _ i a o o' ha ho ho'

/-- The ranks are numbers of segments when the numbers differ at the changes of network. -/
theorem ranks_number {o : Obs} {l : List Obs} (h : NumbersDiffer (o :: l)) : IsNumbering (o :: l) (edgeLoop o.seg 0 (o :: l)) where
  len := edgeLoop_length _ _ _
  zero := by simp [edgeLoop]
  step := by
    intro i a p p' ha hp hp'
    rw [edgeLoop_step _ _ _ i a p p' ha hp hp']
    have hk : p'.key = p.key ↔ p'.seg = p.seg := by
      unfold Segments.Obs.key
      rw [Prod.mk.injEq]
      exact ⟨fun e => e.1, fun e => ⟨e, h i p p' hp hp' e⟩⟩
    by_cases e : p'.seg = p.seg
    · rw [if_pos e, if_pos (hk.2 e)]
    · rw [if_neg e, if_neg (fun e' => e (hk.1 e'))]

/-- **C188** when the numbers of segments differ at the changes of network, in particular in one network: the colours of the edges are the
ones of the cycle in turn, one by segment. Missing: consecutive networks with the same number of segment (`edges_wrong`). -/
theorem edges_partial {cycle : List C} {obs : List Obs} (hc : cycle ≠ []) (hne : obs ≠ []) (h : NumbersDiffer obs) :
    ∃ colours, edgeColours cycle obs = some colours ∧ ColouredBySegment cycle obs colours := by
  obtain ⟨o, l, rfl⟩ := List.exists_cons_of_ne_nil hne
  have hn := ranks_number h
  refine ⟨(edgeLoop o.seg 0 (o :: l)).map (fun j => cycle[j % cycle.length]?), by rw [edgeColours, if_neg hc]; rfl, _, hn,
    by rw [List.length_map, hn.len], fun k a ha => ?_⟩
  have hlt : a % cycle.length < cycle.length := Nat.mod_lt _ (List.length_pos_iff.2 hc)
  refine ⟨cycle[a % cycle.length], List.getElem?_eq_getElem hlt, ?_⟩
  rw [List.getElem?_map, ha, Option.map_some, List.getElem?_eq_getElem hlt]

/-- One network. -/
theorem one_network {obs : List Obs} (h : ∀ o ∈ obs, ∀ o' ∈ obs, o.track = o'.track) : NumbersDiffer obs :=
  fun _ o o' ho ho' _ => h o' (List.mem_of_getElem? ho') o (List.mem_of_getElem? ho)

/-- A dataset without observation raises. -/
theorem edges_none {cycle : List C} (hc : cycle ≠ []) : edgeColours cycle [] = none := by
  rw [edgeColours, if_neg hc]; rfl

/-- No colour without cycle. -/
theorem edges_no_cycle (obs : List Obs) : edgeColours ([] : List C) obs = some [] := by
  rw [edgeColours, if_pos rfl]

/-- Two networks of one segment: the same colour for both. -/
def twoAlone : List Obs := [⟨1, 1, -1, -1⟩, ⟨2, 1, -1, -1⟩]

/-- The full statement is false. -/
theorem edges_wrong : ¬EdgesBySegment := by
  intro h
  obtain ⟨colours, e, num, hn, _, hk⟩ := h [10, 20] twoAlone (by decide) (by decide)
  have e' : edgeColours [10, 20] twoAlone = some [some 10, some 10] := by decide
  rw [e'] at e
  cases e
  have h1 := hn.step 0 0 _ _ hn.zero rfl rfl
  obtain ⟨c, hc, hcol⟩ := hk 1 _ h1
  simp only [List.getElem?_cons_succ, List.getElem?_cons_zero, Option.some.injEq] at hcol
  subst hcol
  revert hc
  decide

/-- Three segments of one network and two colours. -/
example : edgeColours [10, 20] [⟨1, 1, -1, 1⟩, ⟨1, 1, 0, -1⟩, ⟨1, 2, 0, -1⟩, ⟨1, 4, 1, -1⟩] = some [some 10, some 10, some 20, some 10] ∧
    NumbersDiffer [⟨1, 1, -1, 1⟩, ⟨1, 1, 0, -1⟩, ⟨1, 2, 0, -1⟩, ⟨1, 4, 1, -1⟩] := ⟨by decide, one_network (by decide)⟩

end Verif.Events
