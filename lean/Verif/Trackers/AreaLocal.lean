import Verif.Trackers.Area
import Verif.Matching.Local

/-!
# C204: the links of the tracker by area do not depend on the rows nor on the rest of the ocean

`AreaTracker.tracking` (src/py_eddy_tracker/featured_tracking/area_tracker.py:36-49, 69-75), for contours of any shape and size and areas
of any library: the only notion used by the statements is the answer of the tracker on two contours alone.
-/

namespace Verif.Trackers

open Verif.Poly Verif.Match Matching

/-! ### Specification -/

/-- The cost of the link of two contours when the tracker is given nothing else. -/
def alone (g : Areas) (cmin : Rat) (c d : List Pt) : Option Rat :=
  match areaTracking g cmin [c] [d] with
  | .ok [(_, _, v)] => v
  | _ => none

/-- The contours and the cost of a link. -/
def contoursOf (l0 l1 : List (List Pt)) (p : Nat × Nat × Option Rat) : Option (List Pt × List Pt × Option Rat) :=
  match l0[p.1]?, l1[p.2.1]? with
  | some c, some d => some (c, d, p.2.2)
  | _, _ => none

/-- Distinct contours in each dataset, and no two couples of the same cost. -/
structure Plain (g : Areas) (cmin : Rat) (l0 l1 : List (List Pt)) : Prop where
  nodup0 : l0.Nodup
  nodup1 : l1.Nodup
  distinct : ∀ c ∈ l0, ∀ d ∈ l1, ∀ c' ∈ l0, ∀ d' ∈ l1, ∀ v, alone g cmin c d = some v → alone g cmin c' d' = some v → c = c' ∧ d = d'

/-! ### Proofs -/

/-- One cell of the matrix of costs. -/
def cell (g : Areas) (cmin : Rat) (c d : List Pt) : Option Rat :=
  if boxTest c d = true ∧ 0 ≤ overlap g {} c d ∧ cmin < overlap g {} c d then some (1 - overlap g {} c d) else none

/-- The matrix is made cell by cell. -/
theorem areaCosts_cell (g : Areas) (cmin : Rat) (l0 l1 : List (List Pt)) (i j : Nat) :
    areaCosts g cmin l0 l1 i j = (l0[i]?).bind (fun c => (l1[j]?).bind (fun d => cell g cmin c d)) := by
  have hnd : ((matchOverlap g {} 0 l0 l1).map (fun p => (p.1, p.2.1))).Nodup := by
    unfold matchOverlap
    have hs : (((bboxIntersection l0 l1).map (fun p => (p.1, p.2, overlap g {} (l0.getD p.1 []) (l1.getD p.2 [])))).map
        (fun p => (p.1, p.2.1))).Nodup := by
      rw [List.map_map]
      have : ((fun p : Nat × Nat × Rat => (p.1, p.2.1)) ∘ fun p : Nat × Nat => (p.1, p.2, overlap g {} (l0.getD p.1 []) (l1.getD p.2 []))) = id := rfl
      rw [this, List.map_id]
      exact couples_nodup _ _ _
    exact hs.sublist (List.filter_sublist.map _)
  apply Option.ext
  intro v
  unfold areaCosts
  rw [maskCmin_spec cmin _ _ hnd]
  simp only [reduceCtorEq, and_false, or_false]
  have hmem : ∀ s, (i, j, s) ∈ matchOverlap g {} 0 l0 l1 ↔
      ∃ c d, l0[i]? = some c ∧ l1[j]? = some d ∧ boxTest c d = true ∧ s = overlap g {} c d ∧ 0 ≤ s := by
    intro s
    unfold matchOverlap bboxIntersection
    rw [List.mem_filter, List.mem_map]
    constructor
    · rintro ⟨⟨⟨i', j'⟩, hp, e⟩, hs⟩
      obtain ⟨c, d, h1, h2, h3⟩ := (mem_couples _ _ _ _ _).1 hp
      injection e with e1 e
      injection e with e2 e3
      subst e1 e2
      refine ⟨c, d, h1, h2, h3, ?_, by simpa using hs⟩
      rw [← e3]
      simp [List.getD_eq_getElem?_getD, h1, h2]
    · rintro ⟨c, d, h1, h2, h3, e, hs⟩
      refine ⟨⟨(i, j), (mem_couples _ _ _ _ _).2 ⟨c, d, h1, h2, h3⟩, ?_⟩, by simpa using hs⟩
      simp [List.getD_eq_getElem?_getD, h1, h2, e]
  simp only [hmem, Option.bind_eq_some_iff]
  constructor
  · rintro ⟨s, ⟨c, d, h1, h2, h3, rfl, h5⟩, h6, rfl⟩
    exact ⟨c, h1, d, h2, by rw [cell, if_pos ⟨h3, h5, h6⟩]⟩
  · rintro ⟨c, h1, d, h2, h3⟩
    unfold cell at h3
    split at h3
    · rename_i h
      injection h3 with h3
      exact ⟨_, ⟨c, d, h1, h2, h.1, rfl, h.2.1⟩, h.2.2, h3.symm⟩
    · cases h3

theorem areaCosts_lt {g : Areas} {cmin : Rat} {l0 l1 : List (List Pt)} {i j : Nat} (h : (areaCosts g cmin l0 l1 i j).isSome = true) :
    i < l0.length ∧ j < l1.length := by
  rw [areaCosts_cell] at h
  obtain ⟨v, hv⟩ := Option.isSome_iff_exists.1 h
  obtain ⟨c, h1, h2⟩ := Option.bind_eq_some_iff.1 hv
  obtain ⟨d, h2, _⟩ := Option.bind_eq_some_iff.1 h2
  exact ⟨(List.getElem?_eq_some_iff.1 h1).1, (List.getElem?_eq_some_iff.1 h2).1⟩

/-- The answer on two contours alone is the cell. -/
theorem alone_cell (g : Areas) (cmin : Rat) (c d : List Pt) : alone g cmin c d = cell g cmin c d := by
  have hm : areaCosts g cmin [c] [d] 0 0 = cell g cmin c d := by rw [areaCosts_cell]; rfl
  have hfin : ∀ i j, (areaCosts g cmin [c] [d] i j).isSome = true → ∃ x, areaCosts g cmin [c] [d] i j = some x :=
    fun i j h => Option.isSome_iff_exists.1 h
  obtain ⟨R, eR, r1, r2, r3⟩ := solve_simultaneous_matching [c].length [d].length
    (fun i j => (areaCosts g cmin [c] [d] i j).isSome) (areaCosts g cmin [c] [d]) (fun i j => areaCosts_lt) hfin
  have hmax := solve_simultaneous_maximal [c].length [d].length
    (fun i j => (areaCosts g cmin [c] [d] i j).isSome) (areaCosts g cmin [c] [d]) (fun i j => areaCosts_lt) hfin R eR 0 0
  have hR : R 0 0 = (cell g cmin c d).isSome := by
    cases h : (cell g cmin c d).isSome with
    | false =>
      cases hr : R 0 0 with
      | false => rfl
      | true =>
        have := r1 0 0 hr
        simp only [hm, h] at this
        cases this
    | true =>
      have hlt : ∀ i j, R i j = true → i = 0 ∧ j = 0 := fun i j hr => by
        have := areaCosts_lt (r1 i j hr)
        simp only [List.length_singleton] at this
        omega
      rcases hmax (by simp only [hm, h]) with ⟨j, hj⟩ | ⟨i, hi⟩
      · obtain ⟨_, rfl⟩ := hlt _ _ hj
        exact hj
      · obtain ⟨rfl, _⟩ := hlt _ _ hi
        exact hi
  have hw : whereMask [c].length [d].length R = if R 0 0 = true then [(0, 0)] else [] := by
    simp only [List.length_singleton]
    cases h : R 0 0 <;> simp [whereMask, h]
  unfold alone areaTracking trackingDefault
  simp only [eR, hw]
  cases h : cell g cmin c d with
  | none =>
    rw [h] at hR
    simp [hR]
  | some v =>
    rw [h] at hR
    simp [hR, hm, h]

/-- The links with the cells as costs are those of C193. -/
theorem area_links {g : Areas} {cmin : Rat} {l0 l1 : List (List Pt)} (h : Plain g cmin l0 l1) :
    ∃ links couples, areaTracking g cmin l0 l1 = .ok links ∧
      obsTracking (fun c d => (cell g cmin c d).isSome) (fun c d => (cell g cmin c d).getD 0) l0 l1 = .ok couples ∧
      links.filterMap (contoursOf l0 l1) = couples.map (fun t => (t.1, t.2, cell g cmin t.1 t.2)) := by
  have hnear : (fun i j => (areaCosts g cmin l0 l1 i j).isSome) = nearAt (fun c d => (cell g cmin c d).isSome) l0 l1 := by
    funext i j
    rw [areaCosts_cell, nearAt]
    cases l0[i]? <;> cases l1[j]? <;> rfl
  have hcost : ∀ i j, (areaCosts g cmin l0 l1 i j).isSome = true →
      costAt (fun c d => (cell g cmin c d).getD 0) l0 l1 i j = areaCosts g cmin l0 l1 i j := by
    intro i j
    rw [areaCosts_cell, costAt]
    cases l0[i]? <;> cases l1[j]? <;> simp
    rename_i c d
    cases cell g cmin c d <;> simp
  have hfin : ∀ i j, (areaCosts g cmin l0 l1 i j).isSome = true → ∃ x, areaCosts g cmin l0 l1 i j = some x :=
    fun i j h => Option.isSome_iff_exists.1 h
  have hfin' : ∀ i j, (areaCosts g cmin l0 l1 i j).isSome = true →
      ∃ x, costAt (fun c d => (cell g cmin c d).getD 0) l0 l1 i j = some x := fun i j h => by
    rw [hcost i j h]; exact hfin i j h
  obtain ⟨Q, eQ, q1, q2, q3⟩ := solve_simultaneous_matching l0.length l1.length
    (fun i j => (areaCosts g cmin l0 l1 i j).isSome) (areaCosts g cmin l0 l1) (fun i j => areaCosts_lt) hfin
  have qst := solve_simultaneous_stable l0.length l1.length
    (fun i j => (areaCosts g cmin l0 l1 i j).isSome) (areaCosts g cmin l0 l1) (fun i j => areaCosts_lt) hfin Q eQ
  obtain ⟨R, eR, r1, r2, r3⟩ := solve_simultaneous_matching l0.length l1.length
    (fun i j => (areaCosts g cmin l0 l1 i j).isSome) (costAt (fun c d => (cell g cmin c d).getD 0) l0 l1) (fun i j => areaCosts_lt) hfin'
  have hdist : ∀ i j i' j', (areaCosts g cmin l0 l1 i j).isSome = true → (areaCosts g cmin l0 l1 i' j').isSome = true →
      costAt (fun c d => (cell g cmin c d).getD 0) l0 l1 i j = costAt (fun c d => (cell g cmin c d).getD 0) l0 l1 i' j' → i = i' ∧ j = j' := by
    intro i j i' j' h1 h2 e
    rw [hcost i j h1, hcost i' j' h2] at e
    obtain ⟨v, hv⟩ := Option.isSome_iff_exists.1 h1
    have hv' := e ▸ hv
    rw [areaCosts_cell] at hv hv'
    obtain ⟨c, c1, hv⟩ := Option.bind_eq_some_iff.1 hv
    obtain ⟨d, d1, hv⟩ := Option.bind_eq_some_iff.1 hv
    obtain ⟨c', c1', hv'⟩ := Option.bind_eq_some_iff.1 hv'
    obtain ⟨d', d1', hv'⟩ := Option.bind_eq_some_iff.1 hv'
    obtain ⟨rfl, rfl⟩ := h.distinct c (List.mem_of_getElem? c1) d (List.mem_of_getElem? d1) c' (List.mem_of_getElem? c1') d'
      (List.mem_of_getElem? d1') v (by rw [alone_cell]; exact hv) (by rw [alone_cell]; exact hv')
    exact ⟨nodup_idx h.nodup0 c1 c1', nodup_idx h.nodup1 d1 d1'⟩
  have hRQ : R = Q := by
    refine solve_simultaneous_unique l0.length l1.length _ _ (fun i j => areaCosts_lt) hfin' hdist R eR Q q1 q2 q3 fun i j c hc hq hcst => ?_
    rw [hcost i j hc] at hcst
    obtain ⟨i', j', c', a1, a2, a3, a4⟩ := qst i j hc hq c hcst
    exact ⟨i', j', c', a1, a2, by rw [hcost i' j' (q1 _ _ a1)]; exact a3, a4⟩
  subst hRQ
  refine ⟨(whereMask l0.length l1.length R).map (fun p => (p.1, p.2, areaCosts g cmin l0 l1 p.1 p.2)),
    (whereMask l0.length l1.length R).filterMap (obsOf l0 l1), ?_, ?_, ?_⟩
  · simp only [areaTracking, trackingDefault, eQ, whereMask_snd_nodup r3, if_true]
  · rw [obsTracking, ← hnear]
    simp only [trackingDefault, eR, whereMask_snd_nodup r3, if_true]
  · rw [List.filterMap_map, List.map_filterMap]
    apply List.filterMap_congr
    rintro ⟨i, j⟩ _
    simp only [Function.comp, contoursOf, obsOf, areaCosts_cell]
    cases l0[i]? <;> cases l1[j]? <;> rfl

theorem Plain.near {g : Areas} {cmin : Rat} {l0 l1 : List (List Pt)} (h : Plain g cmin l0 l1) :
    Distinct (fun c d => (cell g cmin c d).isSome) (fun c d => (cell g cmin c d).getD 0) l0 l1 := by
  intro c hc d hd c' hc' d' hd' h1 h2 e
  obtain ⟨v, hv⟩ := Option.isSome_iff_exists.1 h1
  obtain ⟨v', hv'⟩ := Option.isSome_iff_exists.1 h2
  simp only [hv, hv', Option.getD_some] at e
  subst e
  exact h.distinct c hc d hd c' hc' d' hd' v (by rw [alone_cell]; exact hv) (by rw [alone_cell]; exact hv')

/-- **C204**: the couples of contours which are linked, with their costs, do not depend on the order of the rows; in a region such that no
contour inside would be linked alone with one outside, they are the couples of the whole ocean which are in the region. -/
theorem area_tracking_local {g : Areas} {cmin : Rat} {l0 l1 : List (List Pt)} (h : Plain g cmin l0 l1) :
    ∃ links, areaTracking g cmin l0 l1 = .ok links ∧
      (∀ l0' l1' : List (List Pt), l0.Perm l0' → l1.Perm l1' → ∃ links', areaTracking g cmin l0' l1' = .ok links' ∧
        (links'.filterMap (contoursOf l0' l1')).Perm (links.filterMap (contoursOf l0 l1))) ∧
      ∀ in0 in1 : List Pt → Bool, (∀ c ∈ l0, ∀ d ∈ l1, alone g cmin c d ≠ none → in0 c = in1 d) →
        ∃ links', areaTracking g cmin (l0.filter in0) (l1.filter in1) = .ok links' ∧
          (links'.filterMap (contoursOf (l0.filter in0) (l1.filter in1))).Perm
            ((links.filterMap (contoursOf l0 l1)).filter (fun t => in0 t.1)) := by
  obtain ⟨links, couples, e1, e2, hp⟩ := area_links h
  refine ⟨links, e1, fun l0' l1' p0 p1 => ?_, fun in0 in1 hreg => ?_⟩
  · have h' : Plain g cmin l0' l1' := ⟨p0.nodup_iff.1 h.nodup0, p1.nodup_iff.1 h.nodup1,
      fun a ha x hx a' ha' x' hx' => h.distinct a (p0.mem_iff.2 ha) x (p1.mem_iff.2 hx) a' (p0.mem_iff.2 ha') x' (p1.mem_iff.2 hx')⟩
    obtain ⟨links', couples', e1', e2', hp'⟩ := area_links h'
    obtain ⟨c, c', x1, x2, x3⟩ := tracking_order h.nodup0 h.nodup1 h.near p0 p1
    rw [e2] at x1; cases x1
    rw [e2'] at x2; cases x2
    exact ⟨links', e1', by rw [hp, hp']; exact (x3.map _).symm⟩
  · have h' : Plain g cmin (l0.filter in0) (l1.filter in1) := ⟨h.nodup0.filter _, h.nodup1.filter _,
      fun a ha x hx a' ha' x' hx' => h.distinct a (List.mem_filter.1 ha).1 x (List.mem_filter.1 hx).1 a' (List.mem_filter.1 ha').1 x'
        (List.mem_filter.1 hx').1⟩
    obtain ⟨links', couples', e1', e2', hp'⟩ := area_links h'
    obtain ⟨c, x1, c', x2, x3⟩ := tracking_local h.nodup0 h.nodup1 h.near in0 in1 (fun c hc d hd hn => hreg c hc d hd (by
      rw [alone_cell]; exact Option.isSome_iff_ne_none.1 hn))
    rw [e2] at x1; cases x1
    rw [e2'] at x2; cases x2
    refine ⟨links', e1', ?_⟩
    rw [hp, hp', List.filter_map]
    exact x3.map _

/-- **C204** (links): a link of a dataset is a link of its two contours alone, with the same cost. -/
theorem area_tracking_alone (g : Areas) (cmin : Rat) (l0 l1 : List (List Pt)) :
    ∃ links, areaTracking g cmin l0 l1 = .ok links ∧ ∀ i j v, (i, j, v) ∈ links →
      ∃ c d, l0[i]? = some c ∧ l1[j]? = some d ∧ v = alone g cmin c d ∧ alone g cmin c d ≠ none := by
  have hfin : ∀ i j, (areaCosts g cmin l0 l1 i j).isSome = true → ∃ x, areaCosts g cmin l0 l1 i j = some x :=
    fun i j h => Option.isSome_iff_exists.1 h
  obtain ⟨Q, eQ, q1, q2, q3⟩ := solve_simultaneous_matching l0.length l1.length
    (fun i j => (areaCosts g cmin l0 l1 i j).isSome) (areaCosts g cmin l0 l1) (fun i j => areaCosts_lt) hfin
  refine ⟨(whereMask l0.length l1.length Q).map (fun p => (p.1, p.2, areaCosts g cmin l0 l1 p.1 p.2)), ?_, fun i j v hv => ?_⟩
  · simp only [areaTracking, trackingDefault, eQ, whereMask_snd_nodup q3, if_true]
  · obtain ⟨⟨i', j'⟩, hp, e⟩ := List.mem_map.1 hv
    injection e with e1 e
    injection e with e2 e3
    simp only at e1 e2 e3
    subst e1 e2
    have hq := (mem_whereMask.1 hp).2.2
    obtain ⟨x, hx⟩ := Option.isSome_iff_exists.1 (q1 _ _ hq)
    have hx' := hx
    rw [areaCosts_cell] at hx'
    obtain ⟨c, c1, hx'⟩ := Option.bind_eq_some_iff.1 hx'
    obtain ⟨d, d1, hx'⟩ := Option.bind_eq_some_iff.1 hx'
    refine ⟨c, d, c1, d1, ?_, ?_⟩
    · rw [← e3, alone_cell, hx, hx']
    · rw [alone_cell, hx']
      exact Option.some_ne_none _

/-- Two eddies at each date; the areas say that the first ones have a half in common and the second ones a third. -/
example : ∃ g : Areas, Plain g 0 [[(0, 0), (2, 0), (0, 2)], [(10, 0), (12, 0), (10, 2)]] [[(0, 0), (1, 0), (0, 2)], [(10, 0), (11, 0), (10, 2)]] ∧
    alone g 0 [(0, 0), (2, 0), (0, 2)] [(0, 0), (1, 0), (0, 2)] = some (1 / 2) := by
  refine ⟨⟨fun _ => 6, fun c _ => if c = [(0, 0), (2, 0), (0, 2)] then 4 else 3⟩, ⟨by decide +kernel, by decide +kernel, ?_⟩, ?_⟩
  · intro c hc d hd c' hc' d' hd' v
    rw [alone_cell, alone_cell]
    simp only [List.mem_cons, List.not_mem_nil, or_false] at hc hd hc' hd'
    rcases hc with rfl | rfl <;> rcases hd with rfl | rfl <;> rcases hc' with rfl | rfl <;> rcases hd' with rfl | rfl <;>
      intro h1 h2 <;> first | exact ⟨rfl, rfl⟩ |
        exact absurd (h1.symm.trans (by decide +kernel : _ = (none : Option Rat))) (Option.some_ne_none _) | (exfalso; revert h1; rw [← h2]; decide +kernel)
  · rw [alone_cell]; decide +kernel

end Verif.Trackers
