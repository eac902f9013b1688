import Verif.Matching.Lemmas
import Mathlib.Data.Finset.Max
import Mathlib.Data.Finset.Prod
import Mathlib.Data.Finset.Range
import Mathlib.Data.List.NodupEquivFin

/-!
# C01 - C04: association of observations

Statements only use: the candidate matrix `cand` (true where a link is allowed; false outside `nr × nc`), the cost of a
candidate (`some c`; `none` is `+inf`), and the returned links.
-/

namespace Verif.Matching

variable {κ : Type} [LinearOrder κ]

theorem cle_iff_of_some {x y : Option κ} (h : cle x y) : ∀ c, y = some c → ∃ c', x = some c' ∧ c' ≤ c := by
  rintro c rfl
  cases x with
  | none => simp [cle, clt] at h
  | some c' => exact ⟨c', rfl, by simpa [cle, clt] using h⟩

/-- C01. With finite costs `solve_simultaneous` never fails and returns candidates only, each row and each column at most
once. -/
theorem solve_simultaneous_matching (nr nc : Nat) (cand : Nat → Nat → Bool) (cost : Nat → Nat → Option κ)
    (hdom : ∀ i j, cand i j = true → i < nr ∧ j < nc) (hfin : ∀ i j, cand i j = true → ∃ c, cost i j = some c) :
    ∃ R, solveSimultaneous nr nc cand cost = .ok R ∧
      (∀ i j, R i j = true → cand i j = true) ∧
      (∀ i j j', R i j = true → R i j' = true → j = j') ∧
      (∀ i i' j, R i j = true → R i' j = true → i = i') := by
  obtain ⟨R, e, h1, h2, h3, _⟩ := solveSimultaneous_spec nr nc cand cost hdom (fun i j h => by
    obtain ⟨c, hc⟩ := hfin i j h; simp [hc])
  exact ⟨R, e, h1, h2, h3⟩

/-- C02. A candidate that is not returned loses to a returned link of the same row or column which is not more
expensive. -/
theorem solve_simultaneous_stable (nr nc : Nat) (cand : Nat → Nat → Bool) (cost : Nat → Nat → Option κ)
    (hdom : ∀ i j, cand i j = true → i < nr ∧ j < nc) (hfin : ∀ i j, cand i j = true → ∃ c, cost i j = some c)
    (R : Nat → Nat → Bool) (hR : solveSimultaneous nr nc cand cost = .ok R)
    (i j : Nat) (hc : cand i j = true) (hn : R i j = false) (c : κ) (hcost : cost i j = some c) :
    ∃ i' j' c', R i' j' = true ∧ (i' = i ∨ j' = j) ∧ cost i' j' = some c' ∧ c' ≤ c := by
  obtain ⟨R', e, _, _, _, h4⟩ := solveSimultaneous_spec nr nc cand cost hdom (fun i j h => by
    obtain ⟨c, hc⟩ := hfin i j h; simp [hc])
  rw [hR] at e
  obtain rfl : R = R' := by injection e
  obtain ⟨i', j', h5, h6, h7⟩ := h4 i j hc hn
  obtain ⟨c', e', hle⟩ := cle_iff_of_some h7 c hcost
  exact ⟨i', j', c', h5, h6, e', hle⟩

/-- C02. Maximality: every candidate has its row or its column used. -/
theorem solve_simultaneous_maximal (nr nc : Nat) (cand : Nat → Nat → Bool) (cost : Nat → Nat → Option κ)
    (hdom : ∀ i j, cand i j = true → i < nr ∧ j < nc) (hfin : ∀ i j, cand i j = true → ∃ c, cost i j = some c)
    (R : Nat → Nat → Bool) (hR : solveSimultaneous nr nc cand cost = .ok R)
    (i j : Nat) (hc : cand i j = true) : (∃ j', R i j' = true) ∨ ∃ i', R i' j = true := by
  by_cases h : R i j = true
  · exact Or.inl ⟨j, h⟩
  · obtain ⟨c, hcost⟩ := hfin i j hc
    obtain ⟨i', j', _, h1, h2, _⟩ :=
      solve_simultaneous_stable nr nc cand cost hdom hfin R hR i j hc (by simpa using h) c hcost
    rcases h2 with rfl | rfl
    · exact Or.inl ⟨j', h1⟩
    · exact Or.inr ⟨i', h1⟩

/-- C02. When all candidate costs differ, the result is the only one-to-one selection of candidates that is stable in the
sense of `solve_simultaneous_stable`; so it does not depend on the order of the observations. -/
theorem solve_simultaneous_unique (nr nc : Nat) (cand : Nat → Nat → Bool) (cost : Nat → Nat → Option κ)
    (hdom : ∀ i j, cand i j = true → i < nr ∧ j < nc) (hfin : ∀ i j, cand i j = true → ∃ c, cost i j = some c)
    (hdist : ∀ i j i' j', cand i j = true → cand i' j' = true → cost i j = cost i' j' → i = i' ∧ j = j')
    (R : Nat → Nat → Bool) (hR : solveSimultaneous nr nc cand cost = .ok R)
    (Q : Nat → Nat → Bool) (hQ : ∀ i j, Q i j = true → cand i j = true)
    (hrow : ∀ i j j', Q i j = true → Q i j' = true → j = j')
    (hcol : ∀ i i' j, Q i j = true → Q i' j = true → i = i')
    (hst : ∀ i j c, cand i j = true → Q i j = false → cost i j = some c →
      ∃ i' j' c', Q i' j' = true ∧ (i' = i ∨ j' = j) ∧ cost i' j' = some c' ∧ c' ≤ c) : R = Q := by
  obtain ⟨R', e, r1, r2, r3⟩ := solve_simultaneous_matching nr nc cand cost hdom hfin
  rw [hR] at e
  obtain rfl : R = R' := by injection e
  have rst := solve_simultaneous_stable nr nc cand cost hdom hfin R hR
  by_contra hne
  -- the pairs on which the two selections differ
  let D : Finset (Nat × Nat) := (Finset.range nr ×ˢ Finset.range nc).filter fun p => R p.1 p.2 ≠ Q p.1 p.2
  have hD : ∀ p : Nat × Nat, p ∈ D ↔ R p.1 p.2 ≠ Q p.1 p.2 := by
    intro p
    simp only [D, Finset.mem_filter, Finset.mem_product, Finset.mem_range, and_iff_right_iff_imp]
    intro h
    by_cases hr : R p.1 p.2 = true
    · exact hdom _ _ (r1 _ _ hr)
    · have : Q p.1 p.2 = true := by
        cases hq : Q p.1 p.2
        · simp [hq] at h; exact absurd h hr
        · rfl
      exact hdom _ _ (hQ _ _ this)
  have hcand : ∀ p ∈ D, cand p.1 p.2 = true := by
    intro p hp
    rw [hD] at hp
    by_cases hr : R p.1 p.2 = true
    · exact r1 _ _ hr
    · have : Q p.1 p.2 = true := by
        cases hq : Q p.1 p.2
        · simp [hq] at hp; exact absurd hp hr
        · rfl
      exact hQ _ _ this
  have hnon : D.Nonempty := by
    by_contra hD'
    rw [Finset.not_nonempty_iff_eq_empty] at hD'
    apply hne
    funext i j
    by_contra hij
    have := (hD (i, j)).2 hij
    rw [hD'] at this
    simp at this
  have hval : ∀ p ∈ D, ∃ c, cost p.1 p.2 = some c := fun p hp => hfin _ _ (hcand p hp)
  classical
  obtain ⟨p0, hp0⟩ := hnon
  obtain ⟨c0, _⟩ := hval p0 hp0
  obtain ⟨m, hm, hmin⟩ := Finset.exists_min_image D (fun p => (cost p.1 p.2).getD c0) ⟨p0, hp0⟩
  obtain ⟨c, hc⟩ := hval m hm
  -- a cheaper difference would contradict the choice of `m`
  have key : ∀ i' j' c', (i', j') ∈ D → cost i' j' = some c' → c' ≤ c → i' = m.1 ∧ j' = m.2 := by
    intro i' j' c' h1 h2 h3
    have h4 := hmin (i', j') h1
    simp only [hc, h2, Option.getD_some] at h4
    have : c' = c := le_antisymm h3 h4
    exact hdist _ _ _ _ (hcand _ h1) (hcand _ hm) (by rw [h2, hc, this])
  have hdiff := (hD m).1 hm
  by_cases hr : R m.1 m.2 = true
  · have hq : Q m.1 m.2 = false := by
      cases hq : Q m.1 m.2
      · rfl
      · rw [hr, hq] at hdiff; exact absurd rfl hdiff
    obtain ⟨i', j', c', h1, h2, h3, h4⟩ := hst m.1 m.2 c (hcand m hm) hq hc
    have hin : (i', j') ∈ D := by
      rw [hD]
      intro he
      simp only [h1] at he
      rcases h2 with rfl | rfl
      · have := r2 _ _ _ hr he; subst this; rw [h1] at hq; exact absurd hq (by simp)
      · have := r3 _ _ _ hr he; subst this; rw [h1] at hq; exact absurd hq (by simp)
    obtain ⟨rfl, rfl⟩ := key i' j' c' hin h3 h4
    rw [h1] at hq; exact absurd hq (by simp)
  · have hr : R m.1 m.2 = false := by simpa using hr
    have hq : Q m.1 m.2 = true := by
      cases hq : Q m.1 m.2
      · rw [hr, hq] at hdiff; exact absurd rfl hdiff
      · rfl
    obtain ⟨i', j', c', h1, h2, h3, h4⟩ := rst m.1 m.2 (hcand m hm) hr c hc
    have hin : (i', j') ∈ D := by
      rw [hD]
      intro he
      simp only [h1] at he
      have he := he.symm
      rcases h2 with rfl | rfl
      · have := hrow _ _ _ hq he; subst this; rw [h1] at hr; exact absurd hr (by simp)
      · have := hcol _ _ _ hq he; subst this; rw [h1] at hr; exact absurd hr (by simp)
    obtain ⟨rfl, rfl⟩ := key i' j' c' hin h3 h4
    rw [h1] at hr; exact absurd hr (by simp)

/-! Non-vacuity: a 3 × 3 matrix with a chain of conflicts. -/

/-- Example candidates. -/
def exCand : Nat → Nat → Bool := fun i j => (i, j) ∈ [(0, 0), (0, 1), (1, 1), (2, 2)]
/-- Example costs. -/
def exCost : Nat → Nat → Option Nat := fun i j => some (if i = 0 then (if j = 1 then 1 else 5) else 3)

example : (∀ i j, exCand i j = true → i < 3 ∧ j < 3) ∧ ∀ i j, exCand i j = true → ∃ c, exCost i j = some c := by
  constructor
  · intro i j h
    simp [exCand] at h
    omega
  · intro i j _; exact ⟨_, rfl⟩

example : (solveSimultaneous 3 3 exCand exCost).toOption.map (whereMask 3 3) = some [(0, 1), (2, 2)] := by decide

/-- C01, limit of the code: with infinite (unmasked) costs the function returns a pair that is not a candidate, because
`argmin` cannot tell an infinite cost from a masked one.  Here (0,0) is forbidden and returned. -/
theorem solve_simultaneous_infinite_cost_wrong :
    let cand : Nat → Nat → Bool := fun i j => (i, j) ∈ [(0, 1), (0, 2), (1, 0), (2, 0)]
    let cost : Nat → Nat → Option Nat := fun _ _ => none
    cand 0 0 = false ∧ (solveSimultaneous 3 3 cand cost).toOption.map (whereMask 3 3) = some [(0, 0)] := by
  decide

/-- C01, limit of the code: infinite costs can also exhaust the iteration guard, which raises. -/
theorem solve_simultaneous_infinite_cost_raises :
    let cand : Nat → Nat → Bool := fun i j => (i, j) ∈ [(0, 1), (1, 0), (1, 1)]
    let cost : Nat → Nat → Option Nat := fun _ _ => none
    (match solveSimultaneous 2 2 cand cost with | .error e => some e | .ok _ => none) = some .tooManyIteration := by
  decide

/-! ### The links returned by `tracking` -/

theorem mem_whereMask {nr nc : Nat} {mask : Nat → Nat → Bool} {p : Nat × Nat} :
    p ∈ whereMask nr nc mask ↔ p.1 < nr ∧ p.2 < nc ∧ mask p.1 p.2 = true := by
  obtain ⟨i, j⟩ := p
  simp only [whereMask, List.mem_flatMap, List.mem_range, List.mem_map, List.mem_filter, Prod.mk.injEq]
  constructor
  · rintro ⟨i', hi, j', ⟨hj, hm⟩, rfl, rfl⟩; exact ⟨hi, hj, hm⟩
  · rintro ⟨hi, hj, hm⟩; exact ⟨i, hi, j, ⟨hj, hm⟩, rfl, rfl⟩

theorem whereMask_nodup (nr nc : Nat) (mask : Nat → Nat → Bool) : (whereMask nr nc mask).Nodup := by
  unfold whereMask
  rw [List.nodup_flatMap]
  refine ⟨fun i _ => (List.nodup_range.filter _).map fun a b h => by simpa using h, ?_⟩
  apply List.Pairwise.imp_of_mem (R := fun a b => a ≠ b) _ List.nodup_range
  intro a b _ _ hne
  simp only [Function.onFun, List.Disjoint, List.mem_map]
  rintro p ⟨_, _, rfl⟩ ⟨_, _, h⟩
  simp at h
  exact hne h.1.symm

theorem whereMask_snd_nodup {nr nc : Nat} {mask : Nat → Nat → Bool}
    (hcol : ∀ i i' j, mask i j = true → mask i' j = true → i = i') : ((whereMask nr nc mask).map Prod.snd).Nodup := by
  apply List.Nodup.map_on _ (whereMask_nodup nr nc mask)
  intro p hp q hq e
  rw [mem_whereMask] at hp hq
  have : p.1 = q.1 := hcol _ _ _ hp.2.2 (by rw [e]; exact hq.2.2)
  exact Prod.ext this e

theorem whereMask_fst_nodup {nr nc : Nat} {mask : Nat → Nat → Bool}
    (hrow : ∀ i j j', mask i j = true → mask i j' = true → j = j') : ((whereMask nr nc mask).map Prod.fst).Nodup := by
  apply List.Nodup.map_on _ (whereMask_nodup nr nc mask)
  intro p hp q hq e
  rw [mem_whereMask] at hp hq
  have : p.2 = q.2 := hrow _ _ _ hp.2.2 (by rw [e]; exact hq.2.2)
  exact Prod.ext e this

/-- C01. The default tracker: the duplicate-target exception of `post_process_link` is unreachable, and the links are
candidates with pairwise distinct sources and pairwise distinct targets. -/
theorem tracking_links_one_to_one (nr nc : Nat) (cand : Nat → Nat → Bool) (cost : Nat → Nat → Option κ)
    (hdom : ∀ i j, cand i j = true → i < nr ∧ j < nc) (hfin : ∀ i j, cand i j = true → ∃ c, cost i j = some c) :
    ∃ links, trackingDefault nr nc cand cost = .ok links ∧ (∀ p ∈ links, cand p.1 p.2 = true) ∧
      (links.map Prod.fst).Nodup ∧ (links.map Prod.snd).Nodup := by
  obtain ⟨R, e, h1, h2, h3⟩ := solve_simultaneous_matching nr nc cand cost hdom hfin
  refine ⟨whereMask nr nc R, ?_, ?_, whereMask_fst_nodup h2, whereMask_snd_nodup h3⟩
  · simp [trackingDefault, e, whereMask_snd_nodup h3]
  · intro p hp; exact h1 _ _ (mem_whereMask.1 hp).2.2

/-! ### C03: solve_first -/

/-- C03. `multiple_link=True`: every observation with a candidate gets exactly one link, to a cheapest candidate. -/
theorem solve_first_multiple (nr nc : Nat) (cand : Nat → Nat → Bool) (cost : Nat → Nat → Option κ)
    (hnr : 0 < nr) (hnc : 0 < nc)
    (hdom : ∀ i j, cand i j = true → i < nr ∧ j < nc) (hfin : ∀ i j, cand i j = true → ∃ c, cost i j = some c) :
    ∃ R, solveFirst nr nc cand cost true = .ok R ∧
      (∀ i j, R i j = true → cand i j = true) ∧
      (∀ i, (∃ j, cand i j = true) → ∃ j, R i j = true ∧ (∀ j', R i j' = true → j' = j) ∧
        ∀ j' c', cand i j' = true → cost i j' = some c' → ∃ c, cost i j = some c ∧ c ≤ c') := by
  obtain ⟨R, e, h1, h2⟩ := solveFirst_multi_spec nr nc cand cost hnr hnc hdom (fun i j h => by
    obtain ⟨c, hc⟩ := hfin i j h; simp [hc])
  refine ⟨R, e, h1, ?_⟩
  intro i hi
  obtain ⟨j, h3, h4, h5⟩ := h2 i hi
  exact ⟨j, h3, h4, fun j' c' hj' hc' => cle_iff_of_some (h5 j' hj') c' hc'⟩

/-- C03. `multiple_link=False`: the result is a one-to-one set of candidates, and a lost candidate (i, j) has its target
taken by an earlier row or its row linked to something not more expensive. -/
theorem solve_first_single (nr nc : Nat) (cand : Nat → Nat → Bool) (cost : Nat → Nat → Option κ)
    (hnr : 0 < nr) (hnc : 0 < nc)
    (hdom : ∀ i j, cand i j = true → i < nr ∧ j < nc) (hfin : ∀ i j, cand i j = true → ∃ c, cost i j = some c) :
    ∃ R, solveFirst nr nc cand cost false = .ok R ∧
      (∀ i j, R i j = true → cand i j = true) ∧
      (∀ i j j', R i j = true → R i j' = true → j = j') ∧
      (∀ i i' j, R i j = true → R i' j = true → i = i') ∧
      (∀ i j c, cand i j = true → R i j = false → cost i j = some c →
        (∃ i', i' < i ∧ R i' j = true) ∨ ∃ j' c', R i j' = true ∧ cost i j' = some c' ∧ c' ≤ c) := by
  obtain ⟨R, e, h1, h2, h3, h4⟩ := solveFirst_spec nr nc cand cost hnr hnc hdom (fun i j h => by
    obtain ⟨c, hc⟩ := hfin i j h; simp [hc])
  refine ⟨R, e, h1, h2, h3, ?_⟩
  intro i j c hc hn hcost
  obtain ⟨i', j', hr, ⟨hlt, rfl⟩ | ⟨rfl, hle⟩⟩ := h4 i j hc hn
  · exact Or.inl ⟨i', hlt, hr⟩
  · obtain ⟨c', e', hle⟩ := cle_iff_of_some hle c hcost
    exact Or.inr ⟨j', c', hr, e', hle⟩

/-- C03, limit of the code: on an empty matrix `solve_first` raises (there is no guard as in `solve_simultaneous`). -/
theorem solve_first_empty_raises (nr nc : Nat) (h : nr = 0 ∨ nc = 0) (cand : Nat → Nat → Bool)
    (cost : Nat → Nat → Option κ) (ml : Bool) : solveFirst nr nc cand cost ml = .error .valueError := by
  simp [solveFirst, h]

example : (solveFirst 3 3 exCand exCost false).toOption.map (whereMask 3 3) = some [(0, 1), (2, 2)] := by decide
example : (solveFirst 3 3 exCand exCost true).toOption.map (whereMask 3 3) = some [(0, 1), (1, 1), (2, 2)] := by decide

/-! ### C04: Chelton post-processing -/

theorem zipIdx_snd_unique {l : List (Nat × Nat)} {e e' : (Nat × Nat) × Nat} (h : e ∈ l.zipIdx) (h' : e' ∈ l.zipIdx)
    (heq : e.2 = e'.2) : e = e' := by
  obtain ⟨x, n⟩ := e
  obtain ⟨y, m⟩ := e'
  simp only at heq
  subst heq
  rw [List.mem_zipIdx_iff_getElem?] at h h'
  rw [h] at h'
  simpa using h'

/-- C04. The result is a sub-list of the links; targets are pairwise distinct; every target of the input is still present;
and the kept source has the largest amplitude among all sources linked to that target. -/
theorem post_process_link_spec (amp : Nat → κ) (links : List (Nat × Nat)) :
    (postProcess amp links).Sublist links ∧
    ((postProcess amp links).map Prod.snd).Nodup ∧
    (∀ p ∈ links, ∃ q ∈ postProcess amp links, q.2 = p.2) ∧
    (∀ q ∈ postProcess amp links, ∀ p ∈ links, p.2 = q.2 → amp p.1 ≤ amp q.1) := by
  unfold postProcess
  split
  · rename_i hnd
    refine ⟨List.Sublist.refl _, hnd, fun p hp => ⟨p, hp, rfl⟩, ?_⟩
    intro q hq p hp e
    have : p = q := List.inj_on_of_nodup_map hnd hp hq e
    rw [this]
  · generalize hts : ((List.range ((links.map Prod.snd).foldl max 0 + 1)).filter fun t =>
      decide (1 < (links.map Prod.snd).count t)) = ts
    generalize hmask : ts.foldl (dropLinks amp links.zipIdx) (fun _ => true) = mask
    simp only [hmask]
    have hzip : ∀ p, p ∈ links ↔ ∃ n, (p, n) ∈ links.zipIdx := by
      intro p
      simp only [List.mem_zipIdx_iff_getElem?]
      exact List.mem_iff_getElem?
    have hmem_ts : ∀ t, t ∈ ts ↔ 1 < (links.map Prod.snd).count t := by
      intro t
      rw [← hts, List.mem_filter, List.mem_range, decide_eq_true_eq, and_iff_right_iff_imp]
      intro h
      have : t ∈ links.map Prod.snd := by
        rw [← List.count_pos_iff]; omega
      have := le_foldl_max (links.map Prod.snd) t 0 (Or.inl this)
      omega
    -- the kept element of each target
    have hkeep : ∀ e ∈ links.zipIdx, mask e.2 = true ↔ (e.1.2 ∈ ts → keepPos amp links.zipIdx e.1.2 = some e.2) := by
      intro e he
      rw [← hmask, foldl_dropLinks]
      simp only [true_and]
      constructor
      · intro h ht; exact h _ ht ⟨e, he, rfl, rfl⟩
      · intro h t ht ⟨e', he', e1, e2⟩
        have := zipIdx_snd_unique he' he e1
        subst this
        subst e2
        exact h ht
    -- positions with the same target, target not shared
    have huniq : ∀ e ∈ links.zipIdx, ∀ e' ∈ links.zipIdx, e.1.2 = e'.1.2 → e.1.2 ∉ ts → e = e' := by
      intro e he e' he' heq hts'
      rw [hmem_ts] at hts'
      have h1 := List.mem_zipIdx_iff_getElem?.1 he
      have h2 := List.mem_zipIdx_iff_getElem?.1 he'
      by_contra hne
      have hpos : e.2 ≠ e'.2 := fun h => hne (zipIdx_snd_unique he he' h)
      apply hts'
      have hm1 : (links.map Prod.snd)[e.2]? = some e.1.2 := by simp [h1]
      have hm2 : (links.map Prod.snd)[e'.2]? = some e.1.2 := by simp [h2, heq]
      have : List.Duplicate e.1.2 (links.map Prod.snd) := by
        rw [List.duplicate_iff_exists_distinct_get]
        obtain ⟨l1, g1⟩ := List.getElem?_eq_some_iff.1 hm1
        obtain ⟨l2, g2⟩ := List.getElem?_eq_some_iff.1 hm2
        rcases Nat.lt_or_gt_of_ne hpos with hlt | hlt
        · exact ⟨⟨e.2, l1⟩, ⟨e'.2, l2⟩, hlt, g1.symm, g2.symm⟩
        · exact ⟨⟨e'.2, l2⟩, ⟨e.2, l1⟩, hlt, g2.symm, g1.symm⟩
      exact List.duplicate_iff_two_le_count.1 this
    have hbest : ∀ e ∈ links.zipIdx, mask e.2 = true → ∀ e' ∈ links.zipIdx, e'.1.2 = e.1.2 → amp e'.1.1 ≤ amp e.1.1 := by
      intro e he hm e' he' heq
      by_cases hts' : e.1.2 ∈ ts
      · obtain ⟨k, hk, hk1, hk2, hk3⟩ := keepPos_spec amp links.zipIdx e.1.2 ⟨e, he, rfl⟩
        rw [((hkeep e he).1 hm) hts'] at hk2
        have : e = k := zipIdx_snd_unique he hk (by simpa using hk2)
        subst this
        exact hk3 e' he' heq
      · rw [huniq e he e' he' heq.symm hts']
    refine ⟨?_, ?_, ?_, ?_⟩
    · have h1 : (links.zipIdx.filter fun e => mask e.2).Sublist links.zipIdx := List.filter_sublist
      have h2 := h1.map Prod.fst
      have h3 : links.zipIdx.map Prod.fst = links := by simp [List.zipIdx_map_fst]
      rw [h3] at h2
      exact h2
    · rw [List.map_map]
      have hnd : (links.zipIdx.filter fun e => mask e.2).Nodup := by
        apply List.Nodup.filter
        have : (links.zipIdx.map Prod.snd).Nodup := by
          rw [List.zipIdx_map_snd]; exact List.nodup_range'
        exact List.Nodup.of_map _ this
      apply List.Nodup.map_on _ hnd
      intro e he e' he' heq
      rw [List.mem_filter] at he he'
      simp only [Function.comp] at heq
      by_cases hts' : e.1.2 ∈ ts
      · have k1 := (hkeep e he.1).1 he.2 hts'
        have k2 := (hkeep e' he'.1).1 he'.2 (heq ▸ hts')
        rw [heq, k2] at k1
        exact zipIdx_snd_unique he.1 he'.1 (by simpa using k1.symm)
      · exact huniq e he.1 e' he'.1 heq hts'
    · intro p hp
      obtain ⟨n, hn⟩ := (hzip p).1 hp
      by_cases hts' : p.2 ∈ ts
      · obtain ⟨k, hk, hk1, hk2, _⟩ := keepPos_spec amp links.zipIdx p.2 ⟨(p, n), hn, rfl⟩
        refine ⟨k.1, List.mem_map.2 ⟨k, List.mem_filter.2 ⟨hk, ?_⟩, rfl⟩, hk1⟩
        exact (hkeep k hk).2 fun _ => by rw [hk1]; exact hk2
      · refine ⟨p, List.mem_map.2 ⟨(p, n), List.mem_filter.2 ⟨hn, ?_⟩, rfl⟩, rfl⟩
        exact (hkeep (p, n) hn).2 fun h => absurd h hts'
    · intro q hq p hp heq
      obtain ⟨e, he, rfl⟩ := List.mem_map.1 hq
      rw [List.mem_filter] at he
      obtain ⟨n, hn⟩ := (hzip p).1 hp
      exact hbest e he.1 he.2 (p, n) hn heq

/-- C04. The whole Chelton association is one-to-one, every link goes to a cheapest candidate of its source, and a source
that lost its cheapest target lost it to a source of at least the same amplitude. -/
theorem tracking_chelton_one_to_one (nr nc : Nat) (cand : Nat → Nat → Bool) (cost : Nat → Nat → Option κ) (amp : Nat → κ)
    (hnr : 0 < nr) (hnc : 0 < nc)
    (hdom : ∀ i j, cand i j = true → i < nr ∧ j < nc) (hfin : ∀ i j, cand i j = true → ∃ c, cost i j = some c) :
    ∃ links, trackingChelton nr nc cand cost amp = .ok links ∧
      (links.map Prod.fst).Nodup ∧ (links.map Prod.snd).Nodup ∧
      (∀ p ∈ links, cand p.1 p.2 = true ∧
        ∀ j' c', cand p.1 j' = true → cost p.1 j' = some c' → ∃ c, cost p.1 p.2 = some c ∧ c ≤ c') ∧
      (∀ i, (∃ j, cand i j = true) → ∃ p ∈ links, amp i ≤ amp p.1 ∧ cand i p.2 = true) := by
  obtain ⟨R, e, h1, h2⟩ := solve_first_multiple nr nc cand cost hnr hnc hdom hfin
  obtain ⟨p1, p2, p3, p4⟩ := post_process_link_spec amp (whereMask nr nc R)
  have hrow : ∀ i j j', R i j = true → R i j' = true → j = j' := by
    intro i j j' hj hj'
    obtain ⟨k, _, hk, _⟩ := h2 i ⟨j, h1 _ _ hj⟩
    rw [hk j hj, hk j' hj']
  refine ⟨_, by simp only [trackingChelton, e], (p1.map _).nodup (whereMask_fst_nodup hrow), p2, ?_, ?_⟩
  · intro p hp
    have hpR := (mem_whereMask.1 (p1.subset hp)).2.2
    refine ⟨h1 _ _ hpR, ?_⟩
    obtain ⟨j, hj, _, hj3⟩ := h2 p.1 ⟨p.2, h1 _ _ hpR⟩
    rw [hrow _ _ _ hpR hj]
    exact hj3
  · intro i hi
    obtain ⟨j, hj, _, _⟩ := h2 i hi
    have hc := h1 _ _ hj
    have hmem : (i, j) ∈ whereMask nr nc R := mem_whereMask.2 ⟨(hdom _ _ hc).1, (hdom _ _ hc).2, hj⟩
    obtain ⟨q, hq, hqe⟩ := p3 _ hmem
    exact ⟨q, hq, p4 q hq _ hmem hqe.symm, by rw [hqe]; exact hc⟩

example : postProcess (fun i => i) [(0, 1), (1, 1), (2, 2), (3, 1), (4, 2)] = [(3, 1), (4, 2)] := by decide

end Verif.Matching
