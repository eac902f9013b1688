import Verif.Matching.Local

/-!
# C215: the links of the tracker of Chelton, couple by couple

`solve_first` with several links (src/py_eddy_tracker/observations/observation.py:1467-1514) and `post_process_link`
(src/py_eddy_tracker/featured_tracking/old_tracker_reference.py:60-76) for observations of any kind: without ties the links are determined by the
candidates of each observation.
-/

namespace Verif.Matching

variable {κ : Type} [LinearOrder κ] {α β : Type}

/-! ### Specification -/

/-- `b` is the cheapest candidate of `a`. -/
def Wants (near : α → β → Bool) (score : α → β → κ) (B : List β) (a : α) (b : β) : Prop :=
  b ∈ B ∧ near a b = true ∧ ∀ b' ∈ B, near a b' = true → score a b ≤ score a b'

/-- `b` is the cheapest candidate of `a`, and `a` is the largest of the observations whose cheapest candidate is `b`. -/
def Keeps (near : α → β → Bool) (score : α → β → κ) (amp : α → κ) (A : List α) (B : List β) (a : α) (b : β) : Prop :=
  a ∈ A ∧ Wants near score B a b ∧ ∀ a' ∈ A, Wants near score B a' b → amp a' ≤ amp a

/-- No ties: an observation has no two candidates of the same cost, and a target no two candidates of the same amplitude. -/
structure Untied (near : α → β → Bool) (score : α → β → κ) (amp : α → κ) (A : List α) (B : List β) : Prop where
  cost : ∀ a ∈ A, ∀ b ∈ B, ∀ b' ∈ B, near a b = true → near a b' = true → score a b = score a b' → b = b'
  amp : ∀ a ∈ A, ∀ a' ∈ A, ∀ b ∈ B, near a b = true → near a' b = true → amp a = amp a' → a = a'

/-! ### Proofs -/

theorem where_rows (nr nc : Nat) (mask : Nat → Nat → Bool) : (whereMask nr nc mask).Pairwise (fun a b => a.1 ≤ b.1) := by
  unfold whereMask
  rw [List.pairwise_flatMap]
  refine ⟨fun i _ => ?_, ?_⟩
  · rw [List.pairwise_map]
    exact List.pairwise_of_forall (fun _ _ => le_rfl)
  · refine (List.pairwise_lt_range (n := nr)).imp ?_
    intro i j hij x hx y hy
    obtain ⟨_, _, rfl⟩ := List.mem_map.1 hx
    obtain ⟨_, _, rfl⟩ := List.mem_map.1 hy
    exact le_of_lt hij

/-- **C215** the links are exactly the couples kept. -/
theorem chelton_exact {near : α → β → Bool} {score : α → β → κ} {amp : α → κ} {A : List α} {B : List β} (hA : A.Nodup) (hB : B.Nodup)
    (hA0 : A ≠ []) (hB0 : B ≠ []) (hu : Untied near score amp A B) {cand : Nat → Nat → Bool} {cost : Nat → Nat → Option κ} {ampI : Nat → κ}
    (hdom : ∀ i j, cand i j = true → i < A.length ∧ j < B.length)
    (hcand : ∀ i j a b, A[i]? = some a → B[j]? = some b → cand i j = near a b)
    (hcost : ∀ i j a b, A[i]? = some a → B[j]? = some b → near a b = true → cost i j = some (score a b))
    (hamp : ∀ i a, A[i]? = some a → ampI i = amp a) :
    ∃ links, trackingChelton A.length B.length cand cost ampI = .ok links ∧ links.Pairwise (fun a b => a.1 < b.1) ∧
      (∀ m ∈ links, m.1 < A.length ∧ m.2 < B.length) ∧
      (links.filterMap (obsOf A B)).Nodup ∧ ∀ a b, (a, b) ∈ links.filterMap (obsOf A B) ↔ Keeps near score amp A B a b := by
  have hget : ∀ i j, cand i j = true → ∃ a b, A[i]? = some a ∧ B[j]? = some b ∧ near a b = true := by
    intro i j h
    obtain ⟨h1, h2⟩ := hdom i j h
    exact ⟨_, _, List.getElem?_eq_getElem h1, List.getElem?_eq_getElem h2, by
      rw [← hcand i j _ _ (List.getElem?_eq_getElem h1) (List.getElem?_eq_getElem h2)]; exact h⟩
  obtain ⟨R, e, h1, h2⟩ := solve_first_multiple A.length B.length cand cost (List.length_pos_iff.2 hA0) (List.length_pos_iff.2 hB0) hdom
    (fun i j h => by
      obtain ⟨a, b, ha, hb, hn⟩ := hget i j h
      exact ⟨_, hcost i j a b ha hb hn⟩)
  obtain ⟨p1, p2, p3, p4⟩ := post_process_link_spec ampI (whereMask A.length B.length R)
  have hrow : ∀ i j j', R i j = true → R i j' = true → j = j' := by
    intro i j j' hj hj'
    obtain ⟨k, _, hk, _⟩ := h2 i ⟨j, h1 _ _ hj⟩
    rw [hk j hj, hk j' hj']
  have hRcheap : ∀ (i j j' : Nat) a b b', A[i]? = some a → B[j]? = some b → B[j']? = some b' → R i j = true → near a b' = true →
      score a b ≤ score a b' := by
    intro i j j' a b b' ha hb hb' hR hn
    obtain ⟨k, hk1, hk2, hk3⟩ := h2 i ⟨j, h1 _ _ hR⟩
    obtain rfl := hk2 j hR
    obtain ⟨c, x1, x2⟩ := hk3 j' _ (by rw [hcand i j' a b' ha hb']; exact hn) (hcost i j' a b' ha hb' hn)
    rw [hcost i j a b ha hb (by rw [← hcand i j a b ha hb]; exact h1 _ _ hR)] at x1
    injection x1 with x1
    rw [x1]
    exact x2
  -- the rows of `R`
  have hW : ∀ (i j : Nat) a b, A[i]? = some a → B[j]? = some b → (R i j = true ↔ Wants near score B a b) := by
    intro i j a b ha hb
    constructor
    · intro hR
      refine ⟨List.mem_of_getElem? hb, by rw [← hcand i j a b ha hb]; exact h1 _ _ hR, fun b' hb' hn => ?_⟩
      obtain ⟨j', hj'⟩ := List.getElem?_of_mem hb'
      exact hRcheap i j j' a b b' ha hb hj' hR hn
    · rintro ⟨_, hn, hmin⟩
      obtain ⟨k, hk, _, _⟩ := h2 i ⟨j, by rw [hcand i j a b ha hb]; exact hn⟩
      obtain ⟨a', b', ha', hb', hn'⟩ := hget i k (h1 _ _ hk)
      rw [ha] at ha'; injection ha' with ha'; subst ha'
      have q1 := hmin b' (List.mem_of_getElem? hb') hn'
      have q2 := hRcheap i k j a b' b ha hb' hb hk hn
      obtain rfl := hu.cost a (List.mem_of_getElem? ha) b (List.mem_of_getElem? hb) b' (List.mem_of_getElem? hb') hn hn' (le_antisymm q1 q2)
      obtain rfl := nodup_idx hB hb hb'
      exact hk
  have hmem : ∀ i j, (i, j) ∈ whereMask A.length B.length R ↔ R i j = true := by
    intro i j
    rw [mem_whereMask]
    exact ⟨fun h => h.2.2, fun h => ⟨(hdom _ _ (h1 _ _ h)).1, (hdom _ _ (h1 _ _ h)).2, h⟩⟩
  have hfst : ((postProcess ampI (whereMask A.length B.length R)).map Prod.fst).Nodup := (p1.map _).nodup (whereMask_fst_nodup hrow)
  have hsort : (postProcess ampI (whereMask A.length B.length R)).Pairwise (fun a b => a.1 < b.1) := by
    have s1 := (where_rows A.length B.length R).sublist p1
    have s2 : (postProcess ampI (whereMask A.length B.length R)).Pairwise (fun a b => a.1 ≠ b.1) := by
      unfold List.Nodup at hfst
      rwa [List.pairwise_map] at hfst
    exact (s1.and s2).imp (fun hab => lt_of_le_of_ne hab.1 hab.2)
  refine ⟨_, by simp only [trackingChelton, e], hsort, ?_, ?_, ?_⟩
  · intro m hm
    have := mem_whereMask.1 (p1.subset hm)
    exact ⟨this.1, this.2.1⟩
  · refine List.Nodup.filterMap ?_ (List.Nodup.of_map _ hfst)
    intro x y t hx hy
    obtain ⟨x1, x2⟩ := obsOf_iff.1 hx
    obtain ⟨y1, y2⟩ := obsOf_iff.1 hy
    exact Prod.ext (nodup_idx hA x1 y1) (nodup_idx hB x2 y2)
  · intro a b
    rw [List.mem_filterMap]
    constructor
    · rintro ⟨⟨i, j⟩, hm, ho⟩
      obtain ⟨ha, hb⟩ := obsOf_iff.1 ho
      have hR := (hmem i j).1 (p1.subset hm)
      refine ⟨List.mem_of_getElem? ha, (hW i j a b ha hb).1 hR, fun a' ha' hw => ?_⟩
      obtain ⟨i', hi'⟩ := List.getElem?_of_mem ha'
      have := p4 (i, j) hm (i', j) ((hmem i' j).2 ((hW i' j a' b hi' hb).2 hw)) rfl
      rwa [hamp i' a' hi', hamp i a ha] at this
    · rintro ⟨ha, hw, hmax⟩
      obtain ⟨i, hi⟩ := List.getElem?_of_mem ha
      obtain ⟨j, hj⟩ := List.getElem?_of_mem hw.1
      have hin := (hmem i j).2 ((hW i j a b hi hj).2 hw)
      obtain ⟨⟨i', j'⟩, hq, hqe⟩ := p3 _ hin
      simp only at hqe
      subst hqe
      have hR' := (hmem i' j').1 (p1.subset hq)
      obtain ⟨a', b', ha', hb', hn'⟩ := hget i' j' (h1 _ _ hR')
      rw [hj] at hb'; injection hb' with hb'; subst hb'
      have q1 := hmax a' (List.mem_of_getElem? ha') ((hW i' j' a' b ha' hj).1 hR')
      have q2 := p4 _ hq _ hin rfl
      rw [hamp i a hi, hamp i' a' ha'] at q2
      obtain rfl := hu.amp a ha a' (List.mem_of_getElem? ha') b hw.1 hw.2.1 hn' (le_antisymm q2 q1)
      exact ⟨(i', j'), hq, obsOf_iff.2 ⟨ha', hj⟩⟩

/-- The couples kept do not depend on the rows. -/
theorem keeps_perm {near : α → β → Bool} {score : α → β → κ} {amp : α → κ} {A A' : List α} {B B' : List β} (hA : A.Perm A') (hB : B.Perm B')
    (a : α) (b : β) : Keeps near score amp A' B' a b ↔ Keeps near score amp A B a b := by
  unfold Keeps Wants
  simp only [hA.mem_iff, hB.mem_iff]

/-- The couples kept in a region without candidates outside are those of the whole. -/
theorem keeps_part {near : α → β → Bool} {score : α → β → κ} {amp : α → κ} {A : List α} {B : List β} {inA : α → Bool} {inB : β → Bool}
    (hreg : ∀ a ∈ A, ∀ b ∈ B, near a b = true → inA a = inB b) (a : α) (b : β) :
    Keeps near score amp (A.filter inA) (B.filter inB) a b ↔ Keeps near score amp A B a b ∧ inA a = true := by
  have hw : ∀ a ∈ A, inA a = true → (Wants near score (B.filter inB) a b ↔ Wants near score B a b) := by
    intro a ha hi
    unfold Wants
    constructor
    · rintro ⟨h1, h2, h3⟩
      exact ⟨(List.mem_filter.1 h1).1, h2, fun b' hb' hn => h3 b' (List.mem_filter.2 ⟨hb', by rw [← hreg a ha b' hb' hn]; exact hi⟩) hn⟩
    · rintro ⟨h1, h2, h3⟩
      exact ⟨List.mem_filter.2 ⟨h1, by rw [← hreg a ha b h1 h2]; exact hi⟩, h2, fun b' hb' hn => h3 b' (List.mem_filter.1 hb').1 hn⟩
  constructor
  · rintro ⟨h1, h2, h3⟩
    obtain ⟨ha, hi⟩ := List.mem_filter.1 h1
    have hwa := (hw a ha hi).1 h2
    refine ⟨⟨ha, hwa, fun a' ha' hwa' => ?_⟩, hi⟩
    have hi' : inA a' = true := by rw [hreg a' ha' b hwa'.1 hwa'.2.1, ← hreg a ha b hwa.1 hwa.2.1]; exact hi
    exact h3 a' (List.mem_filter.2 ⟨ha', hi'⟩) ((hw a' ha' hi').2 hwa')
  · rintro ⟨⟨ha, h2, h3⟩, hi⟩
    refine ⟨List.mem_filter.2 ⟨ha, hi⟩, (hw a ha hi).2 h2, fun a' ha' hwa' => ?_⟩
    obtain ⟨m1, m2⟩ := List.mem_filter.1 ha'
    exact h3 a' m1 ((hw a' m1 m2).1 hwa')

end Verif.Matching
