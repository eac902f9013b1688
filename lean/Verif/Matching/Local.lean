import Verif.Matching.Props

/-!
# C193: the links depend on the observations, not on their rows nor on the rest of the ocean

`EddiesObservations.tracking` (src/py_eddy_tracker/observations/observation.py:1524-1546) for observations of any kind: `near` is
`mask_function` and `score` is `cost_function`, which both work couple by couple (observation.py:1287-1318, featured_tracking/area_tracker.py:36-49, 70-77).
-/

namespace Verif.Matching

variable {κ : Type} [LinearOrder κ] {α β : Type}

/-! ### Model -/

/-- `mask_accept_dist` (observation.py:1527) at a row of each dataset. -/
def nearAt (near : α → β → Bool) (A : List α) (B : List β) (i j : Nat) : Bool :=
  match A[i]?, B[j]? with
  | some a, some b => near a b
  | _, _ => false

/-- `cost_mat` (observation.py:1530-1538) at a row of each dataset. -/
def costAt (score : α → β → κ) (A : List α) (B : List β) (i j : Nat) : Option κ :=
  match A[i]?, B[j]? with
  | some a, some b => some (score a b)
  | _, _ => none

/-- The observations of the rows of a link. -/
def obsOf (A : List α) (B : List β) (p : Nat × Nat) : Option (α × β) :=
  match A[p.1]?, B[p.2]? with
  | some a, some b => some (a, b)
  | _, _ => none

/-- `tracking` (observation.py:1524-1546): the couples of observations of the rows `i_self`, `i_other`. -/
def obsTracking (near : α → β → Bool) (score : α → β → κ) (A : List α) (B : List β) : Except Err (List (α × β)) :=
  match trackingDefault A.length B.length (nearAt near A B) (costAt score A B) with
  | .error e => .error e
  | .ok links => .ok (links.filterMap (obsOf A B))

/-! ### Specification -/

/-- No two couples of near observations have the same cost. -/
def Distinct (near : α → β → Bool) (score : α → β → κ) (A : List α) (B : List β) : Prop :=
  ∀ a ∈ A, ∀ b ∈ B, ∀ a' ∈ A, ∀ b' ∈ B, near a b = true → near a' b' = true → score a b = score a' b' → a = a' ∧ b = b'

/-- A one-to-one selection of near observations such that a couple which is left is near a cheaper one. -/
structure Best (near : α → β → Bool) (score : α → β → κ) (A : List α) (B : List β) (L : α → β → Prop) : Prop where
  couple : ∀ a b, L a b → a ∈ A ∧ b ∈ B ∧ near a b = true
  left : ∀ a b b', L a b → L a b' → b = b'
  right : ∀ a a' b, L a b → L a' b → a = a'
  stable : ∀ a ∈ A, ∀ b ∈ B, near a b = true → ¬L a b → ∃ a' b', L a' b' ∧ (a' = a ∨ b' = b) ∧ score a' b' ≤ score a b

/-! ### Proofs -/

theorem nearAt_iff {near : α → β → Bool} {A : List α} {B : List β} {i j : Nat} :
    nearAt near A B i j = true ↔ ∃ a b, A[i]? = some a ∧ B[j]? = some b ∧ near a b = true := by
  unfold nearAt
  cases A[i]? <;> cases B[j]? <;> simp

omit [LinearOrder κ] in
theorem costAt_iff {score : α → β → κ} {A : List α} {B : List β} {i j : Nat} {c : κ} :
    costAt score A B i j = some c ↔ ∃ a b, A[i]? = some a ∧ B[j]? = some b ∧ score a b = c := by
  unfold costAt
  cases A[i]? <;> cases B[j]? <;> simp

theorem obsOf_iff {A : List α} {B : List β} {p : Nat × Nat} {t : α × β} :
    obsOf A B p = some t ↔ A[p.1]? = some t.1 ∧ B[p.2]? = some t.2 := by
  unfold obsOf
  obtain ⟨a, b⟩ := t
  cases A[p.1]? <;> cases B[p.2]? <;> simp

theorem nodup_idx {γ : Type} {l : List γ} (h : l.Nodup) {i j : Nat} {x : γ} (h1 : l[i]? = some x) (h2 : l[j]? = some x) : i = j := by
  obtain ⟨hi, e1⟩ := List.getElem?_eq_some_iff.1 h1
  obtain ⟨hj, e2⟩ := List.getElem?_eq_some_iff.1 h2
  exact (List.Nodup.getElem_inj_iff h).1 (e1.trans e2.symm)

/-- **C193** (characterisation): the links are the only best selection. -/
theorem obs_best {near : α → β → Bool} {score : α → β → κ} {A : List α} {B : List β} (hA : A.Nodup) (hB : B.Nodup)
    (hd : Distinct near score A B) :
    ∃ links, obsTracking near score A B = .ok links ∧ links.Nodup ∧ ∀ L : α → β → Prop, Best near score A B L ↔ ∀ a b, L a b ↔ (a, b) ∈ links := by
  classical
  have hdom : ∀ i j, nearAt near A B i j = true → i < A.length ∧ j < B.length := by
    intro i j h
    obtain ⟨a, b, h1, h2, _⟩ := nearAt_iff.1 h
    exact ⟨(List.getElem?_eq_some_iff.1 h1).1, (List.getElem?_eq_some_iff.1 h2).1⟩
  have hfin : ∀ i j, nearAt near A B i j = true → ∃ c, costAt score A B i j = some c := by
    intro i j h
    obtain ⟨a, b, h1, h2, _⟩ := nearAt_iff.1 h
    exact ⟨_, costAt_iff.2 ⟨a, b, h1, h2, rfl⟩⟩
  have hdist : ∀ i j i' j', nearAt near A B i j = true → nearAt near A B i' j' = true → costAt score A B i j = costAt score A B i' j' →
      i = i' ∧ j = j' := by
    intro i j i' j' h h' e
    obtain ⟨a, b, h1, h2, h3⟩ := nearAt_iff.1 h
    obtain ⟨a', b', h1', h2', h3'⟩ := nearAt_iff.1 h'
    rw [costAt_iff.2 ⟨a, b, h1, h2, rfl⟩] at e
    obtain ⟨x, y, ex, ey, es⟩ := costAt_iff.1 e.symm
    rw [h1'] at ex; cases ex
    rw [h2'] at ey; cases ey
    obtain ⟨rfl, rfl⟩ := hd a (List.mem_of_getElem? h1) b (List.mem_of_getElem? h2) _ (List.mem_of_getElem? h1') _ (List.mem_of_getElem? h2') h3 h3' es.symm
    exact ⟨nodup_idx hA h1 h1', nodup_idx hB h2 h2'⟩
  obtain ⟨R, e, r1, r2, r3⟩ := solve_simultaneous_matching _ _ _ _ hdom hfin
  have rst := solve_simultaneous_stable _ _ _ _ hdom hfin R e
  have htr : trackingDefault A.length B.length (nearAt near A B) (costAt score A B) = .ok (whereMask A.length B.length R) := by
    simp [trackingDefault, e, whereMask_snd_nodup r3]
  have hmem : ∀ a b, (a, b) ∈ (whereMask A.length B.length R).filterMap (obsOf A B) ↔
      ∃ i j, A[i]? = some a ∧ B[j]? = some b ∧ R i j = true := by
    intro a b
    rw [List.mem_filterMap]
    constructor
    · rintro ⟨⟨i, j⟩, hp, ho⟩
      obtain ⟨h1, h2⟩ := obsOf_iff.1 ho
      exact ⟨i, j, h1, h2, (mem_whereMask.1 hp).2.2⟩
    · rintro ⟨i, j, h1, h2, h3⟩
      exact ⟨(i, j), mem_whereMask.2 ⟨(List.getElem?_eq_some_iff.1 h1).1, (List.getElem?_eq_some_iff.1 h2).1, h3⟩, obsOf_iff.2 ⟨h1, h2⟩⟩
  have hbest : Best near score A B (fun a b => (a, b) ∈ (whereMask A.length B.length R).filterMap (obsOf A B)) := by
    refine ⟨fun a b h => ?_, fun a b b' h h' => ?_, fun a a' b h h' => ?_, fun a ha b hb hn hl => ?_⟩
    · obtain ⟨i, j, h1, h2, h3⟩ := (hmem a b).1 h
      obtain ⟨x, y, ex, ey, hxy⟩ := nearAt_iff.1 (r1 i j h3)
      rw [h1] at ex; cases ex
      rw [h2] at ey; cases ey
      exact ⟨List.mem_of_getElem? h1, List.mem_of_getElem? h2, hxy⟩
    · obtain ⟨i, j, h1, h2, h3⟩ := (hmem a b).1 h
      obtain ⟨i', j', h1', h2', h3'⟩ := (hmem a b').1 h'
      obtain rfl := nodup_idx hA h1 h1'
      obtain rfl := r2 _ _ _ h3 h3'
      exact Option.some.inj (h2.symm.trans h2')
    · obtain ⟨i, j, h1, h2, h3⟩ := (hmem a b).1 h
      obtain ⟨i', j', h1', h2', h3'⟩ := (hmem a' b).1 h'
      obtain rfl := nodup_idx hB h2 h2'
      obtain rfl := r3 _ _ _ h3 h3'
      exact Option.some.inj (h1.symm.trans h1')
    · obtain ⟨i, hi⟩ := List.getElem?_of_mem ha
      obtain ⟨j, hj⟩ := List.getElem?_of_mem hb
      have hc := nearAt_iff.2 ⟨a, b, hi, hj, hn⟩
      have hr : R i j = false := by
        cases hr : R i j with
        | false => rfl
        | true => exact absurd ((hmem a b).2 ⟨i, j, hi, hj, hr⟩) hl
      obtain ⟨i', j', c', q1, q2, q3, q4⟩ := rst i j hc hr (score a b) (costAt_iff.2 ⟨a, b, hi, hj, rfl⟩)
      obtain ⟨a', b', x1, x2, rfl⟩ := costAt_iff.1 q3
      refine ⟨a', b', (hmem a' b').2 ⟨i', j', x1, x2, q1⟩, ?_, q4⟩
      rcases q2 with rfl | rfl
      · exact Or.inl (Option.some.inj (x1.symm.trans hi))
      · exact Or.inr (Option.some.inj (x2.symm.trans hj))
  refine ⟨(whereMask A.length B.length R).filterMap (obsOf A B), by rw [obsTracking, htr], ?_, fun L => ⟨fun hL a b => ?_, fun hL => ?_⟩⟩
  · have hn : (whereMask A.length B.length R).Nodup := List.Nodup.of_map _ (whereMask_fst_nodup r2)
    refine List.Nodup.filterMap ?_ hn
    intro p q t hp hq
    obtain ⟨h1, h2⟩ := obsOf_iff.1 hp
    obtain ⟨h3, h4⟩ := obsOf_iff.1 hq
    exact Prod.ext (nodup_idx hA h1 h3) (nodup_idx hB h2 h4)
  · let Q : Nat → Nat → Bool := fun i j => decide (∃ a b, A[i]? = some a ∧ B[j]? = some b ∧ L a b)
    have hQ : ∀ i j, Q i j = true ↔ ∃ a b, A[i]? = some a ∧ B[j]? = some b ∧ L a b := fun i j => by simp [Q]
    have hRQ : R = Q := by
      refine solve_simultaneous_unique _ _ _ _ hdom hfin hdist R e Q (fun i j h => ?_) (fun i j j' h h' => ?_) (fun i i' j h h' => ?_)
        fun i j c hc hq hcost => ?_
      · obtain ⟨a, b, h1, h2, h3⟩ := (hQ i j).1 h
        exact nearAt_iff.2 ⟨a, b, h1, h2, (hL.couple a b h3).2.2⟩
      · obtain ⟨a, b, h1, h2, h3⟩ := (hQ _ _).1 h
        obtain ⟨a', b', h1', h2', h3'⟩ := (hQ _ _).1 h'
        obtain rfl := Option.some.inj (h1.symm.trans h1')
        obtain rfl := hL.left _ _ _ h3 h3'
        exact nodup_idx hB h2 h2'
      · obtain ⟨a, b, h1, h2, h3⟩ := (hQ _ _).1 h
        obtain ⟨a', b', h1', h2', h3'⟩ := (hQ _ _).1 h'
        obtain rfl := Option.some.inj (h2.symm.trans h2')
        obtain rfl := hL.right _ _ _ h3 h3'
        exact nodup_idx hA h1 h1'
      · obtain ⟨a, b, h1, h2, rfl⟩ := costAt_iff.1 hcost
        obtain ⟨x, y, ex, ey, hxy⟩ := nearAt_iff.1 hc
        rw [h1] at ex; cases ex
        rw [h2] at ey; cases ey
        have hn : ¬L a b := fun hl => by
          rw [(hQ i j).2 ⟨a, b, h1, h2, hl⟩] at hq
          exact Bool.noConfusion hq
        obtain ⟨a', b', q1, q2, q3⟩ := hL.stable a (List.mem_of_getElem? h1) b (List.mem_of_getElem? h2) hxy hn
        obtain ⟨m1, m2, _⟩ := hL.couple _ _ q1
        rcases q2 with rfl | rfl
        · obtain ⟨j', hj'⟩ := List.getElem?_of_mem m2
          exact ⟨i, j', _, (hQ _ _).2 ⟨_, _, h1, hj', q1⟩, Or.inl rfl, costAt_iff.2 ⟨_, _, h1, hj', rfl⟩, q3⟩
        · obtain ⟨i', hi'⟩ := List.getElem?_of_mem m1
          exact ⟨i', j, _, (hQ _ _).2 ⟨_, _, hi', h2, q1⟩, Or.inr rfl, costAt_iff.2 ⟨_, _, hi', h2, rfl⟩, q3⟩
    rw [hmem, hRQ]
    constructor
    · intro hl
      obtain ⟨m1, m2, _⟩ := hL.couple _ _ hl
      obtain ⟨i, hi⟩ := List.getElem?_of_mem m1
      obtain ⟨j, hj⟩ := List.getElem?_of_mem m2
      exact ⟨i, j, hi, hj, (hQ _ _).2 ⟨a, b, hi, hj, hl⟩⟩
    · rintro ⟨i, j, hi, hj, hq⟩
      obtain ⟨a', b', x1, x2, hl⟩ := (hQ _ _).1 hq
      rw [hi] at x1; cases x1
      rw [hj] at x2; cases x2
      exact hl
  · have : L = fun a b => (a, b) ∈ (whereMask A.length B.length R).filterMap (obsOf A B) := by
      funext a b
      exact propext (hL a b)
    rw [this]
    exact hbest

/-- The links are a best selection. -/
theorem obs_is_best {near : α → β → Bool} {score : α → β → κ} {A : List α} {B : List β} (hA : A.Nodup) (hB : B.Nodup)
    (hd : Distinct near score A B) : ∃ links, obsTracking near score A B = .ok links ∧ links.Nodup ∧
      Best near score A B (fun a b => (a, b) ∈ links) ∧ ∀ L : α → β → Prop, Best near score A B L → ∀ a b, L a b ↔ (a, b) ∈ links := by
  obtain ⟨links, e, hn, h⟩ := obs_best hA hB hd
  exact ⟨links, e, hn, (h _).2 fun a b => Iff.rfl, fun L => (h L).1⟩

/-- **C193** (order): the links are the same whatever the order of the rows of the two datasets. -/
theorem tracking_order {near : α → β → Bool} {score : α → β → κ} {A A' : List α} {B B' : List β} (hA : A.Nodup) (hB : B.Nodup)
    (hd : Distinct near score A B) (pA : A.Perm A') (pB : B.Perm B') :
    ∃ links links', obsTracking near score A B = .ok links ∧ obsTracking near score A' B' = .ok links' ∧ links.Perm links' := by
  obtain ⟨links, e, n, b, _⟩ := obs_is_best hA hB hd
  obtain ⟨links', e', n', b', u'⟩ := obs_is_best (near := near) (score := score) ((pA.nodup_iff).1 hA) ((pB.nodup_iff).1 hB)
    (fun a ha x hx a' ha' x' hx' => hd a (pA.mem_iff.2 ha) x (pB.mem_iff.2 hx) a' (pA.mem_iff.2 ha') x' (pB.mem_iff.2 hx'))
  refine ⟨links, links', e, e', (List.perm_ext_iff_of_nodup n n').2 fun t => ?_⟩
  obtain ⟨a, x⟩ := t
  refine u' (fun a b => (a, b) ∈ links) ⟨fun a x h => ?_, b.left, b.right, fun a ha x hx => ?_⟩ a x
  · obtain ⟨h1, h2, h3⟩ := b.couple a x h
    exact ⟨pA.mem_iff.1 h1, pB.mem_iff.1 h2, h3⟩
  · exact b.stable a (pA.mem_iff.2 ha) x (pB.mem_iff.2 hx)

/-- **C193** (region): in a region such that no eddy inside is near an eddy outside, the links of the observations of the region are the
links of the whole datasets which are in the region. -/
theorem tracking_local {near : α → β → Bool} {score : α → β → κ} {A : List α} {B : List β} (hA : A.Nodup) (hB : B.Nodup)
    (hd : Distinct near score A B) (inA : α → Bool) (inB : β → Bool)
    (hreg : ∀ a ∈ A, ∀ b ∈ B, near a b = true → inA a = inB b) :
    ∃ links, obsTracking near score A B = .ok links ∧
      ∃ links', obsTracking near score (A.filter inA) (B.filter inB) = .ok links' ∧ links'.Perm (links.filter (fun t => inA t.1)) := by
  obtain ⟨links, e, n, b, _⟩ := obs_is_best hA hB hd
  obtain ⟨links', e', n', b', u'⟩ := obs_is_best (near := near) (score := score) (hA.filter inA) (hB.filter inB)
    (fun a ha x hx a' ha' x' hx' => hd a (List.mem_filter.1 ha).1 x (List.mem_filter.1 hx).1 a' (List.mem_filter.1 ha').1 x' (List.mem_filter.1 hx').1)
  refine ⟨links, e, links', e', (List.perm_ext_iff_of_nodup n' (n.filter _)).2 fun t => ?_⟩
  obtain ⟨a, x⟩ := t
  rw [List.mem_filter]
  refine (u' (fun a b => (a, b) ∈ links ∧ inA a = true) ⟨?_, ?_, ?_, ?_⟩ a x).symm
  · rintro a x ⟨h, hi⟩
    obtain ⟨h1, h2, h3⟩ := b.couple a x h
    exact ⟨List.mem_filter.2 ⟨h1, hi⟩, List.mem_filter.2 ⟨h2, (hreg a h1 x h2 h3) ▸ hi⟩, h3⟩
  · exact fun a x x' h h' => b.left a x x' h.1 h'.1
  · exact fun a a' x h h' => b.right a a' x h.1 h'.1
  · intro a ha x hx hn hl
    obtain ⟨ha, hi⟩ := List.mem_filter.1 ha
    obtain ⟨hx, hj⟩ := List.mem_filter.1 hx
    obtain ⟨a', x', q1, q2, q3⟩ := b.stable a ha x hx hn (fun h => hl ⟨h, hi⟩)
    refine ⟨a', x', ⟨q1, ?_⟩, q2, q3⟩
    obtain ⟨m1, m2, m3⟩ := b.couple _ _ q1
    rcases q2 with rfl | rfl
    · exact hi
    · rw [hreg a' m1 x' m2 m3]
      exact hj

/-- **C193** (direction of time): the links from the second dataset to the first one are the same. -/
theorem tracking_reverse {near : α → β → Bool} {score : α → β → κ} {A : List α} {B : List β} (hA : A.Nodup) (hB : B.Nodup)
    (hd : Distinct near score A B) :
    ∃ links links', obsTracking near score A B = .ok links ∧ obsTracking (fun b a => near a b) (fun b a => score a b) B A = .ok links' ∧
      links'.Perm (links.map Prod.swap) := by
  obtain ⟨links, e, n, b, _⟩ := obs_is_best hA hB hd
  obtain ⟨links', e', n', b', u'⟩ := obs_is_best (near := fun b a => near a b) (score := fun b a => score a b) hB hA
    (fun x hx a ha x' hx' a' ha' h h' hs => (hd a ha x hx a' ha' x' hx' h h' hs).symm)
  refine ⟨links, links', e, e', (List.perm_ext_iff_of_nodup n' (n.map Prod.swap_injective)).2 fun t => ?_⟩
  obtain ⟨x, a⟩ := t
  have hsw : (x, a) ∈ links.map Prod.swap ↔ (a, x) ∈ links := by
    rw [List.mem_map]
    constructor
    · rintro ⟨⟨p, q⟩, h, he⟩
      cases he
      exact h
    · exact fun h => ⟨(a, x), h, rfl⟩
  rw [hsw]
  refine (u' (fun x a => (a, x) ∈ links) ⟨?_, ?_, ?_, ?_⟩ x a).symm
  · intro x a h
    obtain ⟨h1, h2, h3⟩ := b.couple a x h
    exact ⟨h2, h1, h3⟩
  · exact fun x a a' h h' => b.right a a' x h h'
  · exact fun x x' a h h' => b.left a x x' h h'
  · intro x hx a ha hn hl
    obtain ⟨a', x', q1, q2, q3⟩ := b.stable a ha x hx hn hl
    exact ⟨x', a', q1, q2.symm, q3⟩

/-- The costs must differ: with equal costs the first row is taken. -/
theorem tracking_order_ties : ∃ (A B B' : List Nat) (score : Nat → Nat → Nat), A.Nodup ∧ B.Nodup ∧ B.Perm B' ∧
    obsTracking (fun _ _ => true) score A B = .ok [(0, 1)] ∧ obsTracking (fun _ _ => true) score A B' = .ok [(0, 2)] :=
  ⟨[0], [1, 2], [2, 1], fun _ _ => 7, by decide, by decide, by decide, by decide +kernel, by decide +kernel⟩

/-- Eddies at positions of a line; the links are between the nearest ones. -/
def exNear (a b : Int) : Bool := decide ((a - b).natAbs ≤ 4)

/-- Distance. -/
def exScore (a b : Int) : Nat := (a - b).natAbs

example : obsTracking exNear exScore [0, 3, 50, 90] [2, 6, 51, 10] = .ok [(3, 2), (50, 51)] ∧ ([0, 3, 50, 90] : List Int).Nodup ∧
    ([2, 6, 51, 10] : List Int).Nodup := ⟨by decide +kernel, by decide, by decide⟩

example : Distinct exNear (fun a b => (10 * exScore a b + b.natAbs)) [0, 3, 50, 90] [2, 6, 51, 10] := by unfold Distinct; decide

example : ∀ a ∈ ([0, 3, 50, 90] : List Int), ∀ b ∈ ([2, 6, 51, 10] : List Int), exNear a b = true → decide (a < 20) = decide (b < 20) := by decide

end Verif.Matching
