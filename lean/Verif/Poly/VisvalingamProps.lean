import Verif.Poly.Visvalingam
import Mathlib.Data.List.Perm.Subperm

/-!
# C37: polygon reduction
-/

namespace Verif.Poly

/-! ### Specification: successive removal of a vertex of least area -/

/-- `q` is the vertex which follows `i` among the vertices which are not removed, around the polygon of `n` vertices. -/
def NextIn (n : Nat) (removed : Nat → Bool) (i q : Nat) : Prop :=
  q < n ∧ removed q = false ∧
  ((i < q ∧ ∀ k, i < k → k < q → removed k = true) ∨ (q ≤ i ∧ ∀ k, k < n → removed k = false → q ≤ k ∧ k ≤ i))

/-- `p` and `q` are the neighbours of `i` among the vertices which are not removed. -/
def Neighbours (n : Nat) (removed : Nat → Bool) (p i q : Nat) : Prop :=
  p < n ∧ removed p = false ∧ NextIn n removed p i ∧ NextIn n removed i q

/-- `Reduction P n r r' k`: from the removed set `r`, `k` vertices are removed one by one to get `r'`; each of them has the least
area of triangle with its neighbours among the vertices left at this time. -/
inductive Reduction (P : Nat → Pt) (n : Nat) : (Nat → Bool) → (Nat → Bool) → Nat → Prop
  | done (r : Nat → Bool) : Reduction P n r r 0
  | step {r r' : Nat → Bool} {p i q k : Nat} : i < n → r i = false → Neighbours n r p i q →
      (∀ p' j q', j < n → r j = false → Neighbours n r p' j q' → triArea P p i q ≤ triArea P p' j q') →
      Reduction P n (Function.update r i true) r' k → Reduction P n r r' (k + 1)

/-! ### Neighbours -/

theorem NextIn.unique {n : Nat} {r : Nat → Bool} {i q q' : Nat} (h : NextIn n r i q) (h' : NextIn n r i q') : q = q' := by
  obtain ⟨hq, rq, h⟩ := h
  obtain ⟨hq', rq', h'⟩ := h'
  rcases h with ⟨h1, h2⟩ | ⟨h1, h2⟩ <;> rcases h' with ⟨h1', h2'⟩ | ⟨h1', h2'⟩
  · by_contra hne
    rcases Nat.lt_or_ge q q' with hlt | hge
    · have := h2' q h1 hlt; simp [rq] at this
    · have := h2 q' h1' (by omega); simp [rq'] at this
  · have := h2' q hq rq; omega
  · have := h2 q' hq' rq'; omega
  · have := h2 q' hq' rq'; have := h2' q hq rq; omega

theorem NextIn.unique_prev {n : Nat} {r : Nat → Bool} {p p' i : Nat} (hp : p < n) (rp : r p = false) (hp' : p' < n)
    (rp' : r p' = false) (h : NextIn n r p i) (h' : NextIn n r p' i) : p = p' := by
  obtain ⟨hq, rq, h⟩ := h
  obtain ⟨_, _, h'⟩ := h'
  rcases h with ⟨h1, h2⟩ | ⟨h1, h2⟩ <;> rcases h' with ⟨h1', h2'⟩ | ⟨h1', h2'⟩
  · by_contra hne
    rcases Nat.lt_or_ge p p' with hlt | hge
    · have := h2 p' hlt h1'; simp [rp'] at this
    · have := h2' p (by omega) h1; simp [rp] at this
  · have := h2' p hp rp; omega
  · have := h2 p' hp' rp'; omega
  · have := h2 p' hp' rp'; have := h2' p hp rp; omega

/-- The neighbours of a removed vertex become neighbours. -/
theorem NextIn.trans {n : Nat} {r : Nat → Bool} {i0 i1 i2 : Nat} (hi1 : i1 < n) (r1 : r i1 = false) (h : NextIn n r i0 i1)
    (h' : NextIn n r i1 i2) (hi0 : i0 < n) (r0 : r i0 = false) (h21 : i2 ≠ i1) :
    NextIn n (Function.update r i1 true) i0 i2 := by
  obtain ⟨_, _, h⟩ := h
  obtain ⟨hq, rq, h'⟩ := h'
  have hu : ∀ k, (Function.update r i1 true) k = true ↔ (k = i1 ∨ r k = true) := by
    intro k
    by_cases hk : k = i1
    · subst hk; simp
    · rw [Function.update_of_ne hk]; simp [hk]
  have hf : ∀ k, (Function.update r i1 true) k = false ↔ (k ≠ i1 ∧ r k = false) := by
    intro k
    by_cases hk : k = i1
    · subst hk; simp
    · rw [Function.update_of_ne hk]; simp [hk]
  refine ⟨hq, (hf i2).2 ⟨h21, rq⟩, ?_⟩
  rcases h with ⟨h1, h2⟩ | ⟨h1, h2⟩ <;> rcases h' with ⟨h1', h2'⟩ | ⟨h1', h2'⟩
  · left
    refine ⟨by omega, fun k hk1 hk2 => (hu k).2 ?_⟩
    rcases Nat.lt_trichotomy k i1 with hk | hk | hk
    · exact Or.inr (h2 k hk1 hk)
    · exact Or.inl hk
    · exact Or.inr (h2' k hk hk2)
  · -- i0 < i1, i2 first
    right
    have := h2' i0 hi0 r0
    refine ⟨by omega, fun k hk rk => ?_⟩
    obtain ⟨hk1, rk⟩ := (hf k).1 rk
    have := h2' k hk rk
    refine ⟨this.1, ?_⟩
    by_contra hgt
    have := h2 k (by omega) (by omega)
    simp [rk] at this
  · right
    have := h2 i2 hq rq
    refine ⟨by omega, fun k hk rk => ?_⟩
    obtain ⟨hk1, rk⟩ := (hf k).1 rk
    have := h2 k hk rk
    refine ⟨?_, this.2⟩
    by_contra hgt
    have := h2' k (by omega) (by omega)
    simp [rk] at this
  · have := h2 i2 hq rq; have := h2' i0 hi0 r0; omega

/-- Neighbours stay neighbours when another vertex is removed. -/
theorem NextIn.mono {n : Nat} {r : Nat → Bool} {i q x : Nat} (h : NextIn n r i q) (hq : q ≠ x) :
    NextIn n (Function.update r x true) i q := by
  obtain ⟨hqn, rq, h⟩ := h
  have hu : ∀ k, r k = true → (Function.update r x true) k = true := by
    intro k hk
    by_cases hkx : k = x
    · subst hkx; simp
    · rw [Function.update_of_ne hkx]; exact hk
  have hf : ∀ k, (Function.update r x true) k = false → r k = false := by
    intro k hk
    by_contra hn
    simp only [Bool.not_eq_false] at hn
    rw [hu k hn] at hk; cases hk
  refine ⟨hqn, by rw [Function.update_of_ne hq]; exact rq, ?_⟩
  rcases h with ⟨h1, h2⟩ | ⟨h1, h2⟩
  · exact Or.inl ⟨h1, fun k a b => hu k (h2 k a b)⟩
  · exact Or.inr ⟨h1, fun k a b => h2 k a (hf k b)⟩

/-! ### Invariant of the main loop -/

/-- Next vertex according to the arrays of the code. -/
def nx (n : Nat) (s : VState) (b : Nat) : Nat := (s.next b).getD ((b + 1) % n)
/-- Previous vertex according to the arrays of the code. -/
def pv (n : Nat) (s : VState) (b : Nat) : Nat := (s.prev b).getD ((b + n - 1) % n)

/-- Vertices which are not removed. -/
def alive (n : Nat) (r : Nat → Bool) : List Nat := (List.range n).filter (fun i => !r i)

theorem mem_alive {n : Nat} {r : Nat → Bool} {b : Nat} : b ∈ alive n r ↔ b < n ∧ r b = false := by
  unfold alive; simp

theorem alive_nodup (n : Nat) (r : Nat → Bool) : (alive n r).Nodup := List.Nodup.filter _ List.nodup_range

theorem entry_inj {P : Nat → Pt} {a b c a' b' c' : Nat} (h : entry P a b c = entry P a' b' c') : a = a' ∧ b = b' ∧ c = c' := by
  unfold entry at h
  have h := congrArg (fun e : Entry => (ofLex e).2) h
  have h1 := congrArg (fun e => (ofLex e).1) h
  have h2 := congrArg (fun e => (ofLex (ofLex e).2).1) h
  have h3 := congrArg (fun e => (ofLex (ofLex e).2).2) h
  exact ⟨h1, h2, h3⟩

structure Inv (P : Nat → Pt) (n : Nat) (s : VState) : Prop where
  sorted : s.heap.Pairwise (· ≤ ·)
  count : s.nb = (alive n s.removed).length
  next : ∀ b, b < n → s.removed b = false → NextIn n s.removed b (nx n s b)
  prev : ∀ b, b < n → s.removed b = false → Neighbours n s.removed (pv n s b) b (nx n s b)
  heap : ∀ e ∈ s.heap, ∃ a b c, e = entry P a b c ∧
    (s.removed a = false → s.removed c = false → b < n ∧ s.removed b = false ∧ a = pv n s b ∧ c = nx n s b)
  once : ∀ b, b < n → s.removed b = false → s.heap.count (entry P (pv n s b) b (nx n s b)) = 1

theorem push_perm (e : Entry) (h : List Entry) : (push e h).Perm (e :: h) := List.perm_orderedInsert _ _ _

theorem push_sorted (e : Entry) {h : List Entry} (hs : h.Pairwise (· ≤ ·)) : (push e h).Pairwise (· ≤ ·) :=
  List.Pairwise.orderedInsert _ _ hs

theorem Inv.drop {P : Nat → Pt} {n : Nat} {s : VState} (hi : Inv P n s) {a b c : Nat} {h : List Entry}
    (hh : s.heap = entry P a b c :: h) (hst : s.removed a = true ∨ s.removed c = true) : Inv P n { s with heap := h } := by
  refine ⟨?_, hi.count, hi.next, hi.prev, ?_, ?_⟩
  · have := hi.sorted; rw [hh] at this; exact (List.pairwise_cons.1 this).2
  · intro e he
    exact hi.heap e (by rw [hh]; exact List.mem_cons_of_mem _ he)
  · intro j hj rj
    have h1 := hi.once j hj rj
    rw [hh] at h1
    have hne : entry P a b c ≠ entry P (pv n s j) j (nx n s j) := by
      intro he
      obtain ⟨e1, e2, e3⟩ := entry_inj he
      have hn := hi.prev j hj rj
      rcases hst with hst | hst
      · rw [e1, hn.2.1] at hst; cases hst
      · rw [e3, hn.2.2.2.2.1] at hst; cases hst
    rw [List.count_cons_of_ne hne] at h1
    exact h1

theorem length_le_two {n : Nat} {r : Nat → Bool} {x y : Nat} (h : ∀ k, k < n → r k = false → k = x ∨ k = y) :
    (alive n r).length ≤ 2 := by
  have hsub : alive n r ⊆ [x, y] := by
    intro k hk
    obtain ⟨h1, h2⟩ := mem_alive.1 hk
    rcases h k h1 h2 with rfl | rfl <;> simp
  have := ((alive_nodup n r).subperm hsub).length_le
  simpa using this

theorem alive_update {n : Nat} {r : Nat → Bool} {i : Nat} (hi : i < n) (ri : r i = false) :
    (alive n (Function.update r i true)).length + 1 = (alive n r).length := by
  have hp : (i :: alive n (Function.update r i true)).Perm (alive n r) := by
    rw [List.perm_ext_iff_of_nodup]
    · intro k
      simp only [List.mem_cons, mem_alive]
      by_cases hk : k = i
      · subst hk; simp [hi, ri]
      · rw [Function.update_of_ne hk]; simp [hk]
    · refine List.nodup_cons.2 ⟨?_, alive_nodup _ _⟩
      rw [mem_alive]; simp
    · exact alive_nodup _ _
  simpa using hp.length_eq

/-- The neighbours of a vertex are distinct, and distinct from it, while three vertices are left. -/
theorem Neighbours.distinct {n : Nat} {r : Nat → Bool} {p i q : Nat} (hi : i < n) (ri : r i = false) (h : Neighbours n r p i q)
    (h3 : 3 ≤ (alive n r).length) : p ≠ i ∧ q ≠ i ∧ p ≠ q := by
  obtain ⟨hp, rp, ⟨_, _, h1⟩, ⟨hq, rq, h2⟩⟩ := h
  have hno : ∀ x y, ¬ ∀ k, k < n → r k = false → k = x ∨ k = y := fun x y hh => by
    have := length_le_two hh; omega
  refine ⟨?_, ?_, ?_⟩
  · rintro rfl
    rcases h1 with ⟨h, _⟩ | ⟨_, h⟩
    · omega
    · exact hno p p (fun k hk rk => by have := h k hk rk; left; omega)
  · rintro rfl
    rcases h2 with ⟨h, _⟩ | ⟨_, h⟩
    · omega
    · exact hno q q (fun k hk rk => by have := h k hk rk; left; omega)
  · rintro rfl
    refine hno p i (fun k hk rk => ?_)
    rcases h1 with ⟨a1, b1⟩ | ⟨a1, b1⟩ <;> rcases h2 with ⟨a2, b2⟩ | ⟨a2, b2⟩
    · omega
    · have := b2 k hk rk
      by_contra hn
      have := b1 k (by omega) (by omega)
      simp [rk] at this
    · have := b1 k hk rk
      by_contra hn
      have := b2 k (by omega) (by omega)
      simp [rk] at this
    · have := b1 k hk rk; have := b2 k hk rk; omega

theorem Inv.remove {P : Nat → Pt} {n : Nat} {s : VState} (hi : Inv P n s) {i0 i1 i2 : Nat} {h : List Entry}
    (hh : s.heap = entry P i0 i1 i2 :: h) (r0 : s.removed i0 = false) (r2 : s.removed i2 = false) (h3 : 3 ≤ s.nb) :
    Inv P n (vremove P n s i0 i1 i2 h) := by
  -- the triangle is the current one of its vertex
  obtain ⟨hi1, r1, e0, e2⟩ : i1 < n ∧ s.removed i1 = false ∧ i0 = pv n s i1 ∧ i2 = nx n s i1 := by
    obtain ⟨a, b, c, he, hcur⟩ := hi.heap (entry P i0 i1 i2) (by rw [hh]; exact List.mem_cons_self)
    obtain ⟨rfl, rfl, rfl⟩ := entry_inj he
    exact hcur r0 r2
  have hnb := hi.prev i1 hi1 r1
  rw [← e0, ← e2] at hnb
  obtain ⟨d01, d21, d02⟩ := hnb.distinct hi1 r1 (by rw [← hi.count]; exact h3)
  obtain ⟨hi0, _, hn01, hn12⟩ := hnb
  have hi2 : i2 < n := hn12.1
  -- neighbours of i0 and i2
  have hnx0 : nx n s i0 = i1 := (hi.next i0 hi0 r0).unique hn01
  have hpv2 : pv n s i2 = i1 :=
    NextIn.unique_prev (hi.prev i2 hi2 r2).1 (hi.prev i2 hi2 r2).2.1 hi1 r1 (hi.prev i2 hi2 r2).2.2.1 hn12
  -- the arrays after the removal
  have hrm : ∀ k, (vremove P n s i0 i1 i2 h).removed k = false ↔ k ≠ i1 ∧ s.removed k = false := by
    intro k
    show (Function.update s.removed i1 true) k = false ↔ _
    by_cases hk : k = i1
    · subst hk; simp
    · rw [Function.update_of_ne hk]; simp [hk]
  have hnx : ∀ b, nx n (vremove P n s i0 i1 i2 h) b = if b = i0 then i2 else nx n s b := by
    intro b
    unfold nx vremove
    by_cases hb : b = i0
    · subst hb; simp
    · simp [hb, Function.update_of_ne hb]
  have hpv : ∀ b, pv n (vremove P n s i0 i1 i2 h) b = if b = i2 then i0 else pv n s b := by
    intro b
    unfold pv vremove
    by_cases hb : b = i2
    · subst hb; simp
    · simp [hb, Function.update_of_ne hb]
  have hremoved : (vremove P n s i0 i1 i2 h).removed = Function.update s.removed i1 true := rfl
  have hnext : ∀ b, b < n → (vremove P n s i0 i1 i2 h).removed b = false →
      NextIn n (vremove P n s i0 i1 i2 h).removed b (nx n (vremove P n s i0 i1 i2 h) b) := by
    intro b hb rb
    obtain ⟨hb1, rb⟩ := (hrm b).1 rb
    rw [hnx, hremoved]
    by_cases hb0 : b = i0
    · subst hb0
      rw [if_pos rfl]
      exact NextIn.trans hi1 r1 hn01 hn12 hi0 r0 d21
    · rw [if_neg hb0]
      refine (hi.next b hb rb).mono ?_
      intro he
      have := hi.next b hb rb
      rw [he] at this
      exact hb0 (NextIn.unique_prev hb rb hi0 r0 this hn01)
  have hprev : ∀ b, b < n → (vremove P n s i0 i1 i2 h).removed b = false →
      Neighbours n (vremove P n s i0 i1 i2 h).removed (pv n (vremove P n s i0 i1 i2 h) b) b (nx n (vremove P n s i0 i1 i2 h) b) := by
    intro b hb rb'
    obtain ⟨hb1, rb⟩ := (hrm b).1 rb'
    have hp := hi.prev b hb rb
    have hx := hnext b hb rb'
    rw [hpv]
    by_cases hb2 : b = i2
    · subst hb2
      rw [if_pos rfl]
      refine ⟨hi0, (hrm i0).2 ⟨d01, r0⟩, ?_, hx⟩
      rw [hremoved]
      exact NextIn.trans hi1 r1 hn01 hn12 hi0 r0 d21
    · rw [if_neg hb2]
      have hne : pv n s b ≠ i1 := by
        intro he
        have := hp.2.2.1
        rw [he] at this
        exact hb2 (this.unique hn12)
      refine ⟨hp.1, (hrm _).2 ⟨hne, hp.2.1⟩, ?_, hx⟩
      rw [hremoved]
      exact hp.2.2.1.mono hb1
  -- the two new triangles
  have hn1 : ((Function.update s.prev i2 (some i0)) i0).getD ((i0 + n - 1) % n) = pv n s i0 := by
    rw [Function.update_of_ne d02]; rfl
  have hn2 : ((Function.update s.next i0 (some i2)) i2).getD ((i2 + 1) % n) = nx n s i2 := by
    rw [Function.update_of_ne (Ne.symm d02)]; rfl
  have hheap : (vremove P n s i0 i1 i2 h).heap = push (entry P i0 i2 (nx n s i2)) (push (entry P (pv n s i0) i0 i2) h) := by
    show push _ (push _ h) = _
    rw [hn1, hn2]
  have hperm : (vremove P n s i0 i1 i2 h).heap.Perm (entry P i0 i2 (nx n s i2) :: entry P (pv n s i0) i0 i2 :: h) := by
    rw [hheap]
    exact (push_perm _ _).trans ((push_perm _ _).cons _)
  have hnot : entry P i0 i1 i2 ∉ h := by
    have := hi.once i1 hi1 r1
    rw [← e0, ← e2, hh, List.count_cons_self] at this
    exact List.count_eq_zero.1 (by omega)
  -- old entries with both ends left are current and do not involve the removed vertex
  have hold : ∀ e ∈ h, ∃ a b c, e = entry P a b c ∧
      ((vremove P n s i0 i1 i2 h).removed a = false → (vremove P n s i0 i1 i2 h).removed c = false →
        b < n ∧ s.removed b = false ∧ a = pv n s b ∧ c = nx n s b ∧ b ≠ i0 ∧ b ≠ i1 ∧ b ≠ i2) := by
    intro e he
    obtain ⟨a, b, c, rfl, hcur⟩ := hi.heap e (by rw [hh]; exact List.mem_cons_of_mem _ he)
    refine ⟨a, b, c, rfl, fun ra rc => ?_⟩
    obtain ⟨ha1, ra⟩ := (hrm a).1 ra
    obtain ⟨hc1, rc⟩ := (hrm c).1 rc
    obtain ⟨hb, rb, ea, ec⟩ := hcur ra rc
    refine ⟨hb, rb, ea, ec, ?_, ?_, ?_⟩
    · rintro rfl; exact hc1 (ec.trans hnx0)
    · rintro rfl
      rw [← e0] at ea; rw [← e2] at ec
      subst ea; subst ec
      exact hnot he
    · rintro rfl; exact ha1 (ea.trans hpv2)
  refine ⟨?_, ?_, hnext, hprev, ?_, ?_⟩
  · rw [hheap]
    apply push_sorted
    apply push_sorted
    have := hi.sorted; rw [hh] at this; exact (List.pairwise_cons.1 this).2
  · show s.nb - 1 = _
    rw [hremoved]
    have := alive_update hi1 r1
    rw [hi.count]; omega
  · intro e he
    rw [hperm.mem_iff] at he
    rcases List.mem_cons.1 he with rfl | he
    · refine ⟨i0, i2, nx n s i2, rfl, fun _ _ => ⟨hi2, (hrm i2).2 ⟨d21, r2⟩, ?_, ?_⟩⟩
      · rw [hpv, if_pos rfl]
      · rw [hnx, if_neg (Ne.symm d02)]
    · rcases List.mem_cons.1 he with rfl | he
      · refine ⟨pv n s i0, i0, i2, rfl, fun _ _ => ⟨hi0, (hrm i0).2 ⟨d01, r0⟩, ?_, ?_⟩⟩
        · rw [hpv, if_neg d02]
        · rw [hnx, if_pos rfl]
      · obtain ⟨a, b, c, rfl, hcur⟩ := hold e he
        refine ⟨a, b, c, rfl, fun ra rc => ?_⟩
        obtain ⟨hb, rb, ea, ec, b0, b1, b2⟩ := hcur ra rc
        refine ⟨hb, (hrm b).2 ⟨b1, rb⟩, ?_, ?_⟩
        · rw [hpv, if_neg b2]; exact ea
        · rw [hnx, if_neg b0]; exact ec
  · intro b hb rb'
    obtain ⟨hb1, rb⟩ := (hrm b).1 rb'
    -- an entry of the old heap with the ends of a current triangle of i0 or i2 does not exist
    have hzero : ∀ a c, (vremove P n s i0 i1 i2 h).removed a = false → (vremove P n s i0 i1 i2 h).removed c = false →
        (b = i0 ∨ b = i2) → h.count (entry P a b c) = 0 := by
      intro a c ra rc hb02
      rw [List.count_eq_zero]
      intro hm
      obtain ⟨a', b', c', he, hcur⟩ := hold _ hm
      obtain ⟨rfl, rfl, rfl⟩ := entry_inj he
      obtain ⟨_, _, _, _, b0, _, b2⟩ := hcur ra rc
      rcases hb02 with h | h
      · exact b0 h
      · exact b2 h
    have hpb := hprev b hb rb'
    rw [hperm.count_eq]
    by_cases hb0 : b = i0
    · have hz := hzero _ _ hpb.2.1 hpb.2.2.2.2.1 (Or.inl hb0)
      subst hb0
      rw [hpv, hnx, if_neg d02, if_pos rfl] at hz ⊢
      rw [List.count_cons_of_ne (fun he => d02 (entry_inj he).2.1.symm), List.count_cons_self, hz]
    · by_cases hb2 : b = i2
      · have hz := hzero _ _ hpb.2.1 hpb.2.2.2.2.1 (Or.inr hb2)
        subst hb2
        rw [hpv, hnx, if_pos rfl, if_neg hb0] at hz ⊢
        rw [List.count_cons_self, List.count_cons_of_ne (fun he => d02 (entry_inj he).2.1), hz]
      · rw [hpv, hnx, if_neg hb0, if_neg hb2]
        rw [List.count_cons_of_ne (fun he => hb2 (entry_inj he).2.1.symm),
          List.count_cons_of_ne (fun he => hb0 (entry_inj he).2.1.symm)]
        have := hi.once b hb rb
        rw [hh, List.count_cons_of_ne (fun he => hb1 (entry_inj he).2.1.symm)] at this
        exact this

/-! ### The main loop -/

theorem area_le {P : Nat → Pt} {a b c a' b' c' : Nat} (h : entry P a b c ≤ entry P a' b' c') :
    triArea P a b c ≤ triArea P a' b' c' := by
  unfold entry at h
  rw [Prod.Lex.toLex_le_toLex] at h
  rcases h with h | h
  · exact le_of_lt h
  · exact le_of_eq h.1

theorem vloop_spec {P : Nat → Pt} {n fixed : Nat} (hf : 3 ≤ fixed) : ∀ (fuel : Nat) (s : VState), Inv P n s →
    s.heap.length + 3 * s.nb < fuel →
    ∃ s', vloop P n fixed fuel s = some s' ∧ Inv P n s' ∧ s'.nb = min s.nb (fixed - 1) ∧
      Reduction P n s.removed s'.removed (s.nb - s'.nb) := by
  intro fuel
  induction fuel with
  | zero => intro s _ h; omega
  | succ fuel ih =>
    intro s hi hfuel
    rw [vloop]
    by_cases hnb : fixed ≤ s.nb
    · rw [if_pos hnb]
      -- the heap is not empty
      have hex : ∃ b, b ∈ alive n s.removed := by
        cases hl : alive n s.removed with
        | nil => have := hi.count; rw [hl] at this; simp at this; omega
        | cons b l => exact ⟨b, by simp⟩
      obtain ⟨b, hb⟩ := hex
      obtain ⟨hbn, rb⟩ := mem_alive.1 hb
      cases hh : s.heap with
      | nil => have := hi.once b hbn rb; rw [hh] at this; simp at this
      | cons e h =>
        obtain ⟨i0, i1, i2, rfl, hcur⟩ := hi.heap e (by rw [hh]; exact List.mem_cons_self)
        have hst : vstep P n s = if s.removed i0 || s.removed i2 then some { s with heap := h }
            else some (vremove P n s i0 i1 i2 h) := by
          unfold vstep; rw [hh]; rfl
        rw [hst]
        have hlen : s.heap.length = h.length + 1 := by rw [hh]; rfl
        by_cases hrem : (s.removed i0 || s.removed i2) = true
        · rw [if_pos hrem, Option.bind_some]
          exact ih { s with heap := h } (hi.drop hh (by simpa using hrem)) (by simp only; omega)
        · rw [if_neg hrem, Option.bind_some]
          simp only [Bool.or_eq_true, not_or, Bool.not_eq_true] at hrem
          obtain ⟨r0, r2⟩ := hrem
          have hi' := hi.remove hh r0 r2 (by omega)
          obtain ⟨hi1, r1, e0, e2⟩ := hcur r0 r2
          have hlen' : (vremove P n s i0 i1 i2 h).heap.length = h.length + 2 := by
            show (push _ (push _ h)).length = _
            rw [(push_perm _ _).length_eq, List.length_cons, (push_perm _ _).length_eq, List.length_cons]
          have hnb' : (vremove P n s i0 i1 i2 h).nb = s.nb - 1 := rfl
          obtain ⟨s', hs', hinv, hmin, hred⟩ := ih _ hi' (by rw [hlen', hnb']; omega)
          refine ⟨s', hs', hinv, by rw [hmin, hnb']; omega, ?_⟩
          have hk : s.nb - s'.nb = (s.nb - 1 - s'.nb) + 1 := by rw [hmin, hnb']; omega
          rw [hk]
          have hnbs := hi.prev i1 hi1 r1
          rw [← e0, ← e2] at hnbs
          refine Reduction.step hi1 r1 hnbs ?_ hred
          intro p' j q' hj rj hnj
          -- the triangle of j is in the heap
          have hpj := hi.prev j hj rj
          have hp : p' = pv n s j := NextIn.unique_prev hnj.1 hnj.2.1 hpj.1 hpj.2.1 hnj.2.2.1 hpj.2.2.1
          have hq : q' = nx n s j := hnj.2.2.2.unique hpj.2.2.2
          have hmem : entry P p' j q' ∈ s.heap := by
            rw [hp, hq]
            apply List.count_pos_iff.1
            have := hi.once j hj rj
            omega
          rw [hh] at hmem
          have hsorted := hi.sorted
          rw [hh] at hsorted
          rcases List.mem_cons.1 hmem with he | hmem
          · obtain ⟨x1, x2, x3⟩ := entry_inj he
            rw [x1, x2, x3]
          · exact area_le ((List.pairwise_cons.1 hsorted).1 _ hmem)
    · rw [if_neg hnb]
      refine ⟨s, rfl, hi, by omega, ?_⟩
      rw [Nat.sub_self]
      exact Reduction.done _

/-! ### Initial state -/

theorem initLoop_perm (P : Nat → Pt) (n : Nat) : ∀ (m k i0 : Nat) (h : List Entry), i0 = (k + n - 1) % n → k + m < n →
    (initLoop P i0 k (List.range' (k + 1) m) h).Perm
      ((List.range' k m).map (fun b => entry P ((b + n - 1) % n) b ((b + 1) % n)) ++ h) := by
  intro m
  induction m with
  | zero => intro k i0 h _ _; simp [initLoop]
  | succ m ih =>
    intro k i0 h hi0 hk
    rw [List.range'_succ, List.range'_succ, initLoop]
    have := ih (k + 1) k (push (entry P i0 k (k + 1)) h)
      (by rw [show k + 1 + n - 1 = k + n by omega, Nat.add_mod_right, Nat.mod_eq_of_lt (by omega)]) (by omega)
    refine this.trans ?_
    rw [List.map_cons, List.cons_append]
    have he : entry P ((k + n - 1) % n) k ((k + 1) % n) = entry P i0 k (k + 1) := by
      rw [← hi0, Nat.mod_eq_of_lt (show k + 1 < n by omega)]
    rw [he]
    refine ((push_perm _ _).append_left _).trans ?_
    exact List.perm_middle

theorem initLoop_sorted (P : Nat → Pt) : ∀ (l : List Nat) (i0 i1 : Nat) (h : List Entry), h.Pairwise (· ≤ ·) →
    (initLoop P i0 i1 l h).Pairwise (· ≤ ·)
  | [], _, _, _, hs => hs
  | i :: l, i0, i1, h, hs => initLoop_sorted P l i1 i _ (push_sorted _ hs)

theorem vinit_heap (P : Nat → Pt) {n : Nat} (hn : 2 ≤ n) :
    (vinit P n).heap.Perm ((List.range n).map (fun b => entry P ((b + n - 1) % n) b ((b + 1) % n))) := by
  have h := initLoop_perm P n (n - 1) 0 (n - 1) [entry P (n - 2) (n - 1) 0]
    (by rw [Nat.zero_add, Nat.mod_eq_of_lt (by omega)]) (by omega)
  refine h.trans ?_
  have hr : List.range n = List.range' 0 (n - 1) ++ [n - 1] := by
    obtain ⟨m, rfl⟩ : ∃ m, n = m + 1 := ⟨n - 1, by omega⟩
    rw [List.range_succ, List.range_eq_range']; simp
  rw [hr, List.map_append]
  have he : entry P ((n - 1 + n - 1) % n) (n - 1) ((n - 1 + 1) % n) = entry P (n - 2) (n - 1) 0 := by
    have h1 : (n - 1 + n - 1) % n = n - 2 := by
      rw [show n - 1 + n - 1 = (n - 2) + n by omega, Nat.add_mod_right, Nat.mod_eq_of_lt (by omega)]
    have h2 : (n - 1 + 1) % n = 0 := by rw [show n - 1 + 1 = n by omega, Nat.mod_self]
    rw [h1, h2]
  rw [List.map_singleton, he]

theorem vinit_inv (P : Nat → Pt) {n : Nat} (hn : 2 ≤ n) : Inv P n (vinit P n) := by
  have hnxi : ∀ b, nx n (vinit P n) b = (b + 1) % n := fun b => rfl
  have hpvi : ∀ b, pv n (vinit P n) b = (b + n - 1) % n := fun b => rfl
  have hnext : ∀ b, b < n → NextIn n (vinit P n).removed b ((b + 1) % n) := by
    intro b hb
    rcases Nat.lt_or_ge (b + 1) n with h | h
    · rw [Nat.mod_eq_of_lt h]
      exact ⟨h, rfl, Or.inl ⟨by omega, fun k h1 h2 => by omega⟩⟩
    · rw [show b + 1 = n by omega, Nat.mod_self]
      exact ⟨by omega, rfl, Or.inr ⟨by omega, fun k h1 _ => by omega⟩⟩
  have hprev : ∀ b, b < n → (b + n - 1) % n < n ∧ NextIn n (vinit P n).removed ((b + n - 1) % n) b := by
    intro b hb
    have hlt := Nat.mod_lt (b + n - 1) (show 0 < n by omega)
    refine ⟨hlt, ?_⟩
    have := hnext _ hlt
    rwa [Nat.mod_add_mod, show b + n - 1 + 1 = b + n by omega, Nat.add_mod_right, Nat.mod_eq_of_lt hb] at this
  refine ⟨?_, ?_, fun b hb _ => hnext b hb, fun b hb _ => ⟨(hprev b hb).1, rfl, (hprev b hb).2, hnext b hb⟩, ?_, ?_⟩
  · exact initLoop_sorted P _ _ _ _ (List.pairwise_singleton _ _)
  · show n = _
    unfold alive vinit
    simp
  · intro e he
    rw [(vinit_heap P hn).mem_iff] at he
    obtain ⟨b, hb, rfl⟩ := List.mem_map.1 he
    exact ⟨_, b, _, rfl, fun _ _ => ⟨List.mem_range.1 hb, rfl, rfl, rfl⟩⟩
  · intro b hb _
    rw [(vinit_heap P hn).count_eq, hnxi, hpvi]
    have hnd : ((List.range n).map (fun b => entry P ((b + n - 1) % n) b ((b + 1) % n))).Nodup :=
      List.Nodup.map (fun x y h => (entry_inj h).2.1) List.nodup_range
    exact List.count_eq_one_of_mem hnd (List.mem_map.2 ⟨b, List.mem_range.2 hb, rfl⟩)

/-- **C37**: for every array of at least two points and every size of at least 3, the function returns `fixed` points: `l` followed
by copies of its first point (at least one). `l` are the vertices left by the successive removals of a vertex of least triangle area
(among the vertices left) until `fixed - 1` vertices are left, in the order of the input. -/
theorem visvalingam_spec (v : List Pt) {fixed : Nat} (hf : 3 ≤ fixed) (hv : 2 ≤ v.length) :
    ∃ (removed : Nat → Bool) (a : Pt) (l : List Pt),
      Reduction (vertex v) v.length (fun _ => false) removed (v.length - (fixed - 1)) ∧
      a :: l = ((List.range v.length).filter (fun i => !removed i)).map (vertex v) ∧
      (a :: l).length = min v.length (fixed - 1) ∧
      visvalingam v fixed = some (a :: l ++ List.replicate (fixed - (a :: l).length) a) := by
  have hinit := vinit_inv (vertex v) hv
  have hlen : (vinit (vertex v) v.length).heap.length = v.length := by
    rw [(vinit_heap (vertex v) hv).length_eq]; simp
  have hnb0 : (vinit (vertex v) v.length).nb = v.length := rfl
  obtain ⟨s, hs, hinv, hnb, hred⟩ := vloop_spec hf (6 * v.length + 1) _ hinit (by rw [hlen, hnb0]; omega)
  rw [hnb0] at hnb hred
  have hl : (((List.range v.length).filter (fun i => !s.removed i)).map (vertex v)).length = min v.length (fixed - 1) := by
    rw [List.length_map, ← hnb, hinv.count]; rfl
  cases hout : ((List.range v.length).filter (fun i => !s.removed i)).map (vertex v) with
  | nil => rw [hout] at hl; simp at hl; omega
  | cons a l =>
    rw [hout] at hl
    refine ⟨s.removed, a, l, ?_, hout.symm, hl, ?_⟩
    · rw [hnb] at hred
      rw [show v.length - (fixed - 1) = v.length - min v.length (fixed - 1) by omega]
      exact hred
    · unfold visvalingam
      rw [if_neg (by omega), hs, Option.bind_some, hout, vout, if_pos (by omega)]

/-- **C37** (shape of the result): as many points as requested, the first and the last are equal, and without the copies of the
first point at the end it is a subsequence of the input. -/
theorem visvalingam_closed (v : List Pt) {fixed : Nat} (hf : 3 ≤ fixed) (hv : 2 ≤ v.length) :
    ∃ (a : Pt) (l : List Pt) (m : Nat), visvalingam v fixed = some (a :: l ++ List.replicate (m + 1) a) ∧
      (a :: l ++ List.replicate (m + 1) a).length = fixed ∧ (a :: l).Sublist v ∧ (fixed ≤ v.length + 1 → m = 0) := by
  obtain ⟨removed, a, l, _, he, hlen, hr⟩ := visvalingam_spec v hf hv
  refine ⟨a, l, fixed - (a :: l).length - 1, ?_, ?_, ?_, ?_⟩
  · rw [hr, show fixed - (a :: l).length = fixed - (a :: l).length - 1 + 1 by omega]; rfl
  · rw [List.length_append, List.length_replicate]; omega
  · rw [he]
    have hv' : v = (List.range v.length).map (vertex v) := by
      apply List.ext_getElem?
      intro k
      by_cases hk : k < v.length
      · rw [List.getElem?_map, List.getElem?_range hk, List.getElem?_eq_getElem hk]
        unfold vertex
        rw [Option.map_some, List.getD_eq_getElem?_getD, List.getElem?_eq_getElem hk]; rfl
      · rw [List.getElem?_eq_none (by omega), List.getElem?_eq_none (by simp; omega)]
    conv_rhs => rw [hv']
    exact List.filter_sublist.map _
  · intro h; omega

/-- The polygon of the documentation. -/
example : visvalingam [(1, -1/2), (2, -3/2), (3, -1), (4, -7/4), (5, -1), (27/4, -1), (6, -1/2), (1, -1/2)] 6 =
    some [(1, -1/2), (2, -3/2), (3, -1), (4, -7/4), (6, -1/2), (1, -1/2)] := by decide +kernel

/-- Below 3 points the result can be undefined. -/
example : visvalingam [(0, 0), (1, 0), (1, 1)] 1 = none := by decide +kernel

end Verif.Poly
