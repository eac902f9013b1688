import Verif.Detection.Model

/-!
# C49: the detected eddies do not overlap; C50: the contour of maximum speed
-/

namespace Verif.Detection

theorem hasMasked_iff (mask : Pixel → Bool) : ∀ l : List Pixel, hasMasked mask l = true ↔ ∃ p ∈ l, mask p = true
  | [] => by simp [hasMasked]
  | p :: l => by
    rw [hasMasked]
    split
    · rename_i h; exact ⟨fun _ => ⟨p, by simp, h⟩, fun _ => rfl⟩
    · rename_i h
      rw [hasMasked_iff mask l]
      constructor
      · rintro ⟨q, hq, hm⟩; exact ⟨q, List.mem_cons_of_mem _ hq, hm⟩
      · rintro ⟨q, hq, hm⟩
        rcases List.mem_cons.1 hq with rfl | hq
        · exact absurd hm h
        · exact ⟨q, hq, hm⟩

theorem hasValue_iff (height : Pixel → Rat) (value : Rat) (below : Bool) : ∀ l : List Pixel, hasValue height value below l = true ↔
    ∃ p ∈ l, if below then height p < value else value < height p
  | [] => by simp [hasValue]
  | p :: l => by
    have ih := hasValue_iff height value below l
    have key : ∀ (P : Prop) [Decidable P], ((if below then height p < value else value < height p) ↔ P) →
        ((if P then true else hasValue height value below l) = true ↔
          ∃ q ∈ p :: l, if below then height q < value else value < height q) := by
      intro P _ hP
      split
      · rename_i h; exact ⟨fun _ => ⟨p, by simp, hP.2 h⟩, fun _ => rfl⟩
      · rename_i h
        rw [ih]
        constructor
        · rintro ⟨q, hq, hm⟩; exact ⟨q, List.mem_cons_of_mem _ hq, hm⟩
        · rintro ⟨q, hq, hm⟩
          rcases List.mem_cons.1 hq with rfl | hq
          · exact absurd (hP.1 hm) h
          · exact ⟨q, hq, hm⟩
    rw [hasValue]
    cases below with
    | true => simpa using key (height p < value) (by simp)
    | false => simpa using key (height p > value) (by simp)

/-- What is required of an eddy, apart from the other eddies. -/
structure Valid (env : Env) (e : Eddy) : Prop where
  shape : ∃ a, e.contour.aerr = some a ∧ 0 ≤ a ∧ a ≤ env.shapeError
  above : e.anti = true → ∀ p ∈ e.contour.pixels, e.level ≤ env.height p
  below : e.anti = false → ∀ p ∈ e.contour.pixels, env.height p ≤ e.level
  size : env.pixelMin ≤ e.contour.pixels.length ∧ e.contour.pixels.length ≤ env.pixelMax
  amplitude : env.ampMin ≤ e.amplitude ∧ e.amplitude ≠ 0
  marked : e.contour.id ∈ e.marks

/-- Invariant of the identification. -/
structure Inv (env : Env) (mask0 : Pixel → Bool) (s : State) : Prop where
  valid : ∀ e ∈ s.eddies, Valid env e
  disjoint : s.eddies.Pairwise (fun e e' => ∀ p, p ∈ e.contour.pixels → p ∉ e'.contour.pixels)
  free : ∀ e ∈ s.eddies, ∀ p ∈ e.contour.pixels, mask0 p = false
  mask : ∀ p, s.mask p = true ↔ mask0 p = true ∨ ∃ e ∈ s.eddies, p ∈ e.contour.pixels
  used : ∀ k, s.used k = true ↔ ∃ e ∈ s.eddies, k ∈ e.marks
  fresh : s.eddies.Pairwise (fun e e' => e'.contour.id ∉ e.marks)

theorem badShape_false {env : Env} {c : Contour} (h : badShape env c = false) :
    ∃ a, c.aerr = some a ∧ 0 ≤ a ∧ a ≤ env.shapeError := by
  unfold badShape at h
  cases hc : c.aerr with
  | none => rw [hc] at h; cases h
  | some a =>
    rw [hc] at h
    simp only [Bool.or_eq_false_iff, decide_eq_false_iff_not, not_lt, gt_iff_lt] at h
    exact ⟨a, rfl, h.1, h.2⟩

theorem step_inv {env : Env} {mask0 : Pixel → Bool} {anti : Bool} {i : Int} {cvalue : Rat} {s : State} {c : Contour}
    (h : Inv env mask0 s) : Inv env mask0 (step env anti i cvalue s c) := by
  unfold step
  split; · exact h
  rename_i h1
  split; · exact h
  rename_i h2
  split; · exact h
  rename_i h3
  split; · exact h
  rename_i h4
  split; · exact h
  rename_i h5
  split; · exact h
  rename_i h6
  have hmask : ∀ p ∈ c.pixels, s.mask p = false := by
    intro p hp
    by_contra hc
    exact h3 ((hasMasked_iff _ _).2 ⟨p, hp, by simpa using hc⟩)
  have hval : ∀ p ∈ c.pixels, ¬ (if anti then env.height p < cvalue else cvalue < env.height p) := by
    intro p hp hc
    exact h4 ((hasValue_iff _ _ _ _).2 ⟨p, hp, hc⟩)
  have hmem : ∀ e, e ∈ s.eddies ++ [(⟨c, anti, cvalue, env.amplitude anti s.mask i c,
      c.id :: env.nested anti s.mask i c⟩ : Eddy)] ↔ e ∈ s.eddies ∨ e = ⟨c, anti, cvalue, env.amplitude anti s.mask i c,
      c.id :: env.nested anti s.mask i c⟩ := by
    intro e; rw [List.mem_append, List.mem_singleton]
  refine ⟨?_, ?_, ?_, ?_, ?_, ?_⟩
  · intro e he
    rcases (hmem e).1 he with he | rfl
    · exact h.valid e he
    · refine ⟨badShape_false (by simpa using h2), ?_, ?_, by simp only; omega, ?_, by simp⟩
      · rintro ha p hp
        simp only at ha hp
        subst ha
        simpa using hval p hp
      · rintro ha p hp
        simp only at ha hp
        subst ha
        simpa using hval p hp
      · simp only
        rw [not_or, not_not] at h6
        exact h6
  · rw [List.pairwise_append]
    refine ⟨h.disjoint, by simp, ?_⟩
    intro e he e' he' p hp hp'
    rw [List.mem_singleton] at he'
    subst he'
    have := hmask p hp'
    rw [(h.mask p).2 (Or.inr ⟨e, he, hp⟩)] at this
    cases this
  · intro e he p hp
    rcases (hmem e).1 he with he | rfl
    · exact h.free e he p hp
    · have := hmask p hp
      by_contra hc
      rw [(h.mask p).2 (Or.inl (by simpa using hc))] at this
      cases this
  · intro p
    simp only
    constructor
    · intro hp
      split at hp
      · rename_i hpc
        exact Or.inr ⟨_, (hmem _).2 (Or.inr rfl), hpc⟩
      · rcases (h.mask p).1 hp with h' | ⟨e, he, hpe⟩
        · exact Or.inl h'
        · exact Or.inr ⟨e, (hmem _).2 (Or.inl he), hpe⟩
    · intro hp
      split
      · rfl
      · rename_i hpc
        rw [h.mask]
        rcases hp with h' | ⟨e, he, hpe⟩
        · exact Or.inl h'
        · rcases (hmem e).1 he with he | rfl
          · exact Or.inr ⟨e, he, hpe⟩
          · exact absurd hpe hpc
  · intro k
    simp only
    constructor
    · intro hk
      split at hk
      · rename_i hkc
        exact ⟨_, (hmem _).2 (Or.inr rfl), hkc⟩
      · obtain ⟨e, he, hke⟩ := (h.used k).1 hk
        exact ⟨e, (hmem _).2 (Or.inl he), hke⟩
    · intro hk
      split
      · rfl
      · rename_i hkc
        rw [h.used]
        obtain ⟨e, he, hke⟩ := hk
        rcases (hmem e).1 he with he | rfl
        · exact ⟨e, he, hke⟩
        · exact absurd hke hkc
  · rw [List.pairwise_append]
    refine ⟨h.fresh, by simp, ?_⟩
    intro e he e' he' hc
    rw [List.mem_singleton] at he'
    subst he'
    exact h1 ((h.used _).2 ⟨e, he, hc⟩)

theorem coll_inv {env : Env} {mask0 : Pixel → Bool} {anti : Bool} {i : Int} {cvalue : Rat} : ∀ (l : List Contour) (s : State),
    Inv env mask0 s → Inv env mask0 (l.foldl (step env anti i cvalue) s)
  | [], _, h => h
  | _ :: l, _, h => coll_inv l _ (step_inv h)

theorem levels_inv {env : Env} {mask0 : Pixel → Bool} {anti : Bool} {cvalues : List Rat} : ∀ (l : List (List Contour)) (k : Nat)
    (s : State), Inv env mask0 s → Inv env mask0 (levels env anti cvalues l k s)
  | [], _, _, h => h
  | coll :: l, k, s, h => levels_inv l (k + 1) _ (coll_inv coll s h)

theorem start_inv (env : Env) (mask0 : Pixel → Bool) : Inv env mask0 ⟨mask0, fun _ => false, []⟩ :=
  ⟨fun e he => (List.not_mem_nil he).elim, List.Pairwise.nil, fun e he => (List.not_mem_nil he).elim, fun p => by simp, fun k => by simp, List.Pairwise.nil⟩

theorem identify_inv (env : Env) (cvalues : List Rat) (colls : List (List Contour)) (mask0 : Pixel → Bool) :
    Inv env mask0 (identify env cvalues colls mask0) :=
  levels_inv _ _ _ (levels_inv _ _ _ (start_inv env mask0))

/-- **C49**: whatever the contours, the amplitudes and the nested contours, two different eddies of one identification have no pixel
in common, whatever their signs, and no pixel of an eddy was masked. -/
theorem eddies_disjoint (env : Env) (cvalues : List Rat) (colls : List (List Contour)) (mask0 : Pixel → Bool) (i j : Nat) (e e' : Eddy)
    (hi : (identify env cvalues colls mask0).eddies[i]? = some e) (hj : (identify env cvalues colls mask0).eddies[j]? = some e')
    (hij : i ≠ j) : (∀ p, ¬ (p ∈ e.contour.pixels ∧ p ∈ e'.contour.pixels)) ∧ ∀ p ∈ e.contour.pixels, mask0 p = false := by
  have h := identify_inv env cvalues colls mask0
  refine ⟨?_, h.free e (List.mem_of_getElem? hi)⟩
  obtain ⟨a1, rfl⟩ := List.getElem?_eq_some_iff.1 hi
  obtain ⟨b1, rfl⟩ := List.getElem?_eq_some_iff.1 hj
  have hd := List.pairwise_iff_getElem.1 h.disjoint
  rintro p ⟨h1, h2⟩
  rcases lt_or_gt_of_ne hij with hlt | hlt
  · exact hd i j a1 b1 hlt p h1 h2
  · exact hd j i b1 a1 hlt p h2 h1

/-- A contour which was used by an eddy (effective contour or nested contours) is not the contour of a later eddy. -/
theorem contour_used_once (env : Env) (cvalues : List Rat) (colls : List (List Contour)) (mask0 : Pixel → Bool) :
    (identify env cvalues colls mask0).eddies.Pairwise (fun e e' => e'.contour.id ∉ e.marks) ∧
    ((identify env cvalues colls mask0).eddies.map (fun e => e.contour.id)).Nodup := by
  have h := identify_inv env cvalues colls mask0
  refine ⟨h.fresh, ?_⟩
  rw [List.Nodup, List.pairwise_map]
  refine h.fresh.imp_of_mem ?_
  intro e e' he _ hf heq
  exact hf (by rw [← heq]; exact (h.valid e he).marked)

/-- Every eddy respects all the criteria. -/
theorem eddies_valid (env : Env) (cvalues : List Rat) (colls : List (List Contour)) (mask0 : Pixel → Bool) :
    ∀ e ∈ (identify env cvalues colls mask0).eddies, Valid env e :=
  (identify_inv env cvalues colls mask0).valid

/-! ### Levels of the eddies and completeness -/

theorem get_neg {α : Type} (l : List α) (k : Nat) : Py.get l (-(k : Int) - 1) = l.reverse[k]? := by
  unfold Py.get Py.idx
  rw [if_neg (by omega)]
  by_cases h : k < l.length
  · rw [if_pos (by omega), Option.bind_some, List.getElem?_reverse h]
    congr 1; omega
  · rw [if_neg (by omega), Option.bind_none, List.getElem?_eq_none (by rw [List.length_reverse]; omega)]

theorem get_corrected {α : Type} (l : List α) (anti : Bool) (k : Nat) :
    Py.get l (corrected anti k) = (if anti then l else l.reverse)[k]? := by
  unfold corrected
  cases anti with
  | true => simp [Py.get_natCast]
  | false => simpa using get_neg l k

/-- What happened to a contour: an eddy of this level, or a reason why it is not (`m` is the mask when it was seen). -/
def Outcome (env : Env) (anti : Bool) (i : Int) (v : Rat) (c : Contour) (s0 s1 : State) : Prop :=
  (∃ e ∈ s1.eddies, e.contour = c ∧ e.anti = anti ∧ e.level = v) ∨ s1.used c.id = true ∨ badShape env c = true ∨
  (∃ p ∈ c.pixels, s1.mask p = true) ∨
  (∃ p ∈ c.pixels, if anti then env.height p < v else v < env.height p) ∨
  c.pixels.length < env.pixelMin ∨ env.pixelMax < c.pixels.length ∨
  ∃ m : Pixel → Bool, (∀ p, s0.mask p = true → m p = true) ∧ (∀ p, m p = true → s1.mask p = true) ∧
    (env.amplitude anti m i c < env.ampMin ∨ env.amplitude anti m i c = 0)

/-- The state only grows. -/
structure Le (s t : State) : Prop where
  mask : ∀ p, s.mask p = true → t.mask p = true
  used : ∀ k, s.used k = true → t.used k = true
  eddies : ∃ l, t.eddies = s.eddies ++ l

theorem Le.refl (s : State) : Le s s := ⟨fun _ h => h, fun _ h => h, [], by simp⟩

theorem Le.trans {s t u : State} (h : Le s t) (h' : Le t u) : Le s u := by
  obtain ⟨l, hl⟩ := h.eddies
  obtain ⟨l', hl'⟩ := h'.eddies
  exact ⟨fun p hp => h'.mask p (h.mask p hp), fun k hk => h'.used k (h.used k hk), l ++ l', by rw [hl', hl, List.append_assoc]⟩

theorem Outcome.mono {env : Env} {anti : Bool} {i : Int} {v : Rat} {c : Contour} {s0 s0' s1 s1' : State} (h0 : Le s0' s0) (h1 : Le s1 s1')
    (h : Outcome env anti i v c s0 s1) : Outcome env anti i v c s0' s1' := by
  rcases h with ⟨e, he, h⟩ | h | h | ⟨p, hp, h⟩ | h | h | h | ⟨m, m1, m2, m3⟩
  · obtain ⟨l, hl⟩ := h1.eddies
    exact Or.inl ⟨e, by rw [hl]; exact List.mem_append_left _ he, h⟩
  · exact Or.inr (Or.inl (h1.used _ h))
  · exact Or.inr (Or.inr (Or.inl h))
  · exact Or.inr (Or.inr (Or.inr (Or.inl ⟨p, hp, h1.mask p h⟩)))
  · exact Or.inr (Or.inr (Or.inr (Or.inr (Or.inl h))))
  · exact Or.inr (Or.inr (Or.inr (Or.inr (Or.inr (Or.inl h)))))
  · exact Or.inr (Or.inr (Or.inr (Or.inr (Or.inr (Or.inr (Or.inl h))))))
  · exact Or.inr (Or.inr (Or.inr (Or.inr (Or.inr (Or.inr (Or.inr
      ⟨m, fun p hp => m1 p (h0.mask p hp), fun p hp => h1.mask p (m2 p hp), m3⟩))))))

theorem step_le (env : Env) (anti : Bool) (i : Int) (v : Rat) (s : State) (c : Contour) : Le s (step env anti i v s c) := by
  unfold step
  repeat' split
  all_goals first
    | exact Le.refl s
    | exact ⟨fun p hp => by simp only; split <;> simp [hp], fun k hk => by simp only; split <;> simp [hk], _, rfl⟩

theorem step_outcome (env : Env) (anti : Bool) (i : Int) (v : Rat) (s : State) (c : Contour) :
    Outcome env anti i v c s (step env anti i v s c) := by
  unfold step Outcome
  split
  · rename_i h; exact Or.inr (Or.inl h)
  split
  · rename_i h; exact Or.inr (Or.inr (Or.inl h))
  split
  · rename_i h; exact Or.inr (Or.inr (Or.inr (Or.inl ((hasMasked_iff _ _).1 h))))
  split
  · rename_i h; exact Or.inr (Or.inr (Or.inr (Or.inr (Or.inl ((hasValue_iff _ _ _ _).1 h)))))
  split
  · rename_i h
    rcases h with h | h
    · exact Or.inr (Or.inr (Or.inr (Or.inr (Or.inr (Or.inl h)))))
    · exact Or.inr (Or.inr (Or.inr (Or.inr (Or.inr (Or.inr (Or.inl h))))))
  split
  · rename_i h
    exact Or.inr (Or.inr (Or.inr (Or.inr (Or.inr (Or.inr (Or.inr
      ⟨s.mask, fun _ h => h, fun _ h => h, by rcases h with h | h; exacts [Or.inl (not_le.1 h), Or.inr h]⟩))))))
  · exact Or.inl ⟨_, List.mem_append_right _ (List.mem_singleton.2 rfl), rfl, rfl, rfl⟩

theorem coll_outcome (env : Env) (anti : Bool) (i : Int) (v : Rat) : ∀ (l : List Contour) (s : State),
    Le s (l.foldl (step env anti i v) s) ∧ ∀ c ∈ l, Outcome env anti i v c s (l.foldl (step env anti i v) s)
  | [], s => ⟨Le.refl s, fun c hc => by cases hc⟩
  | c :: l, s => by
    obtain ⟨h1, h2⟩ := coll_outcome env anti i v l (step env anti i v s c)
    have hs := step_le env anti i v s c
    refine ⟨hs.trans h1, fun c' hc' => ?_⟩
    rcases List.mem_cons.1 hc' with rfl | hc'
    · exact (step_outcome env anti i v s c').mono (Le.refl s) h1
    · exact (h2 c' hc').mono hs (Le.refl _)

theorem levels_outcome (env : Env) (anti : Bool) (cvalues : List Rat) : ∀ (l : List (List Contour)) (k : Nat) (s : State),
    Le s (levels env anti cvalues l k s) ∧ ∀ (j : Nat) (coll : List Contour), l[j]? = some coll → ∀ c ∈ coll,
      Outcome env anti (corrected anti (k + j)) ((Py.get cvalues (corrected anti (k + j))).getD 0) c s (levels env anti cvalues l k s)
  | [], k, s => ⟨Le.refl s, fun j coll h => by simp at h⟩
  | coll :: l, k, s => by
    obtain ⟨h1, h2⟩ := coll_outcome env anti (corrected anti k) ((Py.get cvalues (corrected anti k)).getD 0) coll s
    obtain ⟨h3, h4⟩ := levels_outcome env anti cvalues l (k + 1)
      (coll.foldl (step env anti (corrected anti k) ((Py.get cvalues (corrected anti k)).getD 0)) s)
    refine ⟨h1.trans h3, fun j coll' hj c hc => ?_⟩
    cases j with
    | zero =>
      simp only [List.getElem?_cons_zero, Option.some.injEq] at hj
      subst hj
      exact (h2 c hc).mono (Le.refl s) h3
    | succ j =>
      have := (h4 j coll' (by simpa using hj) c hc).mono h1 (Le.refl _)
      rw [show k + (j + 1) = k + 1 + j by omega]
      exact this

theorem search_outcome (env : Env) (anti : Bool) (cvalues : List Rat) (colls : List (List Contour)) (hlen : cvalues.length = colls.length)
    (s : State) : Le s (search env anti cvalues colls s) ∧
      ∀ (j : Nat) (coll : List Contour) (v : Rat), colls[j]? = some coll → cvalues[j]? = some v → ∀ c ∈ coll,
        ∃ i : Int, Py.get cvalues i = some v ∧ Py.get colls i = some coll ∧ Outcome env anti i v c s (search env anti cvalues colls s) := by
  unfold search
  obtain ⟨h1, h2⟩ := levels_outcome env anti cvalues (if anti then colls else colls.reverse) 0 s
  refine ⟨h1, fun j coll v hj hv c hc => ?_⟩
  have hb := (List.getElem?_eq_some_iff.1 hj).1
  -- position of the level in the order of the search
  have hk : ∃ k : Nat, (if anti then colls else colls.reverse)[k]? = some coll ∧ (if anti then cvalues else cvalues.reverse)[k]? = some v := by
    cases anti with
    | true => exact ⟨j, by simpa using hj, by simpa using hv⟩
    | false =>
      refine ⟨colls.length - 1 - j, ?_, ?_⟩
      · simp only [Bool.false_eq_true, if_false]
        rw [List.getElem?_reverse (by omega), ← hj]; congr 1; omega
      · simp only [Bool.false_eq_true, if_false]
        rw [List.getElem?_reverse (by omega), ← hv]; congr 1; omega
  obtain ⟨k, k1, k2⟩ := hk
  have h3 := h2 k coll k1 c hc
  rw [Nat.zero_add, get_corrected cvalues, k2] at h3
  exact ⟨corrected anti k, by rw [get_corrected, k2], by rw [get_corrected, k1], h3⟩

/-- **C49** (completeness): every contour gives an eddy with the height of its level, or there is a reason why it does not: used by
an eddy, bad shape, a pixel in the final mask, a pixel on the wrong side of the level, too few or too many pixels, or no
amplitude for the mask at that time. -/
theorem identify_outcome (env : Env) (anti : Bool) (cvalues : List Rat) (colls : List (List Contour))
    (hlen : cvalues.length = colls.length) (mask0 : Pixel → Bool) (j : Nat) (coll : List Contour) (v : Rat) (hj : colls[j]? = some coll)
    (hv : cvalues[j]? = some v) (c : Contour) (hc : c ∈ coll) :
    ∃ i : Int, Py.get cvalues i = some v ∧
      Outcome env anti i v c ⟨mask0, fun _ => false, []⟩ (identify env cvalues colls mask0) := by
  unfold identify
  obtain ⟨a1, a2⟩ := search_outcome env true cvalues colls hlen ⟨mask0, fun _ => false, []⟩
  obtain ⟨b1, b2⟩ := search_outcome env false cvalues colls hlen (search env true cvalues colls ⟨mask0, fun _ => false, []⟩)
  cases anti with
  | true =>
    obtain ⟨i, i1, _, i2⟩ := a2 j coll v hj hv c hc
    exact ⟨i, i1, i2.mono (Le.refl _) b1⟩
  | false =>
    obtain ⟨i, i1, _, i2⟩ := b2 j coll v hj hv c hc
    exact ⟨i, i1, i2.mono a1 (Le.refl _)⟩

/-! ### Example -/

private def env0 : Env where
  height := fun p => p.1
  shapeError := 55
  pixelMin := 1
  pixelMax := 10
  ampMin := 1
  amplitude := fun _ _ _ c => c.pixels.length
  nested := fun _ _ _ _ => []

/-- Two levels; the second contour shares a pixel with the first one, the third one is on the other side of its level. -/
example : ((identify env0 [1, 2] [[⟨0, [(2, 0), (3, 0)], some 10⟩], [⟨1, [(3, 0), (4, 0)], some 10⟩, ⟨2, [(0, 0), (1, 0)], some 10⟩]]
    (fun _ => false)).eddies.map (fun e => (e.contour.id, e.anti, e.level))) = [(0, true, 1), (2, false, 2)] := by
  decide +kernel

/-! ### C50 -/

variable {κ : Type} {speed : κ → Rat} {nb : κ → Nat} {pixelMin : Nat}

/-- State of `get_uavg` after the contours `vs` (levels and contours). -/
structure UInv (speed : κ → Rat) (nb : κ → Nat) (pixelMin : Nat) (orig : κ) (vs : List (Nat × κ)) (s : Uavg κ) : Prop where
  speeds : s.speeds = speed orig :: vs.map (fun v => speed v.2)
  contours : s.contours = orig :: vs.map (fun v => v.2)
  speed_eq : s.maxSpeed = speed s.selected
  orig_le : speed orig ≤ s.maxSpeed
  max : ∀ v ∈ vs, pixelMin < nb v.2 → speed v.2 ≤ s.maxSpeed
  sel : (s.iMax = -1 ∧ s.selected = orig ∧ ∀ v ∈ vs, pixelMin < nb v.2 → speed v.2 < s.maxSpeed) ∨
    ∃ (k : Nat) (v : Nat × κ), s.iMax = k ∧ vs[k]? = some v ∧ s.selected = v.2 ∧ pixelMin < nb v.2 ∧
      ∀ (k' : Nat) (v' : Nat × κ), k < k' → vs[k']? = some v' → pixelMin < nb v'.2 → speed v'.2 < s.maxSpeed
  inner : s.iInner = (vs.length : Int) - 1 ∧ s.inner = (vs.getLast?.map (fun v => v.2)).getD orig

theorem uavgStep_inv {orig : κ} {vs : List (Nat × κ)} {s : Uavg κ} (h : UInv speed nb pixelMin orig vs s) (l : Nat) (c : κ) :
    UInv speed nb pixelMin orig (vs ++ [(l, c)]) (uavgStep speed nb pixelMin vs.length s c) := by
  have hin : (vs.length : Int) = ((vs ++ [(l, c)]).length : Int) - 1 := by simp
  have hlast : c = (((vs ++ [(l, c)]).getLast?).map (fun v => v.2)).getD orig := by simp
  have hget : ∀ (k : Nat) (v : Nat × κ), (vs ++ [(l, c)])[k]? = some v → (k < vs.length ∧ vs[k]? = some v) ∨ (k = vs.length ∧ v = (l, c)) := by
    intro k v hk
    by_cases hlt : k < vs.length
    · rw [List.getElem?_append_left hlt] at hk
      exact Or.inl ⟨hlt, hk⟩
    · rw [List.getElem?_append_right (by omega)] at hk
      have hb := (List.getElem?_eq_some_iff.1 hk).1
      simp only [List.length_cons, List.length_nil] at hb
      have h0 : k - vs.length = 0 := by omega
      rw [h0] at hk
      simp only [List.getElem?_cons_zero, Option.some.injEq] at hk
      exact Or.inr ⟨by omega, hk.symm⟩
  unfold uavgStep
  split
  · rename_i hc
    obtain ⟨c1, c2⟩ := hc
    refine ⟨by simp [h.speeds], by simp [h.contours], rfl, le_trans h.orig_le c2, ?_, ?_, ⟨hin, hlast⟩⟩
    · intro v hv hn
      rcases List.mem_append.1 hv with hv | hv
      · exact le_trans (h.max v hv hn) c2
      · rw [List.mem_singleton] at hv
        subst hv
        exact le_refl _
    · refine Or.inr ⟨vs.length, (l, c), rfl, by simp, rfl, c1, ?_⟩
      intro k' v' hk hv' hn
      rcases hget k' v' hv' with ⟨h1, _⟩ | ⟨h1, _⟩ <;> omega
  · rename_i hc
    have hlt : pixelMin < nb c → speed c < s.maxSpeed := by
      intro hn
      by_contra hge
      exact hc ⟨hn, not_lt.1 hge⟩
    refine ⟨by simp [h.speeds], by simp [h.contours], h.speed_eq, h.orig_le, ?_, ?_, ⟨hin, hlast⟩⟩
    · intro v hv hn
      rcases List.mem_append.1 hv with hv | hv
      · exact h.max v hv hn
      · rw [List.mem_singleton] at hv
        subst hv
        exact le_of_lt (hlt hn)
    · rcases h.sel with ⟨h1, h2, h3⟩ | ⟨k, v, h1, h2, h3, h4, h5⟩
      · refine Or.inl ⟨h1, h2, ?_⟩
        intro v hv hn
        rcases List.mem_append.1 hv with hv | hv
        · exact h3 v hv hn
        · rw [List.mem_singleton] at hv
          subst hv
          exact hlt hn
      · refine Or.inr ⟨k, v, h1, ?_, h3, h4, ?_⟩
        · rw [List.getElem?_append_left (List.getElem?_eq_some_iff.1 h2).1]; exact h2
        · intro k' v' hk hv' hn
          rcases hget k' v' hv' with ⟨_, h6⟩ | ⟨_, rfl⟩
          · exact h5 k' v' hk h6 hn
          · exact hlt hn

/-- `vs` are the contours found on the successive levels `ls`, up to the first level without contour inside of the original one. -/
def Scanned (nearest : Nat → Option κ) (inside : κ → Bool) (ls : List Nat) (vs : List (Nat × κ)) : Prop :=
  (∀ v ∈ vs, nearest v.1 = some v.2 ∧ inside v.2 = true) ∧
  ∃ rest, ls = vs.map Prod.fst ++ rest ∧ ∀ l ∈ rest.head?, ∀ c, nearest l = some c → inside c = false

theorem uavgLoop_spec {nearest : Nat → Option κ} {inside : κ → Bool} {orig : κ} : ∀ (ls : List Nat) (vs : List (Nat × κ)) (s : Uavg κ),
    UInv speed nb pixelMin orig vs s → ∃ ws, Scanned nearest inside ls ws ∧
      UInv speed nb pixelMin orig (vs ++ ws) (uavgLoop nearest inside speed nb pixelMin ls vs.length s)
  | [], vs, s, h => ⟨[], ⟨fun v hv => (List.not_mem_nil hv).elim, [], rfl, fun l hl => by cases hl⟩, by simpa [uavgLoop] using h⟩
  | l :: ls, vs, s, h => by
    rw [uavgLoop]
    cases hn : nearest l with
    | none =>
      refine ⟨[], ⟨fun v hv => (List.not_mem_nil hv).elim, l :: ls, rfl, ?_⟩, by simpa using h⟩
      intro l' hl' c hc
      simp only [List.head?_cons, Option.mem_def, Option.some.injEq] at hl'
      rw [← hl', hn] at hc
      cases hc
    | some c =>
      simp only
      split
      · rename_i hi
        obtain ⟨ws, ⟨w1, rest, w2, w3⟩, w4⟩ := uavgLoop_spec (nearest := nearest) (inside := inside) ls (vs ++ [(l, c)])
          (uavgStep speed nb pixelMin vs.length s c) (uavgStep_inv h l c)
        refine ⟨(l, c) :: ws, ⟨?_, rest, by rw [w2]; rfl, w3⟩, ?_⟩
        · intro v hv
          rcases List.mem_cons.1 hv with rfl | hv
          · exact ⟨hn, hi⟩
          · exact w1 v hv
        · simp only [List.append_assoc, List.cons_append, List.nil_append, List.length_append, List.length_cons, List.length_nil,
            Nat.zero_add] at w4
          exact w4
      · rename_i hi
        refine ⟨[], ⟨fun v hv => (List.not_mem_nil hv).elim, l :: ls, rfl, ?_⟩, by simpa using h⟩
        intro l' hl' c' hc'
        simp only [List.head?_cons, Option.mem_def, Option.some.injEq] at hl'
        rw [← hl', hn] at hc'
        rw [← Option.some.inj hc']
        simpa using hi

/-- Levels above (`anti`) or below the level `pos`. -/
theorem iterFrom_spec (n pos : Nat) (hp : pos < n) (anti : Bool) :
    iterFrom n ((if anti then (pos : Int) else (pos : Int) - n) + (if anti then 1 else -1)) anti =
      if anti then List.range' (pos + 1) (n - (pos + 1)) else (List.range pos).reverse := by
  unfold iterFrom
  cases anti with
  | true =>
    simp only [if_true]
    rw [if_neg (by omega)]
    have : min ((pos : Int) + 1).toNat n = pos + 1 := by omega
    rw [this]
  | false =>
    simp only [Bool.false_eq_true, if_false]
    rw [if_pos (by omega)]
    by_cases h0 : pos = 0
    · subst h0
      rw [if_pos (by omega)]
      rfl
    · rw [if_neg (by omega)]
      congr 2
      omega

/-- **C50**: for an eddy of the level `pos`, the scanned contours are the ones around the centre on the successive levels; the
result is the contour of maximum mean speed among the original one and the scanned ones with more than `pixelMin` pixels (the last
one when there are several), with its level; the inner contour is the last scanned one, with its level. -/
theorem get_uavg_spec (n pos : Nat) (hp : pos < n) (nearest : Nat → Option κ) (inside : κ → Bool) (orig : κ) (anti : Bool) :
    ∃ vs : List (Nat × κ),
      Scanned nearest inside (if anti then List.range' (pos + 1) (n - (pos + 1)) else (List.range pos).reverse) vs ∧
      let r := getUavg n nearest inside speed nb orig anti (if anti then (pos : Int) else (pos : Int) - n) pixelMin
      r.speeds = speed orig :: vs.map (fun v => speed v.2) ∧ r.contours = orig :: vs.map (fun v => v.2) ∧
      r.maxSpeed = speed r.selected ∧ speed orig ≤ r.maxSpeed ∧ (∀ v ∈ vs, pixelMin < nb v.2 → speed v.2 ≤ r.maxSpeed) ∧
      (∃ l, Py.idx n r.iMax = some l ∧
        ((l = pos ∧ r.selected = orig) ∨ ∃ v ∈ vs, v.1 = l ∧ r.selected = v.2 ∧ pixelMin < nb v.2)) ∧
      (∃ l, Py.idx n r.iInner = some l ∧ (((pos, orig) :: vs).getLast?) = some (l, r.inner)) := by
  obtain ⟨vs, hs, hu⟩ := uavgLoop_spec (nearest := nearest) (inside := inside) (speed := speed) (nb := nb) (pixelMin := pixelMin)
    (orig := orig) (if anti then List.range' (pos + 1) (n - (pos + 1)) else (List.range pos).reverse) []
    ⟨speed orig, orig, orig, [speed orig], [orig], -1, -1⟩
    ⟨rfl, rfl, rfl, le_refl _, fun v hv => (List.not_mem_nil hv).elim, Or.inl ⟨rfl, rfl, fun v hv => (List.not_mem_nil hv).elim⟩, rfl, rfl⟩
  refine ⟨vs, hs, ?_⟩
  -- levels of the scanned contours
  have hlev : ∀ (k : Nat) (v : Nat × κ), vs[k]? = some v →
      Py.idx n ((if anti then (pos : Int) else (pos : Int) - n) + (if anti then 1 else -1) + (if anti then 1 else -1) * (k : Int)) =
        some v.1 := by
    intro k v hk
    obtain ⟨_, rest, hr, _⟩ := hs
    have h1 : (vs.map Prod.fst ++ rest)[k]? = some v.1 := by
      rw [List.getElem?_append_left (by rw [List.length_map]; exact (List.getElem?_eq_some_iff.1 hk).1), List.getElem?_map, hk]; rfl
    rw [← hr] at h1
    unfold Py.idx
    cases anti with
    | true =>
      simp only [if_true] at h1 ⊢
      have hb := (List.getElem?_eq_some_iff.1 h1).1
      rw [List.length_range'] at hb
      rw [List.getElem?_range' hb] at h1
      have h2 := Option.some.inj h1
      rw [if_pos (by omega), if_pos (by omega)]
      exact congrArg some (by omega)
    | false =>
      simp only [Bool.false_eq_true, if_false] at h1 ⊢
      have hb := (List.getElem?_eq_some_iff.1 h1).1
      rw [List.length_reverse, List.length_range] at hb
      rw [List.getElem?_reverse (by rw [List.length_range]; exact hb), List.length_range, List.getElem?_range (by omega)] at h1
      have h2 := Option.some.inj h1
      rw [if_neg (by omega), if_pos (by omega)]
      congr 1; omega
  have horig : Py.idx n ((if anti then (pos : Int) else (pos : Int) - n) + (if anti then 1 else -1) + (if anti then 1 else -1) * (-1)) =
      some pos := by
    unfold Py.idx
    cases anti with
    | true =>
      simp only [if_true]
      rw [if_pos (by omega), if_pos (by omega)]
      congr 1; omega
    | false =>
      simp only [Bool.false_eq_true, if_false]
      rw [if_neg (by omega), if_pos (by omega)]
      congr 1; omega
  unfold getUavg
  simp only [iterFrom_spec n pos hp anti]
  simp only [List.nil_append, List.length_nil] at hu
  generalize uavgLoop nearest inside speed nb pixelMin
    (if anti then List.range' (pos + 1) (n - (pos + 1)) else (List.range pos).reverse) 0
    ⟨speed orig, orig, orig, [speed orig], [orig], -1, -1⟩ = s at hu
  refine ⟨hu.speeds, hu.contours, hu.speed_eq, hu.orig_le, hu.max, ?_, ?_⟩
  · rcases hu.sel with ⟨h1, h2, _⟩ | ⟨k, v, h1, h2, h3, h4, _⟩
    · exact ⟨pos, by rw [h1]; exact horig, Or.inl ⟨rfl, h2⟩⟩
    · exact ⟨v.1, by rw [h1]; exact hlev k v h2, Or.inr ⟨v, List.mem_of_getElem? h2, rfl, h3, h4⟩⟩
  · obtain ⟨h1, h2⟩ := hu.inner
    by_cases hv : vs = []
    · subst hv
      exact ⟨pos, by rw [h1]; exact horig, by rw [h2]; rfl⟩
    · have hlen : 0 < vs.length := List.length_pos_iff.2 hv
      have hg : vs.getLast? = vs[vs.length - 1]? := List.getLast?_eq_getElem?
      have hb : vs.length - 1 < vs.length := by omega
      refine ⟨(vs[vs.length - 1]).1, ?_, ?_⟩
      · rw [h1]
        have := hlev (vs.length - 1) _ (List.getElem?_eq_getElem hb)
        rw [show ((vs.length - 1 : Nat) : Int) = (vs.length : Int) - 1 by omega] at this
        exact this
      · rw [h2, List.getLast?_cons, hg, List.getElem?_eq_getElem hb]
        rfl

/-- A contour with few pixels is not selected, even with the largest mean speed (it is in the profile of speeds). -/
example : (let r := getUavg (κ := Nat) 3 (fun l => some l) (fun _ => true) (fun c => c) (fun c => 5 - c) 0 true 0 3
    (r.maxSpeed, r.selected, r.iMax, r.iInner, r.speeds)) = (1, 1, 1, 2, [0, 1, 2]) := by decide +kernel

/-- Downwards, with negative indices. -/
example : (let r := getUavg (κ := Nat) 3 (fun l => some l) (fun _ => true) (fun c => if c = 0 then 7 else 5) (fun _ => 9) 2 false (-1) 3
    (r.maxSpeed, r.selected, r.iMax, r.iInner)) = (7, 0, -3, -3) := by decide +kernel

end Verif.Detection
