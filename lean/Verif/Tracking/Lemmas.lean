import Verif.Tracking.Spec
import Mathlib.Data.List.Nodup

namespace Verif.Tracking

/-! ### LinkAt -/

theorem linkAt_nil {k : Nat} {l : Link} : ¬ LinkAt [] k l := by simp [LinkAt]

theorem LinkAt.lt {h : List (List Link)} {k : Nat} {l : Link} (hl : LinkAt h k l) : k < h.length := by
  obtain ⟨c, e, _⟩ := hl
  have := (List.getElem?_eq_some_iff.1 e).1
  simpa using this

theorem linkAt_cons {c : List Link} {h : List (List Link)} {k : Nat} {l : Link} :
    LinkAt (c :: h) k l ↔ (k = h.length ∧ l ∈ c) ∨ LinkAt h k l := by
  unfold LinkAt
  rw [List.reverse_cons]
  rcases Nat.lt_trichotomy k h.length with hk | hk | hk
  · rw [List.getElem?_append_left (by simpa using hk)]
    constructor
    · exact Or.inr
    · rintro (⟨e, _⟩ | h')
      · omega
      · exact h'
  · subst hk
    rw [List.getElem?_append_right (by simp)]
    simp
  · rw [List.getElem?_append_right (by simp; omega)]
    have h1 : [c][k - h.reverse.length]? = none := by
      rw [List.getElem?_eq_none_iff]; simp; omega
    have h2 : h.reverse[k]? = none := by
      rw [List.getElem?_eq_none_iff]; simp; omega
    rw [h1, h2]; simp; omega

theorem usedAt_cons {c : List Link} {h : List (List Link)} {k i : Nat} :
    UsedAt (c :: h) k i ↔ (k = h.length ∧ i ∈ ids c) ∨ UsedAt h k i := by
  unfold UsedAt
  constructor
  · rintro ⟨l, hl, e⟩
    rcases linkAt_cons.1 hl with ⟨e1, e2⟩ | h'
    · exact Or.inl ⟨e1, by rw [← e]; exact List.mem_map_of_mem e2⟩
    · exact Or.inr ⟨l, h', e⟩
  · rintro (⟨e1, e2⟩ | ⟨l, hl, e⟩)
    · obtain ⟨l, hl, e⟩ := List.mem_map.1 e2
      exact ⟨l, linkAt_cons.2 (Or.inl ⟨e1, hl⟩), e⟩
    · exact ⟨l, linkAt_cons.2 (Or.inr hl), e⟩

theorem UsedAt.lt {h : List (List Link)} {k i : Nat} (hl : UsedAt h k i) : k < h.length := by
  obtain ⟨l, hl, _⟩ := hl; exact hl.lt

theorem usedAt_cons_last {c : List Link} {h : List (List Link)} {i : Nat} :
    UsedAt (c :: h) h.length i ↔ i ∈ ids c := by
  rw [usedAt_cons]
  constructor
  · rintro (⟨_, h'⟩ | h')
    · exact h'
    · exact absurd h'.lt (Nat.lt_irrefl _)
  · exact fun h' => Or.inl ⟨rfl, h'⟩

theorem usedAt_cons_lt {c : List Link} {h : List (List Link)} {k i : Nat} (hk : k < h.length) :
    UsedAt (c :: h) k i ↔ UsedAt h k i := by
  rw [usedAt_cons]
  constructor
  · rintro (⟨e, _⟩ | h')
    · omega
    · exact h'
  · exact Or.inr

theorem linkAt_cons_last {c : List Link} {h : List (List Link)} {l : Link} :
    LinkAt (c :: h) h.length l ↔ l ∈ c := by
  rw [linkAt_cons]
  constructor
  · rintro (⟨_, h'⟩ | h')
    · exact h'
    · exact absurd h'.lt (Nat.lt_irrefl _)
  · exact fun h' => Or.inl ⟨rfl, h'⟩

theorem linkAt_cons_lt {c : List Link} {h : List (List Link)} {k : Nat} {l : Link} (hk : k < h.length) :
    LinkAt (c :: h) k l ↔ LinkAt h k l := by
  rw [linkAt_cons]
  constructor
  · rintro (⟨e, _⟩ | h')
    · omega
    · exact h'
  · exact Or.inr

/-! ### WF of an extended history -/

/-- Conditions on the newest link table. -/
structure HeadOK (nbV : Nat) (c : List Link) (h : List (List Link)) : Prop where
  nodup : (ids c).Nodup ∧ (c.map (·.inp)).Nodup ∧ (c.map (·.out)).Nodup
  virt : ∀ l ∈ c, l.virt = true → 1 ≤ l.vlen ∧ l.vlen ≤ nbV ∧ l.vlen < h.length ∧
    UsedAt h (h.length - 1 - l.vlen) l.id ∧ ∀ j, h.length - 1 - l.vlen < j → j < h.length → ¬ UsedAt h j l.id
  real : ∀ l ∈ c, l.virt = false →
    (∃ k' l', h.length = k' + 1 ∧ LinkAt h k' l' ∧ l'.out = l.inp ∧ l'.id = l.id) ∨
    ((∀ j, j < h.length → ¬ UsedAt h j l.id) ∧ ∀ k' l', h.length = k' + 1 → LinkAt h k' l' → l'.out ≠ l.inp)

theorem wf_nil (nbV : Nat) : WF nbV [] :=
  ⟨by simp, fun k l hl => absurd hl linkAt_nil, fun k l hl => absurd hl linkAt_nil⟩

theorem wf_cons {nbV : Nat} {c : List Link} {h : List (List Link)} :
    WF nbV (c :: h) ↔ HeadOK nbV c h ∧ WF nbV h := by
  constructor
  · intro w
    refine ⟨⟨w.nodup c List.mem_cons_self, ?_, ?_⟩, ⟨fun c' hc' => w.nodup c' (List.mem_cons_of_mem _ hc'), ?_, ?_⟩⟩
    · intro l hl hv
      obtain ⟨h1, h2, h3, h4, h5⟩ := w.virt _ l (linkAt_cons_last.2 hl) hv
      refine ⟨h1, h2, h3, (usedAt_cons_lt (by omega)).1 h4, fun j hj hj' hu => h5 j hj hj' ((usedAt_cons_lt hj').2 hu)⟩
    · intro l hl hv
      rcases w.real _ l (linkAt_cons_last.2 hl) hv with ⟨k', l', e, h1, h2⟩ | ⟨h1, h2⟩
      · exact Or.inl ⟨k', l', e, (linkAt_cons_lt (by omega)).1 h1, h2⟩
      · exact Or.inr ⟨fun j hj hu => h1 j hj ((usedAt_cons_lt hj).2 hu),
          fun k' l' e hl' => h2 k' l' e ((linkAt_cons_lt (by omega)).2 hl')⟩
    · intro k l hl hv
      have hk := hl.lt
      obtain ⟨h1, h2, h3, h4, h5⟩ := w.virt _ l ((linkAt_cons_lt hk).2 hl) hv
      refine ⟨h1, h2, h3, (usedAt_cons_lt (by omega)).1 h4,
        fun j hj hj' hu => h5 j hj hj' ((usedAt_cons_lt (by omega)).2 hu)⟩
    · intro k l hl hv
      have hk := hl.lt
      rcases w.real _ l ((linkAt_cons_lt hk).2 hl) hv with ⟨k', l', e, h1, h2⟩ | ⟨h1, h2⟩
      · exact Or.inl ⟨k', l', e, (linkAt_cons_lt (by omega)).1 h1, h2⟩
      · exact Or.inr ⟨fun j hj hu => h1 j hj ((usedAt_cons_lt (by omega)).2 hu),
          fun k' l' e hl' => h2 k' l' e ((linkAt_cons_lt (by omega)).2 hl')⟩
  · rintro ⟨g, w⟩
    refine ⟨?_, ?_, ?_⟩
    · intro c' hc'
      rcases List.mem_cons.1 hc' with rfl | hc'
      · exact g.nodup
      · exact w.nodup c' hc'
    · intro k l hl hv
      rcases linkAt_cons.1 hl with ⟨rfl, hm⟩ | hl
      · obtain ⟨h1, h2, h3, h4, h5⟩ := g.virt l hm hv
        exact ⟨h1, h2, h3, (usedAt_cons_lt (by omega)).2 h4,
          fun j hj hj' hu => h5 j hj hj' ((usedAt_cons_lt hj').1 hu)⟩
      · have hk := hl.lt
        obtain ⟨h1, h2, h3, h4, h5⟩ := w.virt _ l hl hv
        exact ⟨h1, h2, h3, (usedAt_cons_lt (by omega)).2 h4,
          fun j hj hj' hu => h5 j hj hj' ((usedAt_cons_lt (by omega)).1 hu)⟩
    · intro k l hl hv
      rcases linkAt_cons.1 hl with ⟨rfl, hm⟩ | hl
      · rcases g.real l hm hv with ⟨k', l', e, h1, h2⟩ | ⟨h1, h2⟩
        · exact Or.inl ⟨k', l', e, (linkAt_cons_lt (by omega)).2 h1, h2⟩
        · exact Or.inr ⟨fun j hj hu => h1 j hj ((usedAt_cons_lt hj).1 hu),
            fun k' l' e hl' => h2 k' l' e ((linkAt_cons_lt (by omega)).1 hl')⟩
      · have hk := hl.lt
        rcases w.real _ l hl hv with ⟨k', l', e, h1, h2⟩ | ⟨h1, h2⟩
        · exact Or.inl ⟨k', l', e, (linkAt_cons_lt (by omega)).2 h1, h2⟩
        · exact Or.inr ⟨fun j hj hu => h1 j hj ((usedAt_cons_lt (by omega)).1 hu),
            fun k' l' e hl' => h2 k' l' e ((linkAt_cons_lt (by omega)).1 hl')⟩

/-! ### setdiff1d -/

theorem mem_setdiff1d {a b : List Nat} {x : Nat} : x ∈ setdiff1d a b ↔ x ∈ a ∧ x ∉ b := by
  unfold setdiff1d
  rw [(List.perm_insertionSort (· ≤ ·) _).mem_iff, List.mem_dedup, List.mem_filter]
  simp

theorem nodup_setdiff1d (a b : List Nat) : (setdiff1d a b).Nodup := by
  unfold setdiff1d
  rw [(List.perm_insertionSort (· ≤ ·) _).nodup_iff]
  exact List.nodup_dedup _

/-! ### fillNew -/

theorem fillNew_map {β : Type} (f : Nat → Nat → Rat → Bool → Nat → β) (cid : Nat) (ls : List PreLink) :
    (fillNew cid ls).map (fun l => f l.inp l.out l.cost l.virt l.vlen) =
      ls.map (fun l => f l.inp l.out l.cost l.virt l.vlen) := by
  induction ls generalizing cid with
  | nil => rfl
  | cons l ls ih =>
    unfold fillNew
    split <;> simp [LinkOf.setId, ih]

theorem fillNew_inp (cid : Nat) (ls : List PreLink) : (fillNew cid ls).map (·.inp) = ls.map (·.inp) :=
  fillNew_map (fun a _ _ _ _ => a) cid ls

theorem fillNew_out (cid : Nat) (ls : List PreLink) : (fillNew cid ls).map (·.out) = ls.map (·.out) :=
  fillNew_map (fun _ a _ _ _ => a) cid ls

/-- Every finished row comes from a row, with the same identifier if it had one, otherwise a new one. -/
theorem mem_fillNew {cid : Nat} {ls : List PreLink} {l : Link} (h : l ∈ fillNew cid ls) :
    ∃ p ∈ ls, l = p.setId l.id ∧ ((p.id = some l.id) ∨ (p.id = none ∧ cid ≤ l.id ∧ l.id < cid + nbNew ls)) := by
  induction ls generalizing cid with
  | nil => simp [fillNew] at h
  | cons q ls ih =>
    unfold fillNew at h
    cases hq : q.id with
    | some i =>
      have hn : nbNew (q :: ls) = nbNew ls := by simp [nbNew, hq]
      rw [hq] at h
      rcases List.mem_cons.1 h with rfl | h
      · exact ⟨q, List.mem_cons_self, rfl, Or.inl hq⟩
      · obtain ⟨p, hp, e, h'⟩ := ih h
        exact ⟨p, List.mem_cons_of_mem _ hp, e, by rw [hn]; exact h'⟩
    | none =>
      have hn : nbNew (q :: ls) = nbNew ls + 1 := by simp [nbNew, hq]
      rw [hq] at h
      rcases List.mem_cons.1 h with rfl | h
      · exact ⟨q, List.mem_cons_self, rfl, Or.inr ⟨hq, Nat.le_refl _, by simp only [LinkOf.setId]; omega⟩⟩
      · obtain ⟨p, hp, e, h'⟩ := ih h
        refine ⟨p, List.mem_cons_of_mem _ hp, e, ?_⟩
        rcases h' with h' | ⟨h1, h2, h3⟩
        · exact Or.inl h'
        · exact Or.inr ⟨h1, by omega, by omega⟩

/-- Rows that already have an identifier keep it. -/
theorem fillNew_keeps {cid : Nat} {ls : List PreLink} {p : PreLink} {i : Nat} (hp : p ∈ ls) (hi : p.id = some i) :
    p.setId i ∈ fillNew cid ls := by
  induction ls generalizing cid with
  | nil => simp at hp
  | cons q ls ih =>
    unfold fillNew
    rcases List.mem_cons.1 hp with rfl | hp
    · rw [hi]; exact List.mem_cons_self
    · split <;> exact List.mem_cons_of_mem _ (ih hp)

/-- Every issued identifier is used. -/
theorem fillNew_issues {cid : Nat} {ls : List PreLink} {i : Nat} (h1 : cid ≤ i) (h2 : i < cid + nbNew ls) :
    i ∈ ids (fillNew cid ls) := by
  induction ls generalizing cid with
  | nil => simp [nbNew] at h2; omega
  | cons q ls ih =>
    unfold fillNew ids
    cases hq : q.id with
    | some j =>
      have hn : nbNew (q :: ls) = nbNew ls := by simp [nbNew, hq]
      simp only [List.map_cons, List.mem_cons]
      exact Or.inr (ih h1 (by omega))
    | none =>
      have hn : nbNew (q :: ls) = nbNew ls + 1 := by simp [nbNew, hq]
      simp only [List.map_cons, List.mem_cons, LinkOf.setId]
      by_cases e : i = cid
      · exact Or.inl e
      · exact Or.inr (ih (by omega) (by omega))

/-- Identifiers are distinct when the known ones are distinct and below the counter. -/
theorem fillNew_nodup {cid : Nat} {ls : List PreLink} (h1 : (ls.filterMap (·.id)).Nodup)
    (h2 : ∀ p ∈ ls, ∀ i, p.id = some i → i < cid) : (ids (fillNew cid ls)).Nodup := by
  induction ls generalizing cid with
  | nil => simp [fillNew, ids]
  | cons q ls ih =>
    unfold fillNew ids
    cases hq : q.id with
    | some j =>
      rw [List.filterMap_cons_some hq, List.nodup_cons] at h1
      have ih' := ih h1.2 (fun p hp => h2 p (List.mem_cons_of_mem _ hp))
      simp only [List.map_cons, List.nodup_cons, LinkOf.setId]
      refine ⟨?_, ih'⟩
      intro hm
      obtain ⟨l, hl, e⟩ := List.mem_map.1 hm
      obtain ⟨p, hp, _, h'⟩ := mem_fillNew hl
      rcases h' with h' | ⟨_, h', _⟩
      · exact h1.1 (List.mem_filterMap.2 ⟨p, hp, by rw [h', e]⟩)
      · have := h2 q List.mem_cons_self j hq
        omega
    | none =>
      rw [List.filterMap_cons_none hq] at h1
      have ih' := ih (cid := cid + 1) h1 (fun p hp i hi => by
        have := h2 p (List.mem_cons_of_mem _ hp) i hi; omega)
      simp only [List.map_cons, List.nodup_cons, LinkOf.setId]
      refine ⟨?_, ih'⟩
      intro hm
      obtain ⟨l, hl, e⟩ := List.mem_map.1 hm
      obtain ⟨p, hp, _, h'⟩ := mem_fillNew hl
      rcases h' with h' | ⟨_, h', _⟩
      · have := h2 p (List.mem_cons_of_mem _ hp) _ h'
        omega
      · omega

theorem fillNew_length (cid : Nat) (ls : List PreLink) : (fillNew cid ls).length = ls.length := by
  have := congrArg List.length (fillNew_inp cid ls)
  simpa using this

end Verif.Tracking
