import Verif.Network.Group
import Verif.Spec
import Mathlib.Tactic.Common

/-! Helper lemmas for `Verif.Network.GroupProps`. -/

namespace Verif

open Relation

theorem Conn.refl (ps) (a) : Conn ps a a := EqvGen.refl a
theorem Conn.symm {ps a b} (h : Conn ps a b) : Conn ps b a := EqvGen.symm _ _ h
theorem Conn.trans {ps a b c} (h : Conn ps a b) (h' : Conn ps b c) : Conn ps a c := EqvGen.trans _ _ _ h h'
theorem Conn.of_mem {ps a b} (h : (a, b) ∈ ps) : Conn ps a b := EqvGen.rel _ _ h

theorem Conn.mono {ps qs : List (Nat × Nat)} (h : ∀ p ∈ ps, p ∈ qs) {a b} (hc : Conn ps a b) : Conn qs a b :=
  EqvGen.mono (r := fun a b => (a, b) ∈ ps) (p := fun a b => (a, b) ∈ qs) (fun _ _ hab => h _ hab) a b hc

theorem Conn.lift {ps : List (Nat × Nat)} {r : Nat → Nat → Prop} (hr : Equivalence r)
    (h : ∀ a b, (a, b) ∈ ps → r a b) {a b} (hc : Conn ps a b) : r a b := by
  induction hc with
  | rel _ _ h' => exact h _ _ h'
  | refl => exact hr.refl _
  | symm _ _ _ ih => exact hr.symm ih
  | trans _ _ _ _ _ ih1 ih2 => exact hr.trans ih1 ih2

/-- Adding one pair to a connectivity relation. -/
theorem Conn.cons_iff (ps : List (Nat × Nat)) (i j a b : Nat) :
    Conn (ps ++ [(i, j)]) a b ↔
      Conn ps a b ∨ (Conn ps a i ∧ Conn ps j b) ∨ (Conn ps a j ∧ Conn ps i b) := by
  constructor
  · intro h
    induction h with
    | rel a b h' =>
      rw [List.mem_append, List.mem_singleton] at h'
      rcases h' with h' | h'
      · exact Or.inl (Conn.of_mem h')
      · simp only [Prod.mk.injEq] at h'
        rw [h'.1, h'.2]
        exact Or.inr (Or.inl ⟨Conn.refl _ _, Conn.refl _ _⟩)
    | refl => exact Or.inl (Conn.refl _ _)
    | symm _ _ _ ih =>
      rcases ih with h | ⟨h1, h2⟩ | ⟨h1, h2⟩
      · exact Or.inl h.symm
      · exact Or.inr (Or.inr ⟨h2.symm, h1.symm⟩)
      · exact Or.inr (Or.inl ⟨h2.symm, h1.symm⟩)
    | trans _ _ _ _ _ ih1 ih2 =>
      rcases ih1 with h | ⟨h1, h2⟩ | ⟨h1, h2⟩ <;> rcases ih2 with k | ⟨k1, k2⟩ | ⟨k1, k2⟩
      · exact Or.inl (h.trans k)
      · exact Or.inr (Or.inl ⟨h.trans k1, k2⟩)
      · exact Or.inr (Or.inr ⟨h.trans k1, k2⟩)
      · exact Or.inr (Or.inl ⟨h1, h2.trans k⟩)
      · exact Or.inr (Or.inl ⟨h1, k2⟩)
      · exact Or.inl (h1.trans k2)
      · exact Or.inr (Or.inr ⟨h1, h2.trans k⟩)
      · exact Or.inl (h1.trans k2)
      · exact Or.inr (Or.inr ⟨h1, k2⟩)
  · have hm : ∀ p ∈ ps, p ∈ ps ++ [(i, j)] := fun p hp => List.mem_append_left _ hp
    have hij : Conn (ps ++ [(i, j)]) i j := Conn.of_mem (by simp)
    rintro (h | ⟨h1, h2⟩ | ⟨h1, h2⟩)
    · exact h.mono hm
    · exact ((h1.mono hm).trans hij).trans (h2.mono hm)
    · exact ((h1.mono hm).trans hij.symm).trans (h2.mono hm)

theorem Conn.perm_iff {ps qs : List (Nat × Nat)} (h : ∀ p, p ∈ ps ↔ p ∈ qs) (a b) : Conn ps a b ↔ Conn qs a b :=
  ⟨Conn.mono fun p => (h p).1, Conn.mono fun p => (h p).2⟩

end Verif

namespace Verif.Group

open Relation

/-- Invariant of the translator loop after the pairs `ps`. -/
structure TInv (nb : Nat) (ps : List (Nat × Nat)) (t : List Nat) : Prop where
  len : t.length = nb
  eqv : ∀ a b va vb, t[a]? = some va → t[b]? = some vb → (va = vb ↔ Conn ps a b)
  lab : ∀ a va, t[a]? = some va → Conn ps a va ∧ va < nb

theorem tinv_init (nb) : TInv nb [] (List.range nb) := by
  have key : ∀ a b : Nat, Conn [] a b → a = b := fun a b h =>
    Conn.lift (r := Eq) ⟨fun _ => rfl, Eq.symm, Eq.trans⟩ (by simp) h
  refine ⟨by simp, ?_, ?_⟩
  · intro a b va vb ha hb
    obtain ⟨_, rfl⟩ : a < nb ∧ a = va := by simpa [List.getElem?_eq_some_iff] using ha
    obtain ⟨_, rfl⟩ : b < nb ∧ b = vb := by simpa [List.getElem?_eq_some_iff] using hb
    exact ⟨fun h => h ▸ Conn.refl _ _, key _ _⟩
  · intro a va ha
    obtain ⟨h, rfl⟩ : a < nb ∧ a = va := by simpa [List.getElem?_eq_some_iff] using ha
    exact ⟨Conn.refl _ _, h⟩

theorem tinv_step {nb ps t} (h : TInv nb ps t) (d : Nat × Nat) (h1 : d.1 < nb) (h2 : d.2 < nb) :
    ∃ t', translateStep t d = some t' ∧ TInv nb (ps ++ [d]) t' := by
  obtain ⟨i, j⟩ := d
  have hl := h.len
  obtain ⟨gi, hgi⟩ : ∃ g, t[i]? = some g := ⟨t[i]'(by simpa [hl] using h1), by simp⟩
  obtain ⟨gj, hgj⟩ : ∃ g, t[j]? = some g := ⟨t[j]'(by simpa [hl] using h2), by simp⟩
  have cgi := h.lab _ _ hgi
  have cgj := h.lab _ _ hgj
  have hmono : ∀ p ∈ ps, p ∈ ps ++ [(i, j)] := fun p hp => List.mem_append_left _ hp
  have hij : Conn (ps ++ [(i, j)]) i j := Conn.of_mem (by simp)
  refine ⟨_, by simp [translateStep, hgi, hgj]; rfl, ?_⟩
  by_cases hne : gi = gj
  · simp only [hne, ↓reduceIte]
    have hc : Conn ps i j := (h.eqv i j _ _ hgi hgj).1 hne
    have hiff : ∀ a b, Conn (ps ++ [(i, j)]) a b ↔ Conn ps a b := by
      intro a b
      rw [Conn.cons_iff]
      constructor
      · rintro (h | ⟨h1, h2⟩ | ⟨h1, h2⟩)
        · exact h
        · exact (h1.trans hc).trans h2
        · exact (h1.trans hc.symm).trans h2
      · exact Or.inl
    refine ⟨h.len, ?_, ?_⟩
    · intro a b va vb ha hb; rw [hiff]; exact h.eqv a b va vb ha hb
    · intro a va ha; rw [hiff]; exact h.lab a va ha
  · simp only [hne, ↓reduceIte]
    refine ⟨by simp [applyReplace, hl], ?_, ?_⟩
    · intro a b va vb ha hb
      simp only [applyReplace, List.getElem?_map, Option.map_eq_some_iff] at ha hb
      obtain ⟨ua, ha, rfl⟩ := ha
      obtain ⟨ub, hb, rfl⟩ := hb
      rw [Conn.cons_iff, ← h.eqv a b _ _ ha hb, ← h.eqv a i _ _ ha hgi, ← h.eqv j b _ _ hgj hb,
        ← h.eqv a j _ _ ha hgj, ← h.eqv i b _ _ hgi hb]
      by_cases e1 : ua = gi <;> by_cases e2 : ub = gi <;> simp [e1, e2, hne] <;> grind
    · intro a va ha
      simp only [applyReplace, List.getElem?_map, Option.map_eq_some_iff] at ha
      obtain ⟨ua, ha, rfl⟩ := ha
      have := h.lab a ua ha
      split
      · rename_i e
        have hai : Conn ps a i := (h.eqv a i _ _ ha hgi).1 e
        exact ⟨((hai.mono hmono).trans hij).trans (cgj.1.mono hmono), cgj.2⟩
      · exact ⟨this.1.mono hmono, this.2⟩

theorem tinv_loop {nb} (ds : List (Nat × Nat)) : ∀ {ps t}, TInv nb ps t → (∀ d ∈ ds, d.1 < nb ∧ d.2 < nb) →
    ∃ t', translateLoop t ds = some t' ∧ TInv nb (ps ++ ds) t' := by
  induction ds with
  | nil => intro ps t h _; exact ⟨t, rfl, by simpa using h⟩
  | cons d ds ih =>
    intro ps t h hd
    obtain ⟨t1, e1, h1⟩ := tinv_step h d (hd d List.mem_cons_self).1 (hd d List.mem_cons_self).2
    obtain ⟨t2, e2, h2⟩ := ih h1 (fun x hx => hd x (List.mem_cons_of_mem _ hx))
    exact ⟨t2, by simp [translateLoop, e1, e2], by simpa using h2⟩

theorem translateStep_length {t t' d} (h : translateStep t d = some t') : t'.length = t.length := by
  unfold translateStep at h
  split at h
  · simp only [Option.some.injEq] at h
    subst h
    split <;> simp [applyReplace]
  · simp at h

theorem translateLoop_none (ds : List (Nat × Nat)) : ∀ t, (∃ d ∈ ds, t.length ≤ d.1 ∨ t.length ≤ d.2) →
    translateLoop t ds = none := by
  induction ds with
  | nil => intro t h; simp at h
  | cons d ds ih =>
    intro t h
    rw [translateLoop]
    cases e : translateStep t d with
    | none => rfl
    | some t' =>
      simp only [Option.bind_some]
      apply ih
      rw [translateStep_length e]
      obtain ⟨x, hx, hb⟩ := h
      rcases List.mem_cons.1 hx with rfl | hx
      · exfalso
        unfold translateStep at e
        split at e
        · rename_i g1 g2
          have h1 := (List.getElem?_eq_some_iff.1 g1).1
          have h2 := (List.getElem?_eq_some_iff.1 g2).1
          omega
        · simp at e
      · exact ⟨x, hx, hb⟩

/-- Full invariant of the result of `groupTranslator`. -/
theorem groupTranslator_inv {nb duos} (h : ∀ d ∈ duos, d.1 < nb ∧ d.2 < nb) :
    ∃ t, groupTranslator nb duos = some t ∧ TInv nb duos t := by
  have hm : ∀ p, p ∈ duos.insertionSort duoLe ↔ p ∈ duos := fun p => (List.mem_insertionSort _)
  obtain ⟨t, e, ht⟩ := tinv_loop (duos.insertionSort duoLe) (tinv_init nb) (fun d hd => h d ((hm d).1 hd))
  refine ⟨t, e, ht.len, ?_, ?_⟩
  · intro a b va vb ha hb
    rw [ht.eqv a b va vb ha hb]
    exact Conn.perm_iff hm a b
  · intro a va ha
    have := ht.lab a va ha
    exact ⟨(Conn.perm_iff hm a va).1 this.1, this.2⟩

/-! ### Invariant of the labelling loop -/

/-- Invariant of `get_group_array` after the pairs `ps` have been processed. -/
structure GInv (ps : List (Nat × Nat)) (s : GState) : Prop where
  /-- labels are below the next free id -/
  lt : ∀ a, s.gr a < s.idFree
  pos : 1 ≤ s.idFree
  /-- labelled exactly when in a pair -/
  lab : ∀ a, s.gr a ≠ 0 ↔ ∃ p ∈ ps, p.1 = a ∨ p.2 = a
  /-- same label implies connected -/
  sound : ∀ a b, s.gr a ≠ 0 → s.gr a = s.gr b → Conn ps a b
  /-- processed pairs have merged labels -/
  complete : ∀ p ∈ ps, Conn s.merges (s.gr p.1) (s.gr p.2)
  /-- recorded merges come from a processed pair -/
  merges : ∀ m ∈ s.merges, ∃ p ∈ ps, (s.gr p.1 = m.1 ∧ s.gr p.2 = m.2) ∨ (s.gr p.2 = m.1 ∧ s.gr p.1 = m.2)

theorem zip_range_mem {l : List Nat} {k a v : Nat} (h : (a, v) ∈ l.zip (List.range' k l.length)) :
    ∃ n, n < l.length ∧ l[n]? = some a ∧ v = k + n := by
  obtain ⟨n, hn⟩ := List.mem_iff_getElem?.1 h
  rw [List.getElem?_zip_eq_some] at hn
  obtain ⟨h1, h2⟩ := hn
  obtain ⟨hlt, h3⟩ := List.getElem?_eq_some_iff.1 h2
  refine ⟨n, by simpa using hlt, h1, ?_⟩
  simp at h3
  omega

/-- Invariant inside a batch: as `GInv`, with the pairs of the batch `b` allowed in `sound`. -/
structure WInv (ps b : List (Nat × Nat)) (s : GState) : Prop where
  lt : ∀ a, s.gr a < s.idFree
  pos : 1 ≤ s.idFree
  labOld : ∀ p ∈ ps, s.gr p.1 ≠ 0 ∧ s.gr p.2 ≠ 0
  labNew : ∀ a, s.gr a ≠ 0 → ∃ p ∈ ps ++ b, p.1 = a ∨ p.2 = a
  sound : ∀ a c, s.gr a ≠ 0 → s.gr a = s.gr c → Conn (ps ++ b) a c
  complete : ∀ p ∈ ps, Conn s.merges (s.gr p.1) (s.gr p.2)
  merges : ∀ m ∈ s.merges, ∃ p ∈ ps, (s.gr p.1 = m.1 ∧ s.gr p.2 = m.2) ∨ (s.gr p.2 = m.1 ∧ s.gr p.1 = m.2)

theorem GInv.toW {ps s} (h : GInv ps s) (b) : WInv ps b s where
  lt := h.lt
  pos := h.pos
  labOld p hp := ⟨(h.lab _).2 ⟨p, hp, Or.inl rfl⟩, (h.lab _).2 ⟨p, hp, Or.inr rfl⟩⟩
  labNew a ha := by
    obtain ⟨p, hp, e⟩ := (h.lab a).1 ha
    exact ⟨p, List.mem_append_left _ hp, e⟩
  sound a c ha e := (h.sound a c ha e).mono fun p hp => List.mem_append_left _ hp
  complete := h.complete
  merges := h.merges

/-- A phase that only fills unlabelled observations. -/
theorem WInv.fill {ps b s s'} (h : WInv ps b s) (hm : s'.merges = s.merges)
    (hpos : s.idFree ≤ s'.idFree)
    (hlt : ∀ a, s'.gr a < s'.idFree)
    (keep : ∀ a, s.gr a ≠ 0 → s'.gr a = s.gr a)
    (lab : ∀ a, s.gr a = 0 → s'.gr a ≠ 0 → ∃ p ∈ b, p.1 = a ∨ p.2 = a)
    (sound : ∀ a c, s'.gr a ≠ 0 → s'.gr a = s'.gr c → Conn (ps ++ b) a c) : WInv ps b s' where
  lt := hlt
  pos := le_trans h.pos hpos
  labOld p hp := by
    have := h.labOld p hp
    rw [keep _ this.1, keep _ this.2]
    exact this
  labNew a ha := by
    by_cases h0 : s.gr a = 0
    · obtain ⟨p, hp, e⟩ := lab a h0 ha
      exact ⟨p, List.mem_append_right _ hp, e⟩
    · exact h.labNew a h0
  sound := sound
  complete p hp := by
    have := h.labOld p hp
    rw [hm, keep _ this.1, keep _ this.2]
    exact h.complete p hp
  merges m hmm := by
    rw [hm] at hmm
    obtain ⟨p, hp, e⟩ := h.merges m hmm
    have := h.labOld p hp
    exact ⟨p, hp, by rw [keep _ this.1, keep _ this.2]; exact e⟩

theorem stepNew_cases (s : GState) (b : Batch) (a : Nat) :
    ((∀ p ∈ b, s.gr p.1 = 0 → s.gr p.2 = 0 → p.1 ≠ a ∧ p.2 ≠ a) ∧ (stepNew s b).gr a = s.gr a) ∨
    (s.gr a = 0 ∧ ∃ n p, (b.filter fun p => s.gr p.1 = 0 ∧ s.gr p.2 = 0)[n]? = some p ∧ (p.1 = a ∨ p.2 = a) ∧
      (stepNew s b).gr a = s.idFree + n ∧ s.idFree + n < (stepNew s b).idFree) := by
  generalize hm : (b.filter fun p => s.gr p.1 = 0 ∧ s.gr p.2 = 0) = m
  have hz : ∀ p ∈ m, s.gr p.1 = 0 ∧ s.gr p.2 = 0 := by
    intro p hp; rw [← hm] at hp; simpa using (List.mem_filter.1 hp).2
  have hgr : (stepNew s b).gr = scatter (scatter s.gr ((m.map Prod.fst).zip (List.range' s.idFree m.length)))
      ((m.map Prod.snd).zip (List.range' s.idFree m.length)) := by rw [← hm]; rfl
  have hid : (stepNew s b).idFree = s.idFree + m.length := by rw [← hm]; rfl
  rw [hgr, hid]
  have z1 : ∀ p ∈ m, ∃ w ∈ (m.map Prod.fst).zip (List.range' s.idFree m.length), w.1 = p.1 := by
    intro p hp
    obtain ⟨n, hn⟩ := List.mem_iff_getElem?.1 hp
    have hlt := (List.getElem?_eq_some_iff.1 hn).1
    refine ⟨(p.1, s.idFree + n), List.mem_iff_getElem?.2 ⟨n, ?_⟩, rfl⟩
    rw [List.getElem?_zip_eq_some]
    exact ⟨by simp [hn], by simp [hlt]⟩
  have z2 : ∀ p ∈ m, ∃ w ∈ (m.map Prod.snd).zip (List.range' s.idFree m.length), w.1 = p.2 := by
    intro p hp
    obtain ⟨n, hn⟩ := List.mem_iff_getElem?.1 hp
    have hlt := (List.getElem?_eq_some_iff.1 hn).1
    refine ⟨(p.2, s.idFree + n), List.mem_iff_getElem?.2 ⟨n, ?_⟩, rfl⟩
    rw [List.getElem?_zip_eq_some]
    exact ⟨by simp [hn], by simp [hlt]⟩
  have l1 : m.length = (m.map Prod.fst).length := by simp
  have l2 : m.length = (m.map Prod.snd).length := by simp
  rcases scatter_cases ((m.map Prod.snd).zip (List.range' s.idFree m.length))
    (scatter s.gr ((m.map Prod.fst).zip (List.range' s.idFree m.length))) a with ⟨n2, e2⟩ | h2
  · rcases scatter_cases ((m.map Prod.fst).zip (List.range' s.idFree m.length)) s.gr a with ⟨n1, e1⟩ | h1
    · left
      refine ⟨?_, by rw [e2, e1]⟩
      intro p hp g1 g2
      have hpm : p ∈ m := by rw [← hm, List.mem_filter]; exact ⟨hp, by simp [g1, g2]⟩
      obtain ⟨w, hw, ew⟩ := z1 p hpm
      obtain ⟨w', hw', ew'⟩ := z2 p hpm
      exact ⟨ew ▸ n1 w hw, ew' ▸ n2 w' hw'⟩
    · right
      conv at h1 => rw [l1]
      obtain ⟨n, hn, hp, hv⟩ := zip_range_mem h1
      simp only [List.getElem?_map, Option.map_eq_some_iff] at hp
      obtain ⟨p, hp, rfl⟩ := hp
      have hv' : scatter s.gr ((m.map Prod.fst).zip (List.range' s.idFree m.length)) p.1 = s.idFree + n := by
        rw [← l1] at hv; exact hv
      refine ⟨(hz p (List.mem_of_getElem? hp)).1, n, p, hp, Or.inl rfl, by rw [e2, hv'], ?_⟩
      simp at hn; omega
  · right
    conv at h2 => rw [l2]
    obtain ⟨n, hn, hp, hv⟩ := zip_range_mem h2
    simp only [List.getElem?_map, Option.map_eq_some_iff] at hp
    obtain ⟨p, hp, rfl⟩ := hp
    refine ⟨(hz p (List.mem_of_getElem? hp)).2, n, p, hp, Or.inr rfl, ?_, ?_⟩
    · rw [← l2] at hv; exact hv
    · simp at hn; omega

theorem stepNew_inv {ps b s} (h : WInv ps b s) :
    WInv ps b (stepNew s b) ∧ (∀ a, s.gr a ≠ 0 → (stepNew s b).gr a ≠ 0) ∧
    (∀ p ∈ b, (stepNew s b).gr p.1 ≠ 0 ∨ (stepNew s b).gr p.2 ≠ 0) := by
  have hpos := h.pos
  have keep : ∀ a, s.gr a ≠ 0 → (stepNew s b).gr a = s.gr a := by
    intro a ha
    rcases stepNew_cases s b a with ⟨_, e⟩ | ⟨h0, _⟩
    · exact e
    · exact absurd h0 ha
  have hle : s.idFree ≤ (stepNew s b).idFree := by simp [stepNew]
  refine ⟨h.fill rfl hle ?_ keep ?_ ?_, fun a ha => by rw [keep a ha]; exact ha, ?_⟩
  · intro a
    rcases stepNew_cases s b a with ⟨_, e⟩ | ⟨h0, n, p, _, _, e, hlt⟩
    · rw [e]; exact lt_of_lt_of_le (h.lt a) hle
    · rw [e]; exact hlt
  · intro a h0 hne
    rcases stepNew_cases s b a with ⟨_, e⟩ | ⟨_, n, p, hp, hpa, _, _⟩
    · exact absurd (e.trans h0) hne
    · exact ⟨p, (List.mem_filter.1 (List.mem_of_getElem? hp)).1, hpa⟩
  · intro a c ha hac
    have hin : ∀ (n : Nat) p, (b.filter fun p => s.gr p.1 = 0 ∧ s.gr p.2 = 0)[n]? = some p → Conn (ps ++ b) p.1 p.2 :=
      fun n p hp => Conn.of_mem (List.mem_append_right _ (List.mem_filter.1 (List.mem_of_getElem? hp)).1)
    rcases stepNew_cases s b a with ⟨_, e⟩ | ⟨_, n, p, hp, hpa, e, _⟩ <;>
      rcases stepNew_cases s b c with ⟨_, e'⟩ | ⟨_, n', p', hp', hpc, e', _⟩
    · rw [e] at ha; rw [e, e'] at hac; exact h.sound a c ha hac
    · have := h.lt a; omega
    · have := h.lt c; omega
    · obtain rfl : n = n' := by omega
      rw [hp] at hp'
      obtain rfl := Option.some.inj hp'
      have := hin n p hp
      rcases hpa with rfl | rfl <;> rcases hpc with rfl | rfl
      · exact Conn.refl _ _
      · exact this
      · exact this.symm
      · exact Conn.refl _ _
  · intro p hp
    by_cases h1 : s.gr p.1 = 0
    · by_cases h2 : s.gr p.2 = 0
      · left
        rcases stepNew_cases s b p.1 with ⟨hn, _⟩ | ⟨_, n, q, _, _, e, _⟩
        · exact absurd rfl (hn p hp h1 h2).1
        · omega
      · right; rw [keep _ h2]; exact h2
    · left; rw [keep _ h1]; exact h1

/-- Common part of the two copying phases. -/
theorem copy_inv {ps b s s'} (h : WInv ps b s) (hm : s'.merges = s.merges) (hid : s'.idFree = s.idFree)
    (hc : ∀ a, s'.gr a = s.gr a ∨ (s.gr a = 0 ∧ ∃ c, s.gr c ≠ 0 ∧ s'.gr a = s.gr c ∧ ((a, c) ∈ b ∨ (c, a) ∈ b))) :
    WInv ps b s' ∧ ∀ a, s.gr a ≠ 0 → s'.gr a = s.gr a := by
  have keep : ∀ a, s.gr a ≠ 0 → s'.gr a = s.gr a := by
    intro a ha
    rcases hc a with e | ⟨h0, _⟩
    · exact e
    · exact absurd h0 ha
  have src : ∀ a, s'.gr a ≠ 0 → ∃ c, s.gr c ≠ 0 ∧ s'.gr a = s.gr c ∧ Conn (ps ++ b) a c := by
    intro a ha
    rcases hc a with e | ⟨h0, c, hc0, e, hb | hb⟩
    · exact ⟨a, e ▸ ha, e, Conn.refl _ _⟩
    · exact ⟨c, hc0, e, Conn.of_mem (List.mem_append_right _ hb)⟩
    · exact ⟨c, hc0, e, (Conn.of_mem (List.mem_append_right _ hb)).symm⟩
  refine ⟨h.fill hm hid.ge ?_ keep ?_ ?_, keep⟩
  · intro a
    rw [hid]
    rcases hc a with e | ⟨_, c, _, e, _⟩
    · rw [e]; exact h.lt a
    · rw [e]; exact h.lt c
  · intro a h0 hne
    rcases hc a with e | ⟨_, c, _, _, hb | hb⟩
    · exact absurd (e.trans h0) hne
    · exact ⟨_, hb, Or.inl rfl⟩
    · exact ⟨_, hb, Or.inr rfl⟩
  · intro a c ha hac
    obtain ⟨x, hx, ex, cx⟩ := src a ha
    obtain ⟨y, hy, ey, cy⟩ := src c (hac ▸ ha)
    exact (cx.trans (h.sound x y hx (by rw [← ex, hac, ey]))).trans cy.symm

theorem stepRight_cases (s : GState) (b : Batch) (a : Nat) :
    ((stepRight s b).gr a = s.gr a ∧ ∀ p ∈ b, s.gr p.1 ≠ 0 → s.gr p.2 = 0 → p.2 ≠ a) ∨
      (s.gr a = 0 ∧ ∃ c, s.gr c ≠ 0 ∧ (stepRight s b).gr a = s.gr c ∧ (c, a) ∈ b) := by
  simp only [stepRight]
  rcases scatter_cases ((b.filter fun p => s.gr p.1 ≠ 0 ∧ s.gr p.2 = 0).map fun p => (p.2, s.gr p.1)) s.gr a with
    ⟨n, e⟩ | h
  · refine Or.inl ⟨e, fun p hp h1 h2 => ?_⟩
    exact n (p.2, s.gr p.1) (List.mem_map.2 ⟨p, List.mem_filter.2 ⟨hp, by simp [h1, h2]⟩, rfl⟩)
  · right
    obtain ⟨p, hp, e⟩ := List.mem_map.1 h
    obtain ⟨hpb, hf⟩ := List.mem_filter.1 hp
    simp only [Prod.mk.injEq] at e
    obtain ⟨rfl, e⟩ := e
    simp only [ne_eq, decide_eq_true_eq] at hf
    exact ⟨hf.2, p.1, hf.1, e.symm, hpb⟩

theorem stepLeft_cases (s : GState) (b : Batch) (a : Nat) :
    ((stepLeft s b).gr a = s.gr a ∧ ∀ p ∈ b, s.gr p.1 = 0 → s.gr p.2 ≠ 0 → p.1 ≠ a) ∨
      (s.gr a = 0 ∧ ∃ c, s.gr c ≠ 0 ∧ (stepLeft s b).gr a = s.gr c ∧ (a, c) ∈ b) := by
  simp only [stepLeft]
  rcases scatter_cases ((b.filter fun p => s.gr p.1 = 0 ∧ s.gr p.2 ≠ 0).map fun p => (p.1, s.gr p.2)) s.gr a with
    ⟨n, e⟩ | h
  · refine Or.inl ⟨e, fun p hp h1 h2 => ?_⟩
    exact n (p.1, s.gr p.2) (List.mem_map.2 ⟨p, List.mem_filter.2 ⟨hp, by simp [h1, h2]⟩, rfl⟩)
  · right
    obtain ⟨p, hp, e⟩ := List.mem_map.1 h
    obtain ⟨hpb, hf⟩ := List.mem_filter.1 hp
    simp only [Prod.mk.injEq] at e
    obtain ⟨rfl, e⟩ := e
    simp only [ne_eq, decide_eq_true_eq] at hf
    exact ⟨hf.1, p.2, hf.2, e.symm, hpb⟩

theorem step_inv {ps s} (h : GInv ps s) (b : Batch) : GInv (ps ++ b) (step s b) := by
  obtain ⟨w1, _, l1⟩ := stepNew_inv (h.toW b)
  obtain ⟨w2, k2⟩ := copy_inv (s' := stepRight (stepNew s b) b) w1 rfl rfl (fun a => by
    rcases stepRight_cases (stepNew s b) b a with ⟨e, _⟩ | ⟨h0, c, hc, e, hb⟩
    · exact Or.inl e
    · exact Or.inr ⟨h0, c, hc, e, Or.inr hb⟩)
  obtain ⟨w3, k3⟩ := copy_inv (s' := stepLeft (stepRight (stepNew s b) b) b) w2 rfl rfl (fun a => by
    rcases stepLeft_cases (stepRight (stepNew s b) b) b a with ⟨e, _⟩ | ⟨h0, c, hc, e, hb⟩
    · exact Or.inl e
    · exact Or.inr ⟨h0, c, hc, e, Or.inl hb⟩)
  have l2 : ∀ p ∈ b, (stepRight (stepNew s b) b).gr p.2 ≠ 0 := by
    intro p hp
    by_cases h2 : (stepNew s b).gr p.2 = 0
    · have h1 : (stepNew s b).gr p.1 ≠ 0 := by
        rcases l1 p hp with h | h
        · exact h
        · exact absurd h2 h
      rcases stepRight_cases (stepNew s b) b p.2 with ⟨_, n⟩ | ⟨_, c, hc, e, _⟩
      · exact absurd rfl (n p hp h1 h2)
      · rw [e]; exact hc
    · rw [k2 _ h2]; exact h2
  have l3 : ∀ p ∈ b, (stepLeft (stepRight (stepNew s b) b) b).gr p.1 ≠ 0 ∧
      (stepLeft (stepRight (stepNew s b) b) b).gr p.2 ≠ 0 := by
    intro p hp
    have h2 := l2 p hp
    refine ⟨?_, by rw [k3 _ h2]; exact h2⟩
    by_cases h1 : (stepRight (stepNew s b) b).gr p.1 = 0
    · rcases stepLeft_cases (stepRight (stepNew s b) b) b p.1 with ⟨_, n⟩ | ⟨_, c, hc, e, _⟩
      · exact absurd rfl (n p hp h1 h2)
      · rw [e]; exact hc
    · rw [k3 _ h1]; exact h1
  unfold step
  generalize hs : stepLeft (stepRight (stepNew s b) b) b = s3 at w3 l3
  clear hs k2 k3 l1 l2 w1 w2
  have hmon : ∀ m ∈ s3.merges, m ∈ (stepMerge s3 b).merges := fun m hm => by
    simp only [stepMerge]; exact List.mem_append_left _ hm
  refine ⟨w3.lt, w3.pos, ?_, w3.sound, ?_, ?_⟩
  · intro a
    refine ⟨w3.labNew a, ?_⟩
    rintro ⟨p, hp, e⟩
    have : s3.gr p.1 ≠ 0 ∧ s3.gr p.2 ≠ 0 := by
      rcases List.mem_append.1 hp with hp | hp
      · exact w3.labOld p hp
      · exact l3 p hp
    rcases e with rfl | rfl
    · exact this.1
    · exact this.2
  · intro p hp
    rcases List.mem_append.1 hp with hp | hp
    · exact (w3.complete p hp).mono hmon
    · show Conn (stepMerge s3 b).merges (s3.gr p.1) (s3.gr p.2)
      by_cases e : s3.gr p.1 = s3.gr p.2
      · rw [e]; exact Conn.refl _ _
      · have hmem : (if s3.gr p.1 > s3.gr p.2 then (s3.gr p.2, s3.gr p.1) else (s3.gr p.1, s3.gr p.2)) ∈
            (stepMerge s3 b).merges := by
          simp only [stepMerge]
          refine List.mem_append_right _ (List.mem_map.2 ⟨p, List.mem_filter.2 ⟨hp, by simp [e]⟩, rfl⟩)
        split at hmem
        · exact (Conn.of_mem hmem).symm
        · exact Conn.of_mem hmem
  · intro m hm
    simp only [stepMerge, List.mem_append] at hm
    rcases hm with hm | hm
    · obtain ⟨p, hp, e⟩ := w3.merges m hm
      exact ⟨p, List.mem_append_left _ hp, e⟩
    · obtain ⟨p, hp, e⟩ := List.mem_map.1 hm
      refine ⟨p, List.mem_append_right _ (List.mem_filter.1 hp).1, ?_⟩
      split at e
      · right; subst e; exact ⟨rfl, rfl⟩
      · left; subst e; exact ⟨rfl, rfl⟩

theorem init_inv : GInv [] init where
  lt a := by simp [init]
  pos := by simp [init]
  lab a := by simp [init]
  sound a b h := by simp [init] at h
  complete p hp := by simp at hp
  merges m hm := by simp [init] at hm

theorem fold_inv (bs : List Batch) : ∀ {ps s}, GInv ps s → GInv (ps ++ bs.flatten) (bs.foldl step s) := by
  induction bs with
  | nil => intro ps s h; simpa using h
  | cons b bs ih =>
    intro ps s h
    have := ih (step_inv h b)
    simpa using this

theorem GInv.merges_conn {ps s} (h : GInv ps s) {g g'} (hc : Conn s.merges g g') :
    g = g' ∨ ∃ a b, s.gr a = g ∧ s.gr b = g' ∧ s.gr a ≠ 0 ∧ s.gr b ≠ 0 ∧ Conn ps a b := by
  induction hc with
  | rel g g' hm =>
    obtain ⟨p, hp, ⟨e1, e2⟩ | ⟨e1, e2⟩⟩ := h.merges _ hm
    · exact Or.inr ⟨p.1, p.2, e1, e2, (h.lab _).2 ⟨p, hp, Or.inl rfl⟩, (h.lab _).2 ⟨p, hp, Or.inr rfl⟩, Conn.of_mem hp⟩
    · exact Or.inr ⟨p.2, p.1, e1, e2, (h.lab _).2 ⟨p, hp, Or.inr rfl⟩, (h.lab _).2 ⟨p, hp, Or.inl rfl⟩,
        (Conn.of_mem hp).symm⟩
  | refl => exact Or.inl rfl
  | symm _ _ _ ih =>
    rcases ih with e | ⟨a, b, e1, e2, h1, h2, c⟩
    · exact Or.inl e.symm
    · exact Or.inr ⟨b, a, e2, e1, h2, h1, c.symm⟩
  | trans _ _ _ _ _ ih1 ih2 =>
    rcases ih1 with e | ⟨a, b, e1, e2, h1, h2, c⟩
    · rw [e]; exact ih2
    · rcases ih2 with e' | ⟨a', b', e1', e2', h1', h2', c'⟩
      · rw [← e']; exact Or.inr ⟨a, b, e1, e2, h1, h2, c⟩
      · exact Or.inr ⟨a, b', e1, e2', h1, h2', (c.trans (h.sound b a' h2 (by rw [e2, e1']))).trans c'⟩

end Verif.Group
