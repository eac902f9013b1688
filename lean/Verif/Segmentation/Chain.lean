import Verif.Segmentation.Search
import Mathlib.Tactic.Push

/-!
# Invariant of `set_tracks`
-/

namespace Verif.Segmentation

section
variable (n : Nat) (T : Nat → Int) (N P : Nat → Option (Nat × Rat))

/-- State of the segments. `N` and `P` are the forward and backward searches; `ex` are the observations whose forward link is
not stored yet, `es` those whose backward search is not done; numbers are below `id`. -/
structure Inv (ex es : Nat → Prop) (st : St) (id : Nat) : Prop where
  pos : 1 ≤ id
  tr : ∀ k, k < n → st.used k = true → 1 ≤ st.track k ∧ st.track k < id
  fresh : ∀ k, k < n → st.used k = false → st.track k = 0 ∧ st.prev k = -1 ∧ st.next k = -1 ∧ st.pcost k = 0
  uniq : ∀ i j, i < n → j < n → st.used i = true → st.used j = true → st.track i = st.track j → T i = T j → i = j
  ncl : ∀ k, k < n → st.used k = true → (ex k ∨ N k = none) → st.next k = -1
  nlk : ∀ k t c, k < n → st.used k = true → ¬ ex k → N k = some (t, c) →
    st.next k = t ∧ st.used t = true ∧ st.ncost k = c ∧ c ≤ st.pcost t
  prv : ∀ k, k < n → st.used k = true → (st.prev k = -1 ∧ st.pcost k = 0 ∧ (es k ∨ P k = none)) ∨
    ∃ (p : Nat) (c : Rat), st.prev k = p ∧ st.pcost k = c ∧
      ((p < n ∧ st.used p = true ∧ ¬ ex p ∧ N p = some (k, c)) ∨ P k = some (p, c))
  seq : ∀ i j, i < j → j < n → st.used i = true → st.used j = true → st.track i = st.track j →
    (∀ l, i < l → l < j → st.used l = true → st.track l ≠ st.track i) → st.next i = j ∧ st.prev j = i

/-- State while the segment `id`, which begins at `start`, is followed; `tip` is its last observation. -/
structure Chain (st : St) (id start tip : Nat) : Prop where
  inv : Inv n T N P (· = tip) (· = start) st (id + 1)
  lt : tip < n
  used : st.used tip = true
  track : st.track tip = id
  top : ∀ k, k < n → st.used k = true → st.track k = id → k ≤ tip
  low : ∀ k, k < n → st.used k = true → st.track k = id → start ≤ k
  le : start ≤ tip
  usedS : st.used start = true
  trackS : st.track start = id
  prevS : st.prev start = -1
  costS : st.pcost start = 0

/-- State after the segment `id` has been followed. -/
structure Done (st : St) (id start : Nat) : Prop where
  inv : Inv n T N P (fun _ => False) (· = start) st (id + 1)
  low : ∀ k, k < n → st.used k = true → st.track k = id → start ≤ k
  usedS : st.used start = true
  trackS : st.track start = id
  prevS : st.prev start = -1
  costS : st.pcost start = 0
end

variable {n : Nat} {T : Nat → Int} {N P : Nat → Option (Nat × Rat)}

theorem link_pcost_ne (st : St) (i t k : Nat) (c : Rat) (h : k ≠ t) : (link st i t c).pcost k = st.pcost k := by
  unfold link
  simp only
  split
  · exact Function.update_of_ne h _ _
  · rfl

theorem link_pcost (st : St) (i t : Nat) (c : Rat) (hc : 0 < c) :
    c ≤ (link st i t c).pcost t ∧ st.pcost t ≤ (link st i t c).pcost t ∧
      ((link st i t c).pcost t = c ∨ ((link st i t c).pcost t = st.pcost t ∧ st.pcost t ≠ 0)) := by
  unfold link
  simp only
  split
  · rename_i h
    rw [Function.update_self]
    refine ⟨le_refl _, ?_, Or.inl rfl⟩
    rcases h with h | h
    · exact le_of_lt h.2
    · rw [h]; exact le_of_lt hc
  · rename_i h
    have h0 : st.pcost t ≠ 0 := fun h' => h (Or.inr h')
    have h1 : ¬ st.pcost t < c := fun h' => h (Or.inl ⟨h0, h'⟩)
    exact ⟨not_lt.1 h1, le_refl _, Or.inr ⟨rfl, h0⟩⟩

theorem link_next_ne (st : St) (i t k : Nat) (c : Rat) (h : k ≠ i) : (link st i t c).next k = st.next k :=
  Function.update_of_ne h _ _
theorem link_next (st : St) (i t : Nat) (c : Rat) : (link st i t c).next i = t := Function.update_self _ _ _
theorem link_ncost_ne (st : St) (i t k : Nat) (c : Rat) (h : k ≠ i) : (link st i t c).ncost k = st.ncost k :=
  Function.update_of_ne h _ _
theorem link_ncost (st : St) (i t : Nat) (c : Rat) : (link st i t c).ncost i = c := Function.update_self _ _ _
theorem link_track (st : St) (i t : Nat) (c : Rat) : (link st i t c).track = st.track := rfl
theorem link_prev (st : St) (i t : Nat) (c : Rat) : (link st i t c).prev = st.prev := rfl
theorem link_used (st : St) (i t : Nat) (c : Rat) : (link st i t c).used = st.used := rfl

/-- Forward candidates are later, with a positive cost. -/
def Fwd (n : Nat) (T : Nat → Int) (N : Nat → Option (Nat × Rat)) : Prop :=
  ∀ i t c, i < n → N i = some (t, c) → t < n ∧ T i < T t ∧ 0 < c

theorem lt_of_time (hT : ∀ i j, i ≤ j → j < n → T i ≤ T j) {i t : Nat} (hi : i < n) (h : T i < T t) : i < t := by
  by_contra hc
  have := hT t i (by omega) hi
  omega

/-- Beginning of a segment. -/
theorem mark_start {st : St} {id i : Nat} (h : Inv n T N P (fun _ => False) (fun _ => False) st id) (hi : i < n) (hu : st.used i = false) :
    Chain n T N P (mark st i id) id i i := by
  have ut : ∀ k, k ≠ i → (mark st i id).used k = st.used k := fun k hk => Function.update_of_ne hk _ _
  have ui : (mark st i id).used i = true := Function.update_self _ _ _
  have tt : ∀ k, k ≠ i → (mark st i id).track k = st.track k := fun k hk => Function.update_of_ne hk _ _
  have tI : (mark st i id).track i = id := Function.update_self _ _ _
  obtain ⟨f1, f2, f3, f4⟩ := h.fresh i hi hu
  have only : ∀ k, k < n → (mark st i id).used k = true → (mark st i id).track k = id → k = i := by
    intro k hk h1 h2
    by_contra hne
    rw [ut k hne] at h1
    rw [tt k hne] at h2
    have := (h.tr k hk h1).2
    omega
  have hused : ∀ k, st.used k = true → (mark st i id).used k = true := by
    intro k hk
    by_cases hne : k = i
    · rw [hne]; exact ui
    · rw [ut k hne]; exact hk
  refine ⟨⟨by omega, fun k hk h1 => ?_, fun k hk h1 => ?_, fun a b ha hb h1 h2 h3 h4 => ?_, fun k hk h1 h2 => ?_,
    fun k t c hk h1 h2 h3 => ?_, fun k hk h1 => ?_, fun a b hab hb h1 h2 h3 h4 => ?_⟩, hi, ui, tI,
    fun k hk h1 h2 => le_of_eq (only k hk h1 h2), fun k hk h1 h2 => le_of_eq (only k hk h1 h2).symm, le_refl _, ui, tI, f2, f4⟩
  · by_cases hne : k = i
    · rw [hne, tI]; have := h.pos; omega
    · rw [ut k hne] at h1
      rw [tt k hne]
      have := h.tr k hk h1
      omega
  · have hne : k ≠ i := by rintro rfl; rw [ui] at h1; cases h1
    rw [ut k hne] at h1
    rw [tt k hne]
    exact h.fresh k hk h1
  · by_cases ea : a = i
    · rw [ea, tI] at h3
      rw [ea, only b hb h2 h3.symm]
    · by_cases eb : b = i
      · rw [eb, tI] at h3
        exact absurd (only a ha h1 h3) ea
      · rw [ut a ea] at h1
        rw [ut b eb] at h2
        rw [tt a ea, tt b eb] at h3
        exact h.uniq a b ha hb h1 h2 h3 h4
  · by_cases hne : k = i
    · rw [hne]; exact f3
    · rw [ut k hne] at h1
      rcases h2 with h2 | h2
      · exact absurd h2 hne
      · exact h.ncl k hk h1 (Or.inr h2)
  · rw [ut k h2] at h1
    obtain ⟨g1, g2, g3, g4⟩ := h.nlk k t c hk h1 (by simp) h3
    exact ⟨g1, hused t g2, g3, g4⟩
  · by_cases hne : k = i
    · rw [hne]; exact Or.inl ⟨f2, f4, Or.inl rfl⟩
    · rw [ut k hne] at h1
      rcases h.prv k hk h1 with g | ⟨p, c, g1, g2, g3 | g3⟩
      · exact Or.inl ⟨g.1, g.2.1, Or.inr (g.2.2.resolve_left (fun h => h))⟩
      · refine Or.inr ⟨p, c, g1, g2, Or.inl ⟨g3.1, hused p g3.2.1, ?_, g3.2.2.2⟩⟩
        rintro rfl
        rw [hu] at g3
        cases g3.2.1
      · exact Or.inr ⟨p, c, g1, g2, Or.inr g3⟩
  · by_cases ea : a = i
    · rw [ea, tI] at h3
      have := only b hb h2 h3.symm
      omega
    · by_cases eb : b = i
      · rw [eb, tI] at h3
        exact absurd (only a (by omega) h1 h3) ea
      · rw [ut a ea] at h1
        rw [ut b eb] at h2
        rw [tt a ea, tt b eb] at h3
        refine h.seq a b hab hb h1 h2 h3 (fun l hl1 hl2 hl3 => ?_)
        have := h4 l hl1 hl2 (hused l hl3)
        rw [tt a ea] at this
        have hne : l ≠ i := by rintro rfl; rw [hu] at hl3; cases hl3
        rw [tt l hne] at this
        exact this

/-- The segment grows with an observation without number. -/
theorem grow {st : St} {id start i t : Nat} {c : Rat} (h : Chain n T N P st id start i) (hN : Fwd n T N)
    (hT : ∀ i j, i ≤ j → j < n → T i ≤ T j) (hn : N i = some (t, c)) (hu : st.used t = false) :
    Chain n T N P (mark (back (link st i t c) t i) t id) id start t := by
  obtain ⟨htn, htt, hc⟩ := hN i t c h.lt hn
  have hit : i < t := lt_of_time hT h.lt htt
  obtain ⟨f1, f2, f3, f4⟩ := h.inv.fresh t htn hu
  set s' := mark (back (link st i t c) t i) t id with hs'
  have ut : ∀ k, k ≠ t → s'.used k = st.used k := fun k hk => Function.update_of_ne hk _ _
  have ui : s'.used t = true := Function.update_self _ _ _
  have tt : ∀ k, k ≠ t → s'.track k = st.track k := fun k hk => Function.update_of_ne hk _ _
  have tI : s'.track t = id := Function.update_self _ _ _
  have pt : ∀ k, k ≠ t → s'.prev k = st.prev k := fun k hk => Function.update_of_ne hk _ _
  have pI : s'.prev t = i := Function.update_self _ _ _
  have nt : ∀ k, k ≠ i → s'.next k = st.next k := fun k hk => Function.update_of_ne hk _ _
  have nI : s'.next i = t := Function.update_self _ _ _
  have ct : ∀ k, k ≠ i → s'.ncost k = st.ncost k := fun k hk => Function.update_of_ne hk _ _
  have cI : s'.ncost i = c := Function.update_self _ _ _
  have qt : ∀ k, k ≠ t → s'.pcost k = st.pcost k := fun k hk => link_pcost_ne st i t k c hk
  have qI : s'.pcost t = c := by
    rcases (link_pcost st i t c hc).2.2 with e | e
    · exact e
    · exact absurd f4 e.2
  have hused : ∀ k, st.used k = true → s'.used k = true := by
    intro k hk
    by_cases hne : k = t
    · rw [hne]; exact ui
    · rw [ut k hne]; exact hk
  have nof : ∀ k, st.used k = true → k ≠ t := by rintro k hk rfl; rw [hu] at hk; cases hk
  have hlast : ∀ k, k < n → s'.used k = true → s'.track k = id → k ≠ t → k ≤ i := by
    intro k hk h1 h2 h3
    rw [ut k h3] at h1
    rw [tt k h3] at h2
    exact h.top k hk h1 h2
  have hit' : i ≠ t := by omega
  have hst : start ≠ t := by have := h.le; omega
  refine ⟨⟨by omega, fun k hk h1 => ?_, fun k hk h1 => ?_, fun a b ha hb h1 h2 h3 h4 => ?_, fun k hk h1 h2 => ?_,
    fun k t' c' hk h1 h2 h3 => ?_, fun k hk h1 => ?_, fun a b hab hb h1 h2 h3 h4 => ?_⟩, htn, ui, tI,
    fun k hk h1 h2 => ?_, fun k hk h1 h2 => ?_, by have := h.le; omega, ?_, ?_, ?_, ?_⟩
  · by_cases hne : k = t
    · rw [hne, tI]
      have := h.inv.tr i h.lt h.used
      rw [h.track] at this
      omega
    · rw [ut k hne] at h1
      rw [tt k hne]
      exact h.inv.tr k hk h1
  · have hne : k ≠ t := by rintro rfl; rw [ui] at h1; cases h1
    rw [ut k hne] at h1
    have hki : k ≠ i := by rintro rfl; rw [h.used] at h1; cases h1
    rw [tt k hne, pt k hne, nt k hki, qt k hne]
    exact h.inv.fresh k hk h1
  · by_cases ea : a = t
    · by_cases eb : b = t
      · rw [ea, eb]
      · rw [ea, tI] at h3
        have := hlast b hb h2 h3.symm eb
        have := hT b i this h.lt
        rw [ea] at h4
        omega
    · by_cases eb : b = t
      · rw [eb, tI] at h3
        have := hlast a ha h1 h3 ea
        have := hT a i this h.lt
        rw [eb] at h4
        omega
      · rw [ut a ea] at h1
        rw [ut b eb] at h2
        rw [tt a ea, tt b eb] at h3
        exact h.inv.uniq a b ha hb h1 h2 h3 h4
  · by_cases hne : k = t
    · rw [hne, nt t (by omega)]; exact f3
    · rw [ut k hne] at h1
      rcases h2 with h2 | h2
      · exact absurd h2 hne
      · have hki : k ≠ i := by rintro rfl; rw [hn] at h2; cases h2
        rw [nt k hki]
        exact h.inv.ncl k hk h1 (Or.inr h2)
  · rw [ut k h2] at h1
    by_cases hki : k = i
    · rw [hki] at h3 ⊢
      rw [hn] at h3
      cases h3
      exact ⟨nI, ui, cI, le_of_eq qI.symm⟩
    · obtain ⟨g1, g2, g3, g4⟩ := h.inv.nlk k t' c' hk h1 hki h3
      have := nof t' g2
      rw [nt k hki, ct k hki, qt t' this]
      exact ⟨g1, hused t' g2, g3, g4⟩
  · by_cases hne : k = t
    · rw [hne]
      exact Or.inr ⟨i, c, pI, qI, Or.inl ⟨h.lt, hused i h.used, hit', hn⟩⟩
    · rw [ut k hne] at h1
      rw [pt k hne, qt k hne]
      rcases h.inv.prv k hk h1 with g | ⟨p, c', g1, g2, g3 | g3⟩
      · exact Or.inl g
      · exact Or.inr ⟨p, c', g1, g2, Or.inl ⟨g3.1, hused p g3.2.1, nof p g3.2.1, g3.2.2.2⟩⟩
      · exact Or.inr ⟨p, c', g1, g2, Or.inr g3⟩
  · by_cases eb : b = t
    · have ea : a ≠ t := by omega
      rw [eb, tI] at h3
      have ha := hlast a (by omega) h1 h3 ea
      by_cases eai : a = i
      · rw [eai, eb]; exact ⟨nI, pI⟩
      · have := h4 i (by omega) (by omega) (hused i h.used)
        rw [tt i hit', h.track] at this
        exact absurd h3.symm this
    · by_cases ea : a = t
      · rw [ea, tI] at h3
        have := hlast b hb h2 h3.symm eb
        omega
      · rw [ut a ea] at h1
        rw [ut b eb] at h2
        have h3' := h3
        rw [tt a ea, tt b eb] at h3
        have eai : a ≠ i := by
          rintro rfl
          rw [h.track] at h3
          have := h.top b hb h2 h3.symm
          omega
        rw [nt a eai, pt b eb]
        refine h.inv.seq a b hab hb h1 h2 h3 (fun l hl1 hl2 hl3 => ?_)
        have := h4 l hl1 hl2 (hused l hl3)
        rw [tt a ea, tt l (nof l hl3)] at this
        exact this
  · by_cases hne : k = t
    · exact le_of_eq hne
    · have := hlast k hk h1 h2 hne; omega
  · by_cases hne : k = t
    · have := h.le; omega
    · rw [ut k hne] at h1
      rw [tt k hne] at h2
      exact h.low k hk h1 h2
  · rw [ut start hst]; exact h.usedS
  · rw [tt start hst]; exact h.trackS
  · rw [pt start hst]; exact h.prevS
  · rw [qt start hst]; exact h.costS

/-- The segment ends on nothing. -/
theorem stop {st : St} {id start i : Nat} (h : Chain n T N P st id start i) (hn : N i = none) :
    Done n T N P st id start := by
  refine ⟨⟨h.inv.pos, h.inv.tr, h.inv.fresh, h.inv.uniq, fun k hk h1 h2 => ?_, fun k t c hk h1 _ h3 => ?_, fun k hk h1 => ?_,
    h.inv.seq⟩, h.low, h.usedS, h.trackS, h.prevS, h.costS⟩
  · rcases h2 with h2 | h2
    · exact h2.elim
    · exact h.inv.ncl k hk h1 (Or.inr h2)
  · refine h.inv.nlk k t c hk h1 ?_ h3
    rintro rfl
    rw [hn] at h3
    cases h3
  · rcases h.inv.prv k hk h1 with g | ⟨p, c', g1, g2, g3 | g3⟩
    · exact Or.inl g
    · exact Or.inr ⟨p, c', g1, g2, Or.inl ⟨g3.1, g3.2.1, fun h => h, g3.2.2.2⟩⟩
    · exact Or.inr ⟨p, c', g1, g2, Or.inr g3⟩

theorem retag_pos {tr : Nat → Nat} {t id k : Nat} (h : t ≤ k ∧ tr k = tr t) : retag tr t id k = id := if_pos h
theorem retag_neg {tr : Nat → Nat} {t id k : Nat} (h : ¬ (t ≤ k ∧ tr k = tr t)) : retag tr t id k = tr k := if_neg h

/-- The segment reaches an observation which has a number. -/
theorem meet {st : St} {id start i t : Nat} {c : Rat} (h : Chain n T N P st id start i) (hN : Fwd n T N)
    (hT : ∀ i j, i ≤ j → j < n → T i ≤ T j) (hn : N i = some (t, c)) (hu : st.used t = true) :
    Done n T N P (join (link st i t c) i t id) id start ∧ (join (link st i t c) i t id).used = st.used := by
  obtain ⟨htn, htt, hc⟩ := hN i t c h.lt hn
  have hit : i < t := lt_of_time hT h.lt htt
  have hst : start ≠ t := by have := h.le; omega
  obtain ⟨q1, q2, q3⟩ := link_pcost st i t c hc
  have nt : ∀ k, k ≠ i → (link st i t c).next k = st.next k := fun k hk => Function.update_of_ne hk _ _
  have nI : (link st i t c).next i = t := Function.update_self _ _ _
  have ct : ∀ k, k ≠ i → (link st i t c).ncost k = st.ncost k := fun k hk => Function.update_of_ne hk _ _
  have cI : (link st i t c).ncost i = c := Function.update_self _ _ _
  have qt : ∀ k, k ≠ t → (link st i t c).pcost k = st.pcost k := fun k hk => link_pcost_ne st i t k c hk
  have qle : ∀ k, k < n → st.pcost k ≤ (link st i t c).pcost k := by
    intro k _
    by_cases e : k = t
    · rw [e]; exact q2
    · rw [qt k e]
  have hncl : ∀ k, k < n → st.used k = true → (False ∨ N k = none) → (link st i t c).next k = -1 := by
    intro k hk h1 h2
    rcases h2 with h2 | h2
    · exact h2.elim
    · have hki : k ≠ i := by rintro rfl; rw [hn] at h2; cases h2
      rw [nt k hki]
      exact h.inv.ncl k hk h1 (Or.inr h2)
  have hnlk : ∀ k t' c', k < n → st.used k = true → N k = some (t', c') →
      (link st i t c).next k = t' ∧ st.used t' = true ∧ (link st i t c).ncost k = c' ∧ c' ≤ (link st i t c).pcost t' := by
    intro k t' c' hk h1 h3
    by_cases hki : k = i
    · rw [hki] at h3 ⊢
      rw [hn] at h3
      cases h3
      exact ⟨nI, hu, cI, q1⟩
    · obtain ⟨g1, g2, g3, g4⟩ := h.inv.nlk k t' c' hk h1 hki h3
      rw [nt k hki, ct k hki]
      exact ⟨g1, g2, g3, le_trans g4 (qle t' (hN k t' c' hk h3).1)⟩
  have hfresh : ∀ k, k < n → st.used k = false → k ≠ t ∧ k ≠ i := by
    intro k _ h1
    constructor
    · rintro rfl; rw [hu] at h1; cases h1
    · rintro rfl; rw [h.used] at h1; cases h1
  have hprv : ∀ k, k < n → st.used k = true → k ≠ t →
      (st.prev k = -1 ∧ (link st i t c).pcost k = 0 ∧ (k = start ∨ P k = none)) ∨
      ∃ (p : Nat) (c' : Rat), st.prev k = p ∧ (link st i t c).pcost k = c' ∧
        ((p < n ∧ st.used p = true ∧ ¬ False ∧ N p = some (k, c')) ∨ P k = some (p, c')) := by
    intro k hk h1 hne
    rw [qt k hne]
    rcases h.inv.prv k hk h1 with g | ⟨p, c', g1, g2, g3 | g3⟩
    · exact Or.inl g
    · exact Or.inr ⟨p, c', g1, g2, Or.inl ⟨g3.1, g3.2.1, fun h => h, g3.2.2.2⟩⟩
    · exact Or.inr ⟨p, c', g1, g2, Or.inr g3⟩
  have hai : ∀ a b, a < b → b < n → st.used b = true → st.track a = st.track b → a ≠ i := by
    rintro a b hab hb h2 h3 rfl
    rw [h.track] at h3
    have := h.top b hb h2 h3.symm
    omega
  unfold join
  by_cases hsteal : (link st i t c).ncost i = (link st i t c).pcost t
  · rw [if_pos hsteal]
    rw [cI] at hsteal
    refine ⟨?_, rfl⟩
    have htr := h.inv.tr t htn hu
    have hidpos : 1 ≤ id := by have := h.inv.tr i h.lt h.used; rw [h.track] at this; omega
    -- the new numbers
    have key : ∀ k, (t ≤ k ∧ st.track k = st.track t) ∨ ¬ (t ≤ k ∧ st.track k = st.track t) := fun k => em _
    refine ⟨⟨h.inv.pos, fun k hk h1 => ?_, fun k hk h1 => ?_, fun a b ha hb h1 h2 h3 h4 => ?_, hncl,
      fun k t' c' hk h1 _ h3 => hnlk k t' c' hk h1 h3, fun k hk h1 => ?_, fun a b hab hb h1 h2 h3 h4 => ?_⟩,
      fun k hk h1 h2 => ?_, h.usedS, ?_, ?_, ?_⟩
    · simp only [link_track, link_used] at h1 ⊢
      rcases key k with kk | kk
      · rw [retag_pos kk]; omega
      · rw [retag_neg kk]; exact h.inv.tr k hk h1
    · simp only [link_track, link_used, link_prev] at h1 ⊢
      obtain ⟨hkt, hki⟩ := hfresh k hk h1
      obtain ⟨g1, g2, g3, g4⟩ := h.inv.fresh k hk h1
      rw [retag_neg (by rw [g1]; omega), Function.update_of_ne hkt, nt k hki, qt k hkt]
      exact ⟨g1, g2, g3, g4⟩
    · simp only [link_track, link_used] at h1 h2 h3
      rcases key a with ka | ka <;> rcases key b with kb | kb
      · exact h.inv.uniq a b ha hb h1 h2 (by rw [ka.2, kb.2]) h4
      · rw [retag_pos ka, retag_neg kb] at h3
        have h5 := hT b i (h.top b hb h2 h3.symm) h.lt
        have h6 := hT t a ka.1 ha
        omega
      · rw [retag_neg ka, retag_pos kb] at h3
        have h5 := hT a i (h.top a ha h1 h3) h.lt
        have h6 := hT t b kb.1 hb
        omega
      · rw [retag_neg ka, retag_neg kb] at h3
        exact h.inv.uniq a b ha hb h1 h2 h3 h4
    · simp only [link_used, link_prev] at h1 ⊢
      by_cases hne : k = t
      · rw [hne, Function.update_self]
        exact Or.inr ⟨i, c, rfl, hsteal.symm, Or.inl ⟨h.lt, h.used, fun h => h, hn⟩⟩
      · rw [Function.update_of_ne hne]
        exact hprv k hk h1 hne
    · simp only [link_track, link_used, link_prev] at h1 h2 h3 h4 ⊢
      rcases key a with ka | ka <;> rcases key b with kb | kb
      · rw [nt a (by omega), Function.update_of_ne (by omega)]
        refine h.inv.seq a b hab hb h1 h2 (by rw [ka.2, kb.2]) (fun l hl1 hl2 hl3 hl4 => ?_)
        have := h4 l hl1 hl2 hl3
        rw [retag_pos ka, retag_pos ⟨by omega, by rw [hl4, ka.2]⟩] at this
        exact this rfl
      · rw [retag_pos ka, retag_neg kb] at h3
        have := h.top b hb h2 h3.symm
        omega
      · rw [retag_neg ka, retag_pos kb] at h3
        have ha := h.top a (by omega) h1 h3
        have ebt : b = t := by
          by_contra hne
          have := h4 t (by omega) (by omega) hu
          rw [retag_pos ⟨le_refl _, rfl⟩, retag_neg ka] at this
          exact this h3.symm
        have eai : a = i := by
          by_contra hne
          have := h4 i (by omega) (by omega) h.used
          rw [retag_neg (by omega), retag_neg ka, h.track] at this
          exact this h3.symm
        rw [eai, ebt, Function.update_self]
        exact ⟨nI, rfl⟩
      · rw [retag_neg ka, retag_neg kb] at h3
        have hbt : b ≠ t := by rintro rfl; exact kb ⟨le_refl _, rfl⟩
        rw [nt a (hai a b hab hb h2 h3), Function.update_of_ne hbt]
        refine h.inv.seq a b hab hb h1 h2 h3 (fun l hl1 hl2 hl3 hl4 => ?_)
        have := h4 l hl1 hl2 hl3
        rw [retag_neg ka, retag_neg] at this
        · exact this hl4
        · rintro ⟨h5, h6⟩
          exact kb ⟨by omega, by rw [← h3, ← hl4, h6]⟩
    · simp only [link_track, link_used] at h1 h2
      rcases key k with kk | kk
      · have := h.le; omega
      · rw [retag_neg kk] at h2
        exact h.low k hk h1 h2
    · simp only [link_track]
      rw [retag_neg (by have := h.le; omega)]
      exact h.trackS
    · simp only [link_prev]
      rw [Function.update_of_ne hst]
      exact h.prevS
    · simp only
      rw [qt start hst]
      exact h.costS
  · rw [if_neg hsteal]
    rw [cI] at hsteal
    obtain ⟨e1, e2⟩ : (link st i t c).pcost t = st.pcost t ∧ st.pcost t ≠ 0 := by
      rcases q3 with e | e
      · exact absurd e.symm hsteal
      · exact e
    refine ⟨⟨⟨h.inv.pos, h.inv.tr, fun k hk h1 => ?_, h.inv.uniq, hncl,
      fun k t' c' hk h1 _ h3 => hnlk k t' c' hk h1 h3, fun k hk h1 => ?_, fun a b hab hb h1 h2 h3 h4 => ?_⟩,
      h.low, h.usedS, h.trackS, h.prevS, ?_⟩, rfl⟩
    · obtain ⟨hkt, hki⟩ := hfresh k hk h1
      rw [nt k hki, qt k hkt]
      exact h.inv.fresh k hk h1
    · by_cases hne : k = t
      · rw [hne, e1]
        rcases h.inv.prv t htn hu with g | ⟨p, c', g1, g2, g3 | g3⟩
        · exact absurd g.2.1 e2
        · exact Or.inr ⟨p, c', g1, g2, Or.inl ⟨g3.1, g3.2.1, fun h => h, g3.2.2.2⟩⟩
        · exact Or.inr ⟨p, c', g1, g2, Or.inr g3⟩
      · exact hprv k hk h1 hne
    · rw [nt a (hai a b hab hb h2 h3)]
      exact h.inv.seq a b hab hb h1 h2 h3 h4
    · rw [qt start hst]; exact h.costS

theorem follow_spec (nx : Nat → Option (Option (Nat × Rat))) (hnx : ∀ i, i < n → nx i = some (N i)) (hN : Fwd n T N)
    (hT : ∀ i j, i ≤ j → j < n → T i ≤ T j) (id start : Nat) (fuel : Nat) :
    ∀ (st : St) (i : Nat), Chain n T N P (mark st i id) id start i → n - i < fuel →
      ∃ st', follow nx id fuel st i = some st' ∧ Done n T N P st' id start ∧
        ∀ k, (mark st i id).used k = true → st'.used k = true := by
  induction fuel with
  | zero => intro st i _ h; omega
  | succ fuel ih =>
    intro st i h hf
    rw [follow]
    simp only [Option.bind_eq_bind]
    rw [hnx i h.lt, Option.bind_some]
    cases hn : N i with
    | none => exact ⟨_, rfl, stop h hn, fun k hk => hk⟩
    | some r =>
      obtain ⟨t, c⟩ := r
      cases hu : (mark st i id).used t with
      | true =>
        obtain ⟨h1, h2⟩ := meet h hN hT hn hu
        refine ⟨_, ?_, h1, fun k hk => by rw [h2]; exact hk⟩
        simp [advance, hu]
      | false =>
        have hg := grow h hN hT hn hu
        have hit := lt_of_time hT h.lt (hN i t c h.lt hn).2.1
        have := h.lt
        obtain ⟨st', g1, g2, g3⟩ := ih _ t hg (by have := (hN i t c h.lt hn).1; omega)
        refine ⟨st', ?_, g2, fun k hk => g3 k ?_⟩
        · simp only [advance, hu, Bool.false_eq_true, if_false, Option.elim_some]
          exact g1
        · by_cases e : k = t
          · rw [e]; exact Function.update_self _ _ _
          · exact (Function.update_of_ne e _ _).trans hk

theorem setPrev_spec {st : St} {id start : Nat} (h : Done n T N P st id start) (hN : Fwd n T N) (hs : start < n) :
    Inv n T N P (fun _ => False) (fun _ => False) (setPrev st start (P start)) (id + 1) ∧ (setPrev st start (P start)).used = st.used := by
  rcases hp : P start with _ | ⟨p, c⟩
  · refine ⟨⟨h.inv.pos, h.inv.tr, h.inv.fresh, h.inv.uniq, h.inv.ncl, h.inv.nlk, fun k hk h1 => ?_, h.inv.seq⟩, rfl⟩
    rcases h.inv.prv k hk h1 with g | g
    · refine Or.inl ⟨g.1, g.2.1, Or.inr ?_⟩
      rcases g.2.2 with e | e
      · rw [e]; exact hp
      · exact e
    · exact Or.inr g
  refine ⟨?_, rfl⟩
  unfold setPrev
  simp only
  refine ⟨h.inv.pos, h.inv.tr, fun k hk h1 => ?_, h.inv.uniq, h.inv.ncl, fun k t c' hk h1 h2 h3 => ?_, fun k hk h1 => ?_,
    fun a b hab hb h1 h2 h3 h4 => ?_⟩
  · simp only at h1 ⊢
    have hne : k ≠ start := by rintro rfl; rw [h.usedS] at h1; cases h1
    rw [Function.update_of_ne hne, Function.update_of_ne hne]
    exact h.inv.fresh k hk h1
  · simp only at h1 ⊢
    obtain ⟨g1, g2, g3, g4⟩ := h.inv.nlk k t c' hk h1 h2 h3
    have hne : t ≠ start := by
      rintro rfl
      rw [h.costS] at g4
      have := (hN k t c' hk h3).2.2
      linarith
    rw [Function.update_of_ne hne]
    exact ⟨g1, g2, g3, g4⟩
  · simp only at h1 ⊢
    by_cases hne : k = start
    · rw [hne, Function.update_self, Function.update_self]
      exact Or.inr ⟨p, c, rfl, rfl, Or.inr hp⟩
    · rw [Function.update_of_ne hne, Function.update_of_ne hne]
      rcases h.inv.prv k hk h1 with g | g
      · exact Or.inl ⟨g.1, g.2.1, Or.inr (g.2.2.resolve_left hne)⟩
      · exact Or.inr g
  · simp only at h1 h2 h3 h4 ⊢
    have hne : b ≠ start := by
      rintro rfl
      rw [h.trackS] at h3
      have := h.low a (by omega) h1 h3
      omega
    rw [Function.update_of_ne hne]
    exact h.inv.seq a b hab hb h1 h2 h3 h4

theorem init_inv : Inv n T N P (fun _ => False) (fun _ => False) init 1 := by
  refine ⟨le_refl _, fun k _ h => ?_, fun k _ _ => ⟨rfl, rfl, rfl, rfl⟩, fun a b _ _ h => ?_, fun k _ h => ?_, fun k _ _ _ h => ?_,
    fun k _ h => ?_, fun a b _ _ h => ?_⟩ <;> exact absurd h (by simp [init])

theorem loop_spec (nx pv : Nat → Option (Option (Nat × Rat))) (hnx : ∀ i, i < n → nx i = some (N i))
    (hpv : ∀ i, i < n → pv i = some (P i)) (hN : Fwd n T N) (hT : ∀ i j, i ≤ j → j < n → T i ≤ T j) (m : Nat)
    (hm : m ≤ n) :
    ∃ s, (List.range m).foldlM (setStep nx pv n) (init, 1) = some s ∧ Inv n T N P (fun _ => False) (fun _ => False) s.1 s.2 ∧
      ∀ k, k < m → s.1.used k = true := by
  induction m with
  | zero => exact ⟨(init, 1), rfl, init_inv, fun k hk => by omega⟩
  | succ m ih =>
    obtain ⟨s, h1, h2, h3⟩ := ih (by omega)
    rw [List.range_succ, List.foldlM_append, h1]
    simp only [Option.bind_eq_bind, Option.bind_some, List.foldlM_cons, List.foldlM_nil]
    unfold setStep
    cases hu : s.1.used m with
    | true =>
      refine ⟨s, by simp, h2, fun k hk => ?_⟩
      by_cases e : k = m
      · rw [e]; exact hu
      · exact h3 k (by omega)
    | false =>
      obtain ⟨st', g1, g2, g3⟩ := follow_spec nx hnx hN hT s.2 m (n + 1) s.1 m (mark_start h2 (by omega) hu) (by omega)
      obtain ⟨g4, g5⟩ := setPrev_spec g2 hN (by omega)
      refine ⟨(setPrev st' m (P m), s.2 + 1), ?_, g4, fun k hk => ?_⟩
      · simp only [Bool.false_eq_true, if_false, Option.bind_eq_bind]
        rw [g1, Option.bind_some, hpv m (by omega)]
        rfl
      · rw [g5]
        by_cases e : k = m
        · rw [e]; exact g2.usedS
        · refine g3 k ?_
          exact (Function.update_of_ne e _ _).trans (h3 k (by omega))

end Verif.Segmentation
