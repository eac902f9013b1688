import Verif.Tracking.Merge
import Verif.Tracking.Invariant

namespace Verif.Tracking

/-! ### scatter and addAt with distinct keys -/

theorem scatter_at {β : Type} {ws : List (Nat × β)} {f : Nat → β} {i : Nat} {x : β} (hm : (i, x) ∈ ws)
    (hu : ∀ y, (i, y) ∈ ws → y = x) : scatter f ws i = x := hu _ (scatter_mem ws f i ⟨_, hm, rfl⟩)

theorem addAt_of_not_mem {a : Nat → Nat} {ws : List (Nat × Nat)} {i : Nat} (h : ∀ w ∈ ws, w.1 ≠ i) :
    addAt a ws i = a i := by
  unfold addAt
  apply scatter_of_not_mem
  intro w hw
  obtain ⟨v, hv, rfl⟩ := List.mem_map.1 hw
  exact h v hv

theorem addAt_of_mem {a : Nat → Nat} {ws : List (Nat × Nat)} {i v : Nat} (h : (i, v) ∈ ws)
    (hu : ∀ y, (i, y) ∈ ws → y = v) : addAt a ws i = a i + v := by
  unfold addAt
  refine scatter_at (List.mem_map.2 ⟨(i, v), h, rfl⟩ : (i, a i + v) ∈ ws.map (fun w => (w.1, a w.1 + w.2))) ?_
  intro y hy
  obtain ⟨w, hw, e⟩ := List.mem_map.1 hy
  simp only [Prod.mk.injEq] at e
  obtain ⟨rfl, rfl⟩ := e
  rw [hu w.2 hw]

/-- `a[ids of a sub-table] += f` when identifiers are distinct. -/
theorem addAt_links_mem {c : List Link} (hnd : (ids c).Nodup) {p : Link → Bool} {f : Link → Nat} {a : Nat → Nat}
    {l : Link} (hl : l ∈ c) (hp : p l = true) :
    addAt a ((c.filter p).map (fun l => (l.id, f l))) l.id = a l.id + f l := by
  apply addAt_of_mem (List.mem_map.2 ⟨l, List.mem_filter.2 ⟨hl, hp⟩, rfl⟩)
  intro y hy
  obtain ⟨l', hl', e⟩ := List.mem_map.1 hy
  simp only [Prod.mk.injEq] at e
  have : l' = l := eq_of_nodup_map hnd (List.mem_filter.1 hl').1 hl e.1
  subst this
  exact e.2.symm

theorem addAt_links_not {c : List Link} {p : Link → Bool} {f : Link → Nat} {a : Nat → Nat} {i : Nat}
    (h : ∀ l ∈ c, p l = true → l.id ≠ i) : addAt a ((c.filter p).map (fun l => (l.id, f l))) i = a i := by
  apply addAt_of_not_mem
  intro w hw
  obtain ⟨l, hl, rfl⟩ := List.mem_map.1 hw
  obtain ⟨h1, h2⟩ := List.mem_filter.1 hl
  exact h l h1 h2

theorem addAt_links_ite {c : List Link} (hnd : (ids c).Nodup) {p : Link → Bool} {f : Link → Nat} {a : Nat → Nat}
    {l : Link} (hl : l ∈ c) :
    addAt a ((c.filter p).map (fun l => (l.id, f l))) l.id = a l.id + if p l then f l else 0 := by
  by_cases hp : p l = true
  · rw [addAt_links_mem hnd hl hp, if_pos hp]
  · rw [if_neg hp]
    apply addAt_links_not
    intro l' hl' hp' e
    have : l' = l := eq_of_nodup_map hnd hl' hl e
    subst this
    exact hp hp'

theorem filter_true_map {β : Type} (c : List Link) (g : Link → β) : c.map g = (c.filter (fun _ => true)).map g := by
  simp

theorem addAt_all_mem {c : List Link} (hnd : (ids c).Nodup) {f : Link → Nat} {a : Nat → Nat} {l : Link} (hl : l ∈ c) :
    addAt a (c.map (fun l => (l.id, f l))) l.id = a l.id + f l := by
  rw [filter_true_map]; exact addAt_links_mem hnd hl rfl

theorem addAt_all_not {c : List Link} {f : Link → Nat} {a : Nat → Nat} {i : Nat} (h : i ∉ ids c) :
    addAt a (c.map (fun l => (l.id, f l))) i = a i := by
  rw [filter_true_map]
  exact addAt_links_not (fun l hl _ e => h (by rw [← e]; exact List.mem_map_of_mem hl))

/-! ### First and last use of an identifier -/

def FirstAt (h : List (List Link)) (i k : Nat) : Prop := UsedAt h k i ∧ ∀ j, j < k → ¬ UsedAt h j i

def LastAt (h : List (List Link)) (i k : Nat) : Prop := UsedAt h k i ∧ ∀ j, k < j → ¬ UsedAt h j i

theorem FirstAt.unique {h : List (List Link)} {i k k' : Nat} (a : FirstAt h i k) (b : FirstAt h i k') : k = k' := by
  rcases Nat.lt_trichotomy k k' with hlt | e | hlt
  · exact absurd a.1 (b.2 k hlt)
  · exact e
  · exact absurd b.1 (a.2 k' hlt)

theorem LastAt.unique {h : List (List Link)} {i k k' : Nat} (a : LastAt h i k) (b : LastAt h i k') : k = k' := by
  rcases Nat.lt_trichotomy k k' with hlt | e | hlt
  · exact absurd b.1 (a.2 k' hlt)
  · exact e
  · exact absurd a.1 (b.2 k hlt)

theorem exists_first {h : List (List Link)} {i k : Nat} (hu : UsedAt h k i) : ∃ k0, FirstAt h i k0 := by
  induction k using Nat.strong_induction_on with
  | _ k ih =>
    by_cases hex : ∃ j, j < k ∧ UsedAt h j i
    · obtain ⟨j, hj, hu'⟩ := hex
      exact ih j hj hu'
    · exact ⟨k, hu, fun j hj hu' => hex ⟨j, hj, hu'⟩⟩

theorem exists_last {h : List (List Link)} {i k : Nat} (hu : UsedAt h k i) : ∃ k1, LastAt h i k1 := by
  obtain ⟨n, hn⟩ : ∃ n, h.length = k + n := ⟨h.length - k, by have := hu.lt; omega⟩
  induction n using Nat.strong_induction_on generalizing k with
  | _ n ih =>
    by_cases hex : ∃ j, k < j ∧ UsedAt h j i
    · obtain ⟨j, hj, hu'⟩ := hex
      have := hu'.lt
      exact ih (h.length - j) (by omega) hu' (by omega)
    · exact ⟨k, hu, fun j hj hu' => hex ⟨j, hj, hu'⟩⟩

theorem FirstAt.le_last {h : List (List Link)} {i k k' : Nat} (a : FirstAt h i k) (b : LastAt h i k') : k ≤ k' := by
  by_contra hlt
  exact a.2 k' (by omega) b.1

theorem firstAt_cons {c : List Link} {h : List (List Link)} {i k : Nat} :
    FirstAt (c :: h) i k ↔ FirstAt h i k ∨ (i ∈ ids c ∧ k = h.length ∧ ∀ j, ¬ UsedAt h j i) := by
  unfold FirstAt
  constructor
  · rintro ⟨h1, h2⟩
    rcases usedAt_cons.1 h1 with ⟨rfl, hm⟩ | h1
    · right
      refine ⟨hm, rfl, fun j hu => h2 j hu.lt (usedAt_cons.2 (Or.inr hu))⟩
    · exact Or.inl ⟨h1, fun j hj hu => h2 j hj (usedAt_cons.2 (Or.inr hu))⟩
  · rintro (⟨h1, h2⟩ | ⟨h1, rfl, h2⟩)
    · refine ⟨usedAt_cons.2 (Or.inr h1), fun j hj hu => ?_⟩
      have := h1.lt
      exact h2 j hj ((usedAt_cons_lt (by omega)).1 hu)
    · exact ⟨usedAt_cons_last.2 h1, fun j hj hu => h2 j ((usedAt_cons_lt hj).1 hu)⟩

theorem lastAt_cons {c : List Link} {h : List (List Link)} {i k : Nat} :
    LastAt (c :: h) i k ↔ (i ∈ ids c ∧ k = h.length) ∨ (i ∉ ids c ∧ LastAt h i k) := by
  unfold LastAt
  constructor
  · rintro ⟨h1, h2⟩
    rcases usedAt_cons.1 h1 with ⟨rfl, hm⟩ | h1
    · exact Or.inl ⟨hm, rfl⟩
    · right
      have hk := h1.lt
      refine ⟨fun hm => h2 h.length hk (usedAt_cons_last.2 hm), h1, fun j hj hu => h2 j hj (usedAt_cons.2 (Or.inr hu))⟩
  · rintro (⟨h1, rfl⟩ | ⟨h0, h1, h2⟩)
    · refine ⟨usedAt_cons_last.2 h1, fun j hj hu => ?_⟩
      have := hu.lt
      simp at this; omega
    · refine ⟨usedAt_cons.2 (Or.inr h1), fun j hj hu => ?_⟩
      rcases usedAt_cons.1 hu with ⟨_, hm⟩ | hu
      · exact h0 hm
      · exact h2 j hj hu

/-- Observation `j` of dataset `d` belongs to the track `i`: it is the target of a link of the track, or the source of its
first link. -/
def ObsAt (h : List (List Link)) (i d j : Nat) : Prop :=
  (∃ k l, d = k + 1 ∧ LinkAt h k l ∧ l.id = i ∧ l.out = j) ∨
  (∃ l, LinkAt h d l ∧ l.id = i ∧ l.inp = j ∧ ∀ k, k < d → ¬ UsedAt h k i)

theorem obsAt_cons {c : List Link} {h : List (List Link)} {i d j : Nat} :
    ObsAt (c :: h) i d j ↔ ObsAt h i d j ∨ (∃ l ∈ c, l.id = i ∧ l.out = j ∧ d = h.length + 1) ∨
      (∃ l ∈ c, l.id = i ∧ l.inp = j ∧ d = h.length ∧ ∀ k, ¬ UsedAt h k i) := by
  unfold ObsAt
  constructor
  · rintro (⟨k, l, e, hl, h1, h2⟩ | ⟨l, hl, h1, h2, h3⟩)
    · rcases linkAt_cons.1 hl with ⟨rfl, hm⟩ | hl
      · exact Or.inr (Or.inl ⟨l, hm, h1, h2, e⟩)
      · exact Or.inl (Or.inl ⟨k, l, e, hl, h1, h2⟩)
    · rcases linkAt_cons.1 hl with ⟨rfl, hm⟩ | hl
      · exact Or.inr (Or.inr ⟨l, hm, h1, h2, rfl, fun k hu => h3 k hu.lt (usedAt_cons.2 (Or.inr hu))⟩)
      · exact Or.inl (Or.inr ⟨l, hl, h1, h2, fun k hk hu => h3 k hk (usedAt_cons.2 (Or.inr hu))⟩)
  · rintro ((⟨k, l, e, hl, h1, h2⟩ | ⟨l, hl, h1, h2, h3⟩) | ⟨l, hm, h1, h2, e⟩ | ⟨l, hm, h1, h2, rfl, h3⟩)
    · exact Or.inl ⟨k, l, e, linkAt_cons.2 (Or.inr hl), h1, h2⟩
    · refine Or.inr ⟨l, linkAt_cons.2 (Or.inr hl), h1, h2, fun k hk hu => ?_⟩
      have := hl.lt
      exact h3 k hk ((usedAt_cons_lt (by omega)).1 hu)
    · exact Or.inl ⟨h.length, l, e, linkAt_cons_last.2 hm, h1, h2⟩
    · exact Or.inr ⟨l, linkAt_cons_last.2 hm, h1, h2, fun k hk hu => h3 k ((usedAt_cons_lt hk).1 hu)⟩

/-! ### Blocks -/

theorem start_succ (nb : Nat → Nat) (i : Nat) : start nb (i + 1) = start nb i + nb i := by
  simp [start, List.range_succ]

theorem start_mono (nb : Nat → Nat) {a b : Nat} (h : a < b) : start nb a + nb a ≤ start nb b := by
  induction b with
  | zero => omega
  | succ b ih =>
    rw [start_succ]
    by_cases e : a = b
    · subst e; omega
    · have := ih (by omega); omega

theorem start_inj (nb : Nat → Nat) {a b n m : Nat} (ha : n < nb a) (hb : m < nb b)
    (e : start nb a + n = start nb b + m) : a = b ∧ n = m := by
  rcases Nat.lt_trichotomy a b with h | rfl | h
  · have := start_mono nb h; omega
  · exact ⟨rfl, by omega⟩
  · have := start_mono nb h; omega

/-- Every row belongs to a block. -/
theorem start_cover (nb : Nat → Nat) {cid r : Nat} (h : r < start nb cid) : ∃ i n, i < cid ∧ n < nb i ∧ r = start nb i + n := by
  induction cid with
  | zero => simp [start] at h
  | succ cid ih =>
    by_cases hr : r < start nb cid
    · obtain ⟨i, n, h1, h2⟩ := ih hr
      exact ⟨i, n, by omega, h2⟩
    · rw [start_succ] at h
      exact ⟨cid, r - start nb cid, by omega, by omega, by omega⟩

/-! ### Counts -/

/-- Number of datasets skipped by a link. -/
def gap (l : Link) : Nat := if l.virt then l.vlen else 0

/-- The last use of a continued track is `1 + gap` tables before. -/
theorem gap_spec {nbV : Nat} {c : List Link} {h : List (List Link)} (ok : HeadOK nbV c h) {l : Link} (hl : l ∈ c)
    {k1 : Nat} (hlast : LastAt h l.id k1) : h.length = k1 + 1 + gap l := by
  cases hv : l.virt with
  | true =>
    obtain ⟨_, _, h3, h4, h5⟩ := ok.virt l hl hv
    have : LastAt h l.id (h.length - 1 - l.vlen) := ⟨h4, fun j hj hu => h5 j hj hu.lt hu⟩
    have e := hlast.unique this
    simp only [gap, hv, if_true]; omega
  | false =>
    rcases ok.real l hl hv with ⟨k', l', e, h1, h2, h3⟩ | ⟨h1, _⟩
    · have : LastAt h l.id k' := ⟨⟨l', h1, h3⟩, fun j hj hu => by have := hu.lt; omega⟩
      have e' := hlast.unique this
      simp only [gap, hv]; simp; omega
    · exact absurd hlast.1 (h1 k1 hlast.1.lt)

/-- A link starting a track is real. -/
theorem gap_first {nbV : Nat} {c : List Link} {h : List (List Link)} (ok : HeadOK nbV c h) {l : Link} (hl : l ∈ c)
    (hn : ∀ k, ¬ UsedAt h k l.id) : gap l = 0 := by
  cases hv : l.virt with
  | true =>
    obtain ⟨_, _, _, h4, _⟩ := ok.virt l hl hv
    exact absurd h4 (hn _)
  | false => simp [gap, hv]

theorem virtual_of_virt {nbV : Nat} {c : List Link} {h : List (List Link)} (ok : HeadOK nbV c h) {l : Link} (hl : l ∈ c) :
    (if (decide (0 < nbV)) = true then if l.virt then l.vlen else 0 else 0) = gap l := by
  by_cases hV : 0 < nbV
  · simp [hV, gap]
  · cases hv : l.virt with
    | true =>
      obtain ⟨h1, h2, _⟩ := ok.virt l hl hv
      omega
    | false => simp [gap, hv]

theorem countStep_mem {nbV : Nat} {c : List Link} {h : List (List Link)} (ok : HeadOK nbV c h) {l : Link} (hl : l ∈ c)
    (a : Nat → Nat) : countStep (decide (0 < nbV)) c a l.id = a l.id + 1 + gap l := by
  have hnd := ok.nodup.1
  rw [← virtual_of_virt ok hl]
  unfold countStep
  by_cases hV : 0 < nbV
  · simp only [hV, decide_true, if_true]
    rw [addAt_links_ite hnd hl, addAt_all_mem hnd hl]
  · simp only [hV, decide_false]
    simp only [Bool.false_eq_true, if_false]
    rw [addAt_all_mem hnd hl]

theorem countStep_not {virtual : Bool} {c : List Link} {i : Nat} (h : i ∉ ids c) (a : Nat → Nat) :
    countStep virtual c a i = a i := by
  unfold countStep
  cases virtual with
  | true =>
    simp only [if_true]
    rw [addAt_links_not (fun l hl _ e => h (by rw [← e]; exact List.mem_map_of_mem hl)), addAt_all_not h]
  | false =>
    simp only [Bool.false_eq_true, if_false]
    rw [addAt_all_not h]

theorem nbObs_cons_mem {nbV : Nat} {c : List Link} {h : List (List Link)} (ok : HeadOK nbV c h) {l : Link} (hl : l ∈ c) :
    nbObsByTracks (decide (0 < nbV)) (c :: h) l.id = nbObsByTracks (decide (0 < nbV)) h l.id + 1 + gap l :=
  countStep_mem ok hl _

theorem nbObs_cons_not {virtual : Bool} {c : List Link} {h : List (List Link)} {i : Nat} (hi : i ∉ ids c) :
    nbObsByTracks virtual (c :: h) i = nbObsByTracks virtual h i := countStep_not hi _

/-- The number of observations of a track is its extent in datasets. -/
theorem nbObs_spec {nbV : Nat} {h : List (List Link)} (wf : WF nbV h) (i : Nat) :
    ((∀ k, ¬ UsedAt h k i) → nbObsByTracks (decide (0 < nbV)) h i = 1) ∧
    ∀ k0 k1, FirstAt h i k0 → LastAt h i k1 → nbObsByTracks (decide (0 < nbV)) h i + k0 = k1 + 2 := by
  induction h with
  | nil =>
    refine ⟨fun _ => rfl, fun k0 k1 hf _ => ?_⟩
    obtain ⟨l, hl, _⟩ := hf.1
    exact absurd hl linkAt_nil
  | cons c h ih =>
    obtain ⟨ok, wf'⟩ := wf_cons.1 wf
    obtain ⟨ih1, ih2⟩ := ih wf'
    by_cases hm : i ∈ ids c
    · obtain ⟨l, hl, rfl⟩ := List.mem_map.1 hm
      refine ⟨fun hn => absurd (usedAt_cons_last.2 hm) (hn _), fun k0 k1 hf hla => ?_⟩
      have e1 : k1 = h.length := by
        rcases lastAt_cons.1 hla with ⟨_, e⟩ | ⟨e, _⟩
        · exact e
        · exact absurd hm e
      rw [nbObs_cons_mem ok hl]
      by_cases hu : ∃ k, UsedAt h k l.id
      · obtain ⟨k, hu⟩ := hu
        obtain ⟨k1', hl1⟩ := exists_last hu
        have hf' : FirstAt h l.id k0 := by
          rcases firstAt_cons.1 hf with hf' | ⟨_, _, hn⟩
          · exact hf'
          · exact absurd hu (hn k)
        have := ih2 k0 k1' hf' hl1
        have := gap_spec ok hl hl1
        omega
      · have hn : ∀ k, ¬ UsedAt h k l.id := fun k hk => hu ⟨k, hk⟩
        have e0 : k0 = h.length := by
          rcases firstAt_cons.1 hf with hf' | ⟨_, e, _⟩
          · exact absurd hf'.1 (hn _)
          · exact e
        rw [ih1 hn, gap_first ok hl hn]; omega
    · rw [nbObs_cons_not hm]
      refine ⟨fun hn => ih1 (fun k hu => hn k (usedAt_cons.2 (Or.inr hu))), fun k0 k1 hf hla => ?_⟩
      apply ih2
      · rcases firstAt_cons.1 hf with hf' | ⟨e, _⟩
        · exact hf'
        · exact absurd e hm
      · rcases lastAt_cons.1 hla with ⟨e, _⟩ | ⟨_, h'⟩
        · exact absurd e hm
        · exact h'

theorem nbObs_pos {nbV : Nat} {h : List (List Link)} (wf : WF nbV h) (i : Nat) :
    1 ≤ nbObsByTracks (decide (0 < nbV)) h i := by
  by_cases hu : ∃ k, UsedAt h k i
  · obtain ⟨k, hu⟩ := hu
    obtain ⟨k0, h0⟩ := exists_first hu
    obtain ⟨k1, h1⟩ := exists_last hu
    have := (nbObs_spec wf i).2 k0 k1 h0 h1
    have := h0.le_last h1
    omega
  · rw [(nbObs_spec wf i).1 (fun k hk => hu ⟨k, hk⟩)]

/-! ### One turn of `merge` -/

/-- Write position of the target of a link. -/
def wpos (m : MSt) (l : Link) : Nat := m.ptr l.id + (if m.saved l.id then 0 else 1) + gap l

theorem mergeStep_ptr2 {nbV : Nat} {c : List Link} {h : List (List Link)} (ok : HeadOK nbV c h) (m : MSt) {l : Link}
    (hl : l ∈ c) :
    (if (decide (0 < nbV)) = true then
      addAt (addAt m.ptr ((c.filter (fun l => !m.saved l.id)).map (fun l => (l.id, 1))))
        ((c.filter (·.virt)).map (fun l => (l.id, l.vlen)))
      else addAt m.ptr ((c.filter (fun l => !m.saved l.id)).map (fun l => (l.id, 1)))) l.id = wpos m l := by
  have hnd := ok.nodup.1
  have h1 : addAt m.ptr ((c.filter (fun l => !m.saved l.id)).map (fun l => (l.id, 1))) l.id =
      m.ptr l.id + (if m.saved l.id then 0 else 1) := by
    rw [addAt_links_ite hnd hl]
    cases m.saved l.id <;> simp
  unfold wpos
  rw [← virtual_of_virt ok hl]
  by_cases hV : 0 < nbV
  · simp only [hV, decide_true, if_true]
    rw [addAt_links_ite hnd hl, h1]
  · simp only [hV, decide_false, Bool.false_eq_true, if_false]
    rw [h1]; omega

theorem mergeStep_ptr_mem {nbV : Nat} {c : List Link} {h : List (List Link)} (ok : HeadOK nbV c h) (m : MSt) (k : Nat)
    {l : Link} (hl : l ∈ c) : (mergeStep (decide (0 < nbV)) k c m).ptr l.id = wpos m l + 1 := by
  unfold mergeStep
  simp only
  rw [addAt_all_mem ok.nodup.1 hl, mergeStep_ptr2 ok m hl]

theorem mergeStep_ptr_not {v : Bool} {c : List Link} (m : MSt) (k : Nat) {i : Nat} (hi : i ∉ ids c) :
    (mergeStep v k c m).ptr i = m.ptr i := by
  have hne : ∀ (p : Link → Bool), ∀ l ∈ c, p l = true → l.id ≠ i := fun p l hl _ e =>
    hi (by rw [← e]; exact List.mem_map_of_mem hl)
  unfold mergeStep
  simp only
  rw [addAt_all_not hi]
  cases v with
  | true =>
    simp only [if_true]
    rw [addAt_links_not (hne _), addAt_links_not (hne _)]
  | false =>
    simp only [Bool.false_eq_true, if_false]
    rw [addAt_links_not (hne _)]

theorem mergeStep_saved {v : Bool} {c : List Link} (m : MSt) (k : Nat) (i : Nat) :
    (mergeStep v k c m).saved i = (m.saved i || decide (i ∈ ids c)) := by
  unfold mergeStep
  simp only
  split
  · rename_i he
    rw [List.isEmpty_iff, List.filter_eq_nil_iff] at he
    by_cases hm : i ∈ ids c
    · obtain ⟨l, hl, rfl⟩ := List.mem_map.1 hm
      have := he l hl
      simp at this
      simp [this]
    · simp [hm]
  · by_cases hm : i ∈ ids c
    · simp only [hm, decide_true, Bool.or_true]
      obtain ⟨l, hl, rfl⟩ := List.mem_map.1 hm
      refine scatter_at (List.mem_map.2 ⟨l, hl, rfl⟩ : (l.id, true) ∈ c.map (fun l => (l.id, true))) ?_
      intro y hy
      obtain ⟨l', _, e⟩ := List.mem_map.1 hy
      simp only [Prod.mk.injEq] at e
      exact e.2.symm
    · simp only [hm, decide_false, Bool.or_false]
      apply scatter_of_not_mem
      intro w hw
      obtain ⟨l, hl, rfl⟩ := List.mem_map.1 hw
      exact fun e => hm (by rw [← e]; exact List.mem_map_of_mem hl)

/-- Invariant of the loop of `merge`; `N` are the final counts. -/
structure MInv (N : Nat → Nat) (h : List (List Link)) (m : MSt) : Prop where
  fresh : ∀ i, (∀ k, ¬ UsedAt h k i) → m.ptr i = start N i ∧ m.saved i = false
  used : ∀ i k0 k1, FirstAt h i k0 → LastAt h i k1 → m.ptr i + k0 = start N i + k1 + 2 ∧ m.saved i = true
  rows : ∀ i n, n < N i → ∀ y, m.rows (start N i + n) = some y ↔
    ∃ k0 j, FirstAt h i k0 ∧ y = (k0 + n, j) ∧ ObsAt h i (k0 + n) j
  cost : ∀ i n, n < N i → ∀ q, m.cost (start N i + n) = some q ↔
    ∃ k0 l, FirstAt h i k0 ∧ LinkAt h (k0 + n) l ∧ l.id = i ∧ l.cost = q

theorem not_usedAt_nil {k i : Nat} : ¬ UsedAt [] k i := fun ⟨_, hl, _⟩ => linkAt_nil hl

theorem merge_inv {nbV : Nat} (N : Nat → Nat) {h : List (List Link)} (wf : WF nbV h)
    (hN : ∀ i, nbObsByTracks (decide (0 < nbV)) h i ≤ N i) : MInv N h (merge (decide (0 < nbV)) N h) := by
  induction h with
  | nil =>
    refine ⟨fun i _ => ⟨rfl, rfl⟩, fun i k0 k1 hf => absurd hf.1 not_usedAt_nil, ?_, ?_⟩
    · intro i n _ y
      simp only [merge, reduceCtorEq, false_iff]
      rintro ⟨k0, j, hf, _⟩
      exact not_usedAt_nil hf.1
    · intro i n _ y
      simp only [merge, reduceCtorEq, false_iff]
      rintro ⟨k0, j, hf, _⟩
      exact not_usedAt_nil hf.1
  | cons c h ih =>
    obtain ⟨ok, wf'⟩ := wf_cons.1 wf
    have hnd := ok.nodup.1
    have hN' : ∀ i, nbObsByTracks (decide (0 < nbV)) h i ≤ N i := by
      intro i
      have := hN i
      by_cases hm : i ∈ ids c
      · obtain ⟨l, hl, rfl⟩ := List.mem_map.1 hm
        rw [nbObs_cons_mem ok hl] at this; omega
      · rwa [nbObs_cons_not hm] at this
    have inv := ih wf' hN'
    generalize hmdef : merge (decide (0 < nbV)) N h = m at inv
    have hmerge : merge (decide (0 < nbV)) N (c :: h) = mergeStep (decide (0 < nbV)) h.length c m := by
      rw [merge, hmdef]
    rw [hmerge]
    -- write position of a link, inside its block
    have hw : ∀ l ∈ c, ∃ k0, FirstAt (c :: h) l.id k0 ∧ k0 ≤ h.length ∧
        wpos m l = start N l.id + (h.length + 1 - k0) ∧ h.length + 1 - k0 < N l.id := by
      intro l hl
      have hb := hN l.id
      rw [nbObs_cons_mem ok hl] at hb
      by_cases hu : ∃ k, UsedAt h k l.id
      · obtain ⟨k, hu⟩ := hu
        obtain ⟨k0, h0⟩ := exists_first hu
        obtain ⟨k1, h1⟩ := exists_last hu
        obtain ⟨e1, e2⟩ := inv.used l.id k0 k1 h0 h1
        have g := gap_spec ok hl h1
        have n := (nbObs_spec wf' l.id).2 k0 k1 h0 h1
        have le := h0.le_last h1
        refine ⟨k0, firstAt_cons.2 (Or.inl h0), by omega, ?_, by omega⟩
        simp only [wpos, e2, if_true]; omega
      · have hn : ∀ k, ¬ UsedAt h k l.id := fun k hk => hu ⟨k, hk⟩
        obtain ⟨e1, e2⟩ := inv.fresh l.id hn
        have g := gap_first ok hl hn
        have n := (nbObs_spec wf' l.id).1 hn
        refine ⟨h.length, firstAt_cons.2 (Or.inr ⟨List.mem_map_of_mem hl, rfl, hn⟩), Nat.le_refl _, ?_, by omega⟩
        simp only [wpos, e1, e2, g]; simp
    have hNpos : ∀ i, 1 ≤ N i := fun i => Nat.le_trans (nbObs_pos wf i) (hN i)
    refine ⟨?_, ?_, ?_, ?_⟩
    · intro i hn
      have hm : i ∉ ids c := fun hm => hn _ (usedAt_cons_last.2 hm)
      have hn' : ∀ k, ¬ UsedAt h k i := fun k hu => hn k (usedAt_cons.2 (Or.inr hu))
      rw [mergeStep_ptr_not m _ hm, mergeStep_saved]
      obtain ⟨e1, e2⟩ := inv.fresh i hn'
      simp [e1, e2, hm]
    · intro i k0 k1 hf hla
      by_cases hm : i ∈ ids c
      · obtain ⟨l, hl, rfl⟩ := List.mem_map.1 hm
        have e1 : k1 = h.length := by
          rcases lastAt_cons.1 hla with ⟨_, e⟩ | ⟨e, _⟩
          · exact e
          · exact absurd hm e
        obtain ⟨k0', hf', hle, e, _⟩ := hw l hl
        have := hf.unique hf'
        rw [mergeStep_ptr_mem ok m _ hl, mergeStep_saved, e]
        refine ⟨by omega, by simp [hm]⟩
      · rw [mergeStep_ptr_not m _ hm, mergeStep_saved]
        have hf' : FirstAt h i k0 := by
          rcases firstAt_cons.1 hf with hf' | ⟨e, _⟩
          · exact hf'
          · exact absurd e hm
        have hl' : LastAt h i k1 := by
          rcases lastAt_cons.1 hla with ⟨e, _⟩ | ⟨_, h'⟩
          · exact absurd e hm
          · exact h'
        obtain ⟨e1, e2⟩ := inv.used i k0 k1 hf' hl'
        exact ⟨e1, by simp [e2]⟩
    · -- rows
      intro i n hn y
      have hrows : (mergeStep (decide (0 < nbV)) h.length c m).rows =
          scatter (scatter m.rows ((c.filter (fun l => !m.saved l.id)).map (fun l => (m.ptr l.id, some (h.length, l.inp)))))
            (c.map (fun l => (wpos m l, some (h.length + 1, l.out)))) := by
        unfold mergeStep
        simp only
        congr 1
        apply List.map_congr_left
        intro l hl
        rw [mergeStep_ptr2 ok m hl]
      rw [hrows]
      -- positions hit in the block of `i`
      have hitW : ∀ l ∈ c, wpos m l = start N i + n → l.id = i ∧ ∃ k0, FirstAt (c :: h) i k0 ∧ k0 ≤ h.length ∧
          n = h.length + 1 - k0 := by
        intro l hl e
        obtain ⟨k0, hf, hle, e', hlt⟩ := hw l hl
        obtain ⟨e1, e2⟩ := start_inj N hlt hn (by rw [← e', e])
        exact ⟨e1, k0, e1 ▸ hf, hle, e2.symm⟩
      have hitF : ∀ l ∈ c, m.saved l.id = false → (∀ k, ¬ UsedAt h k l.id) ∧ m.ptr l.id = start N l.id := by
        intro l hl hs
        by_cases hu : ∃ k, UsedAt h k l.id
        · obtain ⟨k, hu⟩ := hu
          obtain ⟨k0, h0⟩ := exists_first hu
          obtain ⟨k1, h1⟩ := exists_last hu
          rw [(inv.used l.id k0 k1 h0 h1).2] at hs
          simp at hs
        · have hn' : ∀ k, ¬ UsedAt h k l.id := fun k hk => hu ⟨k, hk⟩
          exact ⟨hn', (inv.fresh l.id hn').1⟩
      by_cases hm : i ∈ ids c
      · obtain ⟨l, hl, rfl⟩ := List.mem_map.1 hm
        have uniq : ∀ l' ∈ c, l'.id = l.id → l' = l := fun l' hl' e => eq_of_nodup_map hnd hl' hl e
        obtain ⟨k0, hf, hle, ew, hlt⟩ := hw l hl
        by_cases hn1 : n = h.length + 1 - k0
        · -- the row of the target
          have e1 : scatter (scatter m.rows ((c.filter (fun l => !m.saved l.id)).map
              (fun l => (m.ptr l.id, some (h.length, l.inp)))))
              (c.map (fun l => (wpos m l, some (h.length + 1, l.out)))) (start N l.id + n) =
              some (h.length + 1, l.out) := by
            apply scatter_at
            · exact List.mem_map.2 ⟨l, hl, by rw [ew, ← hn1]⟩
            · intro z hz
              obtain ⟨l', hl', e⟩ := List.mem_map.1 hz
              simp only [Prod.mk.injEq] at e
              obtain ⟨e1, _⟩ := hitW l' hl' e.1
              have := uniq l' hl' e1
              subst this
              exact e.2.symm
          rw [e1]
          constructor
          · intro ey
            obtain rfl := Option.some.inj ey
            refine ⟨k0, l.out, hf, ?_, ?_⟩
            · rw [Prod.mk.injEq]; exact ⟨by omega, rfl⟩
            · exact obsAt_cons.2 (Or.inr (Or.inl ⟨l, hl, rfl, rfl, by omega⟩))
          · rintro ⟨k0', j, hf', rfl, hobs⟩
            have := hf.unique hf'
            subst this
            have ed : k0 + n = h.length + 1 := by omega
            rw [ed] at hobs ⊢
            rcases obsAt_cons.1 hobs with h' | ⟨l', hl', e1, e2, _⟩ | ⟨l', _, _, _, e, _⟩
            · rcases h' with ⟨k, l', e, hk, _⟩ | ⟨l', hk, _⟩
              · have := hk.lt; omega
              · have := hk.lt; omega
            · have := uniq l' hl' e1
              subst this
              rw [e2]
            · omega
        · -- another row of the same block
          have e1 : scatter (scatter m.rows ((c.filter (fun l => !m.saved l.id)).map
              (fun l => (m.ptr l.id, some (h.length, l.inp)))))
              (c.map (fun l => (wpos m l, some (h.length + 1, l.out)))) (start N l.id + n) =
              scatter m.rows ((c.filter (fun l => !m.saved l.id)).map
                (fun l => (m.ptr l.id, some (h.length, l.inp)))) (start N l.id + n) := by
            apply scatter_of_not_mem
            intro w hw'
            obtain ⟨l', hl', rfl⟩ := List.mem_map.1 hw'
            intro e
            obtain ⟨e1, k0', hf', _, e2⟩ := hitW l' hl' e
            have := hf.unique hf'
            omega
          rw [e1]
          by_cases hu : ∃ k, UsedAt h k l.id
          · -- continued track
            have hs : m.saved l.id = true := by
              obtain ⟨k, hu⟩ := hu
              obtain ⟨k0, h0⟩ := exists_first hu
              obtain ⟨k1, h1⟩ := exists_last hu
              exact (inv.used l.id k0 k1 h0 h1).2
            have hf0 : FirstAt h l.id k0 := by
              rcases firstAt_cons.1 hf with h' | ⟨_, _, h'⟩
              · exact h'
              · obtain ⟨k, hu⟩ := hu; exact absurd hu (h' k)
            have e2 : scatter m.rows ((c.filter (fun l => !m.saved l.id)).map
                (fun l => (m.ptr l.id, some (h.length, l.inp)))) (start N l.id + n) = m.rows (start N l.id + n) := by
              apply scatter_of_not_mem
              intro w hw'
              obtain ⟨l', hl', rfl⟩ := List.mem_map.1 hw'
              obtain ⟨hl', hs'⟩ := List.mem_filter.1 hl'
              obtain ⟨hn', ep⟩ := hitF l' hl' (by simpa using hs')
              intro e
              simp only [ep] at e
              obtain ⟨e3, _⟩ := start_inj N (a := l'.id) (n := 0) (hNpos _) hn (by simpa using e)
              have := uniq l' hl' e3
              subst this
              simp [hs] at hs'
            rw [e2, inv.rows l.id n hn y]
            constructor
            · rintro ⟨k0', j, hf', ey, hobs⟩
              exact ⟨k0', j, firstAt_cons.2 (Or.inl hf'), ey, obsAt_cons.2 (Or.inl hobs)⟩
            · rintro ⟨k0', j, hf', ey, hobs⟩
              have := hf.unique hf'
              subst this
              refine ⟨k0, j, hf0, ey, ?_⟩
              rcases obsAt_cons.1 hobs with h' | ⟨_, _, _, _, e⟩ | ⟨l', _, e1, _, _, h'⟩
              · exact h'
              · omega
              · obtain ⟨k, hu⟩ := hu; exact absurd hu (h' k)
          · -- new track
            have hn' : ∀ k, ¬ UsedAt h k l.id := fun k hk => hu ⟨k, hk⟩
            obtain ⟨ep, es⟩ := inv.fresh l.id hn'
            have ek0 : k0 = h.length := by
              rcases firstAt_cons.1 hf with h' | ⟨_, e, _⟩
              · exact absurd h'.1 (hn' _)
              · exact e
            by_cases hz : n = 0
            · subst hz
              have e2 : scatter m.rows ((c.filter (fun l => !m.saved l.id)).map
                  (fun l => (m.ptr l.id, some (h.length, l.inp)))) (start N l.id + 0) = some (h.length, l.inp) := by
                apply scatter_at
                · exact List.mem_map.2 ⟨l, List.mem_filter.2 ⟨hl, by simp [es]⟩, by rw [ep]; rfl⟩
                · intro z hz
                  obtain ⟨l', hl', e⟩ := List.mem_map.1 hz
                  obtain ⟨hl', hs'⟩ := List.mem_filter.1 hl'
                  simp only [Prod.mk.injEq] at e
                  obtain ⟨_, ep'⟩ := hitF l' hl' (by simpa using hs')
                  rw [ep'] at e
                  obtain ⟨e3, _⟩ := start_inj N (a := l'.id) (n := 0) (hNpos _) hn (by simpa using e.1)
                  have := uniq l' hl' e3
                  subst this
                  exact e.2.symm
              rw [e2]
              constructor
              · intro ey
                obtain rfl := Option.some.inj ey
                exact ⟨k0, l.inp, hf, by rw [ek0]; rfl,
                  obsAt_cons.2 (Or.inr (Or.inr ⟨l, hl, rfl, rfl, by omega, hn'⟩))⟩
              · rintro ⟨k0', j, hf', rfl, hobs⟩
                have := hf.unique hf'
                subst this
                rcases obsAt_cons.1 hobs with h' | ⟨_, _, _, _, e⟩ | ⟨l', hl', e1, e2, _, _⟩
                · rcases h' with ⟨k, l', _, hk, e, _⟩ | ⟨l', hk, e, _⟩
                  · exact absurd ⟨l', hk, e⟩ (hn' k)
                  · exact absurd ⟨l', hk, e⟩ (hn' _)
                · omega
                · have := uniq l' hl' e1
                  subst this
                  rw [← ek0]; simp_all
            · have e2 : scatter m.rows ((c.filter (fun l => !m.saved l.id)).map
                  (fun l => (m.ptr l.id, some (h.length, l.inp)))) (start N l.id + n) = m.rows (start N l.id + n) := by
                apply scatter_of_not_mem
                intro w hw'
                obtain ⟨l', hl', rfl⟩ := List.mem_map.1 hw'
                obtain ⟨hl', hs'⟩ := List.mem_filter.1 hl'
                obtain ⟨_, ep'⟩ := hitF l' hl' (by simpa using hs')
                intro e
                simp only [ep'] at e
                obtain ⟨_, e4⟩ := start_inj N (a := l'.id) (n := 0) (hNpos _) hn (by simpa using e)
                omega
              rw [e2, inv.rows l.id n hn y]
              constructor
              · rintro ⟨k0', j, hf', _⟩
                exact absurd hf'.1 (hn' _)
              · rintro ⟨k0', j, hf', ey, hobs⟩
                have := hf.unique hf'
                subst this
                rcases obsAt_cons.1 hobs with h' | ⟨_, _, _, _, e⟩ | ⟨l', hl', e1, e2, e, _⟩
                · rcases h' with ⟨k, l', _, hk, e, _⟩ | ⟨l', hk, e, _⟩
                  · exact absurd ⟨l', hk, e⟩ (hn' k)
                  · exact absurd ⟨l', hk, e⟩ (hn' _)
                · omega
                · omega
      · -- untouched block
        have e1 : scatter (scatter m.rows ((c.filter (fun l => !m.saved l.id)).map
            (fun l => (m.ptr l.id, some (h.length, l.inp)))))
            (c.map (fun l => (wpos m l, some (h.length + 1, l.out)))) (start N i + n) = m.rows (start N i + n) := by
          rw [scatter_of_not_mem, scatter_of_not_mem]
          · intro w hw'
            obtain ⟨l', hl', rfl⟩ := List.mem_map.1 hw'
            obtain ⟨hl', hs'⟩ := List.mem_filter.1 hl'
            obtain ⟨_, ep'⟩ := hitF l' hl' (by simpa using hs')
            intro e
            simp only [ep'] at e
            obtain ⟨e3, _⟩ := start_inj N (a := l'.id) (n := 0) (hNpos _) hn (by simpa using e)
            exact hm (by rw [← e3]; exact List.mem_map_of_mem hl')
          · intro w hw'
            obtain ⟨l', hl', rfl⟩ := List.mem_map.1 hw'
            intro e
            obtain ⟨e1, _⟩ := hitW l' hl' e
            exact hm (by rw [← e1]; exact List.mem_map_of_mem hl')
        rw [e1, inv.rows i n hn y]
        constructor
        · rintro ⟨k0', j, hf', ey, hobs⟩
          exact ⟨k0', j, firstAt_cons.2 (Or.inl hf'), ey, obsAt_cons.2 (Or.inl hobs)⟩
        · rintro ⟨k0', j, hf', ey, hobs⟩
          rcases firstAt_cons.1 hf' with hf' | ⟨h', _⟩
          · refine ⟨k0', j, hf', ey, ?_⟩
            rcases obsAt_cons.1 hobs with h' | ⟨l', hl', e, _⟩ | ⟨l', hl', e, _⟩
            · exact h'
            · exact absurd (by rw [← e]; exact List.mem_map_of_mem hl') hm
            · exact absurd (by rw [← e]; exact List.mem_map_of_mem hl') hm
          · exact absurd h' hm
    · -- costs
      intro i n hn q
      have hcost : (mergeStep (decide (0 < nbV)) h.length c m).cost =
          scatter m.cost (c.map (fun l => (wpos m l - 1, some l.cost))) := by
        unfold mergeStep
        simp only
        congr 1
        apply List.map_congr_left
        intro l hl
        rw [mergeStep_ptr2 ok m hl]
      rw [hcost]
      have hitW : ∀ l ∈ c, wpos m l - 1 = start N i + n → l.id = i ∧ ∃ k0, FirstAt (c :: h) i k0 ∧ k0 ≤ h.length ∧
          k0 + n = h.length := by
        intro l hl e
        obtain ⟨k0, hf, hle, e', hlt⟩ := hw l hl
        obtain ⟨e1, e2⟩ := start_inj N (n := h.length - k0) (by omega) hn
          (show start N l.id + (h.length - k0) = start N i + n by omega)
        exact ⟨e1, k0, e1 ▸ hf, hle, by omega⟩
      by_cases hex : ∃ l ∈ c, wpos m l - 1 = start N i + n
      · obtain ⟨l, hl, e⟩ := hex
        obtain ⟨rfl, k0, hf, hle, ek⟩ := hitW l hl e
        have uniq : ∀ l' ∈ c, l'.id = l.id → l' = l := fun l' hl' e => eq_of_nodup_map hnd hl' hl e
        have e1 : scatter m.cost (c.map (fun l => (wpos m l - 1, some l.cost))) (start N l.id + n) = some l.cost := by
          apply scatter_at
          · exact List.mem_map.2 ⟨l, hl, by rw [e]⟩
          · intro z hz
            obtain ⟨l', hl', e'⟩ := List.mem_map.1 hz
            simp only [Prod.mk.injEq] at e'
            have := uniq l' hl' (hitW l' hl' e'.1).1
            subst this
            exact e'.2.symm
        rw [e1]
        constructor
        · intro eq
          obtain rfl := Option.some.inj eq
          exact ⟨k0, l, hf, by rw [ek]; exact linkAt_cons_last.2 hl, rfl, rfl⟩
        · rintro ⟨k0', l', hf', hl', e2, rfl⟩
          have := hf.unique hf'
          subst this
          rw [ek] at hl'
          rw [uniq l' (linkAt_cons_last.1 hl') e2]
      · have e1 : scatter m.cost (c.map (fun l => (wpos m l - 1, some l.cost))) (start N i + n) =
            m.cost (start N i + n) := by
          apply scatter_of_not_mem
          intro w hw'
          obtain ⟨l', hl', rfl⟩ := List.mem_map.1 hw'
          exact fun e => hex ⟨l', hl', e⟩
        rw [e1, inv.cost i n hn q]
        constructor
        · rintro ⟨k0, l, hf, hl, e⟩
          exact ⟨k0, l, firstAt_cons.2 (Or.inl hf), linkAt_cons.2 (Or.inr hl), e⟩
        · rintro ⟨k0, l, hf, hl, e2, e3⟩
          rcases linkAt_cons.1 hl with ⟨ek, hlc⟩ | hl
          · exfalso
            apply hex
            refine ⟨l, hlc, ?_⟩
            obtain ⟨k0', hf', hle, e', hlt⟩ := hw l hlc
            rw [e2] at hf' e'
            have := hf.unique hf'
            omega
          · refine ⟨k0, l, ?_, hl, e2, e3⟩
            rcases firstAt_cons.1 hf with h' | ⟨_, e, h'⟩
            · exact h'
            · exact absurd ⟨l, hl, e2⟩ (h' _)

end Verif.Tracking
