import Verif.Compare.Model
import Mathlib.Tactic.Ring

/-!
# Properties of the comparison groups (C05)
-/

namespace Verif.Compare

/-! ### Specification -/

/-- Number of valid links of observation `i` of the first dataset. -/
def deg1 (v : List Link) (i : Nat) : Nat := v.countP (fun l => l.i == i)
/-- Number of valid links of observation `j` of the second dataset. -/
def deg2 (v : List Link) (j : Nat) : Nat := v.countP (fun l => l.j == j)

/-- The five exclusive categories. -/
inductive Cat | noMatch | low | intermediate | high | multiMatch
/-- The three kinds of multiple association. -/
inductive Multi | parent | twin | complex

/-- The group of a category. -/
def Groups.get (g : Groups) : Cat → List Nat
  | .noMatch => g.noMatch | .low => g.low | .intermediate => g.intermediate | .high => g.high
  | .multiMatch => g.multiMatch
/-- The group of a kind of multiple association. -/
def Groups.kind (g : Groups) : Multi → List Nat
  | .parent => g.parent | .twin => g.twin | .complex => g.complex

/-! ### Lemmas -/

theorem mem_unique {a : List Nat} {x : Nat} : x ∈ unique a ↔ x ∈ a := by
  unfold unique; rw [List.mem_insertionSort, List.mem_dedup]

theorem unique_nodup (a : List Nat) : (unique a).Nodup :=
  (List.perm_insertionSort _ _).nodup_iff.2 (List.nodup_dedup a)

theorem select_map {α β : Type} (v : List β) (p : β → Bool) (f : β → α) :
    select (v.map p) (v.map f) = (v.filter p).map f := by
  induction v with
  | nil => rfl
  | cons x v ih =>
    simp only [select] at ih
    cases h : p x <;> simp [select, h, ih]

theorem fillMask_map {β : Type} (v : List β) (p q : β → Bool) :
    fillMask (v.map p) ((v.filter p).map q) = v.map (fun x => p x && q x) := by
  induction v with
  | nil => rfl
  | cons x v ih => cases h : p x <;> simp [fillMask, h, ih]

theorem zipWith_map_map {β γ δ ε : Type} (v : List β) (f : β → γ) (g : β → δ) (h : γ → δ → ε) :
    List.zipWith h (v.map f) (v.map g) = v.map (fun x => h (f x) (g x)) := by
  induction v with
  | nil => rfl
  | cons x v ih => simp [ih]

theorem count_map_i (v : List Link) (x : Nat) : (v.map (·.i)).count x = deg1 v x := by
  rw [List.count_eq_countP, List.countP_map]; rfl
theorem count_map_j (v : List Link) (x : Nat) : (v.map (·.j)).count x = deg2 v x := by
  rw [List.count_eq_countP, List.countP_map]; rfl

/-- The mask `m1` on one link. -/
def isTwin1 (v : List Link) (l : Link) : Bool :=
  decide (deg2 v l.j = 1) &&
    (decide ((v.filter (fun l => decide (deg2 v l.j = 1))).countP (fun l' => l'.i == l.i) = 2) && decide (deg1 v l.i = 2))
/-- The mask `m2` on one link. -/
def isTwin2 (v : List Link) (l : Link) : Bool :=
  decide (deg1 v l.i = 1) &&
    (decide ((v.filter (fun l => decide (deg1 v l.i = 1))).countP (fun l' => l'.j == l.j) = 2) && decide (deg2 v l.j = 2))
/-- The mask `m_multi` on one link. -/
def isMulti (v : List Link) (l : Link) : Bool := decide (2 ≤ deg1 v l.i) || decide (2 ≤ deg2 v l.j)

theorem getTwin_eq1 (v : List Link) : getTwin (v.map (·.i)) (v.map (·.j)) = v.map (isTwin1 v) := by
  unfold getTwin
  simp only [List.map_map, Function.comp_def, count_map_j, count_map_i]
  rw [select_map v (fun l => decide (deg2 v l.j = 1)) (·.i)]
  simp only [List.map_map, Function.comp_def, count_map_i]
  rw [fillMask_map]; rfl

theorem getTwin_eq2 (v : List Link) : getTwin (v.map (·.j)) (v.map (·.i)) = v.map (isTwin2 v) := by
  unfold getTwin
  simp only [List.map_map, Function.comp_def, count_map_j, count_map_i]
  rw [select_map v (fun l => decide (deg1 v l.i = 1)) (·.j)]
  simp only [List.map_map, Function.comp_def, count_map_j]
  rw [fillMask_map]; rfl

theorem multi_eq (v : List Link) : multi (v.map (·.i)) (v.map (·.j)) = v.map (isMulti v) := by
  unfold multi
  rw [zipWith_map_map]
  apply List.map_congr_left
  intro l hl
  unfold isMulti
  congr 1
  · rw [decide_eq_decide]
    simp only [List.mem_filter, mem_unique, count_map_i, decide_eq_true_eq]
    exact ⟨fun h => h.2, fun h => ⟨List.mem_map.2 ⟨l, hl, rfl⟩, h⟩⟩
  · rw [decide_eq_decide]
    simp only [List.mem_filter, mem_unique, count_map_j, decide_eq_true_eq]
    exact ⟨fun h => h.2, fun h => ⟨List.mem_map.2 ⟨l, hl, rfl⟩, h⟩⟩

/-- The dictionary of the first dataset, link by link. -/
theorem getGroup_fst (n1 n2 : Nat) (links : List Link) (invalid low high : Rat) :
    (getGroup n1 n2 links invalid low high).1 =
      let v := valid links invalid
      ⟨reverseIndex (v.map (·.i)) n1, (v.filter (fun l => decide (l.score < low) && !isMulti v l)).map (·.i),
        (v.filter (fun l => (decide (low ≤ l.score) && decide (l.score < high)) && !isMulti v l)).map (·.i),
        (v.filter (fun l => decide (high ≤ l.score) && !isMulti v l)).map (·.i),
        unique ((v.filter (isMulti v)).map (·.i)), unique ((v.filter (isTwin1 v)).map (·.i)),
        (v.filter (isTwin2 v)).map (·.i),
        unique ((v.filter (fun l => (isMulti v l && !isTwin1 v l) && !isTwin2 v l)).map (·.i))⟩ := by
  simp only [getGroup, multi_eq, getTwin_eq1, getTwin_eq2, andNot, List.map_map, Function.comp_def, zipWith_map_map,
    select_map]

/-- Exchange the two datasets. -/
def Link.swap (l : Link) : Link := ⟨l.j, l.i, l.score⟩

theorem valid_swap (links : List Link) (invalid : Rat) :
    valid (links.map Link.swap) invalid = (valid links invalid).map Link.swap := by
  unfold valid
  rw [List.filter_map, List.map_map, List.map_map]; rfl

theorem multi_swap (a b : List Nat) : multi b a = multi a b := by
  unfold multi
  rw [List.zipWith_comm]
  congr 1
  funext x y
  exact Bool.or_comm _ _

theorem andNot_comm (a b c : List Bool) : andNot (andNot a b) c = andNot (andNot a c) b := by
  unfold andNot
  induction a generalizing b c with
  | nil => simp
  | cons x a ih =>
    cases b with
    | nil => cases c <;> simp
    | cons y b =>
      cases c with
      | nil => simp
      | cons z c => simp only [List.zipWith_cons_cons, ih]; cases x <;> cases y <;> cases z <;> rfl

/-- The treatment of the two datasets is symmetric. -/
theorem getGroup_snd (n1 n2 : Nat) (links : List Link) (invalid low high : Rat) :
    (getGroup n1 n2 links invalid low high).2 = (getGroup n2 n1 (links.map Link.swap) invalid low high).1 := by
  unfold getGroup
  simp only [valid_swap, List.map_map, Function.comp_def, Link.swap]
  rw [multi_swap ((valid links invalid).map (·.i)), andNot_comm]

theorem countP_filter_eq {β : Type} (v : List β) (p q : β → Bool) (n : Nat) (h1 : v.countP q = n)
    (h2 : (v.filter p).countP q = n) : ∀ x ∈ v, q x = true → p x = true := by
  intro x hx hq
  by_contra hp
  have e : v.countP q = (v.filter p).countP q + (v.filter (fun y => !p y)).countP q := by
    clear h1 h2 hx
    induction v with
    | nil => rfl
    | cons y v ih =>
      cases h : p y <;> simp [h, List.countP_cons, ih] <;> omega
  have : 0 < (v.filter (fun y => !p y)).countP q :=
    List.countP_pos_iff.2 ⟨x, List.mem_filter.2 ⟨hx, by simpa using hp⟩, hq⟩
  omega

theorem countP_filter_of {β : Type} (v : List β) (p q : β → Bool) (h : ∀ x ∈ v, q x = true → p x = true) :
    (v.filter p).countP q = v.countP q := by
  rw [List.countP_filter]
  apply List.countP_congr
  intro x hx
  have := h x hx
  cases hq : q x <;> simp_all

theorem isTwin1_iff (v : List Link) {l : Link} (hl : l ∈ v) :
    isTwin1 v l = true ↔ deg1 v l.i = 2 ∧ ∀ l' ∈ v, l'.i = l.i → deg2 v l'.j = 1 := by
  unfold isTwin1
  simp only [Bool.and_eq_true, decide_eq_true_eq]
  constructor
  · rintro ⟨_, h2, h3⟩
    refine ⟨h3, fun l' h' e => ?_⟩
    have := countP_filter_eq v (fun l => decide (deg2 v l.j = 1)) (fun l' => l'.i == l.i) 2 h3 h2 l' h' (by simpa using e)
    simpa using this
  · rintro ⟨h3, h⟩
    refine ⟨h l hl rfl, ?_, h3⟩
    rw [countP_filter_of _ _ _ (fun x hx e => by simpa using h x hx (by simpa using e))]; exact h3

theorem isTwin2_iff (v : List Link) {l : Link} (hl : l ∈ v) :
    isTwin2 v l = true ↔ deg2 v l.j = 2 ∧ ∀ l' ∈ v, l'.j = l.j → deg1 v l'.i = 1 := by
  unfold isTwin2
  simp only [Bool.and_eq_true, decide_eq_true_eq]
  constructor
  · rintro ⟨_, h2, h3⟩
    refine ⟨h3, fun l' h' e => ?_⟩
    have := countP_filter_eq v (fun l => decide (deg1 v l.i = 1)) (fun l' => l'.j == l.j) 2 h3 h2 l' h' (by simpa using e)
    simpa using this
  · rintro ⟨h3, h⟩
    refine ⟨h l hl rfl, ?_, h3⟩
    rw [countP_filter_of _ _ _ (fun x hx e => by simpa using h x hx (by simpa using e))]; exact h3

theorem deg1_pos {v : List Link} {l : Link} (hl : l ∈ v) : 1 ≤ deg1 v l.i :=
  List.countP_pos_iff.2 ⟨l, hl, by simp⟩

/-- An observation with a single link has no other one. -/
theorem deg1_one_unique {v : List Link} {l l' : Link} (hl : l ∈ v) (hl' : l' ∈ v) (h : deg1 v l.i = 1)
    (e : l'.i = l.i) : l' = l := by
  unfold deg1 at h
  rw [List.countP_eq_length_filter, List.length_eq_one_iff] at h
  obtain ⟨a, ha⟩ := h
  have h1 : l ∈ v.filter (fun x => x.i == l.i) := List.mem_filter.2 ⟨hl, by simp⟩
  have h2 : l' ∈ v.filter (fun x => x.i == l.i) := List.mem_filter.2 ⟨hl', by simpa using e⟩
  rw [ha, List.mem_singleton] at h1 h2
  rw [h1, h2]

theorem nodup_of_deg1 {v : List Link} (p : Link → Bool) (h : ∀ l ∈ v, p l = true → deg1 v l.i = 1) :
    ((v.filter p).map (·.i)).Nodup := by
  rw [List.nodup_iff_count_le_one]
  intro x
  rw [count_map_i]
  by_cases hx : ∃ l ∈ v, p l = true ∧ l.i = x
  · obtain ⟨l, hl, hp, rfl⟩ := hx
    rw [← h l hl hp]
    exact List.filter_sublist.countP_le
  · have : deg1 (v.filter p) x = 0 := by
      unfold deg1
      rw [List.countP_eq_zero]
      intro l hl hlx
      exact hx ⟨l, (List.mem_filter.1 hl).1, (List.mem_filter.1 hl).2, by simpa using hlx⟩
    omega

/-! ### Properties -/

/-- What each group of the first dataset contains, in terms of the valid links only (`deg` counts links; percentages).
Together with `getGroup_snd` this describes both dictionaries. -/
theorem get_group_spec (n1 n2 : Nat) (links : List Link) (invalid low high : Rat) (i : Nat) :
    let v := valid links invalid
    let g := (getGroup n1 n2 links invalid low high).1
    (i ∈ g.noMatch ↔ i < n1 ∧ deg1 v i = 0) ∧
    (i ∈ g.low ↔ ∃ l ∈ v, l.i = i ∧ deg1 v i = 1 ∧ deg2 v l.j = 1 ∧ l.score < low) ∧
    (i ∈ g.intermediate ↔ ∃ l ∈ v, l.i = i ∧ deg1 v i = 1 ∧ deg2 v l.j = 1 ∧ low ≤ l.score ∧ l.score < high) ∧
    (i ∈ g.high ↔ ∃ l ∈ v, l.i = i ∧ deg1 v i = 1 ∧ deg2 v l.j = 1 ∧ high ≤ l.score) ∧
    (i ∈ g.multiMatch ↔ ∃ l ∈ v, l.i = i ∧ (2 ≤ deg1 v i ∨ 2 ≤ deg2 v l.j)) ∧
    (i ∈ g.parent ↔ deg1 v i = 2 ∧ ∀ l ∈ v, l.i = i → deg2 v l.j = 1) ∧
    (i ∈ g.twin ↔ ∃ l ∈ v, l.i = i ∧ deg2 v l.j = 2 ∧ ∀ l' ∈ v, l'.j = l.j → deg1 v l'.i = 1) ∧
    (i ∈ g.complex ↔ i ∈ g.multiMatch ∧ i ∉ g.parent ∧ i ∉ g.twin) := by
  intro v g
  have hg : g = _ := getGroup_fst n1 n2 links invalid low high
  have hd0 : ∀ i, deg1 v i = 0 ↔ ∀ l ∈ v, l.i ≠ i := by
    intro i
    unfold deg1
    rw [List.countP_eq_zero]
    exact ⟨fun h l hl e => h l hl (by simpa using e), fun h l hl e => h l hl (by simpa using e)⟩
  have hd2 : ∀ l ∈ v, 1 ≤ deg2 v l.j := fun l hl => List.countP_pos_iff.2 ⟨l, hl, by simp⟩
  have hnm : ∀ l ∈ v, ((!isMulti v l) = true ↔ deg1 v l.i = 1 ∧ deg2 v l.j = 1) := by
    intro l hl
    unfold isMulti
    have h1 := deg1_pos hl
    have h2 := hd2 l hl
    simp only [Bool.not_eq_true', Bool.or_eq_false_iff, decide_eq_false_iff_not]
    omega
  have hlist : ∀ p : Link → Bool, i ∈ (v.filter p).map (·.i) ↔ ∃ l ∈ v, l.i = i ∧ p l = true := by
    intro p
    rw [List.mem_map]
    constructor
    · rintro ⟨l, hl, e⟩
      exact ⟨l, (List.mem_filter.1 hl).1, e, (List.mem_filter.1 hl).2⟩
    · rintro ⟨l, hl, e, hp⟩
      exact ⟨l, List.mem_filter.2 ⟨hl, hp⟩, e⟩
  have hpar : i ∈ g.parent ↔ deg1 v i = 2 ∧ ∀ l ∈ v, l.i = i → deg2 v l.j = 1 := by
    rw [hg]
    show i ∈ unique ((v.filter (isTwin1 v)).map (·.i)) ↔ _
    rw [mem_unique, hlist]
    constructor
    · rintro ⟨l, hl, rfl, h⟩
      exact (isTwin1_iff v hl).1 h
    · rintro ⟨h1, h2⟩
      have : ∃ l ∈ v, l.i = i := by
        by_contra h
        have := (hd0 i).2 (fun l hl e => h ⟨l, hl, e⟩)
        omega
      obtain ⟨l, hl, rfl⟩ := this
      exact ⟨l, hl, rfl, (isTwin1_iff v hl).2 ⟨h1, h2⟩⟩
  have htwin : i ∈ g.twin ↔ ∃ l ∈ v, l.i = i ∧ deg2 v l.j = 2 ∧ ∀ l' ∈ v, l'.j = l.j → deg1 v l'.i = 1 := by
    rw [hg]
    show i ∈ (v.filter (isTwin2 v)).map (·.i) ↔ _
    rw [hlist]
    constructor
    · rintro ⟨l, hl, e, h⟩
      exact ⟨l, hl, e, (isTwin2_iff v hl).1 h⟩
    · rintro ⟨l, hl, e, h⟩
      exact ⟨l, hl, e, (isTwin2_iff v hl).2 h⟩
  have hmul : i ∈ g.multiMatch ↔ ∃ l ∈ v, l.i = i ∧ (2 ≤ deg1 v i ∨ 2 ≤ deg2 v l.j) := by
    rw [hg]
    show i ∈ unique ((v.filter (isMulti v)).map (·.i)) ↔ _
    rw [mem_unique, hlist]
    constructor
    · rintro ⟨l, hl, rfl, h⟩
      exact ⟨l, hl, rfl, by simpa [isMulti] using h⟩
    · rintro ⟨l, hl, rfl, h⟩
      exact ⟨l, hl, rfl, by simpa [isMulti] using h⟩
  refine ⟨?_, ?_, ?_, ?_, hmul, hpar, htwin, ?_⟩
  · rw [hg, hd0]
    show i ∈ reverseIndex (v.map (·.i)) n1 ↔ _
    simp [reverseIndex]
  · rw [hg]
    show i ∈ (v.filter (fun l => decide (l.score < low) && !isMulti v l)).map (·.i) ↔ _
    rw [hlist]
    constructor
    · rintro ⟨l, hl, rfl, h⟩
      rw [Bool.and_eq_true, hnm l hl] at h
      exact ⟨l, hl, rfl, h.2.1, h.2.2, by simpa using h.1⟩
    · rintro ⟨l, hl, rfl, h1, h2, h3⟩
      exact ⟨l, hl, rfl, by rw [Bool.and_eq_true, hnm l hl]; exact ⟨by simpa using h3, h1, h2⟩⟩
  · rw [hg]
    show i ∈ (v.filter (fun l => (decide (low ≤ l.score) && decide (l.score < high)) && !isMulti v l)).map (·.i) ↔ _
    rw [hlist]
    constructor
    · rintro ⟨l, hl, rfl, h⟩
      rw [Bool.and_eq_true, hnm l hl] at h
      exact ⟨l, hl, rfl, h.2.1, h.2.2, by simpa using h.1⟩
    · rintro ⟨l, hl, rfl, h1, h2, h3⟩
      exact ⟨l, hl, rfl, by rw [Bool.and_eq_true, hnm l hl]; exact ⟨by simpa using h3, h1, h2⟩⟩
  · rw [hg]
    show i ∈ (v.filter (fun l => decide (high ≤ l.score) && !isMulti v l)).map (·.i) ↔ _
    rw [hlist]
    constructor
    · rintro ⟨l, hl, rfl, h⟩
      rw [Bool.and_eq_true, hnm l hl] at h
      exact ⟨l, hl, rfl, h.2.1, h.2.2, by simpa using h.1⟩
    · rintro ⟨l, hl, rfl, h1, h2, h3⟩
      exact ⟨l, hl, rfl, by rw [Bool.and_eq_true, hnm l hl]; exact ⟨by simpa using h3, h1, h2⟩⟩
  · rw [hpar, htwin, hmul, hg]
    show i ∈ unique ((v.filter (fun l => (isMulti v l && !isTwin1 v l) && !isTwin2 v l)).map (·.i)) ↔ _
    rw [mem_unique, hlist]
    constructor
    · rintro ⟨l, hl, rfl, h⟩
      simp only [Bool.and_eq_true, Bool.not_eq_true'] at h
      obtain ⟨⟨h1, h2⟩, h3⟩ := h
      refine ⟨⟨l, hl, rfl, by simpa [isMulti] using h1⟩, fun h4 => ?_, ?_⟩
      · rw [(isTwin1_iff v hl).2 h4] at h2; cases h2
      · rintro ⟨l', hl', e, h5, h6⟩
        have hone : deg1 v l.i = 1 := by rw [← e]; exact h6 l' hl' rfl
        have := deg1_one_unique hl hl' hone e
        subst this
        rw [(isTwin2_iff v hl).2 ⟨h5, h6⟩] at h3; cases h3
    · rintro ⟨⟨l, hl, rfl, h⟩, h2, h3⟩
      refine ⟨l, hl, rfl, ?_⟩
      simp only [Bool.and_eq_true, Bool.not_eq_true']
      refine ⟨⟨by simpa [isMulti] using h, ?_⟩, ?_⟩
      · cases e : isTwin1 v l
        · rfl
        · exact absurd ((isTwin1_iff v hl).1 e) h2
      · cases e : isTwin2 v l
        · rfl
        · exact absurd ⟨l, hl, rfl, (isTwin2_iff v hl).1 e⟩ h3

/-- C05, first dataset: every observation is in exactly one of the five groups; every observation of `multi_match` is in
exactly one of the three kinds; no observation is listed twice in a group. -/
theorem get_group_partition (n1 n2 : Nat) (links : List Link) (invalid low high : Rat) (hlh : low ≤ high)
    (hr : ∀ l ∈ links, l.i < n1) :
    let g := (getGroup n1 n2 links invalid low high).1
    (∀ i, i < n1 → ∃! c : Cat, i ∈ g.get c) ∧ (∀ c i, i ∈ g.get c → i < n1) ∧
    (∀ i, i ∈ g.multiMatch → ∃! k : Multi, i ∈ g.kind k) ∧ (∀ k i, i ∈ g.kind k → i ∈ g.multiMatch) ∧
    (∀ c, (g.get c).Nodup) ∧ (∀ k, (g.kind k).Nodup) := by
  intro g
  have spec : ∀ i, _ := get_group_spec n1 n2 links invalid low high
  have hvr : ∀ l ∈ valid links invalid, l.i < n1 := by
    intro l hl
    obtain ⟨l0, h0, rfl⟩ := List.mem_map.1 hl
    exact hr l0 (List.mem_filter.1 h0).1
  have hkm : ∀ k i, i ∈ g.kind k → i ∈ g.multiMatch := by
    intro k i hi
    obtain ⟨_, _, _, _, hm, hp, ht, hc⟩ := spec i
    cases k with
    | parent =>
      obtain ⟨h1, h2⟩ := hp.1 hi
      have : 0 < deg1 (valid links invalid) i := by omega
      obtain ⟨l, hl, e⟩ := List.countP_pos_iff.1 this
      exact hm.2 ⟨l, hl, by simpa using e, Or.inl (by omega)⟩
    | twin =>
      obtain ⟨l, hl, e, h1, _⟩ := ht.1 hi
      exact hm.2 ⟨l, hl, e, Or.inr (by omega)⟩
    | complex => exact (hc.1 hi).1
  have hnm : ∀ l, (!isMulti (valid links invalid) l) = true → l ∈ valid links invalid →
      deg1 (valid links invalid) l.i = 1 := by
    intro l h hl
    have := deg1_pos hl
    unfold isMulti at h
    simp only [Bool.not_eq_true', Bool.or_eq_false_iff, decide_eq_false_iff_not] at h
    omega
  refine ⟨fun i hi => ?_, ?_, fun i hi => ?_, hkm, ?_, ?_⟩
  · obtain ⟨hn, hl, hi', hh, hm, _⟩ := spec i
    have one : ∀ l ∈ valid links invalid, ∀ l' ∈ valid links invalid, l.i = i → l'.i = i →
        deg1 (valid links invalid) i = 1 → l' = l := by
      intro l h1 l' h2 e e' hd
      exact deg1_one_unique h1 h2 (by rw [e]; exact hd) (by rw [e', e])
    rcases Nat.eq_zero_or_pos (deg1 (valid links invalid) i) with h0 | hpos
    · refine ⟨.noMatch, hn.2 ⟨hi, h0⟩, fun c hc => ?_⟩
      have hno : ∀ l ∈ valid links invalid, l.i ≠ i := by
        intro l hl e
        have := deg1_pos hl
        rw [e] at this; omega
      cases c with
      | noMatch => rfl
      | low => obtain ⟨l, h1, e, _⟩ := hl.1 hc; exact absurd e (hno l h1)
      | intermediate => obtain ⟨l, h1, e, _⟩ := hi'.1 hc; exact absurd e (hno l h1)
      | high => obtain ⟨l, h1, e, _⟩ := hh.1 hc; exact absurd e (hno l h1)
      | multiMatch => obtain ⟨l, h1, e, _⟩ := hm.1 hc; exact absurd e (hno l h1)
    · obtain ⟨l, hlv, e⟩ := List.countP_pos_iff.1 hpos
      have e : l.i = i := by simpa using e
      have hd2 : 1 ≤ deg2 (valid links invalid) l.j := List.countP_pos_iff.2 ⟨l, hlv, by simp⟩
      by_cases hmul : 2 ≤ deg1 (valid links invalid) i ∨ 2 ≤ deg2 (valid links invalid) l.j
      · refine ⟨.multiMatch, hm.2 ⟨l, hlv, e, hmul⟩, fun c hc => ?_⟩
        have hno : ∀ l' ∈ valid links invalid, l'.i = i → deg1 (valid links invalid) i = 1 →
            deg2 (valid links invalid) l'.j = 1 → False := by
          intro l' h1 e' h2 h3
          have := one l hlv l' h1 e e' h2
          subst this; omega
        cases c with
        | noMatch => have := (hn.1 hc).2; omega
        | low => obtain ⟨l', h1, e', h2, h3, _⟩ := hl.1 hc; exact (hno l' h1 e' h2 h3).elim
        | intermediate => obtain ⟨l', h1, e', h2, h3, _⟩ := hi'.1 hc; exact (hno l' h1 e' h2 h3).elim
        | high => obtain ⟨l', h1, e', h2, h3, _⟩ := hh.1 hc; exact (hno l' h1 e' h2 h3).elim
        | multiMatch => rfl
      · have h1 : deg1 (valid links invalid) i = 1 := by omega
        have h2 : deg2 (valid links invalid) l.j = 1 := by omega
        have nn : ¬ i ∈ g.get .noMatch := fun hc => by have := (hn.1 hc).2; omega
        have nm : ¬ i ∈ g.get .multiMatch := by
          intro hc
          obtain ⟨l', h1', e', h3⟩ := hm.1 hc
          have := one l hlv l' h1' e e' h1
          subst this; omega
        have sl : i ∈ g.get .low ↔ l.score < low := by
          constructor
          · intro hc
            obtain ⟨l', h1', e', _, _, h3⟩ := hl.1 hc
            have := one l hlv l' h1' e e' h1
            subst this; exact h3
          · exact fun h => hl.2 ⟨l, hlv, e, h1, h2, h⟩
        have si : i ∈ g.get .intermediate ↔ low ≤ l.score ∧ l.score < high := by
          constructor
          · intro hc
            obtain ⟨l', h1', e', _, _, h3⟩ := hi'.1 hc
            have := one l hlv l' h1' e e' h1
            subst this; exact h3
          · exact fun h => hi'.2 ⟨l, hlv, e, h1, h2, h⟩
        have sh : i ∈ g.get .high ↔ high ≤ l.score := by
          constructor
          · intro hc
            obtain ⟨l', h1', e', _, _, h3⟩ := hh.1 hc
            have := one l hlv l' h1' e e' h1
            subst this; exact h3
          · exact fun h => hh.2 ⟨l, hlv, e, h1, h2, h⟩
        rcases lt_or_ge l.score low with a | a
        · refine ⟨.low, sl.2 a, fun c hc => ?_⟩
          cases c with
          | noMatch => exact absurd hc nn
          | low => rfl
          | intermediate => exact absurd (si.1 hc).1 (not_le.2 a)
          | high => exact absurd (le_trans hlh (sh.1 hc)) (not_le.2 a)
          | multiMatch => exact absurd hc nm
        · rcases lt_or_ge l.score high with b | b
          · refine ⟨.intermediate, si.2 ⟨a, b⟩, fun c hc => ?_⟩
            cases c with
            | noMatch => exact absurd hc nn
            | low => exact absurd (sl.1 hc) (not_lt.2 a)
            | intermediate => rfl
            | high => exact absurd (sh.1 hc) (not_le.2 b)
            | multiMatch => exact absurd hc nm
          · refine ⟨.high, sh.2 b, fun c hc => ?_⟩
            cases c with
            | noMatch => exact absurd hc nn
            | low => exact absurd (sl.1 hc) (not_lt.2 a)
            | intermediate => exact absurd (si.1 hc).2 (not_lt.2 b)
            | high => rfl
            | multiMatch => exact absurd hc nm
  · intro c i hc
    obtain ⟨hn, hl, hi', hh, hm, _⟩ := spec i
    cases c with
    | noMatch => exact (hn.1 hc).1
    | low => obtain ⟨l, h1, e, _⟩ := hl.1 hc; exact e ▸ hvr l h1
    | intermediate => obtain ⟨l, h1, e, _⟩ := hi'.1 hc; exact e ▸ hvr l h1
    | high => obtain ⟨l, h1, e, _⟩ := hh.1 hc; exact e ▸ hvr l h1
    | multiMatch => obtain ⟨l, h1, e, _⟩ := hm.1 hc; exact e ▸ hvr l h1
  · obtain ⟨_, _, _, _, _, hp, ht, hc⟩ := spec i
    have pt : ¬ (i ∈ g.kind .parent ∧ i ∈ g.kind .twin) := by
      rintro ⟨a, b⟩
      obtain ⟨l, hl, e, _, h6⟩ := ht.1 b
      have := h6 l hl rfl
      rw [e] at this
      have := (hp.1 a).1
      omega
    by_cases a : i ∈ g.kind .parent
    · refine ⟨.parent, a, fun k hk => ?_⟩
      cases k with
      | parent => rfl
      | twin => exact absurd ⟨a, hk⟩ pt
      | complex => exact absurd a (hc.1 hk).2.1
    · by_cases b : i ∈ g.kind .twin
      · refine ⟨.twin, b, fun k hk => ?_⟩
        cases k with
        | parent => exact absurd hk a
        | twin => rfl
        | complex => exact absurd b (hc.1 hk).2.2
      · refine ⟨.complex, hc.2 ⟨hi, a, b⟩, fun k hk => ?_⟩
        cases k with
        | parent => exact absurd hk a
        | twin => exact absurd hk b
        | complex => rfl
  · intro c
    have hg : g = _ := getGroup_fst n1 n2 links invalid low high
    rw [hg]
    cases c with
    | noMatch => exact List.nodup_range.filter _
    | low => exact nodup_of_deg1 _ (fun l hl h => hnm l (by simp_all) hl)
    | intermediate => exact nodup_of_deg1 _ (fun l hl h => hnm l (by simp_all) hl)
    | high => exact nodup_of_deg1 _ (fun l hl h => hnm l (by simp_all) hl)
    | multiMatch => exact unique_nodup _
  · intro k
    have hg : g = _ := getGroup_fst n1 n2 links invalid low high
    rw [hg]
    cases k with
    | parent => exact unique_nodup _
    | twin => exact nodup_of_deg1 _ (fun l hl h => ((isTwin2_iff _ hl).1 h).2 l hl rfl)
    | complex => exact unique_nodup _

/-- C05, second dataset. -/
theorem get_group_partition_second (n1 n2 : Nat) (links : List Link) (invalid low high : Rat) (hlh : low ≤ high)
    (hr : ∀ l ∈ links, l.j < n2) :
    let g := (getGroup n1 n2 links invalid low high).2
    (∀ i, i < n2 → ∃! c : Cat, i ∈ g.get c) ∧ (∀ c i, i ∈ g.get c → i < n2) ∧
    (∀ i, i ∈ g.multiMatch → ∃! k : Multi, i ∈ g.kind k) ∧ (∀ k i, i ∈ g.kind k → i ∈ g.multiMatch) ∧
    (∀ c, (g.get c).Nodup) ∧ (∀ k, (g.kind k).Nodup) := by
  rw [getGroup_snd]
  apply get_group_partition _ _ _ _ _ _ hlh
  intro l hl
  obtain ⟨l0, h0, rfl⟩ := List.mem_map.1 hl
  exact hr l0 h0

/-- A parent with two twins, a simple match of each strength, a link below the validity threshold, a complex chain. -/
def exLinks : List Link :=
  [⟨0, 0, 9/10⟩, ⟨0, 1, 3/10⟩, ⟨1, 2, 7/10⟩, ⟨2, 3, 5/100⟩, ⟨3, 4, 1/3⟩, ⟨4, 5, 1/100⟩, ⟨5, 5, 1/2⟩, ⟨6, 5, 1/2⟩,
    ⟨7, 6, 1/2⟩, ⟨7, 7, 1/2⟩, ⟨8, 7, 1/2⟩]

example : (getGroup 10 9 exLinks 2 10 60).1 = ⟨[4, 9], [2], [3], [1], [0, 5, 6, 7, 8], [0], [5, 6], [7, 8]⟩ ∧
    (getGroup 10 9 exLinks 2 10 60).2 = ⟨[8], [3], [4], [2], [0, 1, 5, 6, 7], [5], [0, 1], [6, 7]⟩ := by decide +kernel

example : (10 : Rat) ≤ 60 ∧ (∀ l ∈ exLinks, l.i < 10) ∧ ∀ l ∈ exLinks, l.j < 9 := by decide +kernel

/-- The condition `low ≤ high` is needed: with `low > high` an observation can be in two groups. -/
theorem get_group_low_gt_high : ∃ links : List Link, 
    let g := (getGroup 1 1 links 2 60 10).1
    0 ∈ g.low ∧ 0 ∈ g.high := ⟨[⟨0, 0, 1/2⟩], by decide +kernel⟩

end Verif.Compare
