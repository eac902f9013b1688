import Verif.Bins.Props

/-!
# C32: `align_on` pairs the bins of two datasets
-/

namespace Verif.Bins

/-! ### The merge join -/

/-- The group of the other dataset with the same lower bound. -/
def partner (others : List Group) (g : Group) : Option Group := others.find? (fun o => decide (o.lo = g.lo))

/-- The pair yielded for a group with a partner. -/
def pairOf (others : List Group) (g : Group) : Option Pair :=
  (partner others g).map (fun o => ⟨g.obs, o.obs, g.lo, g.hi⟩)

/-- The pair yielded with `all_ref`: without partner the second set is empty. -/
def pairRef (others : List Group) (g : Group) : Pair := ⟨g.obs, (partner others g).elim [] (·.obs), g.lo, g.hi⟩

theorem advance_eq (b : Rat) : ∀ (rest : List Group) (o : Group),
    match advance b o rest with
    | none => (o :: rest).dropWhile (fun o => decide (o.lo < b)) = []
    | some (o', rest') => (o :: rest).dropWhile (fun o => decide (o.lo < b)) = o' :: rest'
  | [], o => by
    unfold advance
    by_cases h : o.lo < b <;> simp [h]
  | o' :: l, o => by
    unfold advance
    by_cases h : o.lo < b
    · have := advance_eq b l o'
      rw [if_pos h]
      rw [List.dropWhile_cons_of_pos (by simpa using h)]
      exact this
    · rw [if_neg h]
      simp only
      rw [List.dropWhile_cons_of_neg (by simpa using h)]

theorem partner_dropWhile {b : Rat} {g : Group} (h : b ≤ g.lo) : ∀ (others : List Group),
    partner (others.dropWhile (fun o => decide (o.lo < b))) g = partner others g
  | [] => rfl
  | o :: l => by
    by_cases ho : o.lo < b
    · rw [List.dropWhile_cons_of_pos (by simpa using ho), partner_dropWhile h l]
      unfold partner
      rw [List.find?_cons_of_neg (by simp; intro h'; linarith)]
    · rw [List.dropWhile_cons_of_neg (by simpa using ho)]

theorem exists_dropWhile {b c : Rat} (h : b ≤ c) (others : List Group) :
    (∃ o ∈ others.dropWhile (fun o => decide (o.lo < b)), c ≤ o.lo) ↔ ∃ o ∈ others, c ≤ o.lo := by
  induction others with
  | nil => simp
  | cons o l ih =>
    by_cases ho : o.lo < b
    · rw [List.dropWhile_cons_of_pos (by simpa using ho), ih]
      constructor
      · rintro ⟨x, hx, hxc⟩; exact ⟨x, by simp [hx], hxc⟩
      · rintro ⟨x, hx, hxc⟩
        rcases List.mem_cons.1 hx with rfl | hx
        · linarith
        · exact ⟨x, hx, hxc⟩
    · rw [List.dropWhile_cons_of_neg (by simpa using ho)]

theorem partner_none_of_lt {o : Group} {l : List Group} {g : Group} (hs : (o :: l).Pairwise (fun g h => g.lo < h.lo))
    (h : g.lo < o.lo) : partner (o :: l) g = none := by
  unfold partner
  rw [List.find?_eq_none]
  intro x hx
  simp only [decide_eq_true_eq]
  rcases List.mem_cons.1 hx with rfl | hx
  · intro h'; linarith
  · have := (List.pairwise_cons.1 hs).1 x hx
    intro h'; linarith

theorem partner_none_of_dropWhile {g : Group} {others : List Group}
    (h : others.dropWhile (fun o => decide (o.lo < g.lo)) = []) :
    (∀ o ∈ others, o.lo < g.lo) ∧ partner others g = none := by
  have h' : ∀ o ∈ others, o.lo < g.lo := by
    induction others with
    | nil => simp
    | cons x l ih =>
      by_cases hx : x.lo < g.lo
      · rw [List.dropWhile_cons_of_pos (by simpa using hx)] at h
        intro o ho
        rcases List.mem_cons.1 ho with rfl | ho
        · exact hx
        · exact ih h o ho
      · rw [List.dropWhile_cons_of_neg (by simpa using hx)] at h; cases h
  refine ⟨h', ?_⟩
  unfold partner
  rw [List.find?_eq_none]
  intro x hx
  have := h' x hx
  simp only [decide_eq_true_eq]
  intro h''; linarith

theorem partner_lt {c : Group} {others : List Group} (h : ∀ o ∈ others, o.lo < c.lo) : partner others c = none := by
  unfold partner
  rw [List.find?_eq_none]
  intro x hx
  have := h x hx
  simp only [decide_eq_true_eq]
  intro h''; linarith

theorem alignLoop_spec (allRef : Bool) : ∀ (l : List Group) (o : Group) (rest : List Group),
    l.Pairwise (fun g h => g.lo < h.lo) → (o :: rest).Pairwise (fun g h => g.lo < h.lo) →
    (allRef = true → ∀ g ∈ l, g.arr = true) →
    alignLoop allRef true true o rest l =
      ⟨if allRef then (l.filter (fun g => decide (∃ x ∈ o :: rest, g.lo ≤ x.lo))).map (pairRef (o :: rest))
       else l.filterMap (pairOf (o :: rest)), true⟩
  | [], o, rest, _, _, _ => by cases allRef <;> rfl
  | g :: l, o, rest, hl, hs, harr => by
    have hadv := advance_eq g.lo rest o
    have hl' := List.pairwise_cons.1 hl
    unfold alignLoop
    cases hc : advance g.lo o rest with
    | none =>
      rw [hc] at hadv
      obtain ⟨h1, h2⟩ := partner_none_of_dropWhile hadv
      have h3 : ∀ c ∈ g :: l, ∀ x ∈ o :: rest, x.lo < c.lo := by
        intro c hcm x hx
        rcases List.mem_cons.1 hcm with rfl | hcm
        · exact h1 x hx
        · exact lt_trans (h1 x hx) (hl'.1 c hcm)
      cases allRef with
      | true =>
        simp only [if_true]
        rw [List.filter_eq_nil_iff.2]
        · rfl
        · intro c hcm
          simp only [decide_eq_true_eq]
          rintro ⟨x, hx, hxc⟩
          have := h3 c hcm x hx
          linarith
      | false =>
        simp only [Bool.false_eq_true, if_false]
        congr 1
        symm
        rw [List.filterMap_eq_nil_iff]
        intro c hcm
        unfold pairOf
        rw [partner_lt (h3 c hcm)]; rfl
    | some q =>
      obtain ⟨o', rest'⟩ := q
      rw [hc] at hadv
      simp only at hadv ⊢
      have hs' : (o' :: rest').Pairwise (fun g h => g.lo < h.lo) := by
        rw [← hadv]; exact hs.sublist (List.dropWhile_sublist _)
      have ih := alignLoop_spec allRef l o' rest' hl'.2 hs' (fun h c hcm => harr h c (by simp [hcm]))
      have hpart : ∀ c ∈ g :: l, partner (o' :: rest') c = partner (o :: rest) c := by
        intro c hcm
        rw [← hadv]
        apply partner_dropWhile
        rcases List.mem_cons.1 hcm with rfl | hcm
        · exact le_refl _
        · exact le_of_lt (hl'.1 c hcm)
      have hex : ∀ c ∈ g :: l, (∃ x ∈ o' :: rest', c.lo ≤ x.lo) ↔ ∃ x ∈ o :: rest, c.lo ≤ x.lo := by
        intro c hcm
        rw [← hadv]
        apply exists_dropWhile
        rcases List.mem_cons.1 hcm with rfl | hcm
        · exact le_refl _
        · exact le_of_lt (hl'.1 c hcm)
      have hge : g.lo ≤ o'.lo := by
        have := List.head?_dropWhile_not (p := fun o : Group => decide (o.lo < g.lo)) (o :: rest)
        rw [hadv] at this
        simpa using this
      have htail1 : l.filterMap (pairOf (o' :: rest')) = l.filterMap (pairOf (o :: rest)) := by
        apply List.filterMap_congr
        intro c hcm
        unfold pairOf
        rw [hpart c (by simp [hcm])]
      have htail2 : (l.filter (fun g => decide (∃ x ∈ o' :: rest', g.lo ≤ x.lo))).map (pairRef (o' :: rest')) =
          (l.filter (fun g => decide (∃ x ∈ o :: rest, g.lo ≤ x.lo))).map (pairRef (o :: rest)) := by
        have e1 : l.filter (fun g => decide (∃ x ∈ o' :: rest', g.lo ≤ x.lo)) =
            l.filter (fun g => decide (∃ x ∈ o :: rest, g.lo ≤ x.lo)) := by
          apply List.filter_congr
          intro c hcm
          rw [decide_eq_decide]
          exact hex c (by simp [hcm])
        rw [e1]
        apply List.map_congr_left
        intro c hcm
        unfold pairRef
        rw [hpart c (by simp [(List.mem_filter.1 hcm).1])]
      have hpos : ∃ x ∈ o :: rest, g.lo ≤ x.lo := (hex g (by simp)).1 ⟨o', by simp, hge⟩
      by_cases hlt : g.lo < o'.lo
      · have hnone : partner (o :: rest) g = none := by
          rw [← hpart g (by simp)]; exact partner_none_of_lt hs' hlt
        rw [if_pos hlt]
        cases allRef with
        | true =>
          rw [if_pos rfl, if_pos (harr rfl g (by simp)), ih]
          simp only [if_true]
          rw [htail2, List.filter_cons_of_pos (by simpa using hpos), List.map_cons]
          unfold pairRef
          rw [hnone]; rfl
        | false =>
          rw [if_neg (by simp), ih]
          simp only [Bool.false_eq_true, if_false]
          rw [htail1, List.filterMap_cons]
          unfold pairOf
          rw [hnone]; rfl
      · have heq : o'.lo = g.lo := le_antisymm (not_lt.1 hlt) hge
        have hsome : partner (o :: rest) g = some o' := by
          rw [← hpart g (by simp)]
          unfold partner
          rw [List.find?_cons_of_pos (by simpa using heq)]
        rw [if_neg hlt, ih]
        cases allRef with
        | true =>
          simp only [if_true]
          rw [htail2, List.filter_cons_of_pos (by simpa using hpos), List.map_cons]
          unfold pairRef
          rw [hsome]; rfl
        | false =>
          simp only [Bool.false_eq_true, if_false]
          rw [htail1, List.filterMap_cons]
          unfold pairOf
          rw [hsome]; rfl

/-! ### Specification -/

/-- The result of `align_on(…, all_ref=False)` is right: no exception, bins in increasing order, every yielded value is a bin
with exactly its observations in both datasets (none of the sets empty), and every bin with observations in both datasets is
yielded. -/
structure Aligned (x y bins : List Rat) (r : Run Pair) : Prop where
  ok : r.ok = true
  ordered : r.items.Pairwise (fun g h => g.lo < h.lo)
  bounds : ∀ g ∈ r.items, ∃ k : Nat, bins[k]? = some g.lo ∧ bins[k + 1]? = some g.hi
  nonempty : ∀ g ∈ r.items, g.self ≠ [] ∧ g.other ≠ []
  nodup : ∀ g ∈ r.items, g.self.Nodup ∧ g.other.Nodup
  mem_self : ∀ g ∈ r.items, ∀ j, j ∈ g.self ↔ InBin x j g.lo g.hi
  mem_other : ∀ g ∈ r.items, ∀ j, j ∈ g.other ↔ InBin y j g.lo g.hi
  covered : ∀ (k : Nat) (lo hi : Rat) (i j : Nat), bins[k]? = some lo → bins[k + 1]? = some hi → InBin x i lo hi →
    InBin y j lo hi → ∃ g ∈ r.items, g.lo = lo ∧ g.hi = hi

/-- The result of `align_on(…, all_ref=True)` is right: the same, for every bin of the reference; the second set may be
empty. -/
structure AlignedRef (x y bins : List Rat) (r : Run Pair) : Prop where
  ok : r.ok = true
  ordered : r.items.Pairwise (fun g h => g.lo < h.lo)
  bounds : ∀ g ∈ r.items, ∃ k : Nat, bins[k]? = some g.lo ∧ bins[k + 1]? = some g.hi
  nonempty : ∀ g ∈ r.items, g.self ≠ []
  nodup : ∀ g ∈ r.items, g.self.Nodup ∧ g.other.Nodup
  mem_self : ∀ g ∈ r.items, ∀ j, j ∈ g.self ↔ InBin x j g.lo g.hi
  mem_other : ∀ g ∈ r.items, ∀ j, j ∈ g.other ↔ InBin y j g.lo g.hi
  covered : ∀ (k : Nat) (lo hi : Rat) (i : Nat), bins[k]? = some lo → bins[k + 1]? = some hi → InBin x i lo hi →
    ∃ g ∈ r.items, g.lo = lo ∧ g.hi = hi

/-! ### Properties -/

theorem same_bin {bins : List Rat} (hb : bins.Pairwise (· < ·)) {k k' : Nat} {lo hi hi' : Rat} (h0 : bins[k]? = some lo)
    (h0' : bins[k']? = some lo) (h1 : bins[k + 1]? = some hi) (h1' : bins[k' + 1]? = some hi') : hi = hi' := by
  have : k = k' := by
    obtain ⟨a, a'⟩ := List.getElem?_eq_some_iff.1 h0
    obtain ⟨b, b'⟩ := List.getElem?_eq_some_iff.1 h0'
    rcases lt_trichotomy k k' with h | h | h
    · have := (List.pairwise_iff_getElem.1 hb) k k' a b h
      rw [a', b'] at this; exact absurd this (lt_irrefl _)
    · exact h
    · have := (List.pairwise_iff_getElem.1 hb) k' k b a h
      rw [a', b'] at this; exact absurd this (lt_irrefl _)
  subst this
  rw [h1] at h1'; exact Option.some.inj h1'

theorem partner_mem {others : List Group} {g o : Group} (h : partner others g = some o) : o ∈ others ∧ o.lo = g.lo := by
  unfold partner at h
  exact ⟨List.mem_of_find?_eq_some h, by simpa using List.find?_some h⟩

theorem partner_of_mem {others : List Group} {g o : Group} (ho : o ∈ others) (h : o.lo = g.lo) :
    ∃ o', partner others g = some o' := by
  cases hc : partner others g with
  | some o' => exact ⟨o', rfl⟩
  | none =>
    unfold partner at hc
    rw [List.find?_eq_none] at hc
    exact absurd (by simpa using h) (hc o ho)

theorem align_eq {allRef : Bool} {self other : Run Group} (hs : self.ok = true) (ho : other.ok = true)
    (hs' : self.items.Pairwise (fun g h => g.lo < h.lo)) (ho' : other.items.Pairwise (fun g h => g.lo < h.lo))
    (hne : other.items ≠ []) (harr : allRef = true → ∀ g ∈ self.items, g.arr = true) :
    alignOn allRef self other =
      ⟨if allRef then (self.items.filter (fun g => decide (∃ x ∈ other.items, g.lo ≤ x.lo))).map (pairRef other.items)
       else self.items.filterMap (pairOf other.items), true⟩ := by
  unfold alignOn
  cases hc : other.items with
  | nil => exact absurd hc hne
  | cons o rest =>
    rw [hc] at ho'
    simp only [hs, ho]
    exact alignLoop_spec allRef self.items o rest hs' ho' harr

/-- **C32** for the common bins: when `iter_on` is right on both datasets (C31) and the other dataset has at least one
observation in the bins, `align_on` yields exactly the bins with observations in both datasets, with exactly their
observations. -/
theorem align_on_common {x y bins : List Rat} {self other : Run Group} (hb : bins.Pairwise (· < ·))
    (hx : Correct x bins self) (hy : Correct y bins other) (hne : other.items ≠ []) :
    Aligned x y bins (alignOn false self other) := by
  rw [align_eq hx.ok hy.ok hx.ordered hy.ordered hne (by simp)]
  simp only [Bool.false_eq_true, if_false]
  have hitem : ∀ q ∈ self.items.filterMap (pairOf other.items), ∃ g ∈ self.items, ∃ o ∈ other.items,
      o.lo = g.lo ∧ o.hi = g.hi ∧ q = ⟨g.obs, o.obs, g.lo, g.hi⟩ := by
    intro q hq
    obtain ⟨g, hg, hq⟩ := List.mem_filterMap.1 hq
    unfold pairOf at hq
    rw [Option.map_eq_some_iff] at hq
    obtain ⟨o, ho, rfl⟩ := hq
    obtain ⟨ho1, ho2⟩ := partner_mem ho
    obtain ⟨k, k0, k1⟩ := hx.bounds g hg
    obtain ⟨k', k0', k1'⟩ := hy.bounds o ho1
    rw [ho2] at k0'
    exact ⟨g, hg, o, ho1, ho2, (same_bin hb k0 k0' k1 k1').symm, rfl⟩
  refine ⟨rfl, ?_, ?_, ?_, ?_, ?_, ?_, ?_⟩
  · rw [List.pairwise_filterMap]
    refine hx.ordered.imp ?_
    intro g g' hgg q hq q' hq'
    unfold pairOf at hq hq'
    rw [Option.map_eq_some_iff] at hq hq'
    obtain ⟨_, _, rfl⟩ := hq
    obtain ⟨_, _, rfl⟩ := hq'
    exact hgg
  · intro q hq
    obtain ⟨g, hg, o, ho, h1, h2, rfl⟩ := hitem q hq
    exact hx.bounds g hg
  · intro q hq
    obtain ⟨g, hg, o, ho, h1, h2, rfl⟩ := hitem q hq
    exact ⟨hx.nonempty g hg, hy.nonempty o ho⟩
  · intro q hq
    obtain ⟨g, hg, o, ho, h1, h2, rfl⟩ := hitem q hq
    exact ⟨hx.nodup g hg, hy.nodup o ho⟩
  · intro q hq
    obtain ⟨g, hg, o, ho, h1, h2, rfl⟩ := hitem q hq
    exact hx.mem g hg
  · intro q hq
    obtain ⟨g, hg, o, ho, h1, h2, rfl⟩ := hitem q hq
    have := hy.mem o ho
    rw [h1, h2] at this
    exact this
  · intro k lo hi i j h0 h1 hi' hj'
    obtain ⟨g, hg, g1, g2⟩ := hx.covered k lo hi i h0 h1 hi'
    obtain ⟨o, ho, o1, o2⟩ := hy.covered k lo hi j h0 h1 hj'
    obtain ⟨o', ho'⟩ := partner_of_mem ho (show o.lo = g.lo by rw [o1, g1])
    refine ⟨⟨g.obs, o'.obs, g.lo, g.hi⟩, List.mem_filterMap.2 ⟨g, hg, by unfold pairOf; rw [ho']; rfl⟩, g1, g2⟩

/-- **C32** for `all_ref` (partial: the observations of the reference are given by index arrays, which `iter_on` does for data
which is not monotonous, and the last bin of the reference is not after the last bin of the other dataset). Full statement:
without these conditions; both are necessary, see `all_ref_slice_raises` and `all_ref_drops_end`. -/
theorem align_on_all_ref_partial {x y bins : List Rat} {self other : Run Group} (hb : bins.Pairwise (· < ·))
    (hx : Correct x bins self) (hy : Correct y bins other) (hne : other.items ≠ [])
    (harr : ∀ g ∈ self.items, g.arr = true) (hlast : ∀ g ∈ self.items, ∃ o ∈ other.items, g.lo ≤ o.lo) :
    AlignedRef x y bins (alignOn true self other) := by
  rw [align_eq hx.ok hy.ok hx.ordered hy.ordered hne (fun _ => harr)]
  simp only [if_true]
  rw [List.filter_eq_self.2 (by intro g hg; simpa using hlast g hg)]
  refine ⟨rfl, ?_, ?_, ?_, ?_, ?_, ?_, ?_⟩
  · simp only
    rw [List.pairwise_map]
    exact hx.ordered
  · intro q hq
    obtain ⟨g, hg, rfl⟩ := List.mem_map.1 hq
    exact hx.bounds g hg
  · intro q hq
    obtain ⟨g, hg, rfl⟩ := List.mem_map.1 hq
    exact hx.nonempty g hg
  · intro q hq
    obtain ⟨g, hg, rfl⟩ := List.mem_map.1 hq
    refine ⟨hx.nodup g hg, ?_⟩
    unfold pairRef
    cases hc : partner other.items g with
    | none => simp
    | some o => exact hy.nodup o (partner_mem hc).1
  · intro q hq
    obtain ⟨g, hg, rfl⟩ := List.mem_map.1 hq
    exact hx.mem g hg
  · intro q hq j
    obtain ⟨g, hg, rfl⟩ := List.mem_map.1 hq
    unfold pairRef
    obtain ⟨k, k0, k1⟩ := hx.bounds g hg
    cases hc : partner other.items g with
    | none =>
      simp only [Option.elim_none, List.not_mem_nil, false_iff]
      intro hj
      obtain ⟨o, ho, o1, _⟩ := hy.covered k _ _ j k0 k1 hj
      obtain ⟨o', ho'⟩ := partner_of_mem ho o1
      rw [hc] at ho'; cases ho'
    | some o =>
      obtain ⟨h1, h2⟩ := partner_mem hc
      obtain ⟨k', k0', k1'⟩ := hy.bounds o h1
      rw [h2] at k0'
      have := hy.mem o h1 j
      rw [h2, ← same_bin hb k0 k0' k1 k1'] at this
      exact this
  · intro k lo hi i h0 h1 hi'
    obtain ⟨g, hg, g1, g2⟩ := hx.covered k lo hi i h0 h1 hi'
    exact ⟨_, List.mem_map.2 ⟨g, hg, rfl⟩, g1, g2⟩

/-- What `all_ref` really gives: the bins of the reference after the last bin of the other dataset are dropped. -/
theorem align_on_all_ref_exact {x y bins : List Rat} {self other : Run Group}
    (hx : Correct x bins self) (hy : Correct y bins other) (hne : other.items ≠ [])
    (harr : ∀ g ∈ self.items, g.arr = true) :
    (alignOn true self other).ok = true ∧ (alignOn true self other).items.map (·.lo) =
      (self.items.filter (fun g => decide (∃ o ∈ other.items, g.lo ≤ o.lo))).map (·.lo) := by
  rw [align_eq hx.ok hy.ok hx.ordered hy.ordered hne (fun _ => harr)]
  simp [pairRef]

/-- **C32** from the data: two arrays which are not monotonous, each with a value between the bounds, and an observation of
the other dataset in a bin. -/
theorem align_on_data {argsort : List Int → List Nat} {x y bins : List Rat} (harg : ∀ i, IsArgsort i (argsort i))
    (hb : bins.Pairwise (· < ·)) (hx : decreases false x = true) (hy : decreases false y = true)
    {i j k k' : Nat} {lo hi lo' hi' : Rat} (hi1 : bins[k]? = some lo) (hi2 : bins[k + 1]? = some hi) (hi3 : InBin x i lo hi)
    (hj1 : bins[k']? = some lo') (hj2 : bins[k' + 1]? = some hi') (hj3 : InBin y j lo' hi') :
    Aligned x y bins (alignOn false (iterOn argsort false x bins) (iterOn argsort false y bins)) := by
  have hb2 : 2 ≤ bins.length := by
    have := (List.getElem?_eq_some_iff.1 hi2).1; omega
  have key : ∀ (z : List Rat) (i k : Nat) (lo hi : Rat), bins[k]? = some lo → bins[k + 1]? = some hi → InBin z i lo hi →
      ∃ v ∈ z, ∀ lo hi, bins.head? = some lo → bins.getLast? = some hi → lo ≤ v ∧ v ≤ hi := by
    rintro z i k lo hi h0 h1 ⟨v, hv, hlo, hhi⟩
    refine ⟨v, List.mem_of_getElem? hv, ?_⟩
    intro b0 b1 hb0 hb1
    have hbne : bins ≠ [] := by rintro rfl; simp at hb2
    have hd := (digit_spec hb v h0 h1).2 ⟨hlo, hhi⟩
    obtain ⟨_, _, d3, d4⟩ := digit_range hb hbne v
    rw [List.head?_eq_some_head hbne] at hb0
    rw [List.getLast?_eq_some_getLast hbne] at hb1
    cases hb0; cases hb1
    have hk := (List.getElem?_eq_some_iff.1 h1).1
    have e3 := mt d3.2 (by omega)
    have e4 := mt d4.2 (by omega)
    exact ⟨not_lt.1 e3, le_of_lt (not_le.1 e4)⟩
  have cx := iter_on_sorted_partial harg hb hb2 hx (key x i k lo hi hi1 hi2 hi3)
  have cy := iter_on_sorted_partial harg hb hb2 hy (key y j k' lo' hi' hj1 hj2 hj3)
  refine align_on_common hb cx cy ?_
  obtain ⟨g, hg, _⟩ := cy.covered k' lo' hi' j hj1 hj2 hj3
  exact List.ne_nil_of_mem hg

/-! ### Where the code disagrees -/

/-- **C32 refuted**: the bin `[6, 7[` of the reference, after the last bin of the other dataset, is dropped with `all_ref`. -/
theorem all_ref_drops_end :
    alignOn true (iterOn stableArgsort false [6, 5] [5, 6, 7]) (iterOn stableArgsort false [6, 5, 5] [5, 6]) =
      ⟨[⟨[1], [1, 2], 5, 6⟩], true⟩ ∧ InBin [6, 5] 0 6 7 := by
  refine ⟨by decide +kernel, 6, rfl, by decide +kernel, by decide +kernel⟩

/-- **C32 refuted**: with the same bounds. -/
theorem all_ref_drops_end_same_bins :
    ¬ AlignedRef [6, 5] [5, 4, 5] [4, 5, 6, 7]
      (alignOn true (iterOn stableArgsort false [6, 5] [4, 5, 6, 7]) (iterOn stableArgsort false [5, 4, 5] [4, 5, 6, 7])) := by
  have h : alignOn true (iterOn stableArgsort false [6, 5] [4, 5, 6, 7])
      (iterOn stableArgsort false [5, 4, 5] [4, 5, 6, 7]) = ⟨[⟨[1], [0, 2], 5, 6⟩], true⟩ := by decide +kernel
  rw [h]
  intro hc
  obtain ⟨g, hg, h1, h2⟩ := hc.covered 2 6 7 0 rfl rfl ⟨6, rfl, by decide +kernel, by decide +kernel⟩
  simp only [List.mem_singleton] at hg
  subst hg
  simp only at h1
  revert h1; decide +kernel

/-- **C32 refuted**: with `all_ref` and a monotonous reference, the first bin without partner raises (`slice` has no
`dtype`). -/
theorem all_ref_slice_raises :
    alignOn true (iterOn stableArgsort false [4, 5] [4, 5, 6]) (iterOn stableArgsort false [5, 5] [4, 5, 6]) =
      ⟨[], false⟩ := by decide +kernel

/-- **C32 refuted**: an other dataset without any observation in the bins raises. -/
theorem other_empty_raises (allRef : Bool) (self : Run Group) : alignOn allRef self ⟨[], true⟩ = ⟨[], false⟩ := rfl

/-! ### Examples which meet the hypotheses -/

example : alignOn false (iterOn stableArgsort false [6, 4, 9, 4] [4, 5, 6, 7]) (iterOn stableArgsort false [5, 4, 6] [4, 5, 6, 7])
    = ⟨[⟨[1, 3], [1], 4, 5⟩, ⟨[0], [2], 6, 7⟩], true⟩ := by decide +kernel

example : alignOn true (iterOn stableArgsort false [6, 4, 9, 4] [4, 5, 6, 7]) (iterOn stableArgsort false [6, 5] [4, 5, 6, 7])
    = ⟨[⟨[1, 3], [], 4, 5⟩, ⟨[0], [0], 6, 7⟩], true⟩ := by decide +kernel

end Verif.Bins
