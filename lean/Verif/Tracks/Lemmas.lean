import Verif.Tracks.Model

/-!
# Lemmas on the track index
-/

namespace Verif.Tracks

variable {α : Type}

/-- Each identifier occupies a contiguous range of positions. -/
def Contig (tr : List Nat) : Prop :=
  ∀ (i j k : Nat) t, i < j → j < k → tr[i]? = some t → tr[k]? = some t → tr[j]? = some t

/-- `i`, `n` describe the range of positions of `t`; `-1`, `0` when there is none. -/
def SliceOf (tr : List Nat) (t : Nat) (i : Int) (n : Nat) : Prop :=
  (t ∈ tr → ∃ a : Nat, i = a ∧ ∀ k : Nat, tr[k]? = some t ↔ a ≤ k ∧ k < a + n) ∧ (t ∉ tr → i = -1 ∧ n = 0)

theorem contig_of_sorted {tr : List Nat} (h : tr.Pairwise (· ≤ ·)) : Contig tr := by
  intro i j k t hij hjk hi hk
  obtain ⟨hi', ei⟩ := List.getElem?_eq_some_iff.1 hi
  obtain ⟨hk', ek⟩ := List.getElem?_eq_some_iff.1 hk
  have hj : j < tr.length := by omega
  have h1 := List.pairwise_iff_getElem.1 h i j hi' hj hij
  have h2 := List.pairwise_iff_getElem.1 h j k hj hk' hjk
  rw [List.getElem?_eq_getElem hj]
  congr 1; omega

theorem Contig.prefix {a b : List Nat} (h : Contig (a ++ b)) : Contig a := by
  intro i j k t hij hjk hi hk
  obtain ⟨hk', _⟩ := List.getElem?_eq_some_iff.1 hk
  have := h i j k t hij hjk (by rw [List.getElem?_append_left (by omega)]; exact hi)
    (by rw [List.getElem?_append_left hk']; exact hk)
  rwa [List.getElem?_append_left (by omega)] at this

/-- Value of `previous_track` after a prefix. -/
def prevOf (p : List Nat) : Int := match p.getLast? with | none => -1 | some x => x

theorem getElem?_concat_eq (p : List Nat) (x t : Nat) (k : Nat) :
    (p ++ [x])[k]? = some t ↔ p[k]? = some t ∨ (k = p.length ∧ x = t) := by
  rcases Nat.lt_trichotomy k p.length with h | h | h
  · rw [List.getElem?_append_left h]
    constructor
    · exact Or.inl
    · rintro (h' | ⟨h', _⟩)
      · exact h'
      · omega
  · subst h
    rw [List.getElem?_concat_length]
    simp
  · rw [List.getElem?_eq_none (by simp; omega), List.getElem?_eq_none (l := p) (by omega)]
    simp; omega

theorem sliceOf_step {p : List Nat} {x : Nat} (hc : Contig (p ++ [x])) {index : Nat → Int} {number : Nat → Nat}
    (h : ∀ t, SliceOf p t (index t) (number t)) (t : Nat) :
    SliceOf (p ++ [x]) t ((if (x : Int) ≠ prevOf p then Function.update index x (p.length : Int) else index) t)
      (Function.update number x (number x + 1) t) := by
  by_cases htx : t = x
  · subst htx
    refine ⟨fun _ => ?_, fun hn => absurd (by simp) hn⟩
    rw [Function.update_self]
    by_cases hp : (t : Int) = prevOf p
    · rw [if_neg (by simpa using hp)]
      have hlast : p.getLast? = some t := by
        unfold prevOf at hp
        cases e : p.getLast? with
        | none => rw [e] at hp; simp at hp
        | some y => rw [e] at hp; simp at hp; rw [hp]
      have hpos : 0 < p.length := by
        rcases p with _ | ⟨a, p⟩
        · simp at hlast
        · simp
      rw [List.getLast?_eq_getElem?] at hlast
      obtain ⟨a, ha, hk⟩ := (h t).1 (List.mem_of_getElem? hlast)
      refine ⟨a, ha, fun k => ?_⟩
      have h1 := (hk (p.length - 1)).1 hlast
      have h2 : ¬ (a ≤ p.length ∧ p.length < a + number t) := by
        intro hc'
        have := (hk p.length).2 hc'
        rw [List.getElem?_eq_none (le_refl _)] at this
        cases this
      rw [getElem?_concat_eq, hk]
      constructor
      · rintro (h3 | ⟨h3, _⟩) <;> omega
      · intro h3
        by_cases hkp : k = p.length
        · exact Or.inr ⟨hkp, rfl⟩
        · exact Or.inl (by omega)
    · rw [if_pos (by simpa using hp), Function.update_self]
      have hnot : t ∉ p := by
        intro hm
        obtain ⟨j, hj⟩ := List.mem_iff_getElem?.1 hm
        have hjl := (List.getElem?_eq_some_iff.1 hj).1
        have hlast : p[p.length - 1]? = some t := by
          by_cases e : j = p.length - 1
          · rw [← e]; exact hj
          · have := hc j (p.length - 1) p.length t (by omega) (by omega)
              ((getElem?_concat_eq _ _ _ _).2 (Or.inl hj)) (by rw [List.getElem?_concat_length])
            rwa [List.getElem?_append_left (by omega)] at this
        apply hp
        unfold prevOf
        rw [List.getLast?_eq_getElem?, hlast]
      rw [((h t).2 hnot).2]
      refine ⟨p.length, rfl, fun k => ?_⟩
      rw [getElem?_concat_eq]
      constructor
      · rintro (h3 | ⟨h3, _⟩)
        · exact absurd (List.mem_of_getElem? h3) hnot
        · omega
      · intro h3; exact Or.inr ⟨by omega, rfl⟩
  · have e1 : (if (x : Int) ≠ prevOf p then Function.update index x (p.length : Int) else index) t = index t := by
      split
      · rw [Function.update_of_ne htx]
      · rfl
    rw [e1, Function.update_of_ne htx]
    refine ⟨fun hm => ?_, fun hm => (h t).2 (fun hm' => hm (List.mem_append_left _ hm'))⟩
    have hm : t ∈ p := by
      rcases List.mem_append.1 hm with h' | h'
      · exact h'
      · exact absurd (List.mem_singleton.1 h') htx
    obtain ⟨a, ha, hk⟩ := (h t).1 hm
    refine ⟨a, ha, fun k => ?_⟩
    rw [getElem?_concat_eq, ← hk]
    constructor
    · rintro (h3 | ⟨_, h3⟩)
      · exact h3
      · exact absurd h3.symm htx
    · exact Or.inl

theorem prevOf_concat (p : List Nat) (x : Nat) : prevOf (p ++ [x]) = x := by
  unfold prevOf; rw [List.getLast?_concat]

theorem indexLoop_inv (ts : List Nat) (p : List Nat) (index : Nat → Int) (number : Nat → Nat)
    (hc : Contig (p ++ ts)) (h : ∀ t, SliceOf p t (index t) (number t)) (t : Nat) :
    SliceOf (p ++ ts) t ((indexLoop p.length (prevOf p) index number ts).1 t)
      ((indexLoop p.length (prevOf p) index number ts).2 t) := by
  induction ts generalizing p index number with
  | nil => simpa [indexLoop] using h t
  | cons x ts ih =>
    have e : p ++ x :: ts = (p ++ [x]) ++ ts := by simp
    rw [e] at hc
    have := ih (p ++ [x]) (if (x : Int) ≠ prevOf p then Function.update index x (p.length : Int) else index)
      (Function.update number x (number x + 1)) hc (fun t => sliceOf_step hc.prefix h t)
    rw [prevOf_concat, List.length_append, List.length_singleton, ← e] at this
    exact this

theorem sizeOf_spec {tr : List Nat} {s : Nat} (h : sizeOf tr = some s) :
    (∀ t ∈ tr, t < s) ∧ ∃ t ∈ tr, t + 1 = s := by
  cases tr with
  | nil => simp [sizeOf] at h
  | cons x l =>
    simp only [sizeOf, Option.some.injEq] at h
    have key : ∀ (l : List Nat) (x : Nat), x ≤ l.foldl max x ∧ (∀ y ∈ l, y ≤ l.foldl max x) ∧
        (l.foldl max x = x ∨ l.foldl max x ∈ l) := by
      intro l
      induction l with
      | nil => simp
      | cons a l ih =>
        intro x
        obtain ⟨h1, h2, h3⟩ := ih (max x a)
        refine ⟨le_trans (le_max_left _ _) h1, ?_, ?_⟩
        · intro y hy
          rcases List.mem_cons.1 hy with rfl | hy
          · exact le_trans (le_max_right _ _) h1
          · exact h2 y hy
        · show l.foldl max (max x a) = x ∨ _
          rcases h3 with h3 | h3
          · rcases max_choice x a with e | e
            · left; rw [h3, e]
            · right; rw [List.foldl_cons, h3, e]; exact List.mem_cons_self
          · right; exact List.mem_cons_of_mem _ h3
    obtain ⟨h1, h2, h3⟩ := key l x
    refine ⟨?_, ?_⟩
    · intro t ht
      rcases List.mem_cons.1 ht with rfl | ht
      · omega
      · have := h2 t ht; omega
    · rcases h3 with h3 | h3
      · exact ⟨x, List.mem_cons_self, by omega⟩
      · exact ⟨_, List.mem_cons_of_mem _ h3, by omega⟩

/-- What the index contains. -/
structure IndexOK (tr : List Nat) (ti : TIndex) : Prop where
  slice : ∀ t, SliceOf tr t (ti.index t) (ti.number t)
  lt : ∀ t ∈ tr, t < ti.size
  top : ∃ t ∈ tr, t + 1 = ti.size

theorem computeIndex_total {tr : List Nat} (hne : tr ≠ []) : ∃ ti, computeIndex tr = some ti := by
  cases tr with
  | nil => exact absurd rfl hne
  | cons x l => exact ⟨_, rfl⟩

theorem computeIndex_ok {tr : List Nat} (hc : Contig tr) {ti : TIndex} (h : computeIndex tr = some ti) :
    IndexOK tr ti := by
  unfold computeIndex at h
  rw [Option.map_eq_some_iff] at h
  obtain ⟨s, hs, rfl⟩ := h
  obtain ⟨h1, h2⟩ := sizeOf_spec hs
  refine ⟨fun t => ?_, h1, h2⟩
  exact indexLoop_inv tr [] (fun _ => -1) (fun _ => 0) hc (fun t => ⟨fun h => absurd h (by simp), fun _ => ⟨rfl, rfl⟩⟩) t

theorem indexLoop_number (ts : List Nat) (i : Nat) (prev : Int) (index : Nat → Int) (number : Nat → Nat) (t : Nat) :
    (indexLoop i prev index number ts).2 t = number t + ts.count t := by
  induction ts generalizing i prev index number with
  | nil => simp [indexLoop]
  | cons x ts ih =>
    rw [indexLoop, ih, List.count_cons]
    by_cases h : x = t
    · subst h; simp; omega
    · rw [Function.update_of_ne (Ne.symm h), if_neg (by simpa using h)]; omega

theorem computeIndex_number {tr : List Nat} {ti : TIndex} (h : computeIndex tr = some ti) (t : Nat) :
    ti.number t = tr.count t := by
  unfold computeIndex at h
  rw [Option.map_eq_some_iff] at h
  obtain ⟨s, hs, rfl⟩ := h
  show (indexLoop 0 (-1) (fun _ => -1) (fun _ => 0) tr).2 t = _
  rw [indexLoop_number]; omega

/-! ### Masks -/

theorem sliceFill_map {tr : List Nat} {ti : TIndex} (ok : IndexOK tr ti) (p : Nat → Bool) (t : Nat) :
    Py.sliceFill (tr.map p) (ti.index t) (ti.index t + ti.number t) true = tr.map (fun x => p x || decide (x = t)) := by
  apply List.ext_getElem?
  intro k
  unfold Py.sliceFill
  rw [List.getElem?_mapIdx, List.getElem?_map, List.getElem?_map, List.length_map]
  cases hk : tr[k]? with
  | none => rfl
  | some x =>
    simp only [Option.map_some, Option.some.injEq]
    have hkl := (List.getElem?_eq_some_iff.1 hk).1
    by_cases hm : t ∈ tr
    · obtain ⟨a, ha, hs⟩ := (ok.slice t).1 hm
      rw [ha]
      have e1 : Py.bound tr.length (a : Int) = min a tr.length := by simp [Py.bound]
      have e2 : Py.bound tr.length ((a : Int) + ti.number t) = min (a + ti.number t) tr.length := by
        unfold Py.bound
        rw [if_pos (by omega)]
        congr 1
      rw [e1, e2]
      by_cases hx : x = t
      · subst hx
        have := (hs k).1 hk
        rw [if_pos (by omega)]
        simp
      · have : ¬ (a ≤ k ∧ k < a + ti.number t) := by
          intro h
          have := (hs k).2 h
          rw [hk] at this
          exact hx (Option.some.inj this)
        rw [if_neg (by omega)]
        simp [hx]
    · obtain ⟨h1, h2⟩ := (ok.slice t).2 hm
      rw [h1, h2]
      have hx : x ≠ t := by rintro rfl; exact hm (List.mem_of_getElem? hk)
      rw [if_neg (by simp)]
      simp [hx]

theorem maskFromId_eq {tr : List Nat} {ti : TIndex} (ok : IndexOK tr ti) (ids : List Nat)
    (h : ∀ t ∈ ids, t < ti.size) (p : Nat → Bool) :
    maskFromId ti ids (tr.map p) = some (tr.map (fun x => p x || decide (x ∈ ids))) := by
  induction ids generalizing p with
  | nil => simp [maskFromId]
  | cons t ids ih =>
    have ht := h t List.mem_cons_self
    have := ih (fun t ht => h t (List.mem_cons_of_mem _ ht)) (fun x => p x || decide (x = t))
    unfold maskFromId at *
    rw [List.foldlM_cons, if_pos ht, sliceFill_map ok]
    refine Eq.trans this ?_
    congr 1
    apply List.map_congr_left
    intro x _
    by_cases h1 : x = t <;> by_cases h2 : x ∈ ids <;> simp [h1, h2]

/-- `get_mask_from_id` marks exactly the observations of the given tracks. -/
theorem getMaskFromId_eq {tr : List Nat} (hne : tr ≠ []) (hc : Contig tr) {ids : List Nat}
    (h : ∀ t ∈ ids, ∃ t' ∈ tr, t ≤ t') : getMaskFromId tr ids = some (tr.map (fun x => decide (x ∈ ids))) := by
  obtain ⟨ti, e⟩ := computeIndex_total hne
  have ok := computeIndex_ok hc e
  unfold getMaskFromId
  rw [e, Option.bind_some]
  have hr : List.replicate tr.length false = tr.map (fun _ => false) := by rw [List.map_const']
  rw [hr, maskFromId_eq ok ids]
  · simp
  · intro t ht
    obtain ⟨t', h1, h2⟩ := h t ht
    have := ok.lt t' h1
    omega

/-! ### `repeat` on sorted tracks -/

theorem filter_lt_succ {tr : List Nat} (hs : tr.Pairwise (· ≤ ·)) (s : Nat) :
    tr.filter (fun x => decide (x < s + 1)) = tr.filter (fun x => decide (x < s)) ++ List.replicate (tr.count s) s := by
  induction tr with
  | nil => rfl
  | cons x l ih =>
    have hs' := List.pairwise_cons.1 hs
    have ih := ih hs'.2
    rcases Nat.lt_trichotomy x s with h | h | h
    · rw [List.filter_cons_of_pos (by simpa using by omega), List.filter_cons_of_pos (by simpa using h), ih,
        List.count_cons_of_ne (by omega)]
      rfl
    · subst h
      have e : l.filter (fun y => decide (y < x)) = [] := by
        rw [List.filter_eq_nil_iff]
        intro y hy
        have := hs'.1 y hy
        simpa using this
      rw [List.filter_cons_of_pos (by simp), List.filter_cons_of_neg (by simp), ih, e, List.count_cons_self]
      rfl
    · have e : ∀ u, u ≤ s + 1 → l.filter (fun y => decide (y < u)) = [] := by
        intro u hu
        rw [List.filter_eq_nil_iff]
        intro y hy
        have := hs'.1 y hy
        simp; omega
      rw [List.filter_cons_of_neg (by simpa using by omega), List.filter_cons_of_neg (by simpa using by omega),
        e _ (le_refl _), e s (by omega), List.count_cons_of_ne (by omega), List.count_eq_zero_of_not_mem]
      · rfl
      · intro hm; have := hs'.1 s hm; omega

theorem flatMap_replicate_sorted {tr : List Nat} (hs : tr.Pairwise (· ≤ ·)) (s : Nat) :
    (List.range s).flatMap (fun t => List.replicate (tr.count t) t) = tr.filter (fun x => decide (x < s)) := by
  induction s with
  | zero => simp
  | succ s ih => rw [List.range_succ, List.flatMap_append, ih, filter_lt_succ hs]; simp

/-- A per-track array repeated by `nb_obs_by_track` is aligned with the observations of a dataset sorted by track. -/
theorem rep_eq {β : Type} {tr : List Nat} (hs : tr.Pairwise (· ≤ ·)) {ti : TIndex} (e : computeIndex tr = some ti)
    (f : Nat → β) : Py.rep ((List.range ti.size).map f) ti.numbers = tr.map f := by
  have ok := computeIndex_ok (contig_of_sorted hs) e
  have h := flatMap_replicate_sorted hs ti.size
  have h2 : tr.filter (fun x => decide (x < ti.size)) = tr := by
    rw [List.filter_eq_self]
    intro x hx
    simpa using ok.lt x hx
  rw [h2] at h
  have h3 : Py.rep ((List.range ti.size).map f) ti.numbers =
      ((List.range ti.size).flatMap (fun t => List.replicate (tr.count t) t)).map f := by
    unfold Py.rep TIndex.numbers
    rw [List.zip_map', List.flatMap_map, List.map_flatMap]
    congr 1
    funext t
    rw [List.map_replicate, computeIndex_number e]
  rw [h3, h]

theorem mapM_some_map {β γ : Type} {f : β → Option γ} {g : β → γ} {l : List β} (h : ∀ x ∈ l, f x = some (g x)) :
    l.mapM f = some (l.map g) := by
  induction l with
  | nil => rfl
  | cons x l ih =>
    rw [List.mapM_cons, h x List.mem_cons_self, ih (fun y hy => h y (List.mem_cons_of_mem _ hy))]; rfl

theorem zipWith_map_right_self {β γ δ : Type} (l : List β) (g : β → γ) (f : β → γ → δ) :
    List.zipWith f l (l.map g) = l.map (fun x => f x (g x)) := by
  induction l with
  | nil => rfl
  | cons x l ih => simp [ih]

end Verif.Tracks
