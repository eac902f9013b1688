import Verif.Index.Model
import Mathlib.Data.List.Sort
import Mathlib.Tactic.Linarith

/-!
# `build_index` returns the slice of each group (C27)
-/

namespace Verif.Index

/-! ### Lemmas -/

theorem foldl_min_spec (l : List Int) (x : Int) :
    l.foldl min x ≤ x ∧ (∀ y ∈ l, l.foldl min x ≤ y) ∧ (l.foldl min x = x ∨ l.foldl min x ∈ l) := by
  induction l generalizing x with
  | nil => simp
  | cons a l ih =>
    obtain ⟨h1, h2, h3⟩ := ih (min x a)
    refine ⟨le_trans h1 (min_le_left _ _), ?_, ?_⟩
    · intro y hy
      rcases List.mem_cons.1 hy with rfl | hy
      · exact le_trans h1 (min_le_right _ _)
      · exact h2 y hy
    · show l.foldl min (min x a) = x ∨ _
      rcases h3 with h3 | h3
      · rcases min_choice x a with e | e
        · left; rw [h3, e]
        · right; rw [List.foldl_cons, h3, e]; exact List.mem_cons_self
      · right; exact List.mem_cons_of_mem _ h3

theorem foldl_max_spec (l : List Int) (x : Int) :
    x ≤ l.foldl max x ∧ (∀ y ∈ l, y ≤ l.foldl max x) ∧ (l.foldl max x = x ∨ l.foldl max x ∈ l) := by
  induction l generalizing x with
  | nil => simp
  | cons a l ih =>
    obtain ⟨h1, h2, h3⟩ := ih (max x a)
    refine ⟨le_trans (le_max_left _ _) h1, ?_, ?_⟩
    · intro y hy
      rcases List.mem_cons.1 hy with rfl | hy
      · exact le_trans (le_max_right _ _) h1
      · exact h2 y hy
    · show l.foldl max (max x a) = x ∨ _
      rcases h3 with h3 | h3
      · rcases max_choice x a with e | e
        · left; rw [h3, e]
        · right; rw [List.foldl_cons, h3, e]; exact List.mem_cons_self
      · right; exact List.mem_cons_of_mem _ h3

theorem minOf_spec (x : Int) (l : List Int) : minOf x l ∈ x :: l ∧ ∀ y ∈ x :: l, minOf x l ≤ y := by
  obtain ⟨h1, h2, h3⟩ := foldl_min_spec l x
  refine ⟨?_, ?_⟩
  · rcases h3 with h3 | h3
    · show l.foldl min x ∈ _; rw [h3]; exact List.mem_cons_self
    · exact List.mem_cons_of_mem _ h3
  · intro y hy
    rcases List.mem_cons.1 hy with rfl | hy
    · exact h1
    · exact h2 y hy

theorem maxOf_spec (x : Int) (l : List Int) : maxOf x l ∈ x :: l ∧ ∀ y ∈ x :: l, y ≤ maxOf x l := by
  obtain ⟨h1, h2, h3⟩ := foldl_max_spec l x
  refine ⟨?_, ?_⟩
  · rcases h3 with h3 | h3
    · show l.foldl max x ∈ _; rw [h3]; exact List.mem_cons_self
    · exact List.mem_cons_of_mem _ h3
  · intro y hy
    rcases List.mem_cons.1 hy with rfl | hy
    · exact h1
    · exact h2 y hy

theorem countP_zero_of_sorted {l : List Int} {y g : Int} (hs : ∀ z ∈ l, y ≤ z) (h : g ≤ y) :
    l.countP (fun z => decide (z < g)) = 0 := by
  rw [List.countP_eq_zero]
  intro z hz
  have := hs z hz
  simp only [decide_eq_true_eq]; omega

/-- The scan writes for every group the number of observations in smaller groups. -/
theorem scan_spec (i0 : Int) (l : List Int) (x : Int) (pos : Nat) (f : Nat → Nat) (hs : (x :: l).Pairwise (· ≤ ·))
    (h0 : i0 ≤ x) (k : Nat) (hk : ∃ z ∈ x :: l, i0 + k ≤ z) :
    scan i0 pos f (x :: l) k =
      if i0 + k ≤ x then f k else pos + (x :: l).countP (fun z => decide (z < i0 + k)) := by
  induction l generalizing x pos f with
  | nil =>
    obtain ⟨z, hz, h⟩ := hk
    rw [List.mem_singleton] at hz
    subst hz
    rw [if_pos h]; rfl
  | cons y l ih =>
    have hs' := List.pairwise_cons.1 hs
    have hxy : x ≤ y := hs'.1 y List.mem_cons_self
    have hsy := List.pairwise_cons.1 hs'.2
    have e : scan i0 pos f (x :: y :: l) = scan i0 (pos + 1)
      (if x ≠ y then sliceSet f (x - i0 + 1).toNat (y - i0 + 1).toNat (pos + 1) else f) (y :: l) := rfl
    have hk' : ∃ z ∈ y :: l, i0 + k ≤ z := by
      obtain ⟨z, hz, h⟩ := hk
      rcases List.mem_cons.1 hz with rfl | hz
      · exact ⟨y, List.mem_cons_self, le_trans h hxy⟩
      · exact ⟨z, hz, h⟩
    rw [e, ih y _ _ hs'.2 (le_trans h0 hxy) hk', List.countP_cons (a := x)]
    by_cases h1 : i0 + k ≤ x
    · rw [if_pos (le_trans h1 hxy), if_pos h1]
      split
      · rw [sliceSet, if_neg (by omega)]
      · rfl
    · rw [if_neg h1]
      have hlt : decide (x < i0 + (k : Int)) = true := by simpa using (by omega : x < i0 + k)
      by_cases h2 : i0 + k ≤ y
      · rw [if_pos h2, if_pos (by omega), sliceSet, if_pos (by omega), hlt, if_pos rfl,
          countP_zero_of_sorted (y := y) (g := i0 + k) ?_ h2]
        intro z hz
        rcases List.mem_cons.1 hz with rfl | hz
        · exact le_refl _
        · exact hsy.1 z hz
      · rw [if_neg h2, hlt, if_pos rfl]; omega

/-- Position of a value in a sorted list. -/
theorem sorted_count_le {l : List Int} (hs : l.Pairwise (· ≤ ·)) {k : Nat} {v g : Int} (hk : l[k]? = some v) :
    l.countP (fun z => decide (z < g)) ≤ k ↔ g ≤ v := by
  induction l generalizing k with
  | nil => simp at hk
  | cons x l ih =>
    have hs' := List.pairwise_cons.1 hs
    cases k with
    | zero =>
      simp at hk
      subst hk
      rw [List.countP_cons]
      constructor
      · intro h
        by_contra hc
        rw [if_pos (by simpa using hc)] at h
        omega
      · intro h
        rw [countP_zero_of_sorted (y := x) hs'.1 h, if_neg (by simpa using h)]
    | succ k =>
      have hk : l[k]? = some v := by simpa using hk
      have := ih hs'.2 hk
      rw [List.countP_cons]
      have hv : x ≤ v := hs'.1 v (List.mem_of_getElem? hk)
      by_cases hx : x < g
      · rw [if_pos (by simpa using hx)]
        constructor
        · intro h; exact this.1 (by omega)
        · intro h; have := this.2 h; omega
      · rw [if_neg (by simpa using hx)]
        have hgx : g ≤ x := by omega
        rw [countP_zero_of_sorted (y := x) hs'.1 hgx]
        constructor
        · intro _; omega
        · intro _; omega

theorem countP_all {l : List Int} {g : Int} (h : ∀ z ∈ l, z < g) : l.countP (fun z => decide (z < g)) = l.length := by
  rw [List.countP_eq_length]
  intro z hz
  simpa using h z hz

/-! ### Property -/

/-- `first` and `last` give, for the group number `m`, the half-open range of positions holding the value `i0 + m`. -/
def IsIndex (groups : List Int) (first last : List Nat) (i0 : Int) : Prop :=
  first.length = last.length ∧
  (∀ g ∈ groups, i0 ≤ g ∧ g < i0 + first.length) ∧
  ∀ (m a b : Nat), first[m]? = some a → last[m]? = some b →
    a ≤ b ∧ b ≤ groups.length ∧ ∀ k : Nat, groups[k]? = some (i0 + m) ↔ a ≤ k ∧ k < b

/-- C27. On a nondecreasing array which is not empty, `build_index` succeeds and returns for every value of the range the
exact half-open slice where it occurs. -/
theorem build_index_spec (groups : List Int) (hne : groups ≠ []) (hs : groups.Pairwise (· ≤ ·)) :
    ∃ first last i0, buildIndex groups = some (first, last, i0) ∧ IsIndex groups first last i0 ∧ i0 ∈ groups ∧
      i0 + first.length - 1 ∈ groups ∧ 0 < first.length := by
  cases groups with
  | nil => exact absurd rfl hne
  | cons x l =>
    obtain ⟨hmin, hmin'⟩ := minOf_spec x l
    obtain ⟨hmax, hmax'⟩ := maxOf_spec x l
    generalize hi0 : minOf x l = i0 at *
    generalize hM : maxOf x l = M at *
    have hamp : i0 ≤ M := hmax' _ hmin
    have hx : i0 ≤ x := hmin' x List.mem_cons_self
    have hle : ∀ (z : Int), z ∈ x :: l → x ≤ z := by
      intro z hz
      rcases List.mem_cons.1 hz with rfl | hz
      · exact le_refl _
      · exact (List.pairwise_cons.1 hs).1 z hz
    set first := (List.range (M - i0 + 1).toNat).map (scan i0 0 (fun _ => 0) (x :: l)) with hf
    have hlen : first.length = (M - i0 + 1).toNat := by simp [hf]
    have hget : ∀ m, m < first.length →
        first[m]? = some ((x :: l).countP (fun z => decide (z < i0 + (m : Int)))) := by
      intro m hm
      rw [hf, List.getElem?_map, List.getElem?_range (by rw [← hlen]; exact hm), Option.map_some,
        scan_spec i0 l x 0 _ hs hx m ⟨M, hmax, by omega⟩]
      congr 1
      split
      · rename_i h
        rw [countP_zero_of_sorted hle h]
      · omega
    have hlast : ∀ m, m < first.length → (first.tail ++ [(x :: l).length])[m]? =
        some ((x :: l).countP (fun z => decide (z < i0 + ((m + 1 : Nat) : Int)))) := by
      intro m hm
      by_cases h : m + 1 < first.length
      · rw [List.getElem?_append_left (by rw [List.length_tail]; omega), List.getElem?_tail, hget _ h]
      · have hm1 : m = first.tail.length := by rw [List.length_tail]; omega
        rw [hm1, List.getElem?_concat_length]
        congr 1
        rw [countP_all]
        intro z hz
        have := hmax' z hz
        rw [List.length_tail]
        omega
    refine ⟨first, first.tail ++ [(x :: l).length], i0, ?_, ⟨?_, ?_, ?_⟩, hmin, ?_, by omega⟩
    · simp only [buildIndex, hi0, hM]; rfl
    · rw [List.length_append, List.length_tail, List.length_singleton]; omega
    · intro g hg
      have h1 := hmin' g hg
      have h2 := hmax' g hg
      refine ⟨h1, by omega⟩
    · intro m a b ha hb
      have hm : m < first.length := (List.getElem?_eq_some_iff.1 ha).1
      rw [hget m hm] at ha
      rw [hlast m hm] at hb
      obtain rfl := Option.some.inj ha
      obtain rfl := Option.some.inj hb
      refine ⟨?_, List.countP_le_length, ?_⟩
      · apply List.countP_mono_left
        intro z _ hz
        simp only [decide_eq_true_eq] at *
        omega
      · intro k
        constructor
        · intro hk
          refine ⟨(sorted_count_le hs hk).2 (le_refl _), ?_⟩
          by_contra hc
          have := (sorted_count_le hs hk).1 (not_lt.1 hc)
          omega
        · rintro ⟨h1, h2⟩
          have hk : k < (x :: l).length := lt_of_lt_of_le h2 List.countP_le_length
          have e := List.getElem?_eq_getElem hk
          have := (sorted_count_le hs e).1 h1
          have h3 : ¬ (i0 + ((m + 1 : Nat) : Int)) ≤ (x :: l)[k] := by
            intro hc
            have := (sorted_count_le hs e).2 hc
            omega
          rw [e]
          congr 1
          omega
    · have : i0 + (first.length : Int) - 1 = M := by omega
      rw [this]; exact hmax

/-- The example of the docstring, with a gap. -/
example : buildIndex [1, 1, 3, 4, 4] = some ([0, 2, 2, 3], [2, 2, 3, 5], 1) ∧
    [(1 : Int), 1, 3, 4, 4].Pairwise (· ≤ ·) := by decide

/-- An array which is empty raises. -/
theorem build_index_empty : buildIndex [] = none := rfl

/-- The order matters: on an array which is not monotonous the slices are wrong. -/
theorem build_index_unsorted_wrong :
    ∃ groups first last i0, buildIndex groups = some (first, last, i0) ∧ ¬ IsIndex groups first last i0 := by
  refine ⟨[1, 0], _, _, _, rfl, ?_⟩
  rintro ⟨_, _, h⟩
  have := (h 1 0 2 (by decide) (by decide)).2.2 1
  revert this; decide

end Verif.Index
