import Verif.Tracks.Props
import Mathlib.Data.Prod.Lex
import Mathlib.Data.List.Nodup
import Mathlib.Tactic.Ring

/-!
# C159: the first observation of each track in each box

`extract_first_obs_in_box` (src/py_eddy_tracker/observations/tracking.py). Positions are exact: the rounding of the corners of the boxes to 32 bits is
not modelled.
-/

namespace Verif.Tracks

variable {α : Type}

/-- What is sorted by `unique`: corner of the box and number of the track, compared in this order. -/
abbrev Key := Rat ×ₗ (Rat ×ₗ Nat)

/-- A row of the structured array `data` (observations/tracking.py:388-391). -/
def boxKey (res : Rat) (pos : α → Rat × Rat) (o : Nat × α) : Key :=
  toLex ((pos o.2).1 - Py.fmod (pos o.2).1 res, toLex ((pos o.2).2 - Py.fmod (pos o.2).2 res, o.1))

/-- The indices given by `numpy.unique(keys, return_index=True)`: the keys are sorted by `argsort`, the first index of each run of equal keys is kept.
`prev` is the key before. -/
def runStarts (keys : List Key) : Option Key → List Nat → List Nat
  | _, [] => []
  | prev, i :: l => if prev = keys[i]? then runStarts keys keys[i]? l else i :: runStarts keys keys[i]? l

/-- `extract_first_obs_in_box` (observations/tracking.py:387-395). -/
def extractFirstInBox (argsort : List Key → List Nat) (res : Rat) (pos : α → Rat × Rat) (data : List (Nat × α)) : List (Nat × α) :=
  let keys := data.map (boxKey res pos)
  let indexs := runStarts keys none (argsort keys)
  Py.select ((List.range data.length).map (fun i => decide (i ∈ indexs))) data

/-- What numpy says of the sort used for `return_index`: it is stable. -/
def Stable (argsort : List Key → List Nat) : Prop :=
  ∀ keys, (argsort keys).Perm (List.range keys.length) ∧
    (argsort keys).Pairwise (fun i j => ∀ a b, keys[i]? = some a → keys[j]? = some b → a < b ∨ (a = b ∧ i < j))

/-! ### Specification -/

/-- The two positions are in the same box of side `res`. -/
def SameBox (res : Rat) (p q : Rat × Rat) : Prop :=
  ∃ i j : Int, i * res ≤ p.1 ∧ p.1 < (i + 1) * res ∧ i * res ≤ q.1 ∧ q.1 < (i + 1) * res ∧
    j * res ≤ p.2 ∧ p.2 < (j + 1) * res ∧ j * res ≤ q.2 ∧ q.2 < (j + 1) * res

/-! ### Proofs -/

theorem corner_eq (res x : Rat) : x - Py.fmod x res = res * ⌊x / res⌋ := by unfold Py.fmod; ring

theorem corner_iff {res : Rat} (h : 0 < res) (x y : Rat) : x - Py.fmod x res = y - Py.fmod y res ↔
    ∃ i : Int, i * res ≤ x ∧ x < (i + 1) * res ∧ i * res ≤ y ∧ y < (i + 1) * res := by
  rw [corner_eq, corner_eq]
  have key : ∀ (i : Int) (x : Rat), ⌊x / res⌋ = i ↔ i * res ≤ x ∧ x < (i + 1) * res := by
    intro i x
    rw [Int.floor_eq_iff, le_div_iff₀ h, div_lt_iff₀ h]
  constructor
  · intro e
    have e' : (⌊x / res⌋ : Rat) = ⌊y / res⌋ := mul_left_cancel₀ (ne_of_gt h) e
    have e'' : ⌊x / res⌋ = ⌊y / res⌋ := by exact_mod_cast e'
    obtain ⟨h1, h2⟩ := (key _ x).1 rfl
    obtain ⟨h3, h4⟩ := (key _ y).1 e''.symm
    exact ⟨_, h1, h2, h3, h4⟩
  · rintro ⟨i, h1, h2, h3, h4⟩
    rw [(key i x).2 ⟨h1, h2⟩, (key i y).2 ⟨h3, h4⟩]

theorem boxKey_eq {res : Rat} (h : 0 < res) (pos : α → Rat × Rat) (o o' : Nat × α) :
    boxKey res pos o = boxKey res pos o' ↔ o.1 = o'.1 ∧ SameBox res (pos o.2) (pos o'.2) := by
  unfold boxKey
  rw [toLex_inj, Prod.mk.injEq, toLex_inj, Prod.mk.injEq, corner_iff h, corner_iff h]
  unfold SameBox
  constructor
  · rintro ⟨⟨i, h1, h2, h3, h4⟩, ⟨j, h5, h6, h7, h8⟩, h9⟩
    exact ⟨h9, i, j, h1, h2, h3, h4, h5, h6, h7, h8⟩
  · rintro ⟨h9, i, j, h1, h2, h3, h4, h5, h6, h7, h8⟩
    exact ⟨⟨i, h1, h2, h3, h4⟩, ⟨j, h5, h6, h7, h8⟩, h9⟩

/-- The order of a stable sort. -/
def Before (keys : List Key) (i j : Nat) : Prop := ∀ a b, keys[i]? = some a → keys[j]? = some b → a < b ∨ (a = b ∧ i < j)

theorem runStarts_subset (keys : List Key) : ∀ (prev : Option Key) (l : List Nat), ∀ i ∈ runStarts keys prev l, i ∈ l
  | _, [] => by simp [runStarts]
  | prev, i :: l => by
    intro k hk
    unfold runStarts at hk
    split at hk
    · exact List.mem_cons_of_mem _ (runStarts_subset keys _ l k hk)
    · rcases List.mem_cons.1 hk with h | h
      · exact h ▸ List.mem_cons_self
      · exact List.mem_cons_of_mem _ (runStarts_subset keys _ l k h)

/-- The starts of the runs are the indices without an equal key before them in the sorted list. `prev` is the key of the last index of `seen`. -/
theorem runStarts_spec (keys : List Key) : ∀ (l seen : List Nat), (seen ++ l).Pairwise (Before keys) → (∀ i ∈ seen ++ l, i < keys.length) →
    (seen ++ l).Nodup → ∀ i ∈ l, i ∈ runStarts keys (seen.getLast?.bind (fun j => keys[j]?)) l ↔ ∀ j ∈ seen ++ l, j < i → keys[j]? ≠ keys[i]?
  | [], _ => by simp
  | x :: l, seen => by
    intro hp hb hn i hi
    have e : seen ++ x :: l = (seen ++ [x]) ++ l := by simp
    have ih := runStarts_spec keys l (seen ++ [x]) (e ▸ hp) (e ▸ hb) (e ▸ hn)
    rw [← e] at ih
    rw [List.getLast?_concat, Option.bind_some] at ih
    have hnx : x ∉ l := (List.nodup_cons.1 (List.nodup_append.1 hn).2.1).1
    have hxk : ∃ a, keys[x]? = some a := ⟨_, List.getElem?_eq_getElem (hb x (by simp))⟩
    obtain ⟨ax, hax⟩ := hxk
    have hafter : ∀ j ∈ l, j < x → keys[j]? ≠ keys[x]? := by
      intro j hj hjx he
      have hpl := (List.pairwise_cons.1 (List.pairwise_append.1 hp).2.1).1 j hj ax ax hax (by rw [he, hax])
      rcases hpl with h | ⟨_, h⟩
      · exact absurd h (lt_irrefl _)
      · omega
    -- the test on `x`
    have hx : (seen.getLast?.bind (fun j => keys[j]?)) = keys[x]? ↔ ∃ j ∈ seen, keys[j]? = keys[x]? := by
      constructor
      · intro h
        cases hl : seen.getLast? with
        | none => rw [hl] at h; rw [hax] at h; simp at h
        | some j =>
          rw [hl] at h
          exact ⟨j, List.mem_of_getLast? hl, h⟩
      · rintro ⟨j, hj, hjk⟩
        obtain ⟨init, q, rfl⟩ : ∃ init q, seen = init ++ [q] := by
          rcases List.eq_nil_or_concat seen with h | ⟨init, q, h⟩
          · rw [h] at hj; simp at hj
          · exact ⟨init, q, by simpa using h⟩
        rw [List.getLast?_concat, Option.bind_some]
        rcases List.mem_append.1 hj with h | h
        · obtain ⟨aq, haq⟩ : ∃ a, keys[q]? = some a := ⟨_, List.getElem?_eq_getElem (hb q (by simp))⟩
          have h1 : Before keys j q := (List.pairwise_append.1 (List.pairwise_append.1 hp).1).2.2 j h q (by simp)
          have h2 : Before keys q x := (List.pairwise_append.1 hp).2.2 q (by simp) x (by simp)
          rcases h1 ax aq (by rw [hjk, hax]) haq with h1 | ⟨h1, _⟩
          · rcases h2 aq ax haq hax with h2 | ⟨h2, _⟩
            · exact absurd (lt_trans h1 h2) (lt_irrefl _)
            · rw [haq, hax, h2]
          · rw [haq, hax, h1]
        · rw [List.mem_singleton] at h
          rw [← h, hjk]
    have hx' : (∃ j ∈ seen, keys[j]? = keys[x]?) ↔ ¬ ∀ j ∈ seen ++ x :: l, j < x → keys[j]? ≠ keys[x]? := by
      constructor
      · rintro ⟨j, hj, hjk⟩ h
        have hbf := (List.pairwise_append.1 hp).2.2 j hj x (by simp) ax ax (by rw [hjk, hax]) hax
        rcases hbf with h1 | ⟨_, h1⟩
        · exact absurd h1 (lt_irrefl _)
        · exact h j (by simp [hj]) h1 hjk
      · intro h
        by_contra hcon
        apply h
        intro j hj hjx hjk
        rcases List.mem_append.1 hj with h1 | h1
        · exact hcon ⟨j, h1, hjk⟩
        · rcases List.mem_cons.1 h1 with h2 | h2
          · omega
          · exact hafter j h2 hjx hjk
    unfold runStarts
    by_cases ht : (seen.getLast?.bind (fun j => keys[j]?)) = keys[x]?
    · rw [if_pos ht]
      rcases List.mem_cons.1 hi with rfl | hil
      · constructor
        · intro h
          exact absurd (runStarts_subset _ _ _ _ h) hnx
        · intro h
          exact absurd h (hx'.1 (hx.1 ht))
      · exact ih i hil
    · rw [if_neg ht]
      rcases List.mem_cons.1 hi with rfl | hil
      · constructor
        · intro _
          by_contra hcon
          exact ht (hx.2 (hx'.2 hcon))
        · intro _
          exact List.mem_cons_self
      · have hne : i ≠ x := fun h => hnx (h ▸ hil)
        rw [List.mem_cons]
        constructor
        · rintro (h | h)
          · exact absurd h hne
          · exact (ih i hil).1 h
        · exact fun h => Or.inr ((ih i hil).2 h)

/-- Row `i` is the first one of its track in its box. -/
def FirstInBox (res : Rat) (pos : α → Rat × Rat) (data : List (Nat × α)) (i : Nat) : Prop :=
  ∀ j < i, ∀ o o', data[i]? = some o → data[j]? = some o' → o'.1 = o.1 → ¬ SameBox res (pos o'.2) (pos o.2)

/-- **C159** the rows kept are exactly the first ones of their track in their box, in the order of the dataset. Missing: the boxes which are the same after a
turn of longitude (`box_turn_wrong`). -/
theorem box_partial {argsort : List Key → List Nat} (ha : Stable argsort) {res : Rat} (hres : 0 < res) (pos : α → Rat × Rat) (data : List (Nat × α)) :
    ∃ m : List Bool, m.length = data.length ∧ extractFirstInBox argsort res pos data = Py.select m data ∧
      ∀ i, i < data.length → (m[i]? = some true ↔ FirstInBox res pos data i) := by
  refine ⟨(List.range data.length).map (fun i => decide (i ∈ runStarts (data.map (boxKey res pos)) none (argsort (data.map (boxKey res pos))))), by simp, rfl,
    fun i hi => ?_⟩
  obtain ⟨hperm, hpair⟩ := ha (data.map (boxKey res pos))
  have hmem : ∀ j, j ∈ argsort (data.map (boxKey res pos)) ↔ j < data.length := by
    intro j
    rw [hperm.mem_iff, List.mem_range, List.length_map]
  have hspec := runStarts_spec (data.map (boxKey res pos)) (argsort (data.map (boxKey res pos))) [] hpair
    (fun j hj => by rw [List.length_map]; exact (hmem j).1 hj) (hperm.nodup_iff.2 List.nodup_range) i ((hmem i).2 hi)
  simp only [List.getLast?_nil, Option.bind_none, List.nil_append] at hspec
  rw [List.getElem?_map, List.getElem?_range hi, Option.map_some, Option.some.injEq, decide_eq_true_eq, hspec]
  unfold FirstInBox
  constructor
  · intro h j hj o o' ho ho' ht hbox
    apply h j ((hmem j).2 (by omega)) hj
    rw [List.getElem?_map, List.getElem?_map, ho, ho', Option.map_some, Option.map_some, Option.some.injEq, boxKey_eq hres]
    exact ⟨ht, hbox⟩
  · intro h j _ hj he
    have hjl : j < data.length := by omega
    rw [List.getElem?_map, List.getElem?_map, List.getElem?_eq_getElem hi, List.getElem?_eq_getElem hjl, Option.map_some, Option.map_some,
      Option.some.injEq, boxKey_eq hres] at he
    exact h j hj _ _ (List.getElem?_eq_getElem hi) (List.getElem?_eq_getElem hjl) he.1 he.2

theorem sameBox_symm {res : Rat} {p q : Rat × Rat} (h : SameBox res p q) : SameBox res q p := by
  obtain ⟨i, j, h1, h2, h3, h4, h5, h6, h7, h8⟩ := h
  exact ⟨i, j, h3, h4, h1, h2, h7, h8, h5, h6⟩

theorem sameBox_trans {res : Rat} (hres : 0 < res) {p q r : Rat × Rat} (h : SameBox res p q) (h' : SameBox res q r) : SameBox res p r := by
  obtain ⟨i, j, h1, h2, h3, h4, h5, h6, h7, h8⟩ := h
  obtain ⟨i', j', g1, g2, g3, g4, g5, g6, g7, g8⟩ := h'
  have hu : ∀ {a b : Int} {x : Rat}, a * res ≤ x → x < (a + 1) * res → b * res ≤ x → x < (b + 1) * res → a = b := by
    intro a b x k1 k2 k3 k4
    have e1 : (a : Rat) < b + 1 := by
      by_contra hc
      have := mul_le_mul_of_nonneg_right (not_lt.1 hc) hres.le
      linarith
    have e2 : (b : Rat) < a + 1 := by
      by_contra hc
      have := mul_le_mul_of_nonneg_right (not_lt.1 hc) hres.le
      linarith
    have e1' : a < b + 1 := by exact_mod_cast e1
    have e2' : b < a + 1 := by exact_mod_cast e2
    omega
  have hi := hu h3 h4 g1 g2
  have hj := hu h7 h8 g5 g6
  subst hi hj
  exact ⟨i, j, h1, h2, g3, g4, h5, h6, g7, g8⟩

/-- Each observation of the dataset has in the result an observation of its track in its box, which is not after it in the dataset. -/
theorem box_covers {argsort : List Key → List Nat} (ha : Stable argsort) {res : Rat} (hres : 0 < res) (pos : α → Rat × Rat) (data : List (Nat × α)) (i : Nat)
    (o : Nat × α) (ho : data[i]? = some o) : ∃ o' ∈ extractFirstInBox argsort res pos data, o'.1 = o.1 ∧ SameBox res (pos o'.2) (pos o.2) ∧
      ∃ j ≤ i, data[j]? = some o' := by
  obtain ⟨m, hml, hr, hm⟩ := box_partial ha hres pos data
  have hself : ∀ p : Rat × Rat, SameBox res p p := by
    intro p
    have hc : ∀ x : Rat, ⌊x / res⌋ * res ≤ x ∧ x < (⌊x / res⌋ + 1) * res := by
      intro x
      have h1 := Int.floor_le (x / res)
      have h2 := Int.lt_floor_add_one (x / res)
      rw [le_div_iff₀ hres] at h1
      rw [div_lt_iff₀ hres] at h2
      exact ⟨h1, h2⟩
    exact ⟨⌊p.1 / res⌋, ⌊p.2 / res⌋, (hc _).1, (hc _).2, (hc _).1, (hc _).2, (hc _).1, (hc _).2, (hc _).1, (hc _).2⟩
  induction i using Nat.strong_induction_on generalizing o with
  | _ i ih =>
    have hil := (List.getElem?_eq_some_iff.1 ho).1
    by_cases hf : FirstInBox res pos data i
    · refine ⟨o, ?_, rfl, hself _, i, le_refl _, ho⟩
      rw [hr, mem_select]
      exact ⟨i, (hm i hil).2 hf, ho⟩
    · unfold FirstInBox at hf
      simp only [not_forall, not_not] at hf
      obtain ⟨j, hj, a, b, hda, hdb, ht, hb⟩ := hf
      rw [ho] at hda
      obtain rfl := Option.some.inj hda
      obtain ⟨o', h1, h2, h3, k, hk, hk'⟩ := ih j hj b hdb
      exact ⟨o', h1, h2.trans ht, sameBox_trans hres h3 hb, k, by omega, hk'⟩

/-- A stable sort: insertion. -/
def insertionArgsort (keys : List Key) : List Nat :=
  (List.range keys.length).insertionSort (fun i j => (keys[i]?.getD (toLex (0, toLex (0, 0))) < keys[j]?.getD (toLex (0, toLex (0, 0))) ∨
    (keys[i]?.getD (toLex (0, toLex (0, 0))) = keys[j]?.getD (toLex (0, toLex (0, 0))) ∧ i ≤ j)))

theorem insertionArgsort_stable : Stable insertionArgsort := by
  intro keys
  refine ⟨List.perm_insertionSort _ _, ?_⟩
  let r : Nat → Nat → Prop := fun i j => (keys[i]?.getD (toLex (0, toLex (0, 0))) < keys[j]?.getD (toLex (0, toLex (0, 0))) ∨
    (keys[i]?.getD (toLex (0, toLex (0, 0))) = keys[j]?.getD (toLex (0, toLex (0, 0))) ∧ i ≤ j))
  haveI : Std.Total r := ⟨by
    intro a b
    rcases lt_trichotomy (keys[a]?.getD (toLex (0, toLex (0, 0)))) (keys[b]?.getD (toLex (0, toLex (0, 0)))) with h | h | h
    · exact Or.inl (Or.inl h)
    · rcases Nat.le_total a b with h' | h'
      · exact Or.inl (Or.inr ⟨h, h'⟩)
      · exact Or.inr (Or.inr ⟨h.symm, h'⟩)
    · exact Or.inr (Or.inl h)⟩
  haveI : IsTrans Nat r := ⟨by
    rintro a b c (h | ⟨h, h'⟩) (g | ⟨g, g'⟩)
    · exact Or.inl (lt_trans h g)
    · exact Or.inl (g ▸ h)
    · exact Or.inl (h ▸ g)
    · exact Or.inr ⟨h.trans g, by omega⟩⟩
  have h1 : (insertionArgsort keys).Pairwise r := List.pairwise_insertionSort r _
  have h2 : (insertionArgsort keys).Nodup := (List.perm_insertionSort _ _).nodup_iff.2 List.nodup_range
  rw [List.nodup_iff_pairwise_ne] at h2
  refine (h1.and h2).imp ?_
  rintro i j ⟨h, hne⟩ a b ha hb
  simp only [r, ha, hb, Option.getD_some] at h
  rcases h with h | ⟨h, h'⟩
  · exact Or.inl h
  · exact Or.inr ⟨h, by omega⟩

/-- The track 1 goes out of a box and comes back; the track 2 is in the same box. -/
example : Stable insertionArgsort ∧ extractFirstInBox insertionArgsort 2 id
    [(1, ((1 / 2 : Rat), (1 / 2 : Rat))), (1, (1, 1)), (1, (3, 1)), (1, (1 / 4, 0)), (2, (0, 0)), (2, (-1 / 2, 0)), (2, (-2, 1))] =
    [(1, (1 / 2, 1 / 2)), (1, (3, 1)), (2, (0, 0)), (2, (-1 / 2, 0))] := ⟨insertionArgsort_stable, by decide +kernel⟩

/-- C159 refuted: the same place after one turn of longitude is kept twice. -/
theorem box_turn_wrong {argsort : List Key → List Nat} (ha : Stable argsort) :
    extractFirstInBox argsort 1 id [(1, ((1 / 2 : Rat), (0 : Rat))), (1, (721 / 2, 0))] = [(1, (1 / 2, 0)), (1, (721 / 2, 0))] ∧
    (721 / 2 : Rat) = 1 / 2 + 360 := by
  refine ⟨?_, by norm_num⟩
  obtain ⟨m, hml, hr, hm⟩ := box_partial ha (by norm_num : (0 : Rat) < 1) id [(1, ((1 / 2 : Rat), (0 : Rat))), (1, (721 / 2, 0))]
  rw [hr]
  have h0 : m[0]? = some true := (hm 0 (by decide)).2 (fun j hj => by omega)
  have h1 : m[1]? = some true := by
    refine (hm 1 (by decide)).2 ?_
    intro j hj o o' ho ho' _ hbox
    have hj0 : j = 0 := by omega
    subst hj0
    simp only [List.getElem?_cons_succ, List.getElem?_cons_zero, Option.some.injEq] at ho ho'
    subst ho ho'
    obtain ⟨i, _, h1, h2, h3, h4, _⟩ := hbox
    simp only [id] at h1 h2 h3 h4
    linarith
  match m, hml, h0, h1 with
  | [a, b], _, h0, h1 =>
    simp only [List.getElem?_cons_succ, List.getElem?_cons_zero, Option.some.injEq] at h0 h1
    subst h0 h1
    rfl

end Verif.Tracks
