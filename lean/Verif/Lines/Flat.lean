import Verif.Lines.Model
import Verif.Links.Model

/-!
# C41: flatten_line_matrix and split_line
-/

namespace Verif.Lines

/-! ### Arrays written in order -/

/-- The writes of the list `l` from the position `k` on. -/
def enum {α : Type} : List α → Nat → List (Nat × α)
  | [], _ => []
  | a :: l, k => (k, a) :: enum l (k + 1)

theorem enum_append {α : Type} (l m : List α) (k : Nat) : enum (l ++ m) k = enum l k ++ enum m (k + l.length) := by
  induction l generalizing k with
  | nil => rfl
  | cons a l ih =>
    simp only [List.cons_append, enum, List.length_cons]
    rw [ih, Nat.add_right_comm, Nat.add_assoc]

theorem enum_zipIdx {α : Type} (l : List α) (k : Nat) : (l.zipIdx k).map Prod.swap = enum l k := by
  induction l generalizing k with
  | nil => rfl
  | cons a l ih => simp [enum, ih]

theorem enum_mem {α : Type} {l : List α} {k : Nat} {w : Nat × α} (h : w ∈ enum l k) : k ≤ w.1 ∧ w.1 < k + l.length := by
  induction l generalizing k with
  | nil => cases h
  | cons a l ih =>
    rcases List.mem_cons.1 h with rfl | h
    · simp
    · have := ih h; simp only [List.length_cons]; omega

theorem enum_find {α : Type} (l : List α) (k j : Nat) (h : j < l.length) :
    (enum l k).reverse.find? (fun w => decide (w.1 = k + j)) = some (k + j, l[j]) := by
  induction l generalizing k j with
  | nil => simp at h
  | cons a l ih =>
    rw [enum, List.reverse_cons, List.find?_append]
    cases j with
    | zero =>
      have hn : (enum l (k + 1)).reverse.find? (fun w => decide (w.1 = k + 0)) = none := by
        rw [List.find?_eq_none]
        intro w hw
        have := enum_mem (List.mem_reverse.1 hw)
        simp only [Nat.add_zero, decide_eq_true_eq]; omega
      rw [hn]; simp
    | succ j =>
      have := ih (k + 1) j (by simpa using h)
      rw [show k + 1 + j = k + (j + 1) by omega] at this
      rw [this]; simp

theorem store_enum {α : Type} (l : List α) : store l.length (enum l 0) = some l := by
  unfold store
  rw [if_pos]
  · have key : ∀ m, m ≤ l.length →
        (List.range' (l.length - m) m).mapM (fun k => ((enum l 0).reverse.find? (fun w => decide (w.1 = k))).map Prod.snd) =
          some (l.drop (l.length - m)) := by
      intro m
      induction m with
      | zero => intro _; simp
      | succ m ih =>
        intro hm
        have hlt : l.length - (m + 1) < l.length := by omega
        have hf := enum_find l 0 (l.length - (m + 1)) hlt
        rw [Nat.zero_add] at hf
        rw [List.range'_succ, List.mapM_cons, hf]
        have hs : l.length - (m + 1) + 1 = l.length - m := by omega
        rw [hs, ih (by omega), ← List.cons_getElem_drop_succ (h := hlt), hs]
        rfl
    have := key l.length (le_refl _)
    rw [Nat.sub_self, ← List.range_eq_range'] at this
    simpa using this
  · rw [List.all_eq_true]
    intro w hw
    have := enum_mem hw
    simpa using this.2

/-- A write outside of the array. -/
theorem store_outside {α : Type} {size : Nat} {ws : List (Nat × α)} {w : Nat × α} (hw : w ∈ ws) (h : size ≤ w.1) :
    store size ws = none := by
  unfold store
  rw [if_neg]
  rw [List.all_eq_true]
  intro hall
  have := hall w hw
  simp only [decide_eq_true_eq] at this
  omega

/-! ### flatten_line_matrix -/

theorem flattenWrites_eq {α : Type} (nan : α) : ∀ (rows : List (List α)) (k : Nat), rows ≠ [] →
    flattenWrites nan rows k = enum ([nan].intercalate rows ++ [nan]) k
  | [], _, h => absurd rfl h
  | [r], k, _ => by
    rw [flattenWrites, flattenWrites, enum_zipIdx, List.intercalate_singleton, enum_append]; rfl
  | r :: r' :: rows, k, _ => by
    rw [flattenWrites, flattenWrites_eq nan (r' :: rows) _ (by simp), enum_zipIdx, List.intercalate_cons_cons,
      List.append_assoc, List.append_assoc, enum_append _ _ k, List.singleton_append]
    rfl

theorem intercalate_length {α : Type} (nan : α) {s : Nat} : ∀ (rows : List (List α)), rows ≠ [] → (∀ r ∈ rows, r.length = s) →
    ([nan].intercalate rows).length + 1 = rows.length + rows.length * s
  | [], h, _ => absurd rfl h
  | [r], _, hs => by
    rw [List.intercalate_singleton, hs r (by simp)]; simp; omega
  | r :: r' :: rows, _, hs => by
    have := intercalate_length nan (r' :: rows) (by simp) (fun x hx => hs x (by simp [hx]))
    rw [List.intercalate_cons_cons]
    simp only [List.length_append, List.length_cons, List.length_nil] at this ⊢
    rw [hs r (by simp)]
    have e : (rows.length + 1 + 1) * s = (rows.length + 1) * s + s := by ring
    rw [e]; omega

/-- **C41** (content): the writes are the lines separated by single nans, in order, then one nan at the position `final_size`, the
first one after the end of the array. Missing for the whole property: this last write, see `flatten_writes_outside`. -/
theorem flatten_partial {α : Type} (nan : α) {s : Nat} {rows : List (List α)} (hne : rows ≠ []) (hs : ∀ r ∈ rows, r.length = s) :
    flattenWrites nan rows 0 = enum ([nan].intercalate rows) 0 ++ [((finalSize rows.length s).toNat, nan)] ∧
    ([nan].intercalate rows).length = (finalSize rows.length s).toNat := by
  have hl := intercalate_length nan rows hne hs
  have hpos : 0 < rows.length := List.length_pos_iff.2 hne
  have hlen : ([nan].intercalate rows).length = (finalSize rows.length s).toNat := by
    unfold finalSize
    have : ((rows.length : Int) * (s : Int)) = ((rows.length * s : Nat) : Int) := by push_cast; rfl
    rw [this]; omega
  refine ⟨?_, hlen⟩
  rw [flattenWrites_eq nan rows 0 hne, enum_append, Nat.zero_add, hlen]; rfl

/-- **Disagreement with C41**: for every matrix with at least one point the function writes outside of its output. -/
theorem flatten_writes_outside {α : Type} (nan : α) {s : Nat} {rows : List (List α)} (hne : rows ≠ []) (hs1 : 1 ≤ s)
    (hs : ∀ r ∈ rows, r.length = s) : flattenLines nan rows s = none := by
  obtain ⟨h1, h2⟩ := flatten_partial nan hne hs
  unfold flattenLines
  have hpos : 0 < rows.length := List.length_pos_iff.2 hne
  have : (rows.length : Int) ≤ (rows.length : Int) * (s : Int) := by
    have : rows.length ≤ rows.length * s := Nat.le_mul_of_pos_right _ (by omega)
    exact_mod_cast this
  rw [if_neg (by unfold finalSize; omega), h1]
  exact store_outside (w := ((finalSize rows.length s).toNat, nan)) (by simp) (le_refl _)

/-- No line: a single nan. -/
theorem flatten_empty {α : Type} (nan : α) (s : Nat) : flattenLines nan ([] : List (List α)) s = some [nan] := by
  unfold flattenLines finalSize
  rw [if_pos (by simp)]

/-- **C41** (inverse): the lines are recovered from the content at the nans, when no point of a line is nan. -/
theorem flatten_split {α : Type} [BEq α] [LawfulBEq α] (nan : α) {rows : List (List α)} (hne : rows ≠ [])
    (hn : ∀ r ∈ rows, nan ∉ r) : ([nan].intercalate rows).splitOn nan = rows :=
  List.splitOn_intercalate nan hn hne

/-! ### split_line -/

/-- The labelled points are the runs in order: points with equal numbers, none empty, consecutive runs have different numbers. -/
structure IsRuns {α : Type} (l : List (α × Int)) (runs : List (Int × List α)) : Prop where
  content : l = runs.flatMap (fun r => r.2.map (fun p => (p, r.1)))
  nonempty : ∀ r ∈ runs, r.2 ≠ []
  change : runs.IsChain (fun a b => a.1 ≠ b.1)

/-- Every array of labelled points has runs. -/
theorem exists_runs {α : Type} (l : List (α × Int)) : ∃ runs, IsRuns l runs := by
  induction l with
  | nil => exact ⟨[], rfl, by simp, by simp⟩
  | cons a l ih =>
    obtain ⟨runs, h⟩ := ih
    cases runs with
    | nil =>
      refine ⟨[(a.2, [a.1])], ?_, by simp, by simp⟩
      rw [h.content]; rfl
    | cons r runs =>
      by_cases hr : a.2 = r.1
      · refine ⟨(r.1, a.1 :: r.2) :: runs, ?_, ?_, ?_⟩
        · rw [h.content, List.flatMap_cons, List.flatMap_cons, List.map_cons, List.cons_append, ← hr]
        · intro x hx
          rcases List.mem_cons.1 hx with rfl | hx
          · simp
          · exact h.nonempty x (List.mem_cons_of_mem _ hx)
        · have := h.change
          cases runs with
          | nil => simp
          | cons r' runs =>
            rw [List.isChain_cons_cons] at this ⊢
            exact this
      · refine ⟨(a.2, [a.1]) :: r :: runs, ?_, ?_, ?_⟩
        · rw [h.content]; rfl
        · intro x hx
          rcases List.mem_cons.1 hx with rfl | hx
          · simp
          · exact h.nonempty x hx
        · rw [List.isChain_cons_cons]
          exact ⟨hr, h.change⟩

theorem splitWrites_run {α : Type} (nan : α) (g : Int) : ∀ (pts : List α) (j : Nat), pts ≠ [] →
    splitWrites nan (pts.map (fun p => (p, g))) j = enum pts j
  | [], _, h => absurd rfl h
  | [p], j, _ => rfl
  | p :: q :: pts, j, _ => by
    have := splitWrites_run nan g (q :: pts) (j + 1) (by simp)
    simp only [List.map_cons] at this ⊢
    rw [splitWrites, if_neg (by simp), this]; rfl

theorem splitWrites_cons_run {α : Type} (nan : α) (g : Int) {b : α × Int} (hb : g ≠ b.2) (l : List (α × Int)) :
    ∀ (pts : List α) (j : Nat), pts ≠ [] →
    splitWrites nan (pts.map (fun p => (p, g)) ++ b :: l) j =
      enum (pts ++ [nan]) j ++ splitWrites nan (b :: l) (j + pts.length + 1)
  | [], _, h => absurd rfl h
  | [p], j, _ => by
    show splitWrites nan ((p, g) :: b :: l) j = _
    rw [splitWrites, if_pos (by exact hb)]; rfl
  | p :: q :: pts, j, _ => by
    have := splitWrites_cons_run nan g hb l (q :: pts) (j + 1) (by simp)
    simp only [List.map_cons, List.cons_append] at this ⊢
    rw [splitWrites, if_neg (by simp), this, enum]
    simp only [List.length_cons]
    rw [show j + (pts.length + 1 + 1) + 1 = j + 1 + (pts.length + 1) + 1 by omega]; rfl

theorem jumps_run {α : Type} (g : Int) : ∀ (pts : List α), jumps (pts.map (fun p => (p, g))) = 0
  | [] => rfl
  | [p] => rfl
  | p :: q :: pts => by
    have := jumps_run g (q :: pts)
    simp only [List.map_cons] at this ⊢
    rw [jumps, this]; simp

theorem jumps_cons_run {α : Type} (g : Int) {b : α × Int} (hb : g ≠ b.2) (l : List (α × Int)) : ∀ (pts : List α), pts ≠ [] →
    jumps (pts.map (fun p => (p, g)) ++ b :: l) = 1 + jumps (b :: l)
  | [], h => absurd rfl h
  | [p], _ => by
    show jumps ((p, g) :: b :: l) = _
    rw [jumps, if_pos (by simp only [ne_eq]; omega)]
  | p :: q :: pts, _ => by
    have := jumps_cons_run g hb l (q :: pts) (by simp)
    simp only [List.map_cons, List.cons_append] at this ⊢
    rw [jumps, this]; simp

theorem split_writes {α : Type} (nan : α) : ∀ (runs : List (Int × List α)) (l : List (α × Int)) (j : Nat), IsRuns l runs →
    splitWrites nan l j = enum ([nan].intercalate (runs.map Prod.snd)) j ∧
      jumps l + l.length = ([nan].intercalate (runs.map Prod.snd)).length
  | [], l, j, h => by
    rw [h.content]; exact ⟨rfl, rfl⟩
  | [r], l, j, h => by
    have hl : l = r.2.map (fun p => (p, r.1)) := by rw [h.content]; simp
    rw [hl, splitWrites_run nan r.1 r.2 j (h.nonempty r (by simp)), jumps_run]
    simp
  | r :: r' :: runs, l, j, h => by
    have hc := h.change
    rw [List.isChain_cons_cons] at hc
    have hsub : IsRuns ((r' :: runs).flatMap (fun r => r.2.map (fun p => (p, r.1)))) (r' :: runs) :=
      ⟨rfl, fun x hx => h.nonempty x (List.mem_cons_of_mem _ hx), hc.2⟩
    obtain ⟨p, pts, hp⟩ : ∃ p pts, r'.2 = p :: pts := by
      cases hr : r'.2 with
      | nil => exact absurd hr (h.nonempty r' (by simp))
      | cons p pts => exact ⟨p, pts, rfl⟩
    have hform : (r' :: runs).flatMap (fun r => r.2.map (fun p => (p, r.1))) =
        (p, r'.1) :: (pts.map (fun p => (p, r'.1)) ++ runs.flatMap (fun r => r.2.map (fun p => (p, r.1)))) := by
      rw [List.flatMap_cons, hp]; rfl
    have hl : l = r.2.map (fun p => (p, r.1)) ++ (p, r'.1) ::
        (pts.map (fun p => (p, r'.1)) ++ runs.flatMap (fun r => r.2.map (fun p => (p, r.1)))) := by
      rw [h.content, List.flatMap_cons, hform]
    obtain ⟨i1, i2⟩ := split_writes nan (r' :: runs) _ (j + r.2.length + 1) hsub
    rw [hform] at i1 i2
    have hrne := h.nonempty r (by simp)
    rw [hl, splitWrites_cons_run nan r.1 hc.1 _ r.2 j hrne, jumps_cons_run r.1 hc.1 _ r.2 hrne, i1]
    simp only [List.map_cons]
    rw [List.intercalate_cons_cons]
    constructor
    · rw [enum_append (r.2 ++ [nan]) _ j, List.length_append, List.length_singleton, Nat.add_assoc]
    · simp only [List.map_cons] at i2
      simp only [List.length_append, List.length_map, List.length_cons, List.length_nil] at i2 ⊢
      omega

/-- **C41** (`split_line`): the result is the runs of equal numbers separated by single nans, without write outside of the
arrays. -/
theorem split_line_spec {α : Type} (nan : α) {l : List (α × Int)} {runs : List (Int × List α)} (h : IsRuns l runs) :
    splitLine nan l = some ([nan].intercalate (runs.map Prod.snd)) := by
  obtain ⟨h1, h2⟩ := split_writes nan runs l 0 h
  unfold splitLine
  rw [h1, h2, store_enum]

/-- **C41** (lines): `split_line` on lines numbered by their position gives what `flatten_line_matrix` writes inside of its array;
cut at the nans it gives back the lines. -/
theorem split_line_recovers {α : Type} [BEq α] [LawfulBEq α] (nan : α) {rows : List (List α)} (hne : rows ≠ [])
    (hr : ∀ r ∈ rows, r ≠ []) (hn : ∀ r ∈ rows, nan ∉ r) :
    ∃ out, splitLine nan (rows.zipIdx.flatMap (fun r => r.1.map (fun p => (p, (r.2 : Int))))) = some out ∧
      out.splitOn nan = rows := by
  have hruns : IsRuns (rows.zipIdx.flatMap (fun r => r.1.map (fun p => (p, (r.2 : Int)))))
      (rows.zipIdx.map (fun r => ((r.2 : Int), r.1))) := by
    refine ⟨?_, ?_, ?_⟩
    · rw [List.flatMap_map]
    · intro x hx
      obtain ⟨y, hy, rfl⟩ := List.mem_map.1 hx
      exact hr _ (List.fst_mem_of_mem_zipIdx hy)
    · have : ∀ (rows : List (List α)) (k : Nat),
          ((rows.zipIdx k).map (fun r => ((r.2 : Int), r.1))).IsChain (fun a b => a.1 ≠ b.1) := by
        intro rows
        induction rows with
        | nil => intro k; simp
        | cons r rows ih =>
          intro k
          cases rows with
          | nil => simp
          | cons r' rows =>
            have := ih (k + 1)
            simp only [List.zipIdx_cons, List.map_cons] at this ⊢
            rw [List.isChain_cons_cons]
            exact ⟨by simp, this⟩
      exact this rows 0
  refine ⟨_, split_line_spec nan hruns, ?_⟩
  have hm : (rows.zipIdx.map (fun r => ((r.2 : Int), r.1))).map Prod.snd = rows := by
    rw [List.map_map]
    have : (Prod.snd ∘ fun (r : List α × Nat) => ((r.2 : Int), r.1)) = Prod.fst := rfl
    rw [this, List.zipIdx_map_fst]
  rw [hm]
  exact flatten_split nan hne hn

/-- Two lines of two points. -/
example : flattenWrites none [[some 1, some 2], [some 3, some (4 : Nat)]] 0 =
    [(0, some 1), (1, some 2), (2, none), (3, some 3), (4, some 4), (5, none)] ∧
    flattenLines none [[some 1, some 2], [some 3, some (4 : Nat)]] 2 = none := by decide

example : splitLine none [(some 1, 7), (some 2, 7), (some 3, 5), (some (4 : Nat), 7)] =
    some [some 1, some 2, none, some 3, none, some 4] := by decide

end Verif.Lines
