import Verif.Lines.Model
import Verif.Bins.Props

/-!
# C43 and C63: window_index and iter_on with a moving window
-/

namespace Verif.Lines

/-- State of one of the two searches after the values `pre` of the sorted values `xs`. -/
structure Inv (x0 : List Rat) (g d : Rat) (xs pre : List Rat) (j : Nat) (f : Nat → Nat) : Prop where
  le : j ≤ x0.length
  count : ∀ k, k < j → f k = xs.countP (fun x => x ≤ bnd x0 g d k)
  above : ∀ k, k < j → ∃ y ∈ pre, bnd x0 g d k < y
  below : ∀ k, j ≤ k → k < x0.length → ∀ y ∈ pre, y ≤ bnd x0 g d k

theorem bnd_mono {x0 : List Rat} (hs : x0.Pairwise (· ≤ ·)) (g d : Rat) {j k : Nat} (hjk : j ≤ k) (hk : k < x0.length) :
    bnd x0 g d j ≤ bnd x0 g d k := by
  unfold bnd
  rcases Nat.lt_or_eq_of_le hjk with h | rfl
  · have := List.pairwise_iff_getElem.1 hs j k (by omega) hk h
    rw [List.getD_eq_getElem?_getD, List.getD_eq_getElem?_getD, List.getElem?_eq_getElem hk, List.getElem?_eq_getElem (by omega)]
    simpa using this
  · exact le_refl _

theorem advance_spec {x0 : List Rat} (hs : x0.Pairwise (· ≤ ·)) (g d : Rat) {xs pre rest : List Rat} {x : Rat}
    (hxs : xs = pre ++ x :: rest) (hsort : xs.Pairwise (· ≤ ·)) : ∀ (fuel j : Nat) (f : Nat → Nat), x0.length - j < fuel →
    j ≤ x0.length → (∀ k, k < j → f k = xs.countP (fun x => x ≤ bnd x0 g d k)) → (∀ k, k < j → ∃ y ∈ pre ++ [x], bnd x0 g d k < y) →
    (∀ k, j ≤ k → k < x0.length → ∀ y ∈ pre, y ≤ bnd x0 g d k) →
    Inv x0 g d xs (pre ++ [x]) (advance x0 g d x pre.length fuel j f).1 (advance x0 g d x pre.length fuel j f).2
  | 0, j, f, hf, _, _, _, _ => by omega
  | fuel + 1, j, f, hf, hj, hc, ha, hb => by
    rw [advance]
    split
    · rename_i h
      obtain ⟨h1, h2⟩ := h
      refine advance_spec hs g d hxs hsort fuel (j + 1) _ (by omega) (by omega) ?_ ?_ (fun k hk => hb k (by omega))
      · intro k hk
        rcases Nat.lt_or_eq_of_le (Nat.lt_succ_iff.1 hk) with hlt | rfl
        · rw [Function.update_of_ne (by omega)]
          exact hc k hlt
        · rw [Function.update_self, hxs, List.countP_append]
          have e1 : pre.countP (fun x => x ≤ bnd x0 g d k) = pre.length := by
            rw [List.countP_eq_length]
            intro y hy
            simpa using hb k (le_refl _) h2 y hy
          have e2 : (x :: rest).countP (fun x => x ≤ bnd x0 g d k) = 0 := by
            rw [List.countP_eq_zero]
            intro y hy
            rw [hxs, List.pairwise_append] at hsort
            have hxy : x ≤ y := by
              rcases List.mem_cons.1 hy with rfl | hy
              · exact le_refl _
              · exact (List.pairwise_cons.1 hsort.2.1).1 y hy
            simp only [decide_eq_true_eq, not_le]
            exact lt_of_lt_of_le h1 hxy
          rw [e1, e2]; rfl
      · intro k hk
        rcases Nat.lt_or_eq_of_le (Nat.lt_succ_iff.1 hk) with hlt | rfl
        · exact ha k hlt
        · exact ⟨x, by simp, h1⟩
    · rename_i h
      refine ⟨hj, hc, ha, ?_⟩
      intro k hjk hk y hy
      rcases List.mem_append.1 hy with hy | hy
      · exact hb k hjk hk y hy
      · obtain rfl := List.mem_singleton.1 hy
        have : ¬ y > bnd x0 g d j := fun hgt => h ⟨hgt, by omega⟩
        exact le_trans (not_lt.1 this) (bnd_mono hs g d hjk hk)

theorem Inv.step {x0 : List Rat} (hs : x0.Pairwise (· ≤ ·)) {g d : Rat} {xs pre rest : List Rat} {x : Rat}
    (hxs : xs = pre ++ x :: rest) (hsort : xs.Pairwise (· ≤ ·)) {j : Nat} {f : Nat → Nat} (h : Inv x0 g d xs pre j f) :
    Inv x0 g d xs (pre ++ [x]) (advance x0 g d x pre.length (x0.length + 1) j f).1
      (advance x0 g d x pre.length (x0.length + 1) j f).2 := by
  refine advance_spec hs g d hxs hsort _ j f (by omega) h.le h.count ?_ h.below
  intro k hk
  obtain ⟨y, hy, hlt⟩ := h.above k hk
  exact ⟨y, by simp [hy], hlt⟩

theorem windowLoop_spec {x0 : List Rat} (hs : x0.Pairwise (· ≤ ·)) {g h : Rat} (hh : 0 ≤ h) {xs : List Rat}
    (hsort : xs.Pairwise (· ≤ ·)) : ∀ (l pre : List Rat) (s : WState), xs = pre ++ l → Inv x0 g (-h) xs pre s.jmin s.first →
    Inv x0 g h xs pre s.jmax s.last →
    Inv x0 g (-h) xs xs (windowLoop x0 g h l pre.length s).jmin (windowLoop x0 g h l pre.length s).first ∧
    Inv x0 g h xs xs (windowLoop x0 g h l pre.length s).jmax (windowLoop x0 g h l pre.length s).last
  | [], pre, s, hxs, h1, h2 => by
    rw [List.append_nil] at hxs
    subst hxs
    exact ⟨h1, h2⟩
  | x :: l, pre, s, hxs, h1, h2 => by
    have k1 := h1.step hs hxs hsort
    have k2 := h2.step hs hxs hsort
    rw [windowLoop]
    split
    · rename_i hend
      simp only
      have hsub : ∀ y ∈ pre ++ [x], y ∈ xs := by
        intro y hy; rw [hxs]; rcases List.mem_append.1 hy with hy | hy
        · exact List.mem_append_left _ hy
        · rw [List.mem_singleton.1 hy]; simp
      have hmin : (advance x0 g (-h) x pre.length (x0.length + 1) s.jmin s.first).1 = x0.length := by
        by_contra hne
        have hlt : (advance x0 g (-h) x pre.length (x0.length + 1) s.jmin s.first).1 < x0.length := lt_of_le_of_ne k1.le hne
        have hpos : x0.length - 1 < x0.length := by omega
        obtain ⟨y, hy, hy2⟩ := k2.above (x0.length - 1) (by rw [hend]; exact hpos)
        have := k1.below (x0.length - 1) (by omega) hpos y hy
        unfold bnd at this hy2
        linarith
      constructor
      · exact ⟨k1.le, k1.count, fun k hk => (k1.above k hk).imp fun y hy => ⟨hsub y hy.1, hy.2⟩,
          fun k hk1 hk2 => by omega⟩
      · exact ⟨k2.le, k2.count, fun k hk => (k2.above k hk).imp fun y hy => ⟨hsub y hy.1, hy.2⟩,
          fun k hk1 hk2 => by omega⟩
    · have hxs' : xs = (pre ++ [x]) ++ l := by rw [hxs]; simp
      have := windowLoop_spec hs hh hsort l (pre ++ [x]) ⟨_, _, _, _⟩ hxs' k1 k2
      rw [List.length_append, List.length_singleton] at this
      exact this

theorem windowState_spec {x0 : List Rat} (hs : x0.Pairwise (· ≤ ·)) {g h : Rat} (hh : 0 ≤ h) {xs : List Rat}
    (hsort : xs.Pairwise (· ≤ ·)) : Inv x0 g (-h) xs xs (windowState x0 g h xs).jmin (windowState x0 g h xs).first ∧
      Inv x0 g h xs xs (windowState x0 g h xs).jmax (windowState x0 g h xs).last := by
  refine windowLoop_spec hs hh hsort xs [] _ rfl ?_ ?_ <;>
    exact ⟨Nat.zero_le _, fun k hk => absurd hk (Nat.not_lt_zero k), fun k hk => absurd hk (Nat.not_lt_zero k), fun k _ _ y hy => by cases hy⟩

theorem Inv.result {x0 : List Rat} {g d : Rat} {xs : List Rat} {j : Nat} {f : Nat → Nat} (h : Inv x0 g d xs xs j f) {k : Nat} {c : Rat}
    (hc : x0[k]? = some c) : (if k < j then f k else xs.length) = xs.countP (fun x => x ≤ c + d) := by
  have hb : bnd x0 g d k = c + d := by unfold bnd; rw [List.getD_eq_getElem?_getD, hc]; rfl
  split
  · rename_i hk
    rw [h.count k hk, hb]
  · rename_i hk
    symm
    rw [List.countP_eq_length]
    intro y hy
    have := h.below k (by omega) (List.getElem?_eq_some_iff.1 hc).1 y hy
    rw [hb] at this
    simpa using this

/-- **C43** (positions): for sorted values and nodes, the first position of a node is the number of values at most `node - h` and
its last (excluded) position the number of values at most `node + h`, whatever is read outside of the nodes. -/
theorem window_index_spec {x0 xs : List Rat} (hs : x0.Pairwise (· ≤ ·)) (hsort : xs.Pairwise (· ≤ ·)) {h : Rat} (hh : 0 ≤ h)
    (g : Rat) : (windowIndex x0 g h xs).1 = x0.map (fun c => xs.countP (fun x => x ≤ c - h)) ∧
      (windowIndex x0 g h xs).2 = x0.map (fun c => xs.countP (fun x => x ≤ c + h)) := by
  obtain ⟨h1, h2⟩ := windowState_spec (g := g) hs hh hsort
  constructor
  · apply List.ext_getElem?
    intro k
    unfold windowIndex
    simp only [List.getElem?_map]
    by_cases hk : k < x0.length
    · rw [List.getElem?_range hk, List.getElem?_eq_getElem hk]
      simp only [Option.map_some]
      rw [h1.result (List.getElem?_eq_getElem hk)]
      simp only [sub_eq_add_neg]
    · rw [List.getElem?_eq_none (by simp; omega), List.getElem?_eq_none (by omega)]
      rfl
  · apply List.ext_getElem?
    intro k
    unfold windowIndex
    simp only [List.getElem?_map]
    by_cases hk : k < x0.length
    · rw [List.getElem?_range hk, List.getElem?_eq_getElem hk]
      simp only [Option.map_some]
      rw [h2.result (List.getElem?_eq_getElem hk)]
    · rw [List.getElem?_eq_none (by simp; omega), List.getElem?_eq_none (by omega)]
      rfl

/-- Slice of a sorted list between two bounds. -/
theorem slice_sorted {α : Type} (v : α → Rat) (a b : Rat) : ∀ (l : List α), (l.map v).Pairwise (· ≤ ·) →
    (l.take ((l.map v).countP (fun x => x ≤ b))).drop ((l.map v).countP (fun x => x ≤ a)) =
      l.filter (fun i => decide (a < v i ∧ v i ≤ b))
  | [], _ => by simp
  | y :: l, hs => by
    obtain ⟨h1, h2⟩ := List.pairwise_cons.1 (by simpa using hs : ((v y) :: l.map v).Pairwise (· ≤ ·))
    have ih := slice_sorted v a b l h2
    have zero : ∀ c : Rat, c < v y → (l.map v).countP (fun x => x ≤ c) = 0 := by
      intro c hc
      rw [List.countP_eq_zero]
      intro z hz
      simp only [decide_eq_true_eq, not_le]
      exact lt_of_lt_of_le hc (h1 z hz)
    have pos : ∀ c : Rat, v y ≤ c → (v y :: l.map v).countP (fun x => x ≤ c) = (l.map v).countP (fun x => x ≤ c) + 1 := by
      intro c hc
      rw [List.countP_cons_of_pos (by simpa using hc)]
    have neg : ∀ c : Rat, c < v y → (v y :: l.map v).countP (fun x => x ≤ c) = 0 := by
      intro c hc
      rw [List.countP_cons_of_neg (by simpa using hc)]
      exact zero c hc
    rw [List.map_cons]
    by_cases hb : v y ≤ b
    · rw [pos b hb, List.take_succ_cons]
      by_cases ha : v y ≤ a
      · rw [pos a ha, List.drop_succ_cons, ih, List.filter_cons_of_neg (by simp [ha])]
      · rw [neg a (not_le.1 ha)]
        rw [zero a (not_le.1 ha)] at ih
        rw [List.filter_cons_of_pos (by simpa using ⟨not_le.1 ha, hb⟩), ← ih]
        simp
    · rw [neg b (not_le.1 hb)]
      symm
      simp only [List.take_zero, List.drop_nil, List.filter_eq_nil_iff, decide_eq_true_eq, not_and, not_le]
      intro z hz _
      rcases List.mem_cons.1 hz with rfl | hz
      · exact not_le.1 hb
      · exact lt_of_lt_of_le (not_le.1 hb) (h1 _ (List.mem_map_of_mem hz))

/-- **C43**: the slice of each node is exactly the values in `(node - h, node + h]`. Missing for the whole property: the code reads
one element after the nodes (`window_reads_outside`), and the lower bound is excluded (`window_lower_excluded`). -/
theorem window_index_partial {x0 xs : List Rat} (hs : x0.Pairwise (· ≤ ·)) (hsort : xs.Pairwise (· ≤ ·)) {h : Rat} (hh : 0 ≤ h)
    (g : Rat) {k : Nat} {c : Rat} (hc : x0[k]? = some c) : ∃ i0 i1, (windowIndex x0 g h xs).1[k]? = some i0 ∧
      (windowIndex x0 g h xs).2[k]? = some i1 ∧ i0 ≤ i1 ∧ i1 ≤ xs.length ∧
      (xs.take i1).drop i0 = xs.filter (fun x => decide (c - h < x ∧ x ≤ c + h)) := by
  obtain ⟨h1, h2⟩ := window_index_spec hs hsort hh g
  refine ⟨_, _, by rw [h1, List.getElem?_map, hc]; rfl, by rw [h2, List.getElem?_map, hc]; rfl, ?_, List.countP_le_length, ?_⟩
  · apply List.countP_mono_left
    intro x _ hx
    simp only [decide_eq_true_eq] at hx ⊢
    linarith
  · have := slice_sorted id (c - h) (c + h) xs (by simpa using hsort)
    simpa using this

/-- **Disagreement with C43** (memory): an element outside of the nodes is read exactly when there is no node or a value is above
the lower bound of the last node. -/
theorem window_reads_outside {x0 xs : List Rat} (hs : x0.Pairwise (· ≤ ·)) (hsort : xs.Pairwise (· ≤ ·)) {h : Rat} (hh : 0 ≤ h)
    (g : Rat) : readsOutside x0 g h xs = true ↔ x0 = [] ∨ ∃ c, x0.getLast? = some c ∧ ∃ x ∈ xs, c - h < x := by
  obtain ⟨h1, h2⟩ := windowState_spec (g := g) hs hh hsort
  unfold readsOutside
  rw [decide_eq_true_eq]
  have hlast : ∀ hne : x0 ≠ [], ∀ d, bnd x0 g d (x0.length - 1) = x0.getLast hne + d := by
    intro hne d
    have hpos := List.length_pos_of_ne_nil hne
    unfold bnd
    rw [List.getD_eq_getElem?_getD, List.getElem?_eq_getElem (by omega), List.getLast_eq_getElem]
    rfl
  by_cases hne : x0 = []
  · subst hne
    simp only [true_or, iff_true]
    left
    have := h1.le
    simpa using this
  · have hpos := List.length_pos_of_ne_nil hne
    simp only [hne, false_or, List.getLast?_eq_some_getLast hne, Option.some.injEq, exists_eq_left']
    constructor
    · rintro (he | he)
      · obtain ⟨y, hy, hlt⟩ := h1.above (x0.length - 1) (by omega)
        rw [hlast hne] at hlt
        exact ⟨y, hy, by linarith⟩
      · obtain ⟨y, hy, hlt⟩ := h2.above (x0.length - 1) (by omega)
        rw [hlast hne] at hlt
        exact ⟨y, hy, by linarith⟩
    · rintro ⟨x, hx, hlt⟩
      left
      by_contra hc
      have := h1.below (x0.length - 1) (by have := h1.le; omega) (by omega) x hx
      rw [hlast hne] at this
      linarith

/-- **Disagreement with C43**: a value at exactly `node - h` is not in the window, a value at `node + h` is. -/
theorem window_lower_excluded : windowIndex [5] 0 1 [4, 5, 6] = ([1], [3]) := by decide +kernel

example : windowIndex [1, 2, 10] 7 1 [0, 1, 1, 3, 9, 10, 12] = ([1, 3, 5], [3, 4, 6]) := by decide +kernel

example : readsOutside [1, 2, 10] 7 1 [0, 1, 1, 3, 9, 10, 12] = true := by decide +kernel

/-! ### C63 -/

/-- `order` sorts the values. -/
def Sorts (x : List Rat) (order : List Nat) : Prop :=
  order.Perm (List.range x.length) ∧ (order.map (fun k => x.getD k 0)).Pairwise (· ≤ ·)

/-- **C63**: `iter_on` with a moving window yields one group for each node, in order, with the bounds `node - w` and `node + w`, and
the observations of the group are exactly those with a value in `(node - w, node + w]`, each once. -/
theorem iter_window_spec {x bins : List Rat} {order : List Nat} (ho : Sorts x order) (hb : bins.Pairwise (· ≤ ·)) {w : Rat}
    (hw : 0 ≤ w) (g : Rat) : (iterWindow order g w x bins).length = bins.length ∧
    ∀ (k : Nat) (c : Rat), bins[k]? = some c → ∃ obs, (iterWindow order g w x bins)[k]? = some (obs, c - w, c + w) ∧
      obs.Nodup ∧ ∀ i, i ∈ obs ↔ ∃ v, x[i]? = some v ∧ c - w < v ∧ v ≤ c + w := by
  obtain ⟨h1, h2⟩ := window_index_spec hb ho.2 hw g
  have key : iterWindow order g w x bins =
      bins.map (fun c => (order.filter (fun i => decide (c - w < x.getD i 0 ∧ x.getD i 0 ≤ c + w)), c - w, c + w)) := by
    unfold iterWindow
    simp only
    rw [h1, h2]
    apply List.ext_getElem?
    intro k
    simp only [List.getElem?_map, List.zip]
    by_cases hk : k < bins.length
    · have e : (List.zipWith Prod.mk bins (List.zipWith Prod.mk (bins.map fun c => (order.map fun k => x.getD k 0).countP (fun x => x ≤ c - w))
          (bins.map fun c => (order.map fun k => x.getD k 0).countP (fun x => x ≤ c + w))))[k]? =
          some (bins[k], ((order.map fun k => x.getD k 0).countP (fun x => x ≤ bins[k] - w),
            (order.map fun k => x.getD k 0).countP (fun x => x ≤ bins[k] + w))) := by
        rw [List.getElem?_zipWith, List.getElem?_zipWith, List.getElem?_map, List.getElem?_map, List.getElem?_eq_getElem hk]
        rfl
      rw [e, List.getElem?_eq_getElem hk]
      simp only [Option.map_some]
      rw [slice_sorted (fun k => x.getD k 0) (bins[k] - w) (bins[k] + w) order ho.2]
    · rw [List.getElem?_eq_none (by simp; omega), List.getElem?_eq_none (by omega)]
      rfl
  rw [key]
  refine ⟨by simp, fun k c hc => ⟨_, by rw [List.getElem?_map, hc]; rfl, ?_, ?_⟩⟩
  · exact (ho.1.nodup_iff.2 List.nodup_range).filter _
  · intro i
    rw [List.mem_filter, ho.1.mem_iff, List.mem_range, decide_eq_true_eq]
    constructor
    · rintro ⟨hi, hv⟩
      refine ⟨x[i], List.getElem?_eq_getElem hi, ?_⟩
      rw [List.getD_eq_getElem?_getD, List.getElem?_eq_getElem hi] at hv
      exact hv
    · rintro ⟨v, hv, hr⟩
      refine ⟨(List.getElem?_eq_some_iff.1 hv).1, ?_⟩
      rw [List.getD_eq_getElem?_getD, hv]
      exact hr

/-- **C63** (nodes without bins): the nodes start at the smallest value, go by steps of one and stay below the largest value. -/
theorem window_nodes_spec {x nodes : List Rat} (h : windowNodes x = some nodes) : nodes.Pairwise (· ≤ ·) ∧
    ∃ lo ∈ x, ∃ hi ∈ x, (∀ v ∈ x, lo ≤ v ∧ v ≤ hi) ∧ ∀ c, c ∈ nodes ↔ ∃ k : Nat, c = lo + k ∧ c < hi := by
  cases x with
  | nil => cases h
  | cons a l =>
    unfold windowNodes at h
    simp only [Option.some.injEq] at h
    subst h
    have hmin := Bins.foldl_min_le l a
    have hmax := Bins.le_foldl_max l a
    have hmemmin : l.foldl min a ∈ a :: l := by
      clear hmin hmax
      induction l generalizing a with
      | nil => simp
      | cons b l ih =>
        rw [List.foldl_cons]
        rcases List.mem_cons.1 (ih (min a b)) with h | h
        · rw [h]
          rcases min_choice a b with hc | hc <;> rw [hc] <;> simp
        · exact List.mem_cons_of_mem _ (List.mem_cons_of_mem _ h)
    have hmemmax : l.foldl max a ∈ a :: l := by
      clear hmin hmax hmemmin
      induction l generalizing a with
      | nil => simp
      | cons b l ih =>
        rw [List.foldl_cons]
        rcases List.mem_cons.1 (ih (max a b)) with h | h
        · rw [h]
          rcases max_choice a b with hc | hc <;> rw [hc] <;> simp
        · exact List.mem_cons_of_mem _ (List.mem_cons_of_mem _ h)
    constructor
    · rw [List.pairwise_map]
      refine List.pairwise_lt_range.imp ?_
      intro i j hij
      have : (i : Rat) < (j : Rat) := by exact_mod_cast hij
      linarith
    · refine ⟨_, hmemmin, _, hmemmax, ?_, ?_⟩
      · intro v hv
        rcases List.mem_cons.1 hv with rfl | hv
        · exact ⟨hmin.1, hmax.1⟩
        · exact ⟨hmin.2 v hv, hmax.2 v hv⟩
      · intro c
        rw [List.mem_map]
        constructor
        · rintro ⟨k, hk, rfl⟩
          refine ⟨k, rfl, ?_⟩
          rw [List.mem_range] at hk
          have hk' : (k : Int) < (l.foldl max a - l.foldl min a).ceil := by omega
          have := Rat.lt_ceil_iff.1 hk'
          push_cast at this
          linarith
        · rintro ⟨k, rfl, hlt⟩
          refine ⟨k, ?_, rfl⟩
          rw [List.mem_range]
          have : (k : Int) < (l.foldl max a - l.foldl min a).ceil := by
            rw [Rat.lt_ceil_iff]
            push_cast
            linarith
          omega

example : Sorts [3, 1, 2] [1, 2, 0] := by
  constructor
  · decide
  · decide +kernel

example : iterWindow [1, 2, 0] 0 1 [3, 1, 2] [1, 3] = [([1, 2], 0, 2), ([0], 2, 4)] := by decide +kernel

end Verif.Lines
