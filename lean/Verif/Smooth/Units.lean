import Verif.Smooth.Position
import Mathlib.Tactic.Ring
import Mathlib.Tactic.Linarith
import Mathlib.Tactic.NormNum

/-!
# C222: the filters of tracks in other units and in the reversed time

`track_median_filter` and `track_loess_filter` (src/py_eddy_tracker/observations/tracking.py:820-892), with the abscissa, the values and the numbers of tracks
written otherwise.
-/

namespace Verif.Smooth

/-! ### Windows -/

/-- Windows, weights and tracks are the same for both writings. -/
structure SameWindows (hw hw' : Rat) (x x' : Nat → Rat) (tr tr' : Nat → Nat) : Prop where
  gt : ∀ i j, hw' < x' i - x' j ↔ hw < x i - x j
  lt : ∀ i j, x' i - x' j < hw' ↔ x i - x j < hw
  weight : ∀ i j, weight hw' (x' i - x' j) = weight hw (x i - x j)
  track : ∀ i j, tr' i = tr' j ↔ tr i = tr j

theorem sameWindows {k : Rat} (hk : 0 < k) (c hw : Rat) (x : Nat → Rat) {f : Nat → Nat} (hf : ∀ a b, f a = f b → a = b) (tr : Nat → Nat) :
    SameWindows hw (k * hw) x (fun i => k * x i + c) tr (fun i => f (tr i)) := by
  have e : ∀ i j, k * x i + c - (k * x j + c) = k * (x i - x j) := fun i j => by ring
  refine ⟨fun i j => ?_, fun i j => ?_, fun i j => ?_, fun i j => ⟨fun h => hf _ _ h, fun h => congrArg f h⟩⟩
  · rw [e, mul_lt_mul_iff_right₀ hk]
  · rw [e, mul_lt_mul_iff_right₀ hk]
  · rw [e, Verif.Smooth.weight, Verif.Smooth.weight, mul_div_mul_left _ _ hk.ne']

theorem prevLoop_same {hw hw' : Rat} {x x' : Nat → Rat} {tr tr' : Nat → Nat} (h : SameWindows hw hw' x x' tr tr') (n i : Nat) :
    ∀ fuel k, prevLoop hw' x' tr' n i fuel k = prevLoop hw x tr n i fuel k
  | 0, _ => rfl
  | fuel + 1, k => by
    simp only [prevLoop, h.gt i k, ne_eq, h.track i k, prevLoop_same h n i fuel (k + 1)]

theorem nextLoop_same {hw hw' : Rat} {x x' : Nat → Rat} {tr tr' : Nat → Nat} (h : SameWindows hw hw' x x' tr tr') (n i : Nat) :
    ∀ fuel k, nextLoop hw' x' tr' n i fuel k = nextLoop hw x tr n i fuel k
  | 0, _ => rfl
  | fuel + 1, k => by
    simp only [nextLoop, ← not_lt, h.gt k i, h.track i k, nextLoop_same h n i fuel (k + 1)]

/-! ### Median -/

theorem median_affine (a b : Rat) (l : List Rat) : median (l.map (fun v => a * v + b)) = (median l).map (fun v => a * v + b) := by
  by_cases hne : l = []
  · subst hne; rfl
  have hp := List.perm_insertionSort (· ≤ ·) l
  have hs : (l.insertionSort (· ≤ ·)).Pairwise (· ≤ ·) := List.pairwise_insertionSort _ l
  obtain ⟨p, q, h1, h2, h3⟩ := median_is_middle l _ hp hs hne
  have hlen : (l.insertionSort (· ≤ ·)).length = l.length := hp.length_eq
  have hpos : 0 < l.length := List.length_pos_of_ne_nil hne
  have hne' : l.map (fun v => a * v + b) ≠ [] := by simpa using hne
  rw [h3, Option.map_some]
  by_cases ha : 0 ≤ a
  · have hs' : ((l.insertionSort (· ≤ ·)).map (fun v => a * v + b)).Pairwise (· ≤ ·) :=
      List.pairwise_map.2 (hs.imp (fun h => by nlinarith))
    obtain ⟨p', q', e1, e2, e3⟩ := median_is_middle _ _ (hp.map _) hs' hne'
    rw [List.length_map, List.getElem?_map, h1] at e1
    rw [List.length_map, List.getElem?_map, h2] at e2
    simp only [Option.map_some, Option.some.injEq] at e1 e2
    rw [e3, ← e1, ← e2]
    congr 1
    ring
  · have hs' : ((l.insertionSort (· ≤ ·)).map (fun v => a * v + b)).reverse.Pairwise (· ≤ ·) := by
      rw [List.pairwise_reverse]
      exact List.pairwise_map.2 (hs.imp (fun h => by nlinarith))
    obtain ⟨p', q', e1, e2, e3⟩ := median_is_middle _ _ ((List.reverse_perm _).trans (hp.map _)) hs' hne'
    rw [List.length_map, List.getElem?_reverse (by rw [List.length_map, hlen]; omega), List.length_map, hlen, List.getElem?_map,
      show l.length - 1 - (l.length - 1) / 2 = l.length / 2 by omega, h2] at e1
    rw [List.length_map, List.getElem?_reverse (by rw [List.length_map, hlen]; omega), List.length_map, hlen, List.getElem?_map,
      show l.length - 1 - l.length / 2 = (l.length - 1) / 2 by omega, h1] at e2
    simp only [Option.map_some, Option.some.injEq] at e1 e2
    rw [e3, ← e1, ← e2]
    congr 1
    ring

theorem median_perm {l l' : List Rat} (h : l.Perm l') : median l = median l' := by
  have e : l.insertionSort (· ≤ ·) = l'.insertionSort (· ≤ ·) :=
    ((List.perm_insertionSort _ l).trans (h.trans (List.perm_insertionSort _ l').symm)).eq_of_pairwise (fun a b _ _ h1 h2 => le_antisymm h1 h2)
      (List.pairwise_insertionSort _ l) (List.pairwise_insertionSort _ l')
  unfold median
  rw [e, h.length_eq]

theorem medianUpTo_same {hw hw' : Rat} {x x' : Nat → Rat} {tr tr' : Nat → Nat} (h : SameWindows hw hw' x x' tr tr') (a b : Rat) (y : Nat → Rat) (n : Nat) :
    ∀ m, medianUpTo hw' x' (fun i => a * y i + b) tr' n m =
      (medianUpTo hw x y tr n m).map (fun s => (s.1, s.2.1, s.2.2.map (Option.map (fun v => a * v + b))))
  | 0 => rfl
  | m + 1 => by
    simp only [medianUpTo, medianUpTo_same h a b y n m, prevLoop_same h, nextLoop_same h]
    cases medianUpTo hw x y tr n m with
    | none => rfl
    | some s =>
      simp only [Option.map_some, Option.bind_eq_bind, Option.bind_some]
      cases prevLoop hw x tr n m (n + 1) s.1 with
      | none => rfl
      | some ip =>
        simp only [Option.bind_some, Option.map_some, List.map_append, List.map_cons, List.map_nil, ← median_affine, List.map_map]
        rfl

/-- **C222** (median, units): with times multiplied by `k` and shifted, values multiplied by any number and shifted, tracks with other numbers, the smoothed
values are those in the new units. -/
theorem median_units {k : Rat} (hk : 0 < k) (c a b hw : Rat) (x y : Nat → Rat) {f : Nat → Nat} (hf : ∀ p q, f p = f q → p = q) (tr : Nat → Nat) (n : Nat) :
    medianFilter (k * hw) (fun i => k * x i + c) (fun i => a * y i + b) (fun i => f (tr i)) n =
      (medianFilter hw x y tr n).map (List.map (Option.map (fun v => a * v + b))) := by
  unfold medianFilter
  rw [medianUpTo_same (sameWindows hk c hw x hf tr), Option.map_map, Option.map_map]
  rfl

/-! ### Loess -/

theorem back_same {hw hw' : Rat} {x x' : Nat → Rat} {tr tr' : Nat → Nat} (h : SameWindows hw hw' x x' tr tr') (a b : Rat) (y : Nat → Rat) (i : Nat) :
    ∀ k acc, back hw' x' (fun j => a * y j + b) tr' i k (a * acc.1 + b * acc.2, acc.2) =
      (a * (back hw x y tr i k acc).1 + b * (back hw x y tr i k acc).2, (back hw x y tr i k acc).2)
  | 0, acc => rfl
  | k + 1, acc => by
    simp only [back, h.lt, h.track, h.weight]
    split
    · rw [← back_same h a b y i k]
      congr 2
      ring
    · rfl

theorem fwd_same {hw hw' : Rat} {x x' : Nat → Rat} {tr tr' : Nat → Nat} (h : SameWindows hw hw' x x' tr tr') (a b : Rat) (y : Nat → Rat) (i last : Nat) :
    ∀ m acc, fwd hw' x' (fun j => a * y j + b) tr' i last m (a * acc.1 + b * acc.2, acc.2) =
      (a * (fwd hw x y tr i last m acc).1 + b * (fwd hw x y tr i last m acc).2, (fwd hw x y tr i last m acc).2)
  | 0, acc => rfl
  | m + 1, acc => by
    simp only [fwd, h.lt, h.track, h.weight]
    split
    · rw [← fwd_same h a b y i last m]
      congr 2
      ring
    · rfl

theorem weight_pos {hw d : Rat} (h0 : 0 < hw) (h : d < hw) : 0 < weight hw d := by
  have h1 : d / hw < 1 := (div_lt_one h0).2 h
  have h2 : (d / hw) ^ 3 < 1 := by
    have : (1 - d / hw) * ((d / hw + 1 / 2) ^ 2 + 3 / 4) > 0 := mul_pos (by linarith) (by positivity)
    nlinarith [this]
  exact pow_pos (by linarith) 3

theorem back_pos {hw : Rat} (h0 : 0 < hw) (x y : Nat → Rat) (tr : Nat → Nat) (i : Nat) : ∀ k acc, 0 < acc.2 → 0 < (back hw x y tr i k acc).2
  | 0, _, h => h
  | k + 1, acc, h => by
    simp only [back]
    split
    · next hc => exact back_pos h0 x y tr i k _ (add_pos h (weight_pos h0 hc.1))
    · exact h

theorem fwd_pos {hw : Rat} (h0 : 0 < hw) (x y : Nat → Rat) (tr : Nat → Nat) (i last : Nat) : ∀ m acc, 0 < acc.2 → 0 < (fwd hw x y tr i last m acc).2
  | 0, _, h => h
  | m + 1, acc, h => by
    simp only [fwd]
    split
    · next hc => exact fwd_pos h0 x y tr i last m _ (add_pos h (weight_pos h0 hc.1))
    · exact h

/-- The two sums of a row. -/
def sums (hw : Rat) (x y : Nat → Rat) (tr : Nat → Nat) (n i : Nat) : Rat × Rat :=
  let acc := if i ≠ 0 then back hw x y tr i (i - 1) (y i, 1) else (y i, 1)
  if i ≠ n - 1 then fwd hw x y tr i (n - 1) (n - 1 - (i + 1)) acc else acc

theorem loessAt_sums (hw : Rat) (x y : Nat → Rat) (tr : Nat → Nat) (n i : Nat) :
    loessAt hw x y tr n i = (sums hw x y tr n i).1 / (sums hw x y tr n i).2 := rfl

theorem sums_pos {hw : Rat} (h0 : 0 < hw) (x y : Nat → Rat) (tr : Nat → Nat) (n i : Nat) : 0 < (sums hw x y tr n i).2 := by
  have h1 : 0 < (if i ≠ 0 then back hw x y tr i (i - 1) (y i, 1) else (y i, 1) : Rat × Rat).2 := by
    split
    · exact back_pos h0 x y tr i _ _ one_pos
    · exact one_pos
  unfold sums
  dsimp only
  split
  · exact fwd_pos h0 x y tr i _ _ _ h1
  · exact h1

theorem sums_same {hw hw' : Rat} {x x' : Nat → Rat} {tr tr' : Nat → Nat} (h : SameWindows hw hw' x x' tr tr') (a b : Rat) (y : Nat → Rat) (n i : Nat) :
    sums hw' x' (fun j => a * y j + b) tr' n i = (a * (sums hw x y tr n i).1 + b * (sums hw x y tr n i).2, (sums hw x y tr n i).2) := by
  have h1 : (if i ≠ 0 then back hw' x' (fun j => a * y j + b) tr' i (i - 1) (a * y i + b, 1) else (a * y i + b, 1) : Rat × Rat) =
      (a * (if i ≠ 0 then back hw x y tr i (i - 1) (y i, 1) else (y i, 1) : Rat × Rat).1 +
        b * (if i ≠ 0 then back hw x y tr i (i - 1) (y i, 1) else (y i, 1) : Rat × Rat).2,
        (if i ≠ 0 then back hw x y tr i (i - 1) (y i, 1) else (y i, 1) : Rat × Rat).2) := by
    split
    · have := back_same h a b y i (i - 1) (y i, 1)
      simp only [mul_one] at this
      exact this
    · simp
  unfold sums
  dsimp only
  rw [h1]
  split
  · exact fwd_same h a b y i _ _ _
  · rfl

/-- **C222** (loess, units): the same for the loess filter. -/
theorem loess_units {k : Rat} (hk : 0 < k) (c a b : Rat) {hw : Rat} (h0 : 0 < hw) (x y : Nat → Rat) {f : Nat → Nat} (hf : ∀ p q, f p = f q → p = q)
    (tr : Nat → Nat) (n : Nat) :
    loess (k * hw) (fun i => k * x i + c) (fun i => a * y i + b) (fun i => f (tr i)) n = (loess hw x y tr n).map (fun v => a * v + b) := by
  unfold loess
  rw [List.map_map]
  refine List.map_congr_left (fun i _ => ?_)
  simp only [Function.comp, loessAt_sums, sums_same (sameWindows hk c hw x hf tr)]
  have := (sums_pos h0 x y tr n i).ne'
  rw [add_div, mul_div_assoc, mul_div_assoc, div_self this, mul_one]

/-! ### Reversed time -/

/-- The rows from the last one to the first one. -/
def rev {β : Type} (n : Nat) (u : Nat → β) : Nat → β := fun i => u (n - 1 - i)

theorem back_add (hw : Rat) (x y : Nat → Rat) (tr : Nat → Nat) (i : Nat) : ∀ k acc,
    back hw x y tr i k acc = (acc.1 + (back hw x y tr i k (0, 0)).1, acc.2 + (back hw x y tr i k (0, 0)).2)
  | 0, acc => by simp [back]
  | k + 1, acc => by
    simp only [back]
    split
    · rw [back_add hw x y tr i k, back_add hw x y tr i k (0 + _, _)]
      simp only [zero_add, add_assoc]
    · simp

theorem fwd_add (hw : Rat) (x y : Nat → Rat) (tr : Nat → Nat) (i last : Nat) : ∀ m acc,
    fwd hw x y tr i last m acc = (acc.1 + (fwd hw x y tr i last m (0, 0)).1, acc.2 + (fwd hw x y tr i last m (0, 0)).2)
  | 0, acc => by simp [fwd]
  | m + 1, acc => by
    simp only [fwd]
    split
    · rw [fwd_add hw x y tr i last m, fwd_add hw x y tr i last m (0 + _, _)]
      simp only [zero_add, add_assoc]
    · simp

theorem back_rev (hw : Rat) (x y : Nat → Rat) (tr : Nat → Nat) (n i : Nat) : ∀ m acc,
    back hw (rev n (fun j => -x j)) (rev n y) (rev n tr) i m acc = fwd hw x y tr (n - 1 - i) (n - 1) m acc
  | 0, _ => rfl
  | m + 1, acc => by
    have e : rev n (fun j => -x j) i - rev n (fun j => -x j) (m + 1) = x (n - 1 - (m + 1)) - x (n - 1 - i) := by
      simp only [rev]; ring
    simp only [back, fwd, e, back_rev hw x y tr n i m]
    rfl

theorem fwd_rev (hw : Rat) (x y : Nat → Rat) (tr : Nat → Nat) (n i : Nat) : ∀ m acc, m < n - 1 + 1 → m ≤ n - 1 →
    fwd hw (rev n (fun j => -x j)) (rev n y) (rev n tr) i (n - 1) m acc = back hw x y tr (n - 1 - i) m acc
  | 0, _, _, _ => rfl
  | m + 1, acc, h1, h2 => by
    have e : rev n (fun j => -x j) (n - 1 - (m + 1)) - rev n (fun j => -x j) i = x (n - 1 - i) - x (m + 1) := by
      simp only [rev, show n - 1 - (n - 1 - (m + 1)) = m + 1 by omega]; ring
    have ey : rev n y (n - 1 - (m + 1)) = y (m + 1) := by simp only [rev, show n - 1 - (n - 1 - (m + 1)) = m + 1 by omega]
    have et : rev n tr (n - 1 - (m + 1)) = tr (m + 1) := by simp only [rev, show n - 1 - (n - 1 - (m + 1)) = m + 1 by omega]
    simp only [back, fwd, e, ey, et, fwd_rev hw x y tr n i m _ (by omega) (by omega)]
    rfl

theorem sums_rev (hw : Rat) (x y : Nat → Rat) (tr : Nat → Nat) {n i : Nat} (hi : i < n) :
    sums hw (rev n (fun j => -x j)) (rev n y) (rev n tr) n i = sums hw x y tr n (n - 1 - i) := by
  have ey : rev n y i = y (n - 1 - i) := rfl
  have c1 : n - 1 - i ≠ 0 ↔ i ≠ n - 1 := by omega
  have c2 : n - 1 - i ≠ n - 1 ↔ i ≠ 0 := by omega
  have e1 : n - 1 - (i + 1) = n - 1 - i - 1 := by omega
  unfold sums
  dsimp only
  simp only [c1, c2, back_rev, ey, e1]
  rw [fwd_rev hw x y tr n i _ _ (by omega) (by omega)]
  by_cases h1 : i = 0
  · rw [if_neg (not_not.2 h1), if_neg (not_not.2 h1)]
  · have e2 : n - 1 - (n - 1 - i + 1) = i - 1 := by omega
    rw [if_pos h1, if_pos h1, e2]
    by_cases h2 : i = n - 1
    · rw [if_neg (not_not.2 h2), if_neg (not_not.2 h2)]
    · rw [if_pos h2, if_pos h2, back_add, fwd_add hw x y tr _ _ _ (y (n - 1 - i), 1), fwd_add hw x y tr _ _ _ (back _ _ _ _ _ _ _),
        back_add hw x y tr _ _ (y (n - 1 - i), 1)]
      exact Prod.ext (by dsimp only; ring) (by dsimp only; ring)

theorem map_range_rev {β : Type} (n : Nat) (u : Nat → β) : (List.range n).map (rev n u) = ((List.range n).map u).reverse := by
  refine List.ext_getElem (by simp) (fun j h1 h2 => ?_)
  simp only [List.length_map, List.length_range] at h1
  simp [rev, List.getElem_reverse]

/-- **C222** (loess, reversed time): the filter of the rows from the last to the first is the reversed filter. -/
theorem loess_reversed (hw : Rat) (x y : Nat → Rat) (tr : Nat → Nat) (n : Nat) :
    loess hw (rev n (fun j => -x j)) (rev n y) (rev n tr) n = (loess hw x y tr n).reverse := by
  unfold loess
  rw [← map_range_rev]
  refine List.map_congr_left (fun i hi => ?_)
  rw [loessAt_sums, sums_rev hw x y tr (List.mem_range.1 hi)]
  rfl

theorem grouped_rev {x : Nat → Rat} {tr : Nat → Nat} {n : Nat} (h : Grouped x tr n) : Grouped (rev n (fun j => -x j)) (rev n tr) n := by
  refine ⟨fun i j k h1 h2 h3 e => ?_, fun i j h1 h2 e => ?_⟩
  · have := h.contig (n - 1 - k) (n - 1 - j) (n - 1 - i) (by omega) (by omega) (by omega) e.symm
    exact this.trans e.symm
  · exact neg_le_neg (h.mono (n - 1 - j) (n - 1 - i) (by omega) (by omega) e.symm)

theorem window_rev (hw : Rat) (x y : Nat → Rat) (tr : Nat → Nat) (n i : Nat) :
    (windowValues hw (rev n (fun j => -x j)) (rev n y) (rev n tr) n i).Perm (windowValues hw x y tr n (n - 1 - i)) := by
  have e : ∀ k, InWindow hw (rev n (fun j => -x j)) (rev n tr) i k ↔ InWindow hw x tr (n - 1 - i) (n - 1 - k) := by
    intro k
    simp only [InWindow, rev, neg_sub_neg]
    exact ⟨fun h => ⟨h.1, h.2.2, h.2.1⟩, fun h => ⟨h.1, h.2.2, h.2.1⟩⟩
  unfold windowValues
  have : ((List.range n).filter (fun k => decide (InWindow hw (rev n (fun j => -x j)) (rev n tr) i k))).map (rev n y) =
      (((List.range n).map (rev n id)).filter (fun k => decide (InWindow hw x tr (n - 1 - i) k))).map y := by
    rw [List.filter_map, List.map_map]
    simp only [e]
    rfl
  rw [this, map_range_rev, List.map_id]
  exact ((List.reverse_perm _).filter _).map _

/-- **C222** (median, reversed time): for tracks in order, the filter of the rows from the last to the first is the reversed filter. -/
theorem median_reversed {hw : Rat} (h0 : 0 ≤ hw) {x : Nat → Rat} (y : Nat → Rat) {tr : Nat → Nat} {n : Nat} (hg : Grouped x tr n) :
    medianFilter hw (rev n (fun j => -x j)) (rev n y) (rev n tr) n = (medianFilter hw x y tr n).map List.reverse := by
  rw [median_filter_spec hw _ _ _ _ h0 hg, median_filter_spec hw _ _ _ _ h0 (grouped_rev hg), Option.map_some, ← map_range_rev]
  congr 1
  refine List.map_congr_left (fun i _ => ?_)
  exact median_perm (window_rev hw x y tr n i)

/-! ### Both filters -/

theorem smooth_loess {hm : Rat} (h0 : 0 ≤ hm) (hl : Rat) {x : Nat → Rat} (y : Nat → Rat) {tr : Nat → Nat} {n : Nat} (hg : Grouped x tr n) :
    smooth hm hl x y tr n = some (loess hl x (medians hm x y tr n) tr n) := by
  obtain ⟨out, e, hlen, h⟩ := smooth_eq h0 hl y hg
  rw [e]
  congr 1
  refine List.ext_getElem? (fun i => ?_)
  by_cases hi : i < n
  · exact h i hi
  · rw [List.getElem?_eq_none (by omega), List.getElem?_eq_none (by simp [loess]; omega)]

theorem loess_congr_all {hl : Rat} {x : Nat → Rat} {tr : Nat → Nat} {n : Nat} (hg : Grouped x tr n) {y y' : Nat → Rat} (h : ∀ k, k < n → y k = y' k) :
    loess hl x y tr n = loess hl x y' tr n := by
  refine List.ext_getElem? (fun i => ?_)
  by_cases hi : i < n
  · exact loess_congr hg hi (fun k hk _ => h k hk)
  · rw [List.getElem?_eq_none (by simp [loess]; omega), List.getElem?_eq_none (by simp [loess]; omega)]

theorem medians_same {hw hw' : Rat} {x x' : Nat → Rat} {tr tr' : Nat → Nat} (h : SameWindows hw hw' x x' tr tr') (h0 : 0 ≤ hw) (a b : Rat) (y : Nat → Rat)
    {n i : Nat} (hi : i < n) : medians hw' x' (fun j => a * y j + b) tr' n i = a * medians hw x y tr n i + b := by
  have e : windowValues hw' x' (fun j => a * y j + b) tr' n i = (windowValues hw x y tr n i).map (fun v => a * v + b) := by
    unfold windowValues
    rw [List.map_map]
    simp only [InWindow, ← not_lt, h.gt, h.track]
    rfl
  obtain ⟨v, hv, _⟩ := median_between _ (windowValues_ne h0 x y tr hi)
  rw [medians, medians, e, median_affine, hv]
  rfl

theorem grouped_units {x : Nat → Rat} {tr : Nat → Nat} {n : Nat} (hg : Grouped x tr n) {k : Rat} (hk : 0 < k) (c : Rat) {f : Nat → Nat}
    (hf : ∀ p q, f p = f q → p = q) : Grouped (fun i => k * x i + c) (fun i => f (tr i)) n :=
  ⟨fun i j l h1 h2 h3 e => congrArg f (hg.contig i j l h1 h2 h3 (hf _ _ e)),
    fun i j h1 h2 e => by have := mul_le_mul_of_nonneg_left (hg.mono i j h1 h2 (hf _ _ e)) hk.le; exact add_le_add_left this c⟩

theorem smooth_units {k : Rat} (hk : 0 < k) (c a b : Rat) {hm hl : Rat} (h0 : 0 ≤ hm) (h1 : 0 < hl) {x : Nat → Rat} (y : Nat → Rat) {f : Nat → Nat}
    (hf : ∀ p q, f p = f q → p = q) {tr : Nat → Nat} {n : Nat} (hg : Grouped x tr n) :
    smooth (k * hm) (k * hl) (fun i => k * x i + c) (fun i => a * y i + b) (fun i => f (tr i)) n =
      (smooth hm hl x y tr n).map (List.map (fun v => a * v + b)) := by
  have hg' := grouped_units hg hk c hf
  rw [smooth_loess h0 hl y hg, smooth_loess (mul_nonneg hk.le h0) _ _ hg', Option.map_some, ← loess_units hk c a b h1 x _ hf tr n,
    loess_congr_all hg' (fun j hj => medians_same (sameWindows hk c hm x hf tr) h0 a b y hj)]

theorem smooth_reversed {hm : Rat} (h0 : 0 ≤ hm) (hl : Rat) {x : Nat → Rat} (y : Nat → Rat) {tr : Nat → Nat} {n : Nat} (hg : Grouped x tr n) :
    smooth hm hl (rev n (fun j => -x j)) (rev n y) (rev n tr) n = (smooth hm hl x y tr n).map List.reverse := by
  rw [smooth_loess h0 hl y hg, smooth_loess h0 hl _ (grouped_rev hg), Option.map_some, ← loess_reversed]
  congr 2
  funext i
  show (median _).getD 0 = (median _).getD 0
  rw [median_perm (window_rev hm x y tr n i)]

/-- **C222** (positions, units): `position_filter` with times in another unit and from another origin, from another meridian or in the mirror, with other numbers
of tracks. -/
theorem position_units {k : Rat} (hk : 0 < k) (c a b a' b' : Rat) {hm hl : Rat} (h0 : 0 ≤ hm) (h1 : 0 < hl) {time : Nat → Rat} (lon lat : Nat → Rat)
    {f : Nat → Nat} (hf : ∀ p q, f p = f q → p = q) {tr : Nat → Nat} {n : Nat} (hg : Grouped time tr n) :
    positionFilter (k * hm) (k * hl) (fun i => k * time i + c) (fun i => a * lon i + b) (fun i => a' * lat i + b') (fun i => f (tr i)) n =
      (positionFilter hm hl time lon lat tr n).map (fun r => (r.1.map (fun v => a * v + b), r.2.map (fun v => a' * v + b'))) := by
  unfold positionFilter
  rw [smooth_units hk c a b h0 h1 lon hf hg, smooth_units hk c a' b' h0 h1 lat hf hg]
  cases smooth hm hl time lon tr n with
  | none => rfl
  | some p => cases smooth hm hl time lat tr n <;> rfl

/-- **C222** (positions, reversed time): `position_filter` of the rows from the last to the first gives the same positions. -/
theorem position_reversed {hm : Rat} (h0 : 0 ≤ hm) (hl : Rat) {time : Nat → Rat} (lon lat : Nat → Rat) {tr : Nat → Nat} {n : Nat} (hg : Grouped time tr n) :
    positionFilter hm hl (rev n (fun j => -time j)) (rev n lon) (rev n lat) (rev n tr) n =
      (positionFilter hm hl time lon lat tr n).map (fun r => (r.1.reverse, r.2.reverse)) := by
  unfold positionFilter
  rw [smooth_reversed h0 hl lon hg, smooth_reversed h0 hl lat hg]
  cases smooth hm hl time lon tr n with
  | none => rfl
  | some p => cases smooth hm hl time lat tr n <;> rfl

/-- **C222** (networks): the same for `position_filter` of a network whose segments are in order. -/
theorem network_units {k : Rat} (hk : 0 < k) (c a b a' b' : Rat) {hm hl : Rat} (h0 : 0 ≤ hm) (h1 : 0 < hl) {time : Nat → Rat} (lon lat : Nat → Rat)
    {obs : List Segments.Obs} (ht : Tidy obs time) :
    networkFilter (k * hm) (k * hl) (fun i => k * time i + c) (fun i => a * lon i + b) (fun i => a' * lat i + b') obs =
      (networkFilter hm hl time lon lat obs).map (fun r => (r.1.map (fun v => a * v + b), r.2.map (fun v => a' * v + b'))) := by
  by_cases hne : obs = []
  · subst hne
    unfold networkFilter
    cases Segments.segTrackArray [] with
    | none => rfl
    | some sta => rfl
  · obtain ⟨sta, hsta, hn⟩ := Segments.segTrackArray_spec obs hne
    unfold networkFilter
    simp only [hsta, Option.bind_eq_bind, Option.bind_some]
    exact position_units hk c a b a' b' h0 h1 lon lat (f := id) (fun _ _ h => h) (grouped_of_tidy ht hn)

/-- In hours, in another origin, with values of the other sign and other numbers of tracks. -/
example : Grouped exX exT 7 ∧ (0 : Rat) < 24 ∧ (0 : Rat) < 2 ∧ (∀ p q : Nat, p + 5 = q + 5 → p = q) ∧
    medianFilter 2 exX exY exT 7 = some [some 3, some 5, some 2, some (11 / 2), some (7 / 2), some 4, some 2] ∧
    medianFilter (24 * 2) (fun i => 24 * exX i + 7) (fun i => -2 * exY i + 1) (fun i => exT i + 5) 7 =
      some [some (-5), some (-9), some (-3), some (-10), some (-6), some (-7), some (-3)] := by
  refine ⟨exGrouped, by norm_num, by norm_num, fun p q h => by omega, ?_, ?_⟩ <;> decide +kernel

example : loess 2 exX exY exT 7 = [2903 / 855, 1, 5294 / 855, 4111 / 855, 7, 0, 2048 / 855] ∧
    loess 2 (rev 7 (fun j => -exX j)) (rev 7 exY) (rev 7 exT) 7 = [2048 / 855, 0, 7, 4111 / 855, 5294 / 855, 1, 2903 / 855] ∧
    loess (24 * 2) (fun i => 24 * exX i + 7) (fun i => -2 * exY i + 1) (fun i => exT i + 5) 7 =
      [-4951 / 855, -1, -9733 / 855, -7367 / 855, -13, 1, -3241 / 855] := by decide +kernel

end Verif.Smooth
