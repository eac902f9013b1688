import Verif.Stats.Props

/-!
# C211: statistics by bins of datasets put together, in another order, with finer bins

`hist` and `bins_stat` (src/py_eddy_tracker/observations/observation.py:285-306, 2051-2076; generic.py:96-98), on the model of C122.
-/

namespace Verif.Stats

open Verif.Boxes (binNumber InCell Inside)
open Verif.Poly (minR maxR)

/-! ### Order of the rows -/

theorem histo_perm (bins : List Rat) {o o' : List (Rat × Rat)} (h : o.Perm o') (a : Nat) : histo bins o a = histo bins o' a := by
  unfold histo
  exact ((h.filter _).map _).sum_eq

theorem counts_perm (bins : List Rat) {o o' : List (Rat × Rat)} (h : o.Perm o') : counts bins o = counts bins o' := by
  unfold counts
  exact List.map_congr_left (fun a _ => histo_perm bins (h.map _) a)

theorem sums_perm (bins : List Rat) {o o' : List (Rat × Rat)} (h : o.Perm o') : sums bins o = sums bins o' := by
  unfold sums
  exact List.map_congr_left (fun a _ => histo_perm bins h a)

/-- **C211** `hist` does not depend on the order of the rows. -/
theorem hist_perm (bins : List Rat) {o o' : List (Rat × Rat)} (h : o.Perm o') (percent mean nb : Bool) :
    hist bins o percent mean nb = hist bins o' percent mean nb := by
  unfold hist
  rw [counts_perm bins h, sums_perm bins h]

theorem minR_perm {l l' : List Rat} (h : l.Perm l') (hne : l ≠ []) : minR l = minR l' := by
  have hne' : l' ≠ [] := fun e => hne (by rw [e] at h; exact h.eq_nil)
  obtain ⟨a1, a2⟩ := Poly.minR_spec hne
  obtain ⟨b1, b2⟩ := Poly.minR_spec hne'
  exact le_antisymm (a2 _ (h.mem_iff.2 b1)) (b2 _ (h.mem_iff.1 a1))

theorem maxR_perm {l l' : List Rat} (h : l.Perm l') (hne : l ≠ []) : maxR l = maxR l' := by
  have hne' : l' ≠ [] := fun e => hne (by rw [e] at h; exact h.eq_nil)
  obtain ⟨a1, a2⟩ := Poly.maxR_spec hne
  obtain ⟨b1, b2⟩ := Poly.maxR_spec hne'
  exact le_antisymm (b2 _ (h.mem_iff.1 a1)) (a2 _ (h.mem_iff.2 b1))

/-- **C211** `bins_stat` depends only on the rows which are selected, in any order, also for the bins by default. -/
theorem bins_stat_perm (bins : Option (List Rat)) {o o' : List (Rat × Rat)} {m m' : List Bool} (h : (Py.select m o).Perm (Py.select m' o')) (mean : Bool) :
    binsStat bins o m mean = binsStat bins o' m' mean := by
  have hb : (match bins with
      | some b => some b
      | none => if Py.select m o = [] then none else some (unitBins (minR ((Py.select m o).map Prod.fst)) (maxR ((Py.select m o).map Prod.fst)))) =
      (match bins with
      | some b => some b
      | none => if Py.select m' o' = [] then none else some (unitBins (minR ((Py.select m' o').map Prod.fst)) (maxR ((Py.select m' o').map Prod.fst)))) := by
    cases bins with
    | some b => rfl
    | none =>
      simp only
      by_cases he : Py.select m o = []
      · have he' : Py.select m' o' = [] := by rw [he] at h; exact h.symm.eq_nil
        rw [if_pos he, if_pos he']
      · have he' : Py.select m' o' ≠ [] := fun e => he (by rw [e] at h; exact h.eq_nil)
        rw [if_neg he, if_neg he', minR_perm (h.map _) (by simpa using he), maxR_perm (h.map _) (by simpa using he)]
  unfold binsStat
  simp only
  congr 1
  funext b
  rw [counts_perm b h, sums_perm b h]

/-! ### Datasets put together -/

theorem histo_append (bins : List Rat) (o o' : List (Rat × Rat)) (a : Nat) : histo bins (o ++ o') a = histo bins o a + histo bins o' a := by
  unfold histo
  rw [List.filter_append, List.map_append, List.sum_append]

theorem zip_same {f g : Nat → Rat} : ∀ l : List Nat, l.map (fun a => f a + g a) = List.zipWith (· + ·) (l.map f) (l.map g)
  | [] => rfl
  | a :: l => by rw [List.map_cons, List.map_cons, List.map_cons, List.zipWith_cons_cons, zip_same l]

/-- **C211** the numbers and the sums of two datasets put together are the sums of both. -/
theorem hist_append (bins : List Rat) (o o' : List (Rat × Rat)) : counts bins (o ++ o') = List.zipWith (· + ·) (counts bins o) (counts bins o') ∧
    sums bins (o ++ o') = List.zipWith (· + ·) (sums bins o) (sums bins o') ∧
    ∀ nb, ∃ v v', hist bins o false false nb = some (v.map some) ∧ hist bins o' false false nb = some (v'.map some) ∧
      hist bins (o ++ o') false false nb = some ((List.zipWith (· + ·) v v').map some) := by
  have hc : counts bins (o ++ o') = List.zipWith (· + ·) (counts bins o) (counts bins o') := by
    unfold counts
    rw [← zip_same]
    exact List.map_congr_left (fun a _ => by rw [List.map_append, histo_append])
  have hs : sums bins (o ++ o') = List.zipWith (· + ·) (sums bins o) (sums bins o') := by
    unfold sums
    rw [← zip_same]
    exact List.map_congr_left (fun a _ => histo_append bins o o' a)
  refine ⟨hc, hs, fun nb => ?_⟩
  cases nb
  · exact ⟨sums bins o, sums bins o', rfl, rfl, by simp only [hist, Bool.false_eq_true, if_false, hs]⟩
  · exact ⟨counts bins o, counts bins o', rfl, rfl, by simp only [hist, Bool.false_eq_true, if_false, if_true, hc]⟩

/-- The number of rows of a bin. -/
theorem count_eq (bins : List Rat) (o : List (Rat × Rat)) (a : Nat) :
    histo bins (o.map (fun o => (o.1, 1))) a = (o.filter (fun o => decide (binNumber bins o.1 = a + 1))).length := by
  unfold histo
  induction o with
  | nil => simp
  | cons x o ih =>
    rw [List.map_cons, List.filter_cons, List.filter_cons]
    by_cases h : binNumber bins x.1 = a + 1
    · simp only [h, decide_true, if_true, List.map_cons, List.sum_cons, List.length_cons, ih]
      push_cast
      ring
    · simp only [h, decide_false, Bool.false_eq_true, if_false, ih]

theorem mean_get (bins : List Rat) (o : List (Rat × Rat)) {h : List (Option Rat)} (hh : hist bins o false true false = some h) {a : Nat}
    (ha : a < bins.length - 1) : h[a]? = some (if histo bins (o.map (fun o => (o.1, 1))) a = 0 then none
      else some (histo bins o a / histo bins (o.map (fun o => (o.1, 1))) a)) := by
  simp only [hist, Bool.false_eq_true, if_false, if_true, Option.some.injEq] at hh
  subst hh
  unfold sums counts
  rw [List.getElem?_zipWith, List.getElem?_map, List.getElem?_map, List.getElem?_range ha]
  rfl

/-- **C211** the mean of a bin of two datasets put together is the mean of both weighted by the numbers of rows; it is nan exactly when both are. -/
theorem hist_mean_append (bins : List Rat) (o o' : List (Rat × Rat)) {h h' H : List (Option Rat)} (e : hist bins o false true false = some h)
    (e' : hist bins o' false true false = some h') (E : hist bins (o ++ o') false true false = some H) {a : Nat} (ha : a < bins.length - 1) :
    ∃ n n' : Nat, (counts bins o)[a]? = some (n : Rat) ∧ (counts bins o')[a]? = some (n' : Rat) ∧
      ((n = 0 ∧ h[a]? = some none ∧ H[a]? = h'[a]?) ∨ (n' = 0 ∧ h'[a]? = some none ∧ H[a]? = h[a]?) ∨
        ∃ m m', h[a]? = some (some m) ∧ h'[a]? = some (some m') ∧ 0 < n ∧ 0 < n' ∧ H[a]? = some (some ((n * m + n' * m') / (n + n')))) := by
  have g := mean_get bins o e ha
  have g' := mean_get bins o' e' ha
  have G := mean_get bins (o ++ o') E ha
  rw [List.map_append, histo_append, histo_append] at G
  have c : ∀ x : List (Rat × Rat), (counts bins x)[a]? = some (histo bins (x.map (fun o => (o.1, 1))) a) := by
    intro x
    unfold counts
    rw [List.getElem?_map, List.getElem?_range ha]
    rfl
  have n0 : histo bins (o.map (fun o => (o.1, 1))) a = 0 → histo bins o a = 0 := by
    rw [count_eq]
    intro hz
    unfold histo
    rw [Nat.cast_eq_zero, List.length_eq_zero_iff] at hz
    rw [hz]
    rfl
  have n0' : histo bins (o'.map (fun o => (o.1, 1))) a = 0 → histo bins o' a = 0 := by
    rw [count_eq]
    intro hz
    unfold histo
    rw [Nat.cast_eq_zero, List.length_eq_zero_iff] at hz
    rw [hz]
    rfl
  refine ⟨_, _, (c o).trans (congrArg some (count_eq bins o a)), (c o').trans (congrArg some (count_eq bins o' a)), ?_⟩
  have k := count_eq bins o a
  have k' := count_eq bins o' a
  rw [k] at g G n0
  rw [k'] at g' G n0'
  generalize (o.filter (fun o => decide (binNumber bins o.1 = a + 1))).length = n at g G n0 k ⊢
  generalize (o'.filter (fun o => decide (binNumber bins o.1 = a + 1))).length = n' at g' G n0' k' ⊢
  rcases Nat.eq_zero_or_pos n with hn | hn
  · left
    subst hn
    rw [n0 (by simp)] at G
    refine ⟨rfl, by rw [g, if_pos (by simp)], ?_⟩
    rw [G, g']
    simp
  · rcases Nat.eq_zero_or_pos n' with hn' | hn'
    · right; left
      subst hn'
      rw [n0' (by simp)] at G
      refine ⟨rfl, by rw [g', if_pos (by simp)], ?_⟩
      rw [G, g]
      simp
    · right; right
      have p : (0 : Rat) < n := by exact_mod_cast hn
      have p' : (0 : Rat) < n' := by exact_mod_cast hn'
      rw [if_neg p.ne'] at g
      rw [if_neg p'.ne'] at g'
      rw [if_neg (add_pos p p').ne'] at G
      refine ⟨_, _, g, g', hn, hn', ?_⟩
      rw [G, mul_div_cancel₀ _ p.ne', mul_div_cancel₀ _ p'.ne']

/-! ### Units of the variable -/

/-- **C211** the sums of a variable in another unit. -/
theorem sums_scale (bins : List Rat) (o : List (Rat × Rat)) (c : Rat) : sums bins (o.map (fun p => (p.1, c * p.2))) = (sums bins o).map (c * ·) := by
  unfold sums
  rw [List.map_map]
  refine List.map_congr_left (fun a _ => ?_)
  simp only [Function.comp, histo]
  induction o with
  | nil => simp
  | cons x o ih =>
    rw [List.map_cons, List.filter_cons, List.filter_cons]
    by_cases h : binNumber bins x.1 = a + 1
    · simp only [h, decide_true, if_true, List.map_cons, List.sum_cons, ih]
      ring
    · simp only [h, decide_false, Bool.false_eq_true, if_false, ih]

/-! ### Finer bins -/

theorem fine_number {l r : List Rat} {e : Rat} (hr : r ≠ []) (hs : (l ++ e :: r).Pairwise (· < ·)) (v : Rat) :
    binNumber (l ++ e :: r) v = binNumber (l ++ r) v + (if e ≤ v then 1 else 0) ∧ (e ≤ v ↔ l.length < binNumber (l ++ e :: r) v) := by
  have hlast : (l ++ e :: r).getLast? = (l ++ r).getLast? := by
    obtain ⟨b, r', rfl⟩ := List.exists_cons_of_ne_nil hr
    rw [List.getLast?_append, List.getLast?_append, List.getLast?_cons_cons]
  have hc : (l ++ e :: r).countP (fun e => decide (e ≤ v)) = (l ++ r).countP (fun e => decide (e ≤ v)) + (if e ≤ v then 1 else 0) := by
    rw [List.countP_append, List.countP_append, List.countP_cons]
    simp only [decide_eq_true_eq]
    omega
  have hk := Bins.count_sorted hs (show (l ++ e :: r)[l.length]? = some e by simp) (v := v)
  have hend : (l ++ e :: r).getLast? = some v → (l ++ e :: r).countP (fun e => decide (e ≤ v)) = (l ++ e :: r).length ∧ e ≤ v := by
    intro h
    rw [List.getLast?_eq_getElem?] at h
    have := Bins.count_sorted hs h (v := v)
    have hle := List.countP_le_length (p := fun e => decide (e ≤ v)) (l := l ++ e :: r)
    have hlen : (l ++ e :: r).length = l.length + 1 + r.length := by simp; omega
    have hr' : 0 < r.length := List.length_pos_iff.2 hr
    have h1 : (l ++ e :: r).countP (fun e => decide (e ≤ v)) = (l ++ e :: r).length := by
      have := this.1 le_rfl
      omega
    exact ⟨h1, hk.2 (by omega)⟩
  have hr' : 0 < r.length := List.length_pos_iff.2 hr
  have hlen : (l ++ e :: r).length = l.length + 1 + r.length := by simp; omega
  unfold binNumber
  rw [← hlast]
  by_cases h : (l ++ e :: r).getLast? = some v
  · obtain ⟨h1, h2⟩ := hend h
    rw [if_pos h, h1]
    rw [h1, if_pos h2] at hc
    rw [if_pos h2]
    refine ⟨by omega, fun _ => by omega, fun _ => h2⟩
  · rw [if_neg h, Nat.sub_zero, Nat.sub_zero]
    exact ⟨hc, hk⟩

/-- **C211** an edge added between two others shares the bin in two, and changes no other bin: numbers and sums of any variable. -/
theorem bins_finer {l r : List Rat} {e : Rat} (hr : r ≠ []) (hs : (l ++ e :: r).Pairwise (· < ·)) (o : List (Rat × Rat)) (a : Nat) :
    histo (l ++ r) o a =
      (if a + 1 < l.length then histo (l ++ e :: r) o a
       else if a + 1 = l.length then histo (l ++ e :: r) o a + histo (l ++ e :: r) o (a + 1)
       else histo (l ++ e :: r) o (a + 1)) := by
  unfold histo
  induction o with
  | nil => simp
  | cons x o ih =>
    obtain ⟨h1, h2⟩ := fine_number hr hs x.1
    simp only [List.filter_cons, decide_eq_true_eq] at ih ⊢
    by_cases he : e ≤ x.1
    · rw [if_pos he] at h1
      have h3 := h2.1 he
      split_ifs at ih ⊢ <;> first | omega | (simp only [List.map_cons, List.sum_cons, ih]; try ring)
    · rw [if_neg he] at h1
      have h3 : ¬ l.length < binNumber (l ++ e :: r) x.1 := fun h => he (h2.2 h)
      split_ifs at ih ⊢ <;> first | omega | (simp only [List.map_cons, List.sum_cons, ih]; try ring)

/-- Two datasets with four bins, one of which is shared in two. -/
example : counts [0, 1, 2] [(0, 5), (1 / 2, 7), (2, 1)] = [2, 1] ∧ counts [0, 1 / 4, 1, 2] [(0, 5), (1 / 2, 7), (2, 1)] = [1, 1, 1] ∧
    sums [0, 1, 2] [(0, 5), (1 / 2, 7), (2, 1)] = [12, 1] ∧ sums [0, 1 / 4, 1, 2] [(0, 5), (1 / 2, 7), (2, 1)] = [5, 7, 1] := by decide +kernel

end Verif.Stats
