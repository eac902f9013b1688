import Mathlib.Algebra.Order.Ring.Rat
import Mathlib.Tactic.Linarith
import Mathlib.Tactic.Ring

/-!
# C83: counts and sums which restart

Model of `count_consecutive` and `cumsum_by_track` (src/py_eddy_tracker/generic.py) and their properties. Values are exact rationals.
-/

namespace Verif.Runs

/-! ### Model -/

/-- Loop of `count_consecutive` (generic.py:40-45). -/
def countLoop : Nat → List Bool → List Nat
  | _, [] => []
  | c, b :: l => if b then (c + 1) :: countLoop (c + 1) l else 0 :: countLoop 0 l

/-- `count_consecutive` (generic.py:30-46). -/
def countConsecutive (mask : List Bool) : List Nat := countLoop 0 mask

/-- Loop of `cumsum_by_track` (generic.py:173-179): `tr_previous`, `d_cum`. -/
def cumLoop : Int → Rat → List (Rat × Int) → List Rat
  | _, _, [] => []
  | prev, d, (x, t) :: l =>
    let d' := (if t ≠ prev then 0 else d) + x
    d' :: cumLoop t d' l

/-- `cumsum_by_track` (generic.py:161-180). -/
def cumsumByTrack (field : List Rat) (track : List Int) : List Rat := cumLoop 0 0 (field.zip track)

/-! ### Counts -/

theorem countLoop_spec : ∀ (l pre : List Bool) (c : Nat), c = (pre.takeWhile id).length → ∀ i : Nat, i < l.length →
    (countLoop c l)[i]? = some ((((l.take (i + 1)).reverse ++ pre).takeWhile id).length)
  | [], _, _, _, i, hi => by simp at hi
  | b :: l, pre, c, hc, i, hi => by
    cases b with
    | true =>
      have hc' : c + 1 = ((true :: pre).takeWhile id).length := by simp [hc]
      rw [countLoop, if_pos rfl]
      cases i with
      | zero => simp [hc]
      | succ i =>
        have := countLoop_spec l (true :: pre) (c + 1) hc' i (by simpa using hi)
        rw [List.getElem?_cons_succ, this]
        simp
    | false =>
      have hc' : 0 = ((false :: pre).takeWhile id).length := by simp
      rw [countLoop, if_neg (by simp)]
      cases i with
      | zero => simp
      | succ i =>
        have := countLoop_spec l (false :: pre) 0 hc' i (by simpa using hi)
        rw [List.getElem?_cons_succ, this]
        simp

/-- **C83** (counts): each value is the number of consecutive true flags which end there. -/
theorem count_consecutive_spec (mask : List Bool) (i : Nat) (hi : i < mask.length) :
    (countConsecutive mask)[i]? = some (((mask.take (i + 1)).reverse.takeWhile id).length) := by
  have := countLoop_spec mask [] 0 rfl i hi
  rwa [List.append_nil] at this

/-! ### Sums -/

/-- Sum over the rows at the start of the list with this track. -/
def headSum (t : Int) (l : List (Rat × Int)) : Rat := ((l.takeWhile (fun p => decide (p.2 = t))).map (·.1)).sum

theorem headSum_cons (x : Rat) (t : Int) (l : List (Rat × Int)) : headSum t ((x, t) :: l) = x + headSum t l := by
  unfold headSum
  simp

theorem headSum_other {t prev : Int} (h : t ≠ prev) {l : List (Rat × Int)} (hl : ∀ p, l.head? = some p → p.2 = prev) : headSum t l = 0 := by
  cases l with
  | nil => rfl
  | cons p l =>
    have := hl p rfl
    unfold headSum
    rw [List.takeWhile_cons, if_neg]
    · rfl
    · simp only [decide_eq_true_eq]
      rw [this]
      exact fun e => h e.symm

theorem cumLoop_spec : ∀ (l pre : List (Rat × Int)) (prev : Int) (d : Rat), d = headSum prev pre → (∀ p, pre.head? = some p → p.2 = prev) →
    ∀ (i : Nat) (x : Rat) (t : Int), l[i]? = some (x, t) → (cumLoop prev d l)[i]? = some (headSum t ((l.take (i + 1)).reverse ++ pre))
  | [], _, _, _, _, _, i, _, _, hi => by simp at hi
  | (x, t) :: l, pre, prev, d, hd, hp, i, y, u, hi => by
    have hd' : (if t ≠ prev then 0 else d) + x = headSum t ((x, t) :: pre) := by
      rw [headSum_cons]
      by_cases h : t = prev
      · subst h
        rw [if_neg (by simp), hd]
        ring
      · rw [if_pos h, headSum_other h hp]
        ring
    rw [cumLoop]
    cases i with
    | zero =>
      simp only [List.getElem?_cons_zero, Option.some.injEq, Prod.mk.injEq] at hi
      obtain ⟨rfl, rfl⟩ := hi
      rw [List.getElem?_cons_zero, hd']
      simp
    | succ i =>
      rw [List.getElem?_cons_succ] at hi ⊢
      have := cumLoop_spec l ((x, t) :: pre) t _ hd' (by
        intro p hp'
        simp only [List.head?_cons, Option.some.injEq] at hp'
        rw [← hp']) i y u hi
      rw [this]
      simp

/-- **C83** (sums): each value is the sum of the field over the rows of the same track which end there without interruption. -/
theorem cumsum_run (field : List Rat) (track : List Int) (i : Nat) {x : Rat} {t : Int} (hi : (field.zip track)[i]? = some (x, t)) :
    (cumsumByTrack field track)[i]? = some (headSum t ((field.zip track).take (i + 1)).reverse) := by
  have := cumLoop_spec (field.zip track) [] 0 0 rfl (by simp) i x t hi
  rwa [List.append_nil] at this

theorem takeWhile_sorted {t : Int} : ∀ {l : List (Rat × Int)}, l.Pairwise (fun p q => q.2 ≤ p.2) → (∀ p ∈ l, p.2 ≤ t) →
    l.takeWhile (fun p => decide (p.2 = t)) = l.filter (fun p => decide (p.2 = t))
  | [], _, _ => rfl
  | p :: l, hs, hl => by
    rw [List.pairwise_cons] at hs
    by_cases h : p.2 = t
    · rw [List.takeWhile_cons, if_pos (by simpa using h), List.filter_cons, if_pos (by simpa using h),
        takeWhile_sorted hs.2 (fun q hq => hl q (by simp [hq]))]
    · rw [List.takeWhile_cons, if_neg (by simpa using h), List.filter_cons, if_neg (by simpa using h)]
      symm
      rw [List.filter_eq_nil_iff]
      intro q hq
      have h1 := hs.1 q hq
      have h2 := hl p (by simp)
      simp only [decide_eq_true_eq]
      omega

/-- **C83** (sorted tracks): each value is the sum of the field over all the rows of its track up to this row. -/
theorem cumsum_sorted (field : List Rat) (track : List Int) (hs : track.Pairwise (· ≤ ·)) (hl : field.length = track.length) (i : Nat) {t : Int}
    (hi : track[i]? = some t) :
    (cumsumByTrack field track)[i]? = some (((((field.zip track).take (i + 1)).filter (fun p => decide (p.2 = t))).map (·.1)).sum) := by
  have hlen := (List.getElem?_eq_some_iff.1 hi).1
  have hf : field[i]? = some (field[i]'(by omega)) := List.getElem?_eq_getElem (by omega)
  have hz : (field.zip track)[i]? = some (field[i]'(by omega), t) := by
    rw [List.getElem?_zip_eq_some]
    exact ⟨hf, hi⟩
  rw [cumsum_run field track i hz]
  have hsz : (field.zip track).Pairwise (fun p q => p.2 ≤ q.2) := by
    have e : (field.zip track).map (·.2) = track := List.map_snd_zip (by omega)
    have := hs
    rw [← e, List.pairwise_map] at this
    exact this
  have hst : ((field.zip track).take (i + 1)).Pairwise (fun p q => p.2 ≤ q.2) := hsz.sublist (List.take_sublist _ _)
  have hle : ∀ p ∈ ((field.zip track).take (i + 1)).reverse, p.2 ≤ t := by
    intro p hp
    rw [List.mem_reverse, List.mem_take_iff_getElem] at hp
    obtain ⟨j, hj, rfl⟩ := hp
    rcases Nat.lt_or_ge j i with h | h
    · have h2 := List.pairwise_iff_getElem.1 hsz j i (by omega) (by simp; omega) h
      rw [List.getElem?_eq_some_iff] at hz
      obtain ⟨_, hz⟩ := hz
      rw [hz] at h2
      exact h2
    · have : j = i := by omega
      subst this
      rw [List.getElem?_eq_some_iff] at hz
      obtain ⟨_, hz⟩ := hz
      rw [hz]
  unfold headSum
  rw [takeWhile_sorted (List.pairwise_reverse.2 hst) hle, List.filter_reverse, List.map_reverse, List.sum_reverse]

/-- Tracks which come back: the sum restarts. -/
example : cumsumByTrack [1, 2, 3, 4] [0, 0, 5, 0] = [1, 3, 3, 4] ∧ countConsecutive [true, true, false, true] = [1, 2, 0, 1] := by
  decide +kernel

example : ([0, 0, 5, 7] : List Int).Pairwise (· ≤ ·) := by decide

end Verif.Runs
