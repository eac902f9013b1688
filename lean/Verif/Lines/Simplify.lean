import Verif.Lines.Model

/-!
# C42: simplify
-/

namespace Verif.Lines

open Poly

/-- Square of the distance. -/
def dist2 (a b : Pt) : Rat := (b.1 - a.1) ^ 2 + (b.2 - a.2) ^ 2

/-- `q` is the last kept point before the position `k`. -/
def LastKept (mask : List Bool) (l : List (Option Pt)) (k : Nat) (q : Pt) : Prop :=
  ∃ k', k' < k ∧ mask[k']? = some true ∧ l[k']? = some (some q) ∧
    ∀ (m : Nat) (p : Pt), k' < m → m < k → l[m]? = some (some p) → mask[m]? = some false

theorem far_iff {precision : Rat} (h : 0 ≤ precision) (a b : Pt) : far precision a b = true ↔ precision ^ 2 < dist2 a b := by
  unfold far dist2
  have sq : ∀ d : Rat, precision < d → precision ^ 2 < d ^ 2 := fun d hd => by
    nlinarith
  split
  · rename_i h1
    have := sq _ h1
    simp only [true_iff]
    nlinarith [sq_nonneg (b.2 - a.2)]
  · split
    · rename_i _ h1
      have := sq _ h1
      simp only [true_iff]
      nlinarith [sq_nonneg (b.1 - a.1)]
    · simp

theorem maskLoop_length (precision : Rat) : ∀ (l : List (Option Pt)) (prev : Pt) (b : Bool),
    (maskLoop precision prev b l).length = l.length
  | [], _, _ => rfl
  | none :: l, prev, b => by rw [maskLoop, List.length_cons, maskLoop_length precision l]; rfl
  | some p :: l, prev, b => by
    rw [maskLoop]
    split <;> rw [List.length_cons, maskLoop_length precision l] <;> rfl

/-- Points: the reference is `prev` until a point is kept. -/
theorem maskLoop_points (precision : Rat) : ∀ (l : List (Option Pt)) (prev : Pt) (b : Bool) (k : Nat) (p : Pt),
    l[k]? = some (some p) → ∃ q, (maskLoop precision prev b l)[k]? = some (far precision q p) ∧
      (LastKept (maskLoop precision prev b l) l k q ∨
        (q = prev ∧ ∀ (m : Nat) (r : Pt), m < k → l[m]? = some (some r) → (maskLoop precision prev b l)[m]? = some false))
  | [], _, _, k, p, h => by simp at h
  | none :: l, prev, b, 0, p, h => by simp at h
  | none :: l, prev, b, k + 1, p, h => by
    rw [List.getElem?_cons_succ] at h
    obtain ⟨q, h1, h2⟩ := maskLoop_points precision l prev true k p h
    rw [maskLoop]
    refine ⟨q, by rw [List.getElem?_cons_succ]; exact h1, ?_⟩
    rcases h2 with ⟨k', a1, a2, a3, a4⟩ | ⟨rfl, a2⟩
    · left
      refine ⟨k' + 1, by omega, by simpa using a2, by simpa using a3, ?_⟩
      intro m r hm1 hm2 hr
      obtain ⟨m, rfl⟩ := Nat.exists_eq_succ_of_ne_zero (by omega : m ≠ 0)
      simp only [Nat.succ_eq_add_one, List.getElem?_cons_succ] at hr ⊢
      exact a4 m r (by omega) (by omega) hr
    · right
      refine ⟨rfl, ?_⟩
      intro m r hm hr
      cases m with
      | zero => simp at hr
      | succ m =>
        simp only [List.getElem?_cons_succ] at hr ⊢
        exact a2 m r (by omega) hr
  | some a :: l, prev, b, 0, p, h => by
    simp only [List.getElem?_cons_zero, Option.some.injEq] at h
    subst h
    refine ⟨prev, ?_, Or.inr ⟨rfl, fun m _ hm => by omega⟩⟩
    rw [maskLoop]
    split
    · rename_i hf; simp [hf]
    · rename_i hf; simp [hf]
  | some a :: l, prev, b, k + 1, p, h => by
    rw [List.getElem?_cons_succ] at h
    rw [maskLoop]
    by_cases hf : far precision prev a = true
    · rw [if_pos hf]
      obtain ⟨q, h1, h2⟩ := maskLoop_points precision l a false k p h
      refine ⟨q, by rw [List.getElem?_cons_succ]; exact h1, Or.inl ?_⟩
      rcases h2 with ⟨k', a1, a2, a3, a4⟩ | ⟨rfl, a2⟩
      · refine ⟨k' + 1, by omega, by simpa using a2, by simpa using a3, ?_⟩
        intro m r hm1 hm2 hr
        obtain ⟨m, rfl⟩ := Nat.exists_eq_succ_of_ne_zero (by omega : m ≠ 0)
        simp only [Nat.succ_eq_add_one, List.getElem?_cons_succ] at hr ⊢
        exact a4 m r (by omega) (by omega) hr
      · refine ⟨0, by omega, rfl, rfl, ?_⟩
        intro m r hm1 hm2 hr
        obtain ⟨m, rfl⟩ := Nat.exists_eq_succ_of_ne_zero (by omega : m ≠ 0)
        simp only [Nat.succ_eq_add_one, List.getElem?_cons_succ] at hr ⊢
        exact a2 m r (by omega) hr
    · rw [if_neg hf]
      obtain ⟨q, h1, h2⟩ := maskLoop_points precision l prev false k p h
      refine ⟨q, by rw [List.getElem?_cons_succ]; exact h1, ?_⟩
      rcases h2 with ⟨k', a1, a2, a3, a4⟩ | ⟨rfl, a2⟩
      · left
        refine ⟨k' + 1, by omega, by simpa using a2, by simpa using a3, ?_⟩
        intro m r hm1 hm2 hr
        obtain ⟨m, rfl⟩ := Nat.exists_eq_succ_of_ne_zero (by omega : m ≠ 0)
        simp only [Nat.succ_eq_add_one, List.getElem?_cons_succ] at hr ⊢
        exact a4 m r (by omega) (by omega) hr
      · right
        refine ⟨rfl, ?_⟩
        intro m r hm hr
        cases m with
        | zero => rfl
        | succ m =>
          simp only [List.getElem?_cons_succ] at hr ⊢
          exact a2 m r (by omega) hr

/-- nan: kept exactly when the element before is not nan. -/
theorem maskLoop_nan (precision : Rat) : ∀ (l : List (Option Pt)) (prev : Pt) (b : Bool) (k : Nat), l[k]? = some none →
    (maskLoop precision prev b l)[k]? = some (match k with
      | 0 => !b
      | k + 1 => (l.getD k none).isSome)
  | [], _, _, k, h => by simp at h
  | none :: l, prev, b, 0, _ => rfl
  | some a :: l, prev, b, 0, h => by simp at h
  | none :: l, prev, b, k + 1, h => by
    rw [List.getElem?_cons_succ] at h
    have := maskLoop_nan precision l prev true k h
    rw [maskLoop, List.getElem?_cons_succ, this]
    cases k <;> simp
  | some a :: l, prev, b, k + 1, h => by
    rw [List.getElem?_cons_succ] at h
    rw [maskLoop]
    split
    · have := maskLoop_nan precision l a false k h
      rw [List.getElem?_cons_succ, this]
      cases k <;> simp
    · have := maskLoop_nan precision l prev false k h
      rw [List.getElem?_cons_succ, this]
      cases k <;> simp

/-- What `simplify` is meant to select, with the first point without nan at the position `j`. -/
structure Simplified (precision : Rat) (l : List (Option Pt)) (j : Nat) (mask : List Bool) : Prop where
  length : mask.length = l.length
  /-- nothing is kept before the first point, which is kept -/
  before : ∀ k, k < j → mask[k]? = some false
  first : mask[j]? = some true
  /-- every other point is kept exactly when it is farther than the precision from the last kept point -/
  point : ∀ (k : Nat) (p : Pt), j < k → l[k]? = some (some p) →
    ∃ q, LastKept mask l k q ∧ mask[k]? = some (decide (precision ^ 2 < dist2 q p))
  /-- a nan is kept exactly when the element before it is not nan -/
  nan : ∀ k, j < k → l[k]? = some none → mask[k]? = some (l.getD (k - 1) none).isSome

/-- **C42** (selection): when the first point without nan is not the last element, the kept points are exactly those farther than
the precision from the last kept point. Missing for the whole property: the reference is not reset at a nan, so that a line can
vanish (`simplify_line_vanishes`), and a single point at the end is lost (`simplify_last_only`). -/
theorem simplify_partial {precision : Rat} (hp : 0 ≤ precision) {l : List (Option Pt)} {j : Nat} {p : Pt}
    (hj : l[j]? = some (some p)) (hfirst : ∀ k, k < j → l[k]? = some none) (hlast : j + 1 < l.length) :
    ∃ mask, simplify precision l = some (Py.select mask l) ∧ Simplified precision l j mask := by
  have hjl : j < l.length := by omega
  have hfi : l.findIdx Option.isSome = j := by
    rw [List.findIdx_eq hjl]
    have hgj : l[j] = some p := by
      rw [List.getElem?_eq_getElem hjl] at hj
      exact Option.some.inj hj
    refine ⟨by rw [hgj]; rfl, fun k hk => ?_⟩
    have := hfirst k hk
    rw [List.getElem?_eq_getElem (by omega)] at this
    rw [Option.some.inj this]; rfl
  have hfv : firstValid l = j := by unfold firstValid; rw [hfi]; omega
  have hdrop : l.drop j = some p :: l.drop (j + 1) := by
    rw [← List.cons_getElem_drop_succ (h := hjl)]
    congr 1
    rw [List.getElem?_eq_getElem hjl] at hj
    exact Option.some.inj hj
  have hm : simplifyMask precision l = some (List.replicate j false ++ true :: maskLoop precision p false (l.drop (j + 1))) := by
    unfold simplifyMask
    rw [if_neg (by omega), hfv, if_neg (by omega), hdrop]
  refine ⟨_, by unfold simplify; rw [hm]; rfl, ?_⟩
  have hget : ∀ k, (List.replicate j false ++ true :: maskLoop precision p false (l.drop (j + 1)))[j + 1 + k]? =
      (maskLoop precision p false (l.drop (j + 1)))[k]? := by
    intro k
    rw [List.getElem?_append_right (by simp; omega), List.length_replicate, show j + 1 + k - j = k + 1 by omega]
    simp
  have hgl : ∀ k, l[j + 1 + k]? = (l.drop (j + 1))[k]? := fun k => by rw [List.getElem?_drop]
  have hat : (List.replicate j false ++ true :: maskLoop precision p false (l.drop (j + 1)))[j]? = some true := by
    rw [List.getElem?_append_right (by simp)]; simp
  refine ⟨?_, ?_, hat, ?_, ?_⟩
  · simp only [List.length_append, List.length_replicate, List.length_cons, maskLoop_length, List.length_drop]; omega
  · intro k hk
    rw [List.getElem?_append_left (by simpa using hk), List.getElem?_replicate_of_lt hk]
  · intro k r hk hr
    obtain ⟨k, rfl⟩ : ∃ m, k = j + 1 + m := ⟨k - (j + 1), by omega⟩
    rw [hgl] at hr
    obtain ⟨q, h1, h2⟩ := maskLoop_points precision _ p false k r hr
    have hdec : far precision q r = decide (precision ^ 2 < dist2 q r) := by
      rw [Bool.eq_iff_iff, far_iff hp]; simp
    refine ⟨q, ?_, by rw [hget, h1, hdec]⟩
    rcases h2 with ⟨k', a1, a2, a3, a4⟩ | ⟨rfl, a2⟩
    · refine ⟨j + 1 + k', by omega, by rw [hget]; exact a2, by rw [hgl]; exact a3, ?_⟩
      intro m s hm1 hm2 hs
      obtain ⟨m, rfl⟩ : ∃ m', m = j + 1 + m' := ⟨m - (j + 1), by omega⟩
      rw [hget]; rw [hgl] at hs
      exact a4 m s (by omega) (by omega) hs
    · refine ⟨j, by omega, hat, hj, ?_⟩
      intro m s hm1 hm2 hs
      obtain ⟨m, rfl⟩ : ∃ m', m = j + 1 + m' := ⟨m - (j + 1), by omega⟩
      rw [hget]; rw [hgl] at hs
      exact a2 m s (by omega) hs
  · intro k hk hn
    obtain ⟨k, rfl⟩ : ∃ m, k = j + 1 + m := ⟨k - (j + 1), by omega⟩
    rw [hgl] at hn
    rw [hget, maskLoop_nan precision _ p false k hn]
    cases k with
    | zero =>
      rw [show j + 1 + 0 - 1 = j by omega, List.getD_eq_getElem?_getD, hj]; rfl
    | succ k =>
      rw [show j + 1 + (k + 1) - 1 = j + 1 + k by omega]
      show some ((l.drop (j + 1)).getD k none).isSome = _
      rw [List.getD_eq_getElem?_getD, List.getD_eq_getElem?_getD, hgl]

/-- **C42** (subsequence): the result is a subsequence of the input. -/
theorem simplify_sublist {precision : Rat} {l out : List (Option Pt)} (h : simplify precision l = some out) : out.Sublist l := by
  unfold simplify at h
  obtain ⟨m, _, rfl⟩ := Option.map_eq_some_iff.1 h
  unfold Py.select
  have : ∀ (m : List Bool) (l : List (Option Pt)),
      ((m.zip l).filterMap (fun p => if p.1 then some p.2 else none)).Sublist l := by
    intro m
    induction m with
    | nil => intro l; simp
    | cons b m ih =>
      intro l
      cases l with
      | nil => simp
      | cons a l =>
        cases b
        · simpa using (ih l).cons a
        · simpa using (ih l)
  exact this m l

/-- **C42** (consecutive points): two kept points without kept point between them are farther than the precision. -/
theorem Simplified.separated {precision : Rat} {l : List (Option Pt)} {j : Nat} {mask : List Bool}
    (h : Simplified precision l j mask) {k k' : Nat} {p q : Pt} (hk : j < k) (hp : l[k]? = some (some p)) (hmp : mask[k]? = some true)
    (hk' : k' < k) (hq : l[k']? = some (some q)) (hmq : mask[k']? = some true)
    (hbetween : ∀ (m : Nat) (r : Pt), k' < m → m < k → l[m]? = some (some r) → mask[m]? = some false) :
    precision ^ 2 < dist2 q p := by
  obtain ⟨q', ⟨k'', a1, a2, a3, a4⟩, h2⟩ := h.point k p hk hp
  have he : k' = k'' := by
    rcases Nat.lt_trichotomy k' k'' with hlt | heq | hgt
    · have := hbetween k'' q' hlt a1 a3
      rw [a2] at this; cases this
    · exact heq
    · have := a4 k' q hgt hk' hq
      rw [hmq] at this; cases this
  subst he
  rw [hq] at a3
  obtain rfl := Option.some.inj (Option.some.inj a3)
  rw [hmp] at h2
  exact of_decide_eq_true (Option.some.inj h2).symm

/-- **C42** (lines): a point farther than the precision from every earlier point is kept; in particular the first point of a line
which is far from the lines before. -/
theorem Simplified.kept_if_far {precision : Rat} {l : List (Option Pt)} {j : Nat} {mask : List Bool}
    (h : Simplified precision l j mask) {k : Nat} {p : Pt} (hk : j < k) (hp : l[k]? = some (some p))
    (hfar : ∀ (m : Nat) (q : Pt), m < k → l[m]? = some (some q) → precision ^ 2 < dist2 q p) : mask[k]? = some true := by
  obtain ⟨q, ⟨k', a1, _, a3, _⟩, h2⟩ := h.point k p hk hp
  rw [h2, decide_eq_true (hfar k' q a1 a3)]

/-- **Disagreement with C42**: when only the last element is a point, it is lost. -/
theorem simplify_last_only (precision : Rat) (n : Nat) (p : Pt) :
    simplify precision (List.replicate n none ++ [some p]) = some [] := by
  have hf : firstValid (List.replicate n none ++ [some p]) = n := by
    unfold firstValid
    have : (List.replicate n none ++ [some p]).findIdx Option.isSome = n := by
      rw [List.findIdx_append]
      have : (List.replicate n (none : Option Pt)).findIdx Option.isSome = n := by
        rw [List.findIdx_eq_length_of_false] <;> simp
      simp [this]
    rw [this]; simp
  unfold simplify simplifyMask
  rw [if_neg (by simp), hf, if_pos (by simp)]
  rw [Option.map_some]
  congr 1
  have : ∀ (k : Nat) (l : List (Option Pt)), Py.select (List.replicate k false) l = [] := by
    intro k
    induction k with
    | zero => intro l; rfl
    | succ k ih =>
      intro l
      cases l with
      | nil => rfl
      | cons a l =>
        have := ih l
        unfold Py.select at this ⊢
        simp [List.replicate_succ, this]
  exact this _ _

/-- **Disagreement with C42**: the second line vanishes, because its points are compared with the last point of the first line; two
nans in a row are left. -/
theorem simplify_line_vanishes :
    simplify (1 / 10) [some (0, 0), some (1, 0), none, some (1, 1 / 20), some (1, 1 / 30), none, some (5, 5)] =
      some [some (0, 0), some (1, 0), none, none, some (5, 5)] := by decide +kernel

example : simplify (1 / 10) [none, some (0, 0), some (1 / 20, 0), some (1 / 5, 0), none, none, some (3, 0)] =
    some [some (0, 0), some (1 / 5, 0), none, some (3, 0)] := by decide +kernel

end Verif.Lines
