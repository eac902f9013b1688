import Verif.Lines.Flat
import Verif.Poly.Indexs

/-!
# C40: wrap_longitude
-/

namespace Verif.Lines

/-- **C40** (without cut): the longitude is in `[ref, ref + 360)` and the same modulo 360. -/
theorem wrap_spec (ref x : Rat) : ref ≤ wrap ref x ∧ wrap ref x < ref + 360 ∧ ∃ n : Int, wrap ref x = x + 360 * n := by
  obtain ⟨h1, h2, k, hk⟩ := Py.fmod_spec (x - ref) (show (0 : Rat) < 360 by norm_num)
  unfold wrap
  exact ⟨by linarith, by linarith, k, by rw [hk]; ring⟩

/-- There is only one such longitude. -/
theorem wrap_unique {ref x z : Rat} (h1 : ref ≤ z) (h2 : z < ref + 360) {n : Int} (hn : z = x + 360 * n) : wrap ref x = z := by
  unfold wrap
  rw [Poly.fmod_unique (z := z - ref) (by linarith) (by linarith) (k := n) (by rw [hn]; ring)]
  ring

/-- **C40** (arrays, without cut): element by element, nan stays nan. -/
theorem wrap_all_spec (ref : Rat) (xs : List Val) : (wrapAll ref xs).length = xs.length ∧
    ∀ (k : Nat) (x : Val), xs[k]? = some x → (wrapAll ref xs)[k]? = some (x.map (wrap ref)) := by
  unfold wrapAll
  refine ⟨by simp, fun k x h => ?_⟩
  rw [List.getElem?_map, h]; rfl

/-- At a jump between contiguous longitudes the correction restores the difference. -/
theorem jump_spec {ref a b : Rat} (hd : |b - a| ≤ 360) :
    (isJump ref (some a) (some b) = true → (wrap ref b - cor (some a) (some b)) - wrap ref a = b - a) ∧
    (isJump ref (some a) (some b) = false → wrap ref b - wrap ref a = b - a) := by
  obtain ⟨a1, a2, n, hn⟩ := wrap_spec ref a
  obtain ⟨b1, b2, m, hm⟩ := wrap_spec ref b
  have hdiff : (b - a) - (wrap ref b - wrap ref a) = 360 * ((n - m : Int) : Rat) := by
    rw [hn, hm]; push_cast; ring
  have hcases : n - m = 0 ∨ 1 ≤ n - m ∨ n - m ≤ -1 := by omega
  obtain ⟨d1, d2⟩ := abs_le.1 hd
  constructor
  · intro hj
    have hj := of_decide_eq_true hj
    rcases hcases with h0 | h0 | h0
    · rw [hdiff, h0] at hj
      norm_num at hj
    · have h1 : (1 : Rat) ≤ ((n - m : Int) : Rat) := by exact_mod_cast h0
      -- b > a, the difference of turns is exactly one
      have hlt : ((n - m : Int) : Rat) < 2 := by
        by_contra hc
        have := not_lt.1 hc
        linarith
      have h2 : n - m < 2 := by exact_mod_cast hlt
      have h3 : n - m = 1 := by omega
      rw [h3] at hdiff
      push_cast at hdiff
      have hba : ¬ a > b := by
        intro hc
        linarith
      simp only [cor, if_neg hba]
      linarith
    · have h1 : ((n - m : Int) : Rat) ≤ -1 := by exact_mod_cast h0
      have hlt : (-2 : Rat) < ((n - m : Int) : Rat) := by
        by_contra hc
        have := not_lt.1 hc
        linarith
      have h2 : -2 < n - m := by exact_mod_cast hlt
      have h3 : n - m = -1 := by omega
      rw [h3] at hdiff
      push_cast at hdiff
      have hba : a > b := by linarith
      simp only [cor, if_pos hba]
      linarith
  · intro hj
    have hj : ¬ |(b - a) - (wrap ref b - wrap ref a)| > 1 / 100000 := of_decide_eq_false hj
    rcases hcases with h0 | h0 | h0
    · rw [h0] at hdiff
      push_cast at hdiff
      linarith
    · exfalso
      apply hj
      have h1 : (1 : Rat) ≤ ((n - m : Int) : Rat) := by exact_mod_cast h0
      rw [hdiff]
      have := le_abs_self (360 * ((n - m : Int) : Rat))
      linarith
    · exfalso
      apply hj
      have h1 : ((n - m : Int) : Rat) ≤ -1 := by exact_mod_cast h0
      rw [hdiff]
      have := neg_le_abs (360 * ((n - m : Int) : Rat))
      linarith

/-! ### The array with cuts -/

/-- The point with its longitude wrapped. -/
def wrapPt (ref : Rat) (p : VPt) : VPt := (p.1.map (wrap ref), p.2)

theorem cutWrites_enum (ref : Rat) : ∀ (l : List VPt) (prev : VPt) (k : Nat),
    ∃ vals, cutWrites ref prev l k = enum vals k ∧ vals.length = l.length + nbJumps ref prev l * 3 ∧
      ∀ k', cutWrites ref prev l k' = enum vals k'
  | [], _, _ => ⟨[], rfl, rfl, fun _ => rfl⟩
  | p :: l, prev, k => by
    by_cases hj : isJump ref prev.1 p.1 = true
    · obtain ⟨vals, h1, h2, h3⟩ := cutWrites_enum ref l p (k + 4)
      refine ⟨(p.1.map (fun x => wrap ref x - cor prev.1 p.1), p.2) :: (none, none) ::
        (prev.1.map (fun x => wrap ref x + cor prev.1 p.1), prev.2) :: (p.1.map (wrap ref), p.2) :: vals, ?_, ?_, ?_⟩
      · rw [cutWrites, if_pos hj, h1]; rfl
      · simp only [List.length_cons, nbJumps, if_pos hj, h2]; omega
      · intro k'
        rw [cutWrites, if_pos hj, h3]; rfl
    · obtain ⟨vals, h1, h2, h3⟩ := cutWrites_enum ref l p (k + 1)
      refine ⟨(p.1.map (wrap ref), p.2) :: vals, ?_, ?_, ?_⟩
      · rw [cutWrites, if_neg hj, h1]; rfl
      · simp only [List.length_cons, nbJumps, if_neg hj, h2]; omega
      · intro k'
        rw [cutWrites, if_neg hj, h3]; rfl

/-- Points written by the loop. -/
def cutVals (ref : Rat) (prev : VPt) (l : List VPt) : List VPt := (cutWrites ref prev l 0).map Prod.snd

theorem enum_snd {α : Type} (l : List α) (k : Nat) : (enum l k).map Prod.snd = l := by
  induction l generalizing k with
  | nil => rfl
  | cons a l ih => simp [enum, ih]

theorem cutVals_cons (ref : Rat) (prev p : VPt) (l : List VPt) : cutVals ref prev (p :: l) =
    if isJump ref prev.1 p.1 then
      (p.1.map (fun x => wrap ref x - cor prev.1 p.1), p.2) :: (none, none) ::
        (prev.1.map (fun x => wrap ref x + cor prev.1 p.1), prev.2) :: wrapPt ref p :: cutVals ref p l
    else wrapPt ref p :: cutVals ref p l := by
  obtain ⟨vals, _, _, h3⟩ := cutWrites_enum ref l p 0
  unfold cutVals
  rw [cutWrites]
  split
  · rw [h3 4, h3 0]
    simp only [List.map_cons, enum_snd]; rfl
  · rw [h3 1, h3 0]
    simp only [List.map_cons, enum_snd]; rfl

/-- **C40** (no write outside): with cut, the array has the size of the input plus three cells for each jump, all of them written. -/
theorem wrap_cut_eq (ref : Rat) (p : VPt) (l : List VPt) : wrapCut ref (p :: l) = some (wrapPt ref p :: cutVals ref p l) := by
  obtain ⟨vals, h1, h2, h3⟩ := cutWrites_enum ref l p 1
  have hv : cutVals ref p l = vals := by unfold cutVals; rw [h3 0, enum_snd]
  have hw : (0, (p.1.map (wrap ref), p.2)) :: cutWrites ref p l 1 = enum (wrapPt ref p :: vals) 0 := by
    rw [h1]; rfl
  have hl : (p :: l).length + nbJumps ref p l * 3 = (wrapPt ref p :: vals).length := by
    simp only [List.length_cons, h2]; omega
  show store ((p :: l).length + nbJumps ref p l * 3) ((0, (p.1.map (wrap ref), p.2)) :: cutWrites ref p l 1) = _
  rw [hw, hl, store_enum, hv]

/-! ### Specification: segments -/

/-- Consecutive elements. -/
def pairs {α : Type} : List α → List (α × α)
  | a :: b :: l => (a, b) :: pairs (b :: l)
  | _ => []

/-- The line is contiguous: no step of more than 360 degrees between two points which are not nan. -/
def Contiguous (l : List VPt) : Prop := ∀ s ∈ pairs l, ∀ a b : Rat, s.1.1 = some a → s.2.1 = some b → |b - a| ≤ 360

/-- `t` is the segment `s` moved by full turns. -/
def Moved (s t : VPt × VPt) : Prop :=
  ∃ (a b : Rat) (n : Int), s.1.1 = some a ∧ s.2.1 = some b ∧ t = ((some (a + 360 * n), s.1.2), (some (b + 360 * n), s.2.2))

theorem cut_segments (ref : Rat) : ∀ (l : List VPt) (prev : VPt), Contiguous (prev :: l) →
    (∀ t ∈ pairs (wrapPt ref prev :: cutVals ref prev l), t.1.1 ≠ none → t.2.1 ≠ none → ∃ s ∈ pairs (prev :: l), Moved s t) ∧
    (∀ s ∈ pairs (prev :: l), s.1.1 ≠ none → s.2.1 ≠ none → ∃ t ∈ pairs (wrapPt ref prev :: cutVals ref prev l), Moved s t)
  | [], prev, _ => by
    refine ⟨fun t ht => ?_, fun s hs => ?_⟩
    · have : cutVals ref prev [] = [] := rfl
      rw [this] at ht
      simp [pairs] at ht
    · simp [pairs] at hs
  | p :: l, prev, hc => by
    have hc' : Contiguous (p :: l) := fun s hs => hc s (by rw [pairs]; exact List.mem_cons_of_mem _ hs)
    have hstep := hc (prev, p) (by rw [pairs]; exact List.mem_cons_self)
    obtain ⟨i1, i2⟩ := cut_segments ref l p hc'
    rw [cutVals_cons]
    by_cases hj : isJump ref prev.1 p.1 = true
    · -- both points have a longitude
      obtain ⟨a, ha⟩ : ∃ a, prev.1 = some a := by
        cases h : prev.1 with
        | none => rw [h] at hj; simp [isJump] at hj
        | some a => exact ⟨a, rfl⟩
      obtain ⟨b, hb⟩ : ∃ b, p.1 = some b := by
        cases h : p.1 with
        | none => rw [h, ha] at hj; simp [isJump] at hj
        | some b => exact ⟨b, rfl⟩
      have hd := hstep a b ha hb
      rw [if_pos hj]
      have hj' := (jump_spec (ref := ref) hd).1 (by rw [← ha, ← hb]; exact hj)
      obtain ⟨_, _, n, hn⟩ := wrap_spec ref a
      obtain ⟨_, _, m, hm⟩ := wrap_spec ref b
      have hA : wrapPt ref prev = (some (a + 360 * n), prev.2) := by unfold wrapPt; rw [ha, Option.map_some, hn]
      have hB : wrapPt ref p = (some (b + 360 * m), p.2) := by unfold wrapPt; rw [hb, Option.map_some, hm]
      have hcut : (p.1.map (fun x => wrap ref x - cor prev.1 p.1), p.2) = ((some (b + 360 * n), p.2) : VPt) := by
        rw [ha, hb, Option.map_some]
        congr 2
        rw [hn] at hj'
        linarith
      have hcut2 : (prev.1.map (fun x => wrap ref x + cor prev.1 p.1), prev.2) = ((some (a + 360 * m), prev.2) : VPt) := by
        rw [ha, hb, Option.map_some]
        congr 2
        rw [hm] at hj'
        linarith
      rw [hcut, hcut2]
      constructor
      · intro t ht h1 h2
        rw [pairs, pairs, pairs, pairs] at ht
        rcases List.mem_cons.1 ht with rfl | ht
        · exact ⟨(prev, p), by rw [pairs]; exact List.mem_cons_self, a, b, n, ha, hb, by rw [hA]⟩
        rcases List.mem_cons.1 ht with rfl | ht
        · exact absurd rfl h2
        rcases List.mem_cons.1 ht with rfl | ht
        · exact absurd rfl h1
        rcases List.mem_cons.1 ht with rfl | ht
        · exact ⟨(prev, p), by rw [pairs]; exact List.mem_cons_self, a, b, m, ha, hb, by rw [hB]⟩
        · obtain ⟨s, hs, hm⟩ := i1 t ht h1 h2
          exact ⟨s, by rw [pairs]; exact List.mem_cons_of_mem _ hs, hm⟩
      · intro s hs h1 h2
        rw [pairs] at hs
        rcases List.mem_cons.1 hs with rfl | hs
        · exact ⟨_, by rw [pairs]; exact List.mem_cons_self, a, b, n, ha, hb, by rw [hA]⟩
        · obtain ⟨t, ht, hm⟩ := i2 s hs h1 h2
          refine ⟨t, ?_, hm⟩
          rw [pairs, pairs, pairs, pairs]
          exact List.mem_cons_of_mem _ (List.mem_cons_of_mem _ (List.mem_cons_of_mem _ (List.mem_cons_of_mem _ ht)))
    · rw [if_neg hj]
      have hmoved : prev.1 ≠ none → p.1 ≠ none → Moved (prev, p) (wrapPt ref prev, wrapPt ref p) := by
        intro h1 h2
        obtain ⟨a, ha⟩ := Option.ne_none_iff_exists'.1 h1
        obtain ⟨b, hb⟩ := Option.ne_none_iff_exists'.1 h2
        have hd := hstep a b ha hb
        have hj' := (jump_spec (ref := ref) hd).2 (by rw [← ha, ← hb]; simpa using hj)
        obtain ⟨_, _, n, hn⟩ := wrap_spec ref a
        refine ⟨a, b, n, ha, hb, ?_⟩
        unfold wrapPt
        simp only
        rw [ha, hb, Option.map_some, Option.map_some, hn]
        have : wrap ref b = b + 360 * n := by rw [hn] at hj'; linarith
        rw [this]
      constructor
      · intro t ht h1 h2
        rw [pairs] at ht
        rcases List.mem_cons.1 ht with rfl | ht
        · refine ⟨(prev, p), by rw [pairs]; exact List.mem_cons_self, hmoved ?_ ?_⟩
          · intro h; apply h1; unfold wrapPt; rw [h]; rfl
          · intro h; apply h2; unfold wrapPt; rw [h]; rfl
        · obtain ⟨s, hs, hm⟩ := i1 t ht h1 h2
          exact ⟨s, by rw [pairs]; exact List.mem_cons_of_mem _ hs, hm⟩
      · intro s hs h1 h2
        rw [pairs] at hs
        rcases List.mem_cons.1 hs with rfl | hs
        · exact ⟨_, by rw [pairs]; exact List.mem_cons_self, hmoved h1 h2⟩
        · obtain ⟨t, ht, hm⟩ := i2 s hs h1 h2
          exact ⟨t, by rw [pairs]; exact List.mem_cons_of_mem _ ht, hm⟩

/-- **C40** (with cut): for a contiguous line, the result contains the points with their longitudes in `[ref, ref + 360)`, in
order; every segment of the result between two nans is a segment of the input moved by full turns, and every segment of the input
is in the result. -/
theorem wrap_cut_spec (ref : Rat) (p : VPt) (l : List VPt) (hc : Contiguous (p :: l)) : ∃ out, wrapCut ref (p :: l) = some out ∧
    ((p :: l).map (wrapPt ref)).Sublist out ∧
    (∀ t ∈ pairs out, t.1.1 ≠ none → t.2.1 ≠ none → ∃ s ∈ pairs (p :: l), Moved s t) ∧
    (∀ s ∈ pairs (p :: l), s.1.1 ≠ none → s.2.1 ≠ none → ∃ t ∈ pairs out, Moved s t) := by
  refine ⟨_, wrap_cut_eq ref p l, ?_, (cut_segments ref l p hc).1, (cut_segments ref l p hc).2⟩
  have : ∀ (l : List VPt) (prev : VPt), (l.map (wrapPt ref)).Sublist (cutVals ref prev l) := by
    intro l
    induction l with
    | nil => intro prev; simp
    | cons q l ih =>
      intro prev
      rw [cutVals_cons]
      split
      · exact (((ih q).cons_cons _).cons _).cons _ |>.cons _
      · exact (ih q).cons_cons _
  exact (this l p).cons_cons _

/-- **C40** (with cut, points): every element of the result which is not nan is a point of the input moved by full turns, at most
one turn away from `[ref, ref + 360)`. -/
theorem wrap_cut_points (ref : Rat) (p : VPt) (l : List VPt) {out : List VPt} (h : wrapCut ref (p :: l) = some out) {q : VPt}
    (hq : q ∈ out) {x : Rat} (hx : q.1 = some x) : ref - 360 ≤ x ∧ x < ref + 720 ∧
      ∃ o ∈ p :: l, ∃ (a : Rat) (n : Int), o.1 = some a ∧ o.2 = q.2 ∧ x = a + 360 * n := by
  rw [wrap_cut_eq] at h
  obtain rfl := Option.some.inj h
  have hcor : ∀ u v : Val, cor u v = 360 ∨ cor u v = -360 := by
    intro u v
    unfold cor
    split
    · split
      · exact Or.inl rfl
      · exact Or.inr rfl
    · exact Or.inr rfl
  have hw : ∀ (o : VPt) (x : Rat), (wrapPt ref o).1 = some x → ref ≤ x ∧ x < ref + 360 ∧ ∃ (a : Rat) (n : Int), o.1 = some a ∧
      x = a + 360 * n := by
    intro o x hx
    unfold wrapPt at hx
    obtain ⟨a, ha, rfl⟩ := Option.map_eq_some_iff.1 hx
    obtain ⟨h1, h2, n, hn⟩ := wrap_spec ref a
    exact ⟨h1, h2, a, n, ha, hn⟩
  have key : ∀ (l : List VPt) (prev q : VPt), q ∈ cutVals ref prev l → ∀ x, q.1 = some x → ref - 360 ≤ x ∧ x < ref + 720 ∧
      ∃ o ∈ prev :: l, ∃ (a : Rat) (n : Int), o.1 = some a ∧ o.2 = q.2 ∧ x = a + 360 * n := by
    intro l
    induction l with
    | nil => intro prev q hq; cases hq
    | cons r l ih =>
      intro prev q hq x hx
      rw [cutVals_cons] at hq
      have hrest : q = wrapPt ref r ∨ q ∈ cutVals ref r l → ref - 360 ≤ x ∧ x < ref + 720 ∧
          ∃ o ∈ prev :: r :: l, ∃ (a : Rat) (n : Int), o.1 = some a ∧ o.2 = q.2 ∧ x = a + 360 * n := by
        rintro (rfl | hq)
        · obtain ⟨h1, h2, a, n, ha, hn⟩ := hw r x hx
          exact ⟨by linarith, by linarith, r, by simp, a, n, ha, rfl, hn⟩
        · obtain ⟨h1, h2, o, ho, h3⟩ := ih r q hq x hx
          exact ⟨h1, h2, o, List.mem_cons_of_mem _ ho, h3⟩
      split at hq
      · rcases List.mem_cons.1 hq with rfl | hq
        · obtain ⟨a, ha, rfl⟩ := Option.map_eq_some_iff.1 hx
          obtain ⟨h1, h2, n, hn⟩ := wrap_spec ref a
          rcases hcor prev.1 r.1 with hco | hco <;> rw [hco]
          · exact ⟨by linarith, by linarith, r, by simp, a, n - 1, ha, rfl, by rw [hn]; push_cast; ring⟩
          · exact ⟨by linarith, by linarith, r, by simp, a, n + 1, ha, rfl, by rw [hn]; push_cast; ring⟩
        rcases List.mem_cons.1 hq with rfl | hq
        · cases hx
        rcases List.mem_cons.1 hq with rfl | hq
        · obtain ⟨a, ha, rfl⟩ := Option.map_eq_some_iff.1 hx
          obtain ⟨h1, h2, n, hn⟩ := wrap_spec ref a
          rcases hcor prev.1 r.1 with hco | hco <;> rw [hco]
          · exact ⟨by linarith, by linarith, prev, by simp, a, n + 1, ha, rfl, by rw [hn]; push_cast; ring⟩
          · exact ⟨by linarith, by linarith, prev, by simp, a, n - 1, ha, rfl, by rw [hn]; push_cast; ring⟩
        · exact hrest (List.mem_cons.1 hq)
      · exact hrest (List.mem_cons.1 hq)
  rcases List.mem_cons.1 hq with rfl | hq
  · obtain ⟨h1, h2, a, n, ha, hn⟩ := hw p x hx
    exact ⟨by linarith, by linarith, p, by simp, a, n, ha, rfl, hn⟩
  · exact key l p q hq x hx

/-- With a step of more than one turn the segment is not preserved. -/
theorem wrap_cut_not_contiguous : wrapCut 0 [(some 0, some 0), (some 721, some 0)] =
    some [(some 0, some 0), (some 361, some 0), (none, none), (some (-360), some 0), (some 1, some 0)] := by decide +kernel

/-- A line across the bound, in both directions, with a nan. -/
example : wrapCut 0 [(some 359, some 1), (some 361, some 2), (some 358, some 3), (none, none), (some 10, some 4)] =
    some [(some 359, some 1), (some 361, some 2), (none, none), (some (-1), some 1), (some 1, some 2), (some (-2), some 3),
      (none, none), (some 361, some 2), (some 358, some 3), (none, none), (some 10, some 4)] := by decide +kernel

example : Contiguous [(some 359, some 1), (some 361, some 2), (none, none)] := by
  intro s hs a b ha hb
  simp only [pairs, List.mem_cons, List.not_mem_nil, or_false] at hs
  rcases hs with rfl | rfl
  · simp only [Option.some.injEq] at ha hb
    subst ha; subst hb; norm_num
  · cases hb

end Verif.Lines
