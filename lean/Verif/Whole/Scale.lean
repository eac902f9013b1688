import Verif.Whole.Model
import Verif.Amplitude.Props
import Verif.Detection.Props

/-!
# The amplitude and the loop under a change of unit or of reference of the heights
-/

namespace Verif.Whole

open Verif.Detection Verif.Amplitude

/-- Heights in another unit (`k`) and from another reference (`c`). -/
def aff (k c x : Rat) : Rat := k * x + c

theorem aff_le {k : Rat} (hk : 0 < k) (c x y : Rat) : aff k c x ≤ aff k c y ↔ x ≤ y := by
  unfold aff
  rw [add_le_add_iff_right, mul_le_mul_iff_right₀ hk]

theorem aff_sub (k c x y : Rat) : aff k c x - aff k c y = k * (x - y) := by
  unfold aff
  ring

/-- The field with other heights. -/
def affField (k c : Rat) (f : Field) : Field := { f with val := fun i j => aff k c (f.val i j) }

theorem extrema_aff {k : Rat} (hk : 0 < k) (c : Rat) (f : Field) (hm : ∀ p ∈ f.pixels, f.mask p.1 p.2 = false)
    (h1 : ∀ p ∈ f.pixels, f.val p.1 p.2 ≤ fake) (h2 : ∀ p ∈ f.pixels, aff k c (f.val p.1 p.2) ≤ fake) :
    extrema (affField k c f) 1 = extrema f 1 := by
  have key : ∀ i j, isExtremum (affField k c f) 1 i j = isExtremum f 1 i j := by
    intro i j
    by_cases hp : (i + 1, j + 1) ∈ f.pixels
    · rw [Bool.eq_iff_iff, isExtremum_iff (affField k c f) 1 i j (hm _ hp) (by rw [mul_one]; exact h2 _ hp),
        isExtremum_iff f 1 i j (hm _ hp) (by rw [mul_one]; exact h1 _ hp)]
      apply and_congr Iff.rfl
      unfold IsLocalMin affField
      simp only [mul_one, aff_le hk]
    · have : ∀ f' : Field, f'.pixels = f.pixels → isExtremum f' 1 i j = false := by
        intro f' h
        unfold isExtremum
        rw [h, decide_eq_false hp, Bool.and_false]
      rw [this (affField k c f) rfl, this f rfl]
  unfold extrema
  simp only [key]
  rfl

theorem argmin_aff {k : Rat} (hk : 0 < k) (c : Rat) (l : List Rat) : Poly.argmin (l.map (aff k c)) = Poly.argmin l := by
  unfold Poly.argmin
  rw [List.findIdx_map]
  congr 1
  funext x
  simp only [Function.comp_apply, List.all_map]
  congr 1
  funext y
  simp only [Function.comp_apply, aff_le hk]

/-- The test of a cyclone in another unit: same centre, the amplitude in the other unit. -/
theorem below_aff {k : Rat} (hk : 0 < k) (c : Rat) (f : Field) (h0 sec : Rat) (mle : Nat) (h1 : ∀ p ∈ f.pixels, f.val p.1 p.2 ≤ fake)
    (h2 : ∀ p ∈ f.pixels, aff k c (f.val p.1 p.2) ≤ fake) (hb : ∀ p ∈ f.pixels, f.val p.1 p.2 ≤ h0) :
    below (affField k c f) (aff k c h0) (k * sec) mle (aff k c h0) = (below f h0 sec mle h0).map (fun r => (r.1, k * r.2)) := by
  have he : (0 : Rat) < eps := by unfold eps; norm_num
  have e1 : f.pixels.any (fun p => decide (f.val p.1 p.2 - h0 > eps)) = false := by
    rw [List.any_eq_false]
    intro p hp
    rw [decide_eq_true_eq]
    linarith [hb p hp]
  have e2 : f.pixels.any (fun p => decide (aff k c (f.val p.1 p.2) - aff k c h0 > eps)) = false := by
    rw [List.any_eq_false]
    intro p hp
    rw [decide_eq_true_eq]
    have := (aff_le hk c _ _).2 (hb p hp)
    linarith
  unfold below
  rw [show (affField k c f).pixels = f.pixels from rfl, show (affField k c f).mask = f.mask from rfl,
    show (affField k c f).val = fun i j => aff k c (f.val i j) from rfl]
  simp only [e1, e2, Bool.or_false]
  by_cases hm : f.pixels.any (fun p => f.mask p.1 p.2) = true
  · rw [if_pos hm, if_pos hm]
    rfl
  · rw [if_neg hm, if_neg hm]
    have hm' : ∀ p ∈ f.pixels, f.mask p.1 p.2 = false := by
      rw [Bool.not_eq_true, List.any_eq_false] at hm
      intro p hp
      simpa using hm p hp
    have hd : detect (affField k c f) mle 1 = detect f mle 1 := by
      unfold detect
      rw [extrema_aff hk c f hm' h1 h2]
    have hver : ∀ p, verdict (affField k c f) (aff k c h0) p = ((verdict f h0 p).1, k * (verdict f h0 p).2) := by
      intro p
      unfold verdict affField
      simp only
      rw [aff_sub, abs_mul, abs_of_pos hk]
    rw [hd]
    cases detect f mle 1 with
    | nil => rfl
    | cons x l =>
      cases l with
      | nil => simp only [hver, Option.map_some]
      | cons y l =>
        simp only [hver, aff_sub, ge_iff_le, mul_le_mul_iff_right₀ hk]
        have e3 : (x :: y :: l).map (fun p => aff k c (f.val p.1 p.2)) = ((x :: y :: l).map (fun p => f.val p.1 p.2)).map (aff k c) := by
          rw [List.map_map]
          rfl
        rw [e3, argmin_aff hk]
        split_ifs <;> rfl

@[inherit_doc below_aff]
theorem above_aff {k : Rat} (hk : 0 < k) (c : Rat) (f : Field) (h0 sec : Rat) (mle : Nat) (h1 : ∀ p ∈ f.pixels, -f.val p.1 p.2 ≤ fake)
    (h2 : ∀ p ∈ f.pixels, -aff k c (f.val p.1 p.2) ≤ fake) (hb : ∀ p ∈ f.pixels, h0 ≤ f.val p.1 p.2) :
    above (affField k c f) (aff k c h0) (k * sec) mle (aff k c h0) = (above f h0 sec mle h0).map (fun r => (r.1, k * r.2)) := by
  have hneg : ∀ x, -aff k c x = aff k (-c) (-x) := by
    intro x
    unfold aff
    ring
  have hf : neg (affField k c f) = affField k (-c) (neg f) := by
    unfold neg affField
    simp only [hneg]
  rw [above_eq_below_neg, above_eq_below_neg, hf, hneg]
  apply below_aff hk
  · exact h1
  · intro p hp
    show aff k (-c) (-f.val p.1 p.2) ≤ fake
    rw [← hneg]
    exact h2 p hp
  · intro p hp
    exact neg_le_neg (hb p hp)

/-! ### One contour -/

/-- The pixels of a contour are in its box. -/
def InBox (g : Grid) (c : Contour) : Prop := (g.box c).1.1 < g.nx ∧ (g.box c).1.2 ≤ g.nx ∧
  ∀ p ∈ c.pixels, p.1 ∈ columns g.nx (g.box c).1.1 (g.box c).1.2 ∧ (g.box c).2.1 ≤ p.2

/-- The values of a contour in its extract are those of the grid. -/
theorem fieldOf_val {g : Grid} {c : Contour} (hc : InBox g c) (h : Pixel → Rat) (mask : Pixel → Bool) :
    ∀ q ∈ (fieldOf g h mask c).pixels, ∃ p ∈ c.pixels, (fieldOf g h mask c).val q.1 q.2 = h p := by
  intro q hq
  obtain ⟨p, hp, rfl⟩ := List.mem_map.1 hq
  refine ⟨p, hp, ?_⟩
  have h1 := (localColumn_spec hc.1 hc.2.1 (hc.2.2 p hp).1).2
  have h2 := (hc.2.2 p hp).2
  show h (((columns g.nx (g.box c).1.1 (g.box c).1.2).getD _ 0), (g.box c).2.1 + (p.2 - (g.box c).2.1)) = h p
  rw [List.getD_eq_getElem?_getD, h1, Option.getD_some, Nat.add_sub_cancel' h2]

theorem fieldOf_aff (g : Grid) (k c : Rat) (h : Pixel → Rat) (mask : Pixel → Bool) (b : Contour) :
    fieldOf g (fun p => aff k c (h p)) mask b = affField k c (fieldOf g h mask b) := rfl

/-- The heights are far from the value which stands for masked neighbours. -/
def Small (h : Pixel → Rat) : Prop := ∀ p, |h p| ≤ fake

theorem get_map {α γ : Type} (f : α → γ) (l : List α) (i : Int) : Py.get (l.map f) i = (Py.get l i).map f := by
  unfold Py.get Py.idx
  rw [List.length_map]
  split_ifs <;> simp

theorem test_aff {g : Grid} {k : Rat} (hk : 0 < k) {c : Rat} {h : Pixel → Rat} (h1 : Small h) (h2 : Small (fun p => aff k c (h p))) (step : Rat)
    {lv : List Rat} {anti : Bool} {mask : Pixel → Bool} {i : Int} {b : Contour} {v : Rat} (hv : Py.get lv i = some v) (hb : InBox g b)
    (hval : hasValue h v anti b.pixels = false) :
    test g (fun p => aff k c (h p)) (k * step) (lv.map (aff k c)) anti mask i b = (test g h step lv anti mask i b).map (fun r => (r.1, k * r.2)) := by
  have hno : ¬ ∃ p ∈ b.pixels, if anti then h p < v else h p > v := by
    rw [← hasValue_iff, hval]
    simp
  unfold test
  rw [get_map, hv]
  simp only [Option.map_some, Option.getD_some]
  rw [fieldOf_aff, mul_assoc]
  have hs : ∀ q ∈ (fieldOf g h mask b).pixels, |(fieldOf g h mask b).val q.1 q.2| ≤ fake ∧ |aff k c ((fieldOf g h mask b).val q.1 q.2)| ≤ fake := by
    intro q hq
    obtain ⟨p, _, e⟩ := fieldOf_val hb h mask q hq
    rw [e]
    exact ⟨h1 p, h2 p⟩
  cases anti with
  | true =>
    simp only [if_true] at hno ⊢
    apply above_aff hk
    · exact fun q hq => (neg_le_abs _).trans (hs q hq).1
    · exact fun q hq => (neg_le_abs _).trans (hs q hq).2
    · intro q hq
      obtain ⟨p, hp, e⟩ := fieldOf_val hb h mask q hq
      rw [e]
      exact not_lt.1 (fun hl => hno ⟨p, hp, hl⟩)
  | false =>
    simp only [Bool.false_eq_true, if_false] at hno ⊢
    apply below_aff hk
    · exact fun q hq => (le_abs_self _).trans (hs q hq).1
    · exact fun q hq => (le_abs_self _).trans (hs q hq).2
    · intro q hq
      obtain ⟨p, hp, e⟩ := fieldOf_val hb h mask q hq
      rw [e]
      exact not_lt.1 (fun hl => hno ⟨p, hp, hl⟩)

/-! ### The loop -/

/-- An eddy in another unit. -/
def affEddy (k c : Rat) (e : Eddy) : Eddy := { e with level := aff k c e.level, amplitude := k * e.amplitude }

def affState (k c : Rat) (s : State) : State := { s with eddies := s.eddies.map (affEddy k c) }

theorem hasValue_aff {k : Rat} (hk : 0 < k) (c : Rat) (h : Pixel → Rat) (v : Rat) (anti : Bool) (l : List Pixel) :
    hasValue (fun p => aff k c (h p)) (aff k c v) anti l = hasValue h v anti l := by
  rw [Bool.eq_iff_iff, hasValue_iff, hasValue_iff]
  have : ∀ x y, aff k c x < aff k c y ↔ x < y := fun x y => by rw [← not_le, aff_le hk, not_le]
  simp only [this]

theorem step_aff {g : Grid} {k : Rat} (hk : 0 < k) {c : Rat} {h : Pixel → Rat} (h1 : Small h) (h2 : Small (fun p => aff k c (h p))) (st : Rat)
    {lv : List Rat} {anti : Bool} {i : Int} {b : Contour} {v : Rat} (hv : Py.get lv i = some v) (hb : InBox g b) (s : State) :
    step (env g (fun p => aff k c (h p)) (k * st) (lv.map (aff k c))) anti i (aff k c v) (affState k c s) b =
      affState k c (step (env g h st lv) anti i v s b) := by
  unfold step
  have hsame : (affState k c s).used = s.used ∧ (affState k c s).mask = s.mask := ⟨rfl, rfl⟩
  rw [hsame.1, hsame.2]
  have hbad : badShape (env g (fun p => aff k c (h p)) (k * st) (lv.map (aff k c))) b = badShape (env g h st lv) b := rfl
  have hval : hasValue (env g (fun p => aff k c (h p)) (k * st) (lv.map (aff k c))).height (aff k c v) anti b.pixels =
      hasValue (env g h st lv).height v anti b.pixels := hasValue_aff hk c h v anti b.pixels
  rw [hbad, hval]
  by_cases u1 : s.used b.id = true
  · rw [if_pos u1, if_pos u1]
  rw [if_neg u1, if_neg u1]
  by_cases u2 : badShape (env g h st lv) b = true
  · rw [if_pos u2, if_pos u2]
  rw [if_neg u2, if_neg u2]
  by_cases u3 : hasMasked s.mask b.pixels = true
  · rw [if_pos u3, if_pos u3]
  rw [if_neg u3, if_neg u3]
  by_cases u4 : hasValue (env g h st lv).height v anti b.pixels = true
  · rw [if_pos u4, if_pos u4]
  rw [if_neg u4, if_neg u4]
  have ht := test_aff hk h1 h2 st (mask := s.mask) hv hb (Bool.eq_false_iff.2 u4)
  have hamp : (env g (fun p => aff k c (h p)) (k * st) (lv.map (aff k c))).amplitude anti s.mask i b = k * (env g h st lv).amplitude anti s.mask i b := by
    show amplitudeOf (test g _ _ _ anti s.mask i b) = k * amplitudeOf (test g h st lv anti s.mask i b)
    rw [ht]
    cases test g h st lv anti s.mask i b with
    | none => exact (mul_zero k).symm
    | some r => rfl
  have hnest : (env g (fun p => aff k c (h p)) (k * st) (lv.map (aff k c))).nested anti s.mask i b = (env g h st lv).nested anti s.mask i b := by
    show ((test g _ _ _ anti s.mask i b).map _).getD [] = ((test g h st lv anti s.mask i b).map _).getD []
    rw [ht, Option.map_map]
    rfl
  rw [hamp, hnest]
  have hmin : (env g (fun p => aff k c (h p)) (k * st) (lv.map (aff k c))).ampMin = k * (env g h st lv).ampMin := mul_assoc _ _ _
  rw [hmin]
  have hz : ∀ x : Rat, k * x = 0 ↔ x = 0 := fun x => by rw [mul_eq_zero, or_iff_right hk.ne']
  simp only [mul_le_mul_iff_right₀ hk, hz]
  show (if b.pixels.length < g.pixelMin ∨ b.pixels.length > g.pixelMax then _ else _) = affState k c (if b.pixels.length < g.pixelMin ∨ b.pixels.length > g.pixelMax then _ else _)
  split_ifs
  · rfl
  · rfl
  · unfold affState
    simp only [List.map_append, List.map_cons, List.map_nil]
    rfl

theorem coll_aff {g : Grid} {k : Rat} (hk : 0 < k) {c : Rat} {h : Pixel → Rat} (h1 : Small h) (h2 : Small (fun p => aff k c (h p))) (st : Rat)
    {lv : List Rat} {anti : Bool} {i : Int} {v : Rat} (hv : Py.get lv i = some v) : ∀ (l : List Contour), (∀ b ∈ l, InBox g b) → ∀ s : State,
    l.foldl (step (env g (fun p => aff k c (h p)) (k * st) (lv.map (aff k c))) anti i (aff k c v)) (affState k c s) =
      affState k c (l.foldl (step (env g h st lv) anti i v) s)
  | [], _, _ => rfl
  | b :: l, hl, s => by
    rw [List.foldl_cons, List.foldl_cons, step_aff hk h1 h2 st hv (hl b List.mem_cons_self)]
    exact coll_aff hk h1 h2 st hv l (fun x hx => hl x (List.mem_cons_of_mem _ hx)) _

theorem levels_aff {g : Grid} {k : Rat} (hk : 0 < k) {c : Rat} {h : Pixel → Rat} (h1 : Small h) (h2 : Small (fun p => aff k c (h p))) (st : Rat)
    {lv : List Rat} {anti : Bool} : ∀ (l : List (List Contour)) (n : Nat), n + l.length = lv.length → (∀ x ∈ l, ∀ b ∈ x, InBox g b) → ∀ s : State,
    Detection.levels (env g (fun p => aff k c (h p)) (k * st) (lv.map (aff k c))) anti (lv.map (aff k c)) l n (affState k c s) =
      affState k c (Detection.levels (env g h st lv) anti lv l n s)
  | [], _, _, _, _ => rfl
  | x :: l, n, hn, hl, s => by
    rw [Detection.levels, Detection.levels]
    rw [List.length_cons] at hn
    obtain ⟨v, hv⟩ : ∃ v, Py.get lv (corrected anti n) = some v := by
      rw [get_corrected]
      cases anti with
      | true => exact ⟨_, List.getElem?_eq_getElem (by simp only [if_true]; omega)⟩
      | false => exact ⟨_, List.getElem?_eq_getElem (by simp only [Bool.false_eq_true, if_false, List.length_reverse]; omega)⟩
    rw [get_map, hv]
    simp only [Option.map_some, Option.getD_some]
    rw [coll_aff hk h1 h2 st hv x (hl x List.mem_cons_self)]
    exact levels_aff hk h1 h2 st l (n + 1) (by omega) (fun y hy => hl y (List.mem_cons_of_mem _ hy)) _

/-- The two searches in another unit or from another reference find the same eddies. -/
theorem identify_aff {g : Grid} {k : Rat} (hk : 0 < k) {c : Rat} {h : Pixel → Rat} (h1 : Small h) (h2 : Small (fun p => aff k c (h p))) (st : Rat)
    {lv : List Rat} {colls : List (List Contour)} (hlen : colls.length = lv.length) (hb : ∀ x ∈ colls, ∀ b ∈ x, InBox g b) (mask : Pixel → Bool) :
    identify (env g (fun p => aff k c (h p)) (k * st) (lv.map (aff k c))) (lv.map (aff k c)) colls mask =
      affState k c (identify (env g h st lv) lv colls mask) := by
  unfold identify search
  have h0 : (⟨mask, fun _ => false, []⟩ : State) = affState k c ⟨mask, fun _ => false, []⟩ := rfl
  rw [h0]
  simp only [if_true, Bool.false_eq_true, if_false]
  rw [levels_aff hk h1 h2 st colls 0 (by omega) hb,
    levels_aff hk h1 h2 st colls.reverse 0 (by rw [List.length_reverse]; omega) (fun x hx => hb x (List.mem_reverse.1 hx))]
  rfl

end Verif.Whole
