import Verif.Poly.Model
import Mathlib.Tactic.NormNum

/-!
# C35: winding number
-/

namespace Verif.Poly

/-! ### Specification: edges of a closed polygon -/

/-- The edges of the closed polygon, the last one from the last vertex to the first one. -/
def edges (v : List Pt) : List (Pt × Pt) := v.zip (v.tail ++ v.head?.toList)

/-- The point and the polygon are strictly separated by a line: every vertex is strictly on the side `d` of the line through the
point. -/
def Separated (p : Pt) (v : List Pt) : Prop :=
  ∃ d : Pt, ∀ w ∈ v, 0 < d.1 * (w.1 - p.1) + d.2 * (w.2 - p.2)

/-- The point is strictly outside of the bounding box of the polygon. -/
def OutsideBox (p : Pt) (v : List Pt) : Prop :=
  (∀ w ∈ v, p.1 < w.1) ∨ (∀ w ∈ v, w.1 < p.1) ∨ (∀ w ∈ v, p.2 < w.2) ∨ (∀ w ∈ v, w.2 < p.2)

/-! ### The sum over the edges -/

theorem windLoop_eq (p first : Pt) : ∀ l : List Pt,
    windLoop p first l = ((l.zip (l.tail ++ [first])).map (fun e => edge p e.1 e.2)).sum
  | [] => rfl
  | [a] => by simp [windLoop]
  | a :: b :: l => by
    rw [windLoop, windLoop_eq p first (b :: l)]
    simp

theorem winding_eq (p : Pt) (v : List Pt) : winding p v = ((edges v).map (fun e => edge p e.1 e.2)).sum := by
  cases v with
  | nil => rfl
  | cons a l => exact windLoop_eq p a (a :: l)

theorem mem_edges {v : List Pt} {e : Pt × Pt} (h : e ∈ edges v) : e.1 ∈ v ∧ e.2 ∈ v := by
  unfold edges at h
  obtain ⟨h1, h2⟩ := List.of_mem_zip h
  refine ⟨h1, ?_⟩
  cases v with
  | nil => cases h1
  | cons a l =>
    simp only [List.tail_cons, List.head?_cons, Option.toList_some, List.mem_append, List.mem_singleton] at h2
    rcases h2 with h2 | h2
    · exact List.mem_cons_of_mem _ h2
    · rw [h2]; exact List.mem_cons_self

/-- Sums of differences around a closed polygon vanish. -/
theorem telescope (f : Pt → Int) (v : List Pt) : ((edges v).map (fun e => f e.1 - f e.2)).sum = 0 := by
  cases v with
  | nil => rfl
  | cons a l =>
    have key : ∀ (l : List Pt) (b first : Pt),
        (((b :: l).zip (l ++ [first])).map (fun e => f e.1 - f e.2)).sum = f b - f first := by
      intro l
      induction l with
      | nil => intro b first; simp
      | cons c l ih =>
        intro b first
        have := ih c first
        simp only [List.cons_append, List.zip_cons_cons, List.map_cons, List.sum_cons] at this ⊢
        rw [this]; ring
    have := key l a a
    unfold edges
    simp only [List.tail_cons, List.head?_cons, Option.toList_some]
    rw [this]; ring

/-! ### Points which are separated from the polygon -/

/-- The edge crosses the level of the point upwards on the side `d.1 > 0` exactly. -/
theorem product_up {p a b d : Pt} (ha : 0 < d.1 * (a.1 - p.1) + d.2 * (a.2 - p.2))
    (hb : 0 < d.1 * (b.1 - p.1) + d.2 * (b.2 - p.2)) (h1 : a.2 ≤ p.2) (h2 : p.2 < b.2) : 0 < d.1 * product a b p := by
  unfold product
  have e : d.1 * ((b.1 - a.1) * (p.2 - a.2) - (p.1 - a.1) * (b.2 - a.2)) =
      (b.2 - p.2) * (d.1 * (a.1 - p.1) + d.2 * (a.2 - p.2)) + (p.2 - a.2) * (d.1 * (b.1 - p.1) + d.2 * (b.2 - p.2)) := by ring
  rw [e]
  have := mul_pos (sub_pos.2 h2) ha
  have := mul_nonneg (sub_nonneg.2 h1) (le_of_lt hb)
  linarith

theorem product_down {p a b d : Pt} (ha : 0 < d.1 * (a.1 - p.1) + d.2 * (a.2 - p.2))
    (hb : 0 < d.1 * (b.1 - p.1) + d.2 * (b.2 - p.2)) (h1 : p.2 < a.2) (h2 : b.2 ≤ p.2) : d.1 * product a b p < 0 := by
  unfold product
  have e : d.1 * ((b.1 - a.1) * (p.2 - a.2) - (p.1 - a.1) * (b.2 - a.2)) =
      -((p.2 - b.2) * (d.1 * (a.1 - p.1) + d.2 * (a.2 - p.2)) + (a.2 - p.2) * (d.1 * (b.1 - p.1) + d.2 * (b.2 - p.2))) := by
    ring
  rw [e]
  have := mul_nonneg (sub_nonneg.2 h2) (le_of_lt ha)
  have := mul_pos (sub_pos.2 h1) hb
  linarith

/-- **C35**: the winding number of a point which is strictly separated from all vertices by a line (that is, a point outside of
the convex hull of the polygon) is 0. -/
theorem winding_separated {p : Pt} {v : List Pt} (h : Separated p v) : winding p v = 0 := by
  obtain ⟨d, hd⟩ := h
  rw [winding_eq]
  by_cases hx : 0 < d.1
  · -- every crossing is on the right: ups and downs cancel
    have hc : (edges v).map (fun e => edge p e.1 e.2) =
        (edges v).map (fun e => (if e.1.2 ≤ p.2 then (1 : Int) else 0) - (if e.2.2 ≤ p.2 then 1 else 0)) := by
      apply List.map_congr_left
      intro e he
      obtain ⟨m1, m2⟩ := mem_edges he
      unfold edge
      by_cases h1 : e.1.2 ≤ p.2
      · by_cases h2 : p.2 < e.2.2
        · have := product_up (hd _ m1) (hd _ m2) h1 h2
          have hp : 0 < product e.1 e.2 p := by
            by_contra hn
            have := mul_nonneg (le_of_lt hx) (sub_nonneg.2 (not_lt.1 hn))
            linarith
          simp [h1, h2, isLeft, hp, not_le.2 h2]
        · simp [h1, h2, not_lt.1 h2]
      · by_cases h2 : e.2.2 ≤ p.2
        · have := product_down (hd _ m1) (hd _ m2) (not_le.1 h1) h2
          have hp : ¬ 0 < product e.1 e.2 p := by
            intro hn
            have := mul_pos hx hn
            linarith
          simp [h1, h2, isLeft, hp]
        · simp [h1, h2]
    rw [hc]
    exact telescope (fun w => if w.2 ≤ p.2 then (1 : Int) else 0) v
  · -- no crossing on the right
    have hc : ∀ e ∈ edges v, edge p e.1 e.2 = 0 := by
      intro e he
      obtain ⟨m1, m2⟩ := mem_edges he
      unfold edge
      by_cases h1 : e.1.2 ≤ p.2
      · by_cases h2 : p.2 < e.2.2
        · have := product_up (hd _ m1) (hd _ m2) h1 h2
          have hp : ¬ 0 < product e.1 e.2 p := by
            intro hn
            have := mul_nonneg (sub_nonneg.2 (not_lt.1 hx)) (le_of_lt hn)
            linarith
          simp [h1, h2, isLeft, hp]
        · simp [h1, h2]
      · by_cases h2 : e.2.2 ≤ p.2
        · have := product_down (hd _ m1) (hd _ m2) (not_le.1 h1) h2
          have hp : 0 < product e.1 e.2 p := by
            by_contra hn
            have := mul_nonneg (sub_nonneg.2 (not_lt.1 hx)) (sub_nonneg.2 (not_lt.1 hn))
            linarith
          simp [h1, h2, isLeft, hp]
        · simp [h1, h2]
    apply List.sum_eq_zero
    intro c hc'
    obtain ⟨e, he, rfl⟩ := List.mem_map.1 hc'
    exact hc e he

/-- **C35** (bounding box): the winding number of a point strictly outside of the bounding box is 0. -/
theorem winding_outside_box {p : Pt} {v : List Pt} (h : OutsideBox p v) : winding p v = 0 := by
  apply winding_separated
  rcases h with h | h | h | h
  · exact ⟨(1, 0), fun w hw => by simpa using h w hw⟩
  · exact ⟨(-1, 0), fun w hw => by simpa using h w hw⟩
  · exact ⟨(0, 1), fun w hw => by simpa using h w hw⟩
  · exact ⟨(0, -1), fun w hw => by simpa using h w hw⟩

/-! ### Translation and closing vertex -/

/-- Translation of a point. -/
def shift (t w : Pt) : Pt := (w.1 + t.1, w.2 + t.2)

theorem edge_shift (t p a b : Pt) : edge (shift t p) (shift t a) (shift t b) = edge p a b := by
  have hp : product (shift t a) (shift t b) (shift t p) = product a b p := by unfold product shift; ring
  have h1 : ∀ u w : Pt, (shift t u).2 ≤ (shift t w).2 ↔ u.2 ≤ w.2 := by intro u w; simp [shift]
  have h2 : ∀ u w : Pt, (shift t u).2 < (shift t w).2 ↔ u.2 < w.2 := by intro u w; simp [shift]
  unfold edge isLeft
  simp only [hp, h1, h2]

/-- **C35** (translation): the winding number does not change when the point and the polygon are translated. -/
theorem winding_shift (t p : Pt) (v : List Pt) : winding (shift t p) (v.map (shift t)) = winding p v := by
  have key : ∀ (first : Pt) (l : List Pt), windLoop (shift t p) (shift t first) (l.map (shift t)) = windLoop p first l := by
    intro first l
    induction l with
    | nil => rfl
    | cons a l ih =>
      cases l with
      | nil => exact edge_shift t p a first
      | cons b l =>
        simp only [List.map_cons] at ih ⊢
        rw [windLoop, windLoop, edge_shift, ih]
  cases v with
  | nil => rfl
  | cons a l => exact key a (a :: l)

theorem edge_self (p a : Pt) : edge p a a = 0 := by
  unfold edge
  by_cases h : a.2 ≤ p.2
  · simp [h, not_lt.2 h]
  · simp [h]

/-- **C35** (closing vertex): repeating the first vertex at the end, any number of times, does not change the winding number. -/
theorem winding_padding (p a : Pt) (l : List Pt) (n : Nat) :
    winding p (a :: l ++ List.replicate n a) = winding p (a :: l) := by
  have hrep : ∀ n : Nat, windLoop p a (List.replicate n a) = 0 := by
    intro n
    induction n with
    | zero => rfl
    | succ n ih =>
      cases n with
      | zero => exact edge_self p a
      | succ n =>
        rw [List.replicate_succ, List.replicate_succ, windLoop, edge_self, ← List.replicate_succ, ih]; rfl
  have key : ∀ (l : List Pt) (b : Pt), windLoop p a (b :: l ++ List.replicate n a) = windLoop p a (b :: l) := by
    intro l
    induction l with
    | nil =>
      intro b
      cases n with
      | zero => simp
      | succ n =>
        rw [List.replicate_succ]
        show windLoop p a (b :: a :: List.replicate n a) = _
        have := hrep (n + 1)
        rw [List.replicate_succ] at this
        show edge p b a + windLoop p a (a :: List.replicate n a) = edge p b a
        rw [this]; simp
    | cons c l ih =>
      intro b
      have := ih c
      simp only [List.cons_append] at this ⊢
      rw [windLoop, windLoop, this]
  exact key l a

/-- The winding number does not depend on the vertex the polygon starts with. -/
theorem winding_rotate (p a : Pt) (l : List Pt) : winding p (l ++ [a]) = winding p (a :: l) := by
  rw [winding_eq, winding_eq]
  have key : ∀ (l : List Pt) (b first : Pt) (f : Pt × Pt → Int),
      (((b :: l).zip (l ++ [first])).map f).sum = ((((b :: l).zip l).map f).sum + f ((b :: l).getLast (by simp), first)) := by
    intro l
    induction l with
    | nil => intro b first f; simp
    | cons c l ih =>
      intro b first f
      have := ih c first f
      simp only [List.cons_append, List.zip_cons_cons, List.map_cons, List.sum_cons] at this ⊢
      rw [this]
      have : (b :: c :: l).getLast (by simp) = (c :: l).getLast (by simp) := List.getLast_cons (by simp)
      rw [this]; ring
  cases l with
  | nil => rfl
  | cons b l =>
    unfold edges
    simp only [List.cons_append, List.tail_cons, List.head?_cons, Option.toList_some]
    have e1 := key (l ++ [a]) b b (fun e => edge p e.1 e.2)
    rw [e1]
    have e2 := key l b a (fun e => edge p e.1 e.2)
    have e3 : (b :: (l ++ [a])).zip (l ++ [a]) = (b :: l).zip (l ++ [a]) := by
      have : b :: (l ++ [a]) = (b :: l) ++ [a] := rfl
      rw [this]
      have hz : ((b :: l) ++ [a]).zip ((l ++ [a]) ++ []) = (b :: l).zip (l ++ [a]) ++ [a].zip [] :=
        List.zip_append (by simp)
      rw [List.append_nil] at hz
      rw [hz]; simp
    rw [e3]
    have e4 : (b :: (l ++ [a])).getLast (by simp) = a := List.getLast_append_singleton (b :: l)
    rw [e4]
    simp only [List.zip_cons_cons, List.map_cons, List.sum_cons]
    ring

theorem zip_swap : ∀ l m : List Pt, (l.zip m).map Prod.swap = m.zip l
  | [], [] => rfl
  | [], _ :: _ => rfl
  | _ :: _, [] => rfl
  | a :: l, b :: m => by simp [zip_swap l m]

theorem sum_map_neg (f : Pt × Pt → Int) : ∀ l : List (Pt × Pt), (l.map (fun e => - f e)).sum = - (l.map f).sum
  | [] => rfl
  | a :: l => by
    rw [List.map_cons, List.map_cons, List.sum_cons, List.sum_cons, sum_map_neg f l]; ring

/-- Where the point is on no line of an edge, the winding number changes its sign with the direction of the polygon. -/
theorem winding_reverse {p : Pt} {v : List Pt} (hoff : ∀ e ∈ edges v, product e.1 e.2 p ≠ 0) :
    winding p v.reverse = - winding p v := by
  have hedge : ∀ e ∈ edges v, edge p e.2 e.1 = - edge p e.1 e.2 := by
    intro e he
    have h0 := hoff e he
    have hs : product e.2 e.1 p = - product e.1 e.2 p := by unfold product; ring
    have hl : isLeft e.2 e.1 p = ! isLeft e.1 e.2 p := by
      unfold isLeft
      rw [hs]
      rcases lt_or_gt_of_ne h0 with h | h
      · have h' : 0 < - product e.1 e.2 p := by linarith
        simp [h', not_lt.2 (le_of_lt h)]
      · have h' : ¬ 0 < - product e.1 e.2 p := by linarith
        simp [h', h]
    unfold edge
    rw [hl]
    by_cases h1 : e.1.2 ≤ p.2 <;> by_cases h2 : e.2.2 ≤ p.2 <;> cases isLeft e.1 e.2 p <;>
      simp [h1, h2, not_le.1, not_lt.2]
  cases v with
  | nil => rfl
  | cons a l =>
    rw [List.reverse_cons, winding_rotate, winding_eq, winding_eq]
    have e1 : edges (a :: l.reverse) = ((edges (a :: l)).map Prod.swap).reverse := by
      unfold edges
      simp only [List.tail_cons, List.head?_cons, Option.toList_some]
      rw [zip_swap]
      have hz := List.reverse_zipWith (f := Prod.mk) (l := l ++ [a]) (l' := a :: l) (by simp)
      simp only [List.reverse_append, List.reverse_cons, List.reverse_nil, List.nil_append, List.singleton_append] at hz
      exact hz.symm
    rw [e1, List.map_reverse, List.sum_reverse, List.map_map]
    have e2 : (edges (a :: l)).map ((fun e => edge p e.1 e.2) ∘ Prod.swap) = (edges (a :: l)).map (fun e => - edge p e.1 e.2) := by
      apply List.map_congr_left
      intro e he
      exact hedge e he
    rw [e2, sum_map_neg]

/-! ### Points inside -/

/-- Strictly left of every edge: the polygon turns around the point, anticlockwise. -/
def LeftOfAll (p : Pt) (v : List Pt) : Prop := ∀ e ∈ edges v, 0 < product e.1 e.2 p

/-- No value decreases strictly along all edges of a closed polygon. -/
theorem no_strict_cycle {v : List Pt} (hne : v ≠ []) (f : Pt → Rat) : ¬ ∀ e ∈ edges v, f e.2 < f e.1 := by
  intro h
  cases v with
  | nil => exact hne rfl
  | cons a l =>
    have key : ∀ (l : List Pt) (b first : Pt), (∀ e ∈ (b :: l).zip (l ++ [first]), f e.2 < f e.1) → f first < f b := by
      intro l
      induction l with
      | nil => intro b first h; exact h (b, first) (by simp)
      | cons c l ih =>
        intro b first h
        have h1 := h (b, c) (by simp)
        have h2 := ih c first (fun e he => h e (by
          simp only [List.cons_append, List.zip_cons_cons, List.mem_cons]; right; exact he))
        simp only at h1
        linarith
    have := key l a a h
    exact lt_irrefl _ this

theorem exists_edge_from {v : List Pt} {w : Pt} (h : w ∈ v) : ∃ e ∈ edges v, e.1 = w := by
  obtain ⟨k, hk⟩ := List.mem_iff_getElem?.1 h
  have hkl := (List.getElem?_eq_some_iff.1 hk).1
  have hl : (v.tail ++ v.head?.toList).length = v.length := by
    cases v with
    | nil => simp at h
    | cons a l => simp
  refine ⟨(w, (v.tail ++ v.head?.toList)[k]'(by omega)), ?_, rfl⟩
  exact List.mem_iff_getElem?.2 ⟨k, List.getElem?_zip_eq_some.2 ⟨hk, List.getElem?_eq_getElem (by omega)⟩⟩

theorem exists_edge_to {v : List Pt} {w : Pt} (h : w ∈ v) : ∃ e ∈ edges v, e.2 = w := by
  have hl : (v.tail ++ v.head?.toList).length = v.length := by
    cases v with
    | nil => simp at h
    | cons a l => simp
  have hw : w ∈ v.tail ++ v.head?.toList := by
    cases v with
    | nil => simp at h
    | cons a l =>
      simp only [List.tail_cons, List.head?_cons, Option.toList_some, List.mem_append, List.mem_singleton]
      rcases List.mem_cons.1 h with h | h
      · exact Or.inr h
      · exact Or.inl h
  obtain ⟨k, hk⟩ := List.mem_iff_getElem?.1 hw
  have hkl := (List.getElem?_eq_some_iff.1 hk).1
  refine ⟨(v[k]'(by omega), w), ?_, rfl⟩
  exact List.mem_iff_getElem?.2 ⟨k, List.getElem?_zip_eq_some.2 ⟨List.getElem?_eq_getElem (by omega), hk⟩⟩

theorem sum_nonneg' : ∀ l : List Int, (∀ c ∈ l, 0 ≤ c) → 0 ≤ l.sum
  | [], _ => by simp
  | x :: l, h => by
    have h1 := h x (by simp)
    have h2 := sum_nonneg' l (fun c hc => h c (by simp [hc]))
    rw [List.sum_cons]; omega

/-- A polygon which turns around the point has an edge which crosses the level of the point upwards. -/
theorem exists_up {p : Pt} {v : List Pt} (hne : v ≠ []) (h : LeftOfAll p v) :
    ∃ e ∈ edges v, e.1.2 ≤ p.2 ∧ p.2 < e.2.2 := by
  by_contra hno
  -- then the sides of the level never change upwards, hence never change
  have hup : ∀ e ∈ edges v, e.1.2 ≤ p.2 → e.2.2 ≤ p.2 := by
    intro e he h1
    by_contra h2
    exact hno ⟨e, he, h1, not_le.1 h2⟩
  have hsame : ∀ e ∈ edges v, (e.1.2 ≤ p.2 ↔ e.2.2 ≤ p.2) := by
    have hsum := telescope (fun w => if w.2 ≤ p.2 then (0 : Int) else 1) v
    have hnn : ∀ c ∈ (edges v).map (fun e => (if e.1.2 ≤ p.2 then (0 : Int) else 1) - (if e.2.2 ≤ p.2 then 0 else 1)), 0 ≤ c := by
      intro c hc
      obtain ⟨e, he, rfl⟩ := List.mem_map.1 hc
      by_cases h1 : e.1.2 ≤ p.2
      · simp [h1, hup e he h1]
      · by_cases h2 : e.2.2 ≤ p.2 <;> simp [h1, h2]
    have hz : ∀ l : List Int, (∀ c ∈ l, 0 ≤ c) → l.sum = 0 → ∀ c ∈ l, c = 0 := by
      intro l
      induction l with
      | nil => intro _ _ c hc; cases hc
      | cons x l ih =>
        intro hl hs c hc
        rw [List.sum_cons] at hs
        have hx := hl x (by simp)
        have hl' : 0 ≤ l.sum := sum_nonneg' l (fun c hc => hl c (by simp [hc]))
        rcases List.mem_cons.1 hc with rfl | hc
        · omega
        · exact ih (fun c hc => hl c (by simp [hc])) (by omega) c hc
    intro e he
    refine ⟨hup e he, fun h2 => ?_⟩
    by_contra h1
    have := hz _ hnn hsum _ (List.mem_map.2 ⟨e, he, rfl⟩)
    simp [h1, h2] at this
  -- all vertices are on the same side
  have hall : (∀ w ∈ v, w.2 ≤ p.2) ∨ (∀ w ∈ v, p.2 < w.2) := by
    cases v with
    | nil => exact absurd rfl hne
    | cons a l =>
      have key : ∀ (l : List Pt) (b first : Pt), (∀ e ∈ (b :: l).zip (l ++ [first]), (e.1.2 ≤ p.2 ↔ e.2.2 ≤ p.2)) →
          ∀ w ∈ b :: l, (w.2 ≤ p.2 ↔ b.2 ≤ p.2) := by
        intro l
        induction l with
        | nil => intro b first _ w hw; rw [List.mem_singleton] at hw; rw [hw]
        | cons c l ih =>
          intro b first hh w hw
          rcases List.mem_cons.1 hw with rfl | hw
          · rfl
          · have h1 := hh (b, c) (by simp)
            have h2 := ih c first (fun e he => hh e (by
              simp only [List.cons_append, List.zip_cons_cons, List.mem_cons]; right; exact he)) w hw
            rw [h2, h1]
      have := key l a a hsame
      by_cases ha : a.2 ≤ p.2
      · left; intro w hw; exact (this w hw).2 ha
      · right; intro w hw; exact not_le.1 (fun hh => ha ((this w hw).1 hh))
  rcases hall with hb | ha
  · -- below or on the level: no vertex is on the level
    have hstrict : ∀ w ∈ v, w.2 < p.2 := by
      intro w hw
      refine lt_of_le_of_ne (hb w hw) ?_
      intro heq
      obtain ⟨e, he, rfl⟩ := exists_edge_from hw
      obtain ⟨e', he', hee⟩ := exists_edge_to hw
      have p1 := h e he
      have p2 := h e' he'
      have b1 := hb _ (mem_edges he).2
      have b2 := hb _ (mem_edges he').1
      rw [hee] at p2
      unfold product at p1 p2
      rw [heq] at p1 p2
      -- p1 : the next vertex is below, so the vertex is on the left; p2: contradiction
      have q1 : 0 < (e.1.1 - p.1) * (e.2.2 - p.2) := by nlinarith
      have q2 : 0 < (p.1 - e.1.1) * (e'.1.2 - p.2) := by nlinarith
      have s1 : e.1.1 - p.1 < 0 := by
        by_contra hn
        have := mul_nonneg (not_lt.1 hn) (sub_nonneg.2 b1)
        nlinarith
      have := mul_nonneg (le_of_lt (neg_pos.2 s1)) (sub_nonneg.2 b2)
      nlinarith
    refine no_strict_cycle hne (fun w => (p.1 - w.1) / (p.2 - w.2)) ?_
    intro e he
    have p1 := h e he
    have b1 := hstrict _ (mem_edges he).1
    have b2 := hstrict _ (mem_edges he).2
    unfold product at p1
    rw [div_lt_div_iff₀ (by linarith) (by linarith)]
    nlinarith
  · refine no_strict_cycle hne (fun w => (w.1 - p.1) / (w.2 - p.2)) ?_
    intro e he
    have p1 := h e he
    have b1 := ha _ (mem_edges he).1
    have b2 := ha _ (mem_edges he).2
    unfold product at p1
    rw [div_lt_div_iff₀ (by linarith) (by linarith)]
    nlinarith

/-- **C35** (inside): a point strictly on the left of every edge has a positive winding number. -/
theorem winding_inside {p : Pt} {v : List Pt} (hne : v ≠ []) (h : LeftOfAll p v) : 0 < winding p v := by
  rw [winding_eq]
  obtain ⟨e, he, h1, h2⟩ := exists_up hne h
  have hnn : ∀ c ∈ (edges v).map (fun e => edge p e.1 e.2), 0 ≤ c := by
    intro c hc
    obtain ⟨e, he, rfl⟩ := List.mem_map.1 hc
    have hl : isLeft e.1 e.2 p = true := by simpa [isLeft] using h e he
    unfold edge
    rw [hl]
    split <;> split <;> simp
  have hone : edge p e.1 e.2 = 1 := by
    have hl : isLeft e.1 e.2 p = true := by simpa [isLeft] using h e he
    unfold edge
    rw [hl, if_pos h1, if_pos h2]; rfl
  have hsum : ∀ (l : List Int) (c : Int), (∀ x ∈ l, 0 ≤ x) → c ∈ l → c ≤ l.sum := by
    intro l
    induction l with
    | nil => intro c _ hc; cases hc
    | cons x l ih =>
      intro c hl hc
      rw [List.sum_cons]
      have hx := hl x (by simp)
      have hl' : 0 ≤ l.sum := sum_nonneg' l (fun c hc => hl c (by simp [hc]))
      rcases List.mem_cons.1 hc with rfl | hc
      · omega
      · have := ih c (fun x hx => hl x (by simp [hx])) hc
        omega
  have := hsum _ _ hnn (List.mem_map.2 ⟨e, he, rfl⟩)
  omega

/-- A convex polygon, anticlockwise: every vertex is on the left of (or on) the line of every edge. -/
def ConvexLeft (v : List Pt) : Prop := ∀ e ∈ edges v, ∀ w ∈ v, 0 ≤ product e.1 e.2 w

/-- **C35** (convex polygons): a point which is on no line of an edge is inside (left of all edges) exactly when its winding
number is not 0. -/
theorem winding_convex {p : Pt} {v : List Pt} (hne : v ≠ []) (hc : ConvexLeft v)
    (hoff : ∀ e ∈ edges v, product e.1 e.2 p ≠ 0) : winding p v ≠ 0 ↔ LeftOfAll p v := by
  constructor
  · intro hw e he
    by_contra hn
    apply hw
    have hlt : product e.1 e.2 p < 0 := lt_of_le_of_ne (not_lt.1 hn) (hoff e he)
    apply winding_separated
    refine ⟨(-(e.2.2 - e.1.2), e.2.1 - e.1.1), fun w hw' => ?_⟩
    have h1 := hc e he w hw'
    unfold product at h1 hlt
    simp only
    nlinarith
  · intro h
    have := winding_inside hne h
    omega

/-- A triangle and points in and out of it. -/
example : winding (1, 1) [(0, 0), (4, 0), (0, 4)] = 1 ∧ winding (3, 3) [(0, 0), (4, 0), (0, 4)] = 0 ∧
    winding (1, 1) [(0, 0), (0, 4), (4, 0)] = -1 := by decide +kernel

example : ConvexLeft [(0, 0), (4, 0), (0, 4)] ∧ LeftOfAll (1, 1) [(0, 0), (4, 0), (0, 4)] := by
  have h : edges [((0 : Rat), (0 : Rat)), (4, 0), (0, 4)] = [((0, 0), (4, 0)), ((4, 0), (0, 4)), ((0, 4), (0, 0))] := rfl
  constructor
  · unfold ConvexLeft
    rw [h]
    decide +kernel
  · unfold LeftOfAll
    rw [h]
    decide +kernel

example : Separated (3, 3) [(0, 0), (4, 0), (0, 4)] := ⟨(-1, -1), by decide +kernel⟩

end Verif.Poly
