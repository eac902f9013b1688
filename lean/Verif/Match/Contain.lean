import Verif.Match.Props

/-!
# C77: inclusion of a polygon in another one

Model of `poly_contain_poly` (src/py_eddy_tracker/poly.py) and its properties. Coordinates are exact rationals.
-/

namespace Verif.Match

open Verif.Poly

/-! ### Model -/

/-- Longitudes of the inner polygon, `poly_contain_poly`, poly.py:60-64. -/
def containX (out inn : List Pt) : List Pt :=
  let ref := (out.headD (0, 0)).1
  if |(inn.headD (0, 0)).1 - ref| > 180 then inn.map (fun w => (Py.fmod (w.1 - ref + 180) 360 + ref - 180, w.2)) else inn

/-- `poly_contain_poly`, poly.py:50-70. -/
def polyContainPoly (out inn : List Pt) : Bool := (containX out inn).all (fun w => decide (winding w out ≠ 0))

/-! ### Lemmas -/

theorem containX_eq (out inn : List Pt) : containX out inn = wrapVertice out inn := by
  unfold containX wrapVertice
  simp only
  rw [abs_sub_comm]
  have h : ∀ r x : Rat, Py.fmod (x - r + 180) 360 + r - 180 = wrapAt (r - 180) x := by
    intro r x
    unfold wrapAt
    rw [show x - (r - 180) = x - r + 180 by ring]
    ring
  simp only [h]

theorem in_box {p : Pt} {v : List Pt} (h : winding p v ≠ 0) : (∃ u ∈ v, u.1 ≤ p.1) ∧ (∃ u ∈ v, p.1 ≤ u.1) ∧ (∃ u ∈ v, u.2 ≤ p.2) ∧ ∃ u ∈ v, p.2 ≤ u.2 := by
  have b : ¬ OutsideBox p v := fun h' => h (winding_outside_box h')
  unfold OutsideBox at b
  push Not at b
  exact b

/-- Every vertex of `wrapVertice` is a vertex of the second contour, moved by turns. -/
theorem wrapVertice_mem (c0 c1 : List Pt) : ∃ f : Rat → Rat, (∀ x, ∃ k : Int, f x = x + 360 * k) ∧ wrapVertice c0 c1 = c1.map (fun w => (f w.1, w.2)) := by
  unfold wrapVertice
  simp only
  by_cases h : |(c0.headD (0, 0)).1 - (c1.headD (0, 0)).1| > 180
  · rw [if_pos h]
    exact ⟨_, fun x => (wrapAt_spec _ x).2.2, rfl⟩
  · rw [if_neg h]
    exact ⟨fun x => x, fun x => ⟨0, by simp⟩, by simp⟩

/-! ### C77 -/

/-- **C77**: the inner contour is said inside exactly when, moved by some whole turns, all its vertices are inside the outer contour.
Missing: wide contours (`contain_wide_wrong`), and the edges of the inner contour when the outer one is not convex (`contain_notch_wrong`). -/
theorem contain_partial {out inn : List Pt} (hne : inn ≠ []) (ho : out ≠ []) (hw : Narrow out inn) :
    polyContainPoly out inn = true ↔ ∃ k : Int, ∀ p ∈ inn, winding (p.1 + 360 * k, p.2) out ≠ 0 := by
  unfold polyContainPoly
  rw [containX_eq, List.all_eq_true]
  constructor
  · intro h
    obtain ⟨f, hf, e⟩ := wrapVertice_mem out inn
    rw [e] at h
    have hin : ∀ p ∈ inn, winding (f p.1, p.2) out ≠ 0 := by
      intro p hp
      simpa using h (f p.1, p.2) (List.mem_map.2 ⟨p, hp, rfl⟩)
    obtain ⟨q, l, rfl⟩ := List.exists_cons_of_ne_nil hne
    obtain ⟨k, hk⟩ := hf q.1
    refine ⟨k, fun p hp => ?_⟩
    have hq : q ∈ q :: l := List.mem_cons_self
    obtain ⟨m, hm⟩ := hf p.1
    obtain ⟨⟨a, ha, a1⟩, ⟨b, hb, b1⟩, _⟩ := in_box (hin p hp)
    obtain ⟨⟨c, hc, c1⟩, ⟨d, hd, d1⟩, _⟩ := in_box (hin q hq)
    simp only at a1 b1 c1 d1
    have w1 := hw b hb c hc q hq p hp
    have w2 := hw d hd a ha p hp q hq
    rw [hm] at a1 b1
    rw [hk] at c1 d1
    have g1 : (m : Rat) - k < 1 := by linarith
    have g2 : (k : Rat) - m < 1 := by linarith
    have i1 : m - k < 1 := by exact_mod_cast g1
    have i2 : k - m < 1 := by exact_mod_cast g2
    obtain rfl : m = k := by omega
    rw [← hm]
    exact hin p hp
  · rintro ⟨k, hk⟩ w hmem
    obtain ⟨q, l, rfl⟩ := List.exists_cons_of_ne_nil hne
    have hq : q ∈ q :: l := List.mem_cons_self
    obtain ⟨⟨a, ha, a1⟩, ⟨b, hb, b1⟩, ⟨c, hc, c1⟩, ⟨d, hd, d1⟩⟩ := in_box (hk q hq)
    have hqt : (q.1 + 360 * (k : Rat), q.2) ∈ turned k (q :: l) := List.mem_map.2 ⟨q, hq, rfl⟩
    have hb : BoxesMeet out (turned k (q :: l)) := ⟨⟨a, ha, _, hqt, a1⟩, ⟨b, hb, _, hqt, b1⟩, ⟨c, hc, _, hqt, c1⟩, ⟨d, hd, _, hqt, d1⟩⟩
    rw [wrap_vertice_partial ho hne hw hb] at hmem
    obtain ⟨p, hp, rfl⟩ := List.mem_map.1 hmem
    simpa using hk p hp

/-- The result does not change when the inner contour is moved by a whole turn. -/
theorem contain_turn {out inn : List Pt} (hne : inn ≠ []) (ho : out ≠ []) (hw : Narrow out inn) (n : Int) :
    polyContainPoly out (turned n inn) = polyContainPoly out inn := by
  have hw' : Narrow out (turned n inn) := by
    intro u hu u' hu' w mw w' mw'
    obtain ⟨z, hz, rfl⟩ := List.mem_map.1 mw
    obtain ⟨z', hz', rfl⟩ := List.mem_map.1 mw'
    have := hw u hu u' hu' z hz z' hz'
    simp only
    linarith
  have hne' : turned n inn ≠ [] := by unfold turned; simpa using hne
  rw [Bool.eq_iff_iff, contain_partial hne' ho hw', contain_partial hne ho hw]
  constructor
  · rintro ⟨k, hk⟩
    refine ⟨k + n, fun p hp => ?_⟩
    have := hk (p.1 + 360 * (n : Rat), p.2) (List.mem_map.2 ⟨p, hp, rfl⟩)
    simp only at this
    rw [show p.1 + 360 * ((k + n : Int) : Rat) = p.1 + 360 * (n : Rat) + 360 * (k : Rat) by push_cast; ring]
    exact this
  · rintro ⟨k, hk⟩
    refine ⟨k - n, fun p mp => ?_⟩
    obtain ⟨q, hq, rfl⟩ := List.mem_map.1 mp
    have := hk q hq
    simp only
    rw [show q.1 + 360 * (n : Rat) + 360 * ((k - n : Int) : Rat) = q.1 + 360 * (k : Rat) by push_cast; ring]
    exact this

theorem convex_nonneg {p : Pt} {v : List Pt} (hc : ConvexLeft v) (hw : winding p v ≠ 0) : ∀ e ∈ edges v, 0 ≤ product e.1 e.2 p := by
  intro e he
  by_contra hn
  apply hw
  apply winding_separated
  refine ⟨(-(e.2.2 - e.1.2), e.2.1 - e.1.1), fun w hw' => ?_⟩
  have h1 := hc e he w hw'
  unfold product at h1 hn
  simp only
  nlinarith

/-- **C77** (convex outer contour): when the inner contour is said inside, the whole segment between any two of its vertices (its edges, its
diagonals) is on the inner side of every edge of the outer contour. -/
theorem contain_convex {out inn : List Pt} (hne : inn ≠ []) (ho : out ≠ []) (hw : Narrow out inn) (hc : ConvexLeft out)
    (h : polyContainPoly out inn = true) : ∃ k : Int, ∀ p ∈ inn, ∀ q ∈ inn, ∀ t : Rat, 0 ≤ t → t ≤ 1 → ∀ e ∈ edges out,
    0 ≤ product e.1 e.2 (p.1 + t * (q.1 - p.1) + 360 * k, p.2 + t * (q.2 - p.2)) := by
  obtain ⟨k, hk⟩ := (contain_partial hne ho hw).1 h
  refine ⟨k, fun p hp q hq t t0 t1 e he => ?_⟩
  have h1 := convex_nonneg hc (hk p hp) e he
  have h2 := convex_nonneg hc (hk q hq) e he
  have e1 : product e.1 e.2 (p.1 + t * (q.1 - p.1) + 360 * k, p.2 + t * (q.2 - p.2)) =
      (1 - t) * product e.1 e.2 (p.1 + 360 * k, p.2) + t * product e.1 e.2 (q.1 + 360 * k, q.2) := by
    unfold product
    simp only
    ring
  rw [e1]
  have := mul_nonneg (sub_nonneg.2 t1) h1
  have := mul_nonneg t0 h2
  linarith

/-- An outer contour with a notch: all the vertices of the inner contour are inside, the middle of its first edge is not. -/
theorem contain_notch_wrong : ∃ out inn : List Pt, polyContainPoly out inn = true ∧ Narrow out inn ∧
    (((1 : Rat), (2 : Rat)), ((5 : Rat), (2 : Rat))) ∈ edges inn ∧ winding (3, 2) out = 0 := by
  refine ⟨[(0, 0), (6, 0), (6, 4), (4, 4), (4, 1), (2, 1), (2, 4), (0, 4)], [(1, 2), (5, 2), (3, 1 / 2)], ?_, ?_, ?_, ?_⟩
  · have hx : containX [(0, 0), (6, 0), (6, 4), (4, 4), (4, 1), (2, 1), (2, 4), (0, 4)] [(1, 2), (5, 2), (3, 1 / 2)] = [(1, 2), (5, 2), (3, 1 / 2)] := by
      show (if |(1 : Rat) - 0| > 180 then _ else _) = _
      rw [if_neg (by norm_num)]
    unfold polyContainPoly
    rw [hx]
    decide +kernel
  · unfold Narrow
    decide +kernel
  · decide +kernel
  · decide +kernel

/-- A contour of 200 degrees and a small contour in its east half: both are written in the same turn, the second one is moved to the turn
before and is not found. -/
theorem contain_wide_wrong : ∃ out inn : List Pt, polyContainPoly out inn = false ∧ ∀ p ∈ inn, winding p out ≠ 0 := by
  refine ⟨[(0, 0), (200, 0), (200, 10), (0, 10)], [(190, 4), (192, 4), (191, 6)], ?_, ?_⟩
  · have hx : containX [(0, 0), (200, 0), (200, 10), (0, 10)] [(190, 4), (192, 4), (191, 6)] = [(-170, 4), (-168, 4), (-169, 6)] := by
      show (if |(190 : Rat) - 0| > 180 then _ else _) = _
      rw [if_pos (by norm_num)]
      decide +kernel
    unfold polyContainPoly
    rw [hx]
    decide +kernel
  · decide +kernel

/-- A contour across the turn: the inner contour is written in another turn. -/
example : Narrow [(358, 0), (364, 0), (364, 6), (358, 6)] [(1, 1), (2, 1), (1, 2)] ∧
    (∀ p ∈ [((1 : Rat), (1 : Rat)), (2, 1), (1, 2)], winding (p.1 + 360 * ((1 : Int) : Rat), p.2) [(358, 0), (364, 0), (364, 6), (358, 6)] ≠ 0) := by
  unfold Narrow
  decide +kernel

end Verif.Match
