import Verif.Match.Model
import Verif.Links.Props

/-!
# C74, C75: couples of eddies
-/

namespace Verif.Match

open Verif.Poly

/-! ### Couples -/

theorem zipIdx_sorted {α : Type} : ∀ (l : List α) (k : Nat), (l.zipIdx k).Pairwise (fun a b => a.2 < b.2)
  | [], _ => List.Pairwise.nil
  | a :: l, k => by
    rw [List.zipIdx_cons, List.pairwise_cons]
    refine ⟨?_, zipIdx_sorted l (k + 1)⟩
    rintro ⟨b, j⟩ hb
    have := List.le_snd_of_mem_zipIdx hb
    simp only at this ⊢
    omega

theorem mem_couples {α β : Type} (test : α → β → Bool) (l0 : List α) (l1 : List β) (i j : Nat) :
    (i, j) ∈ couples test l0 l1 ↔ ∃ a b, l0[i]? = some a ∧ l1[j]? = some b ∧ test a b = true := by
  unfold couples
  simp only [List.mem_flatMap, List.mem_map, List.mem_filter, Prod.exists, List.mem_zipIdx_iff_getElem?, Prod.mk.injEq]
  constructor
  · rintro ⟨a, i', ha, b, j', ⟨hb, ht⟩, rfl, rfl⟩
    exact ⟨a, b, ha, hb, ht⟩
  · rintro ⟨a, b, ha, hb, ht⟩
    exact ⟨a, i, ha, b, j, ⟨hb, ht⟩, rfl, rfl⟩

/-- Each couple once, in the order of the rows. -/
theorem couples_sorted {α β : Type} (test : α → β → Bool) (l0 : List α) (l1 : List β) :
    (couples test l0 l1).Pairwise (fun p q => p.1 < q.1 ∨ p.1 = q.1 ∧ p.2 < q.2) := by
  unfold couples
  rw [List.pairwise_flatMap]
  constructor
  · rintro ⟨a, i⟩ _
    rw [List.pairwise_map]
    exact ((zipIdx_sorted l1 0).filter _).imp (fun h => Or.inr ⟨rfl, h⟩)
  · refine (zipIdx_sorted l0 0).imp (fun {a b} h => ?_)
    intro x hx y hy
    obtain ⟨_, _, rfl⟩ := List.mem_map.1 hx
    obtain ⟨_, _, rfl⟩ := List.mem_map.1 hy
    exact Or.inl h

theorem couples_nodup {α β : Type} (test : α → β → Bool) (l0 : List α) (l1 : List β) : (couples test l0 l1).Nodup :=
  (couples_sorted test l0 l1).imp (fun h e => by subst e; rcases h with h | h <;> omega)

/-! ### C74: centres -/

/-- **C74** (centres): `match(method="close_center")` gives exactly the couples whose latitudes differ by at most `delta` and whose
longitudes, taken modulo 360, differ by at most `delta`. -/
theorem close_center_spec (delta : Rat) (l0 l1 : List Pt) :
    (closeCenter delta l0 l1).Nodup ∧ ∀ i j : Nat, (i, j) ∈ closeCenter delta l0 l1 ↔
      ∃ p q, l0[i]? = some p ∧ l1[j]? = some q ∧ |q.2 - p.2| ≤ delta ∧ ∃ k : Int, |q.1 - p.1 + 360 * k| ≤ delta := by
  refine ⟨couples_nodup _ _ _, fun i j => ?_⟩
  unfold closeCenter
  rw [mem_couples]
  have key : ∀ p q : Pt, closeTest delta p q = true ↔ |q.2 - p.2| ≤ delta ∧ ∃ k : Int, |q.1 - p.1 + 360 * k| ≤ delta := by
    intro p q
    -- the distance of the code is the smallest one
    have hmin : ∃ k0 : Int, (if |q.1 - p.1| > 180 then Py.fmod (q.1 - p.1 + 180) 360 - 180 else q.1 - p.1) = q.1 - p.1 + 360 * k0 ∧
        |q.1 - p.1 + 360 * k0| ≤ 180 := by
      split
      · obtain ⟨a1, a2, m, hm⟩ := Py.fmod_spec (q.1 - p.1 + 180) (show (0 : Rat) < 360 by norm_num)
        have he : q.1 - p.1 + 360 * (m : Rat) = Py.fmod (q.1 - p.1 + 180) 360 - 180 := by rw [hm]; ring
        refine ⟨m, he.symm, ?_⟩
        rw [he, abs_le]
        constructor <;> linarith
      · rename_i h
        exact ⟨0, by push_cast; ring, by push_cast; rw [mul_zero, add_zero]; exact not_lt.1 h⟩
    obtain ⟨k0, e0, b0⟩ := hmin
    have hle : ∀ k : Int, |q.1 - p.1 + 360 * k0| ≤ |q.1 - p.1 + 360 * k| := by
      intro k
      rcases eq_or_ne k k0 with rfl | hk
      · exact le_refl _
      · have h1 : (1 : Rat) ≤ |((k - k0 : Int) : Rat)| := by
          have : (1 : Int) ≤ |k - k0| := Int.one_le_abs (sub_ne_zero.2 hk)
          rw [← Int.cast_abs]
          exact_mod_cast this
        have h2 : q.1 - p.1 + 360 * (k : Rat) = (q.1 - p.1 + 360 * k0) + 360 * ((k - k0 : Int) : Rat) := by push_cast; ring
        have h3 := abs_sub_abs_le_abs_sub (360 * ((k - k0 : Int) : Rat)) (-(q.1 - p.1 + 360 * (k0 : Rat)))
        rw [abs_neg, sub_neg_eq_add, abs_mul] at h3
        rw [h2, add_comm (q.1 - p.1 + 360 * (k0 : Rat))]
        have h4 : |(360 : Rat)| = 360 := by norm_num
        rw [h4] at h3
        linarith
    unfold closeTest
    simp only
    rw [e0]
    constructor
    · intro h
      split at h
      · exact absurd h (by simp)
      · split at h
        · exact absurd h (by simp)
        · rename_i h1 h2
          exact ⟨not_lt.1 h2, k0, not_lt.1 h1⟩
    · rintro ⟨h1, k, h2⟩
      rw [if_neg (not_lt.2 (le_trans (hle k) h2)), if_neg (not_lt.2 h1)]
  simp only [key]

example : closeCenter (1 / 10) [(0, 0), (10, 5)] [(359 + 19 / 20, 1 / 20), (10, 5), (180, 0)] = [(0, 0), (1, 1)] := by decide +kernel

/-! ### C74: contours -/

/-- The contour moved by `k` turns. -/
def turned (k : Int) (c : List Pt) : List Pt := c.map (fun w => (w.1 + 360 * k, w.2))

/-- The boxes of two contours have a common point. -/
structure BoxesMeet (c0 c1 : List Pt) : Prop where
  west : ∃ u ∈ c0, ∃ w ∈ c1, u.1 ≤ w.1
  east : ∃ u ∈ c0, ∃ w ∈ c1, w.1 ≤ u.1
  south : ∃ u ∈ c0, ∃ w ∈ c1, u.2 ≤ w.2
  north : ∃ u ∈ c0, ∃ w ∈ c1, w.2 ≤ u.2

/-- The widths of the two contours are together less than 180 degrees. -/
def Narrow (c0 c1 : List Pt) : Prop := ∀ u ∈ c0, ∀ u' ∈ c0, ∀ w ∈ c1, ∀ w' ∈ c1, (u.1 - u'.1) + (w.1 - w'.1) < 180

theorem wrapAt_spec (ref x : Rat) : ref ≤ wrapAt ref x ∧ wrapAt ref x < ref + 360 ∧ ∃ k : Int, wrapAt ref x = x + 360 * k := by
  obtain ⟨a1, a2, m, hm⟩ := Py.fmod_spec (x - ref) (show (0 : Rat) < 360 by norm_num)
  unfold wrapAt
  exact ⟨by linarith, by linarith, m, by rw [hm]; ring⟩

theorem wrapAt_unique {ref x : Rat} {k : Int} (h1 : ref ≤ x + 360 * k) (h2 : x + 360 * k < ref + 360) : wrapAt ref x = x + 360 * k := by
  unfold wrapAt
  rw [fmod_unique (z := x + 360 * k - ref) (by linarith) (by linarith) (k := k) (by ring)]
  ring

theorem min_map {c : List Pt} (f : Pt → Rat) (hne : c ≠ []) : (∃ u ∈ c, f u = minR (c.map f)) ∧ ∀ u ∈ c, minR (c.map f) ≤ f u := by
  obtain ⟨h1, h2⟩ := minR_spec (l := c.map f) (by simpa using hne)
  exact ⟨List.mem_map.1 h1, fun u hu => h2 _ (List.mem_map_of_mem hu)⟩

theorem max_map {c : List Pt} (f : Pt → Rat) (hne : c ≠ []) : (∃ u ∈ c, f u = maxR (c.map f)) ∧ ∀ u ∈ c, f u ≤ maxR (c.map f) := by
  obtain ⟨h1, h2⟩ := maxR_spec (l := c.map f) (by simpa using hne)
  exact ⟨List.mem_map.1 h1, fun u hu => h2 _ (List.mem_map_of_mem hu)⟩

/-- The number of turns between two integers whose distance in longitude is less than one turn. -/
theorem turn_zero {k : Int} (h : |(360 : Rat) * k| < 360) : k = 0 := by
  rw [abs_mul, abs_of_pos (by norm_num : (0 : Rat) < 360)] at h
  have : |(k : Rat)| < 1 := by linarith
  rw [← Int.cast_abs] at this
  have h' : |k| < 1 := by exact_mod_cast this
  exact Int.abs_lt_one_iff.1 h'

/-- **C74** (boxes): for two contours whose widths are together under 180 degrees, the test of the boxes is exact modulo 360.
Missing: wide contours, see `box_wide_wrong`. -/
theorem box_test_partial {c0 c1 : List Pt} (h0 : c0 ≠ []) (h1 : c1 ≠ []) (hw : Narrow c0 c1) :
    boxTest c0 c1 = true ↔ ∃ k : Int, BoxesMeet c0 (turned k c1) := by
  obtain ⟨⟨um, hum, eum⟩, lum⟩ := min_map (·.1) h0
  obtain ⟨⟨uM, huM, euM⟩, luM⟩ := max_map (·.1) h0
  obtain ⟨⟨vm, hvm, evm⟩, lvm⟩ := min_map (·.2) h0
  obtain ⟨⟨vM, hvM, evM⟩, lvM⟩ := max_map (·.2) h0
  obtain ⟨⟨wm, hwm, ewm⟩, lwm⟩ := min_map (·.1) h1
  obtain ⟨⟨wM, hwM, ewM⟩, lwM⟩ := max_map (·.1) h1
  obtain ⟨⟨zm, hzm, ezm⟩, lzm⟩ := min_map (·.2) h1
  obtain ⟨⟨zM, hzM, ezM⟩, lzM⟩ := max_map (·.2) h1
  have hwid := hw uM huM um hum wM hwM wm hwm
  have hwid0 := lum uM huM
  have hwid1 := lwm wM hwM
  rw [← eum] at hwid0
  rw [← ewm] at hwid1
  -- the meeting in terms of the bounds
  have hmeet : (∃ k : Int, BoxesMeet c0 (turned k c1)) ↔
      ((vm.2 ≤ zM.2 ∧ zm.2 ≤ vM.2) ∧ ∃ k : Int, um.1 ≤ wM.1 + 360 * k ∧ wm.1 + 360 * k ≤ uM.1) := by
    constructor
    · rintro ⟨k, ⟨a, ha, b, hb, hab⟩, ⟨a', ha', b', hb', hab'⟩, ⟨c, hc, d, hd, hcd⟩, ⟨c', hc', d', hd', hcd'⟩⟩
      obtain ⟨b, mb, rfl⟩ := List.mem_map.1 hb
      obtain ⟨b', mb', rfl⟩ := List.mem_map.1 hb'
      obtain ⟨d, md, rfl⟩ := List.mem_map.1 hd
      obtain ⟨d', md', rfl⟩ := List.mem_map.1 hd'
      simp only at hab hab' hcd hcd'
      have := lum a ha; have := lwM b mb; have := luM a' ha'; have := lwm b' mb'
      have := lvm c hc; have := lzM d md; have := lvM c' hc'; have := lzm d' md'
      exact ⟨⟨by linarith, by linarith⟩, k, by linarith, by linarith⟩
    · rintro ⟨⟨y1, y2⟩, k, x1, x2⟩
      exact ⟨k, ⟨um, hum, _, List.mem_map_of_mem hwM, x1⟩, ⟨uM, huM, _, List.mem_map_of_mem hwm, x2⟩,
        ⟨vm, hvm, _, List.mem_map_of_mem hzM, y1⟩, ⟨vM, hvM, _, List.mem_map_of_mem hzm, y2⟩⟩
  rw [hmeet]
  unfold boxTest
  simp only
  rw [← eum, ← euM, ← evm, ← evM, ← ewm, ← ewM, ← ezm, ← ezM]
  by_cases hy : vM.2 < zm.2 ∨ vm.2 > zM.2
  · rw [if_pos hy]
    constructor
    · intro h; exact absurd h (by simp)
    · rintro ⟨⟨y1, y2⟩, _⟩
      rcases hy with h | h <;> linarith
  rw [if_neg hy]
  have hy1 : vm.2 ≤ zM.2 := not_lt.1 (fun h => hy (Or.inr h))
  have hy2 : zm.2 ≤ vM.2 := not_lt.1 (fun h => hy (Or.inl h))
  by_cases hwr : |um.1 - wm.1| > 180
  · rw [decide_eq_true hwr, if_pos rfl, if_pos rfl]
    obtain ⟨a1, a2, ka, ea⟩ := wrapAt_spec (um.1 - 180) wm.1
    obtain ⟨b1, b2, kb, eb⟩ := wrapAt_spec (um.1 - 180) wM.1
    constructor
    · intro h
      split at h
      · exact absurd h (by simp)
      · rename_i hx
        have x1 := not_lt.1 (fun h => hx (Or.inl h))
        have x2 := not_lt.1 (fun h => hx (Or.inr h))
        -- the eastern bound is in the same turn
        have hk : wrapAt (um.1 - 180) wM.1 = wM.1 + 360 * ka := wrapAt_unique (by linarith) (by linarith)
        exact ⟨⟨hy1, hy2⟩, ka, by rw [← hk]; exact x2, by rw [← ea]; exact x1⟩
    · rintro ⟨_, k, x1, x2⟩
      have e1 : wrapAt (um.1 - 180) wm.1 = wm.1 + 360 * k := wrapAt_unique (by linarith) (by linarith)
      have e2 : wrapAt (um.1 - 180) wM.1 = wM.1 + 360 * k := wrapAt_unique (by linarith) (by linarith)
      rw [e1, e2, if_neg (by rintro (h | h) <;> linarith)]
  · simp only [decide_eq_false hwr, Bool.false_eq_true, if_false]
    rw [gt_iff_lt, not_lt, abs_le] at hwr
    constructor
    · intro h
      split at h
      · exact absurd h (by simp)
      · rename_i hx
        have x1 := not_lt.1 (fun h => hx (Or.inl h))
        have x2 := not_lt.1 (fun h => hx (Or.inr h))
        exact ⟨⟨hy1, hy2⟩, 0, by push_cast; linarith, by push_cast; linarith⟩
    · rintro ⟨_, k, x1, x2⟩
      have hk : k = 0 := turn_zero (by rw [abs_lt]; constructor <;> linarith)
      subst hk
      push_cast at x1 x2
      rw [if_neg (by rintro (h | h) <;> linarith)]

/-- Two wide contours whose boxes meet between the longitudes 90 and 100 (450 and 460): they are not compared. -/
theorem box_wide_wrong : boxTest [(0, 0), (100, 0), (100, 1)] [(450, 0), (550, 0), (550, 1)] = false ∧
    ∃ k : Int, BoxesMeet [(0, 0), (100, 0), (100, 1)] (turned k [(450, 0), (550, 0), (550, 1)]) := by
  refine ⟨by decide +kernel, -1, ?_⟩
  unfold turned
  constructor <;> decide +kernel

/-- **C74**: no overlap is missed. Two contours which turn around a common point (modulo 360) are compared. -/
theorem common_point_compared {c0 c1 : List Pt} (hw : Narrow c0 c1) (p : Pt) (k : Int) (hp : winding p c0 ≠ 0)
    (hq : winding p (turned k c1) ≠ 0) : boxTest c0 c1 = true := by
  have h0 : c0 ≠ [] := by rintro rfl; exact hp rfl
  have h1 : c1 ≠ [] := by rintro rfl; exact hq rfl
  rw [box_test_partial h0 h1 hw]
  refine ⟨k, ?_⟩
  have b0 : ¬ OutsideBox p c0 := fun h => hp (winding_outside_box h)
  have b1 : ¬ OutsideBox p (turned k c1) := fun h => hq (winding_outside_box h)
  unfold OutsideBox at b0 b1
  push Not at b0 b1
  obtain ⟨⟨a1, ha1, g1⟩, ⟨a2, ha2, g2⟩, ⟨a3, ha3, g3⟩, ⟨a4, ha4, g4⟩⟩ := b0
  obtain ⟨⟨e1, he1, f1⟩, ⟨e2, he2, f2⟩, ⟨e3, he3, f3⟩, ⟨e4, he4, f4⟩⟩ := b1
  refine ⟨⟨a1, ha1, e2, he2, ?_⟩, ⟨a2, ha2, e1, he1, ?_⟩, ⟨a3, ha3, e4, he4, ?_⟩, ⟨a4, ha4, e3, he3, ?_⟩⟩ <;> linarith

/-- The turn where the boxes meet is unique. -/
theorem meet_unique {c0 c1 : List Pt} (hw : Narrow c0 c1) {k k' : Int} (h : BoxesMeet c0 (turned k c1)) (h' : BoxesMeet c0 (turned k' c1)) :
    k = k' := by
  obtain ⟨a, ha, _, hb, h1⟩ := h.west
  obtain ⟨a', ha', _, hb', h2⟩ := h.east
  obtain ⟨c, hc, _, hd, h3⟩ := h'.west
  obtain ⟨c', hc', _, hd', h4⟩ := h'.east
  obtain ⟨b, mb, rfl⟩ := List.mem_map.1 hb
  obtain ⟨b', mb', rfl⟩ := List.mem_map.1 hb'
  obtain ⟨d, md, rfl⟩ := List.mem_map.1 hd
  obtain ⟨d', md', rfl⟩ := List.mem_map.1 hd'
  simp only at h1 h2 h3 h4
  have w1 := hw c' hc' a ha b mb d' md'
  have w2 := hw a' ha' c hc d md b' mb'
  have : k - k' = 0 := turn_zero (by rw [abs_lt]; push_cast; constructor <;> linarith)
  omega

/-- **C74**: the second contour is moved, as a whole, to the turn where its box meets the box of the first one. Missing: wide contours. -/
theorem wrap_vertice_partial {c0 c1 : List Pt} (h0 : c0 ≠ []) (h1 : c1 ≠ []) (hw : Narrow c0 c1) {k : Int} (h : BoxesMeet c0 (turned k c1)) :
    wrapVertice c0 c1 = turned k c1 := by
  obtain ⟨p, l0, rfl⟩ := List.exists_cons_of_ne_nil h0
  obtain ⟨q, l1, rfl⟩ := List.exists_cons_of_ne_nil h1
  obtain ⟨a, ha, _, hb, g1⟩ := h.west
  obtain ⟨a', ha', _, hb', g2⟩ := h.east
  obtain ⟨b, mb, rfl⟩ := List.mem_map.1 hb
  obtain ⟨b', mb', rfl⟩ := List.mem_map.1 hb'
  simp only at g1 g2
  have hp : p ∈ p :: l0 := List.mem_cons_self
  have hq : q ∈ q :: l1 := List.mem_cons_self
  have near : ∀ w ∈ q :: l1, p.1 - 180 < w.1 + 360 * k ∧ w.1 + 360 * k < p.1 + 180 := by
    intro w hw'
    have w1 := hw p hp a ha b mb w hw'
    have w2 := hw a' ha' p hp w hw' b' mb'
    constructor <;> linarith
  show (if |p.1 - q.1| > 180 then (q :: l1).map (fun w => (wrapAt (p.1 - 180) w.1, w.2)) else q :: l1) = _
  by_cases hle : |p.1 - q.1| > 180
  · rw [if_pos hle]
    unfold turned
    apply List.map_congr_left
    intro w hw'
    obtain ⟨n1, n2⟩ := near w hw'
    rw [wrapAt_unique (by linarith) (by linarith)]
  · rw [if_neg hle]
    rw [gt_iff_lt, not_lt, abs_le] at hle
    obtain ⟨n1, n2⟩ := near q hq
    have hk : k = 0 := turn_zero (by rw [abs_lt]; constructor <;> linarith)
    subst hk
    unfold turned
    simp

/-! ### C74: scores -/

/-- The areas are coherent: an intersection is not larger than its polygons, and is null when the boxes do not meet. -/
structure Coherent (g : Areas) : Prop where
  nonneg : ∀ c d, 0 ≤ g.inter c d
  left : ∀ c d, g.inter c d ≤ g.area c
  right : ∀ c d, g.inter c d ≤ g.area d
  apart : ∀ c d, ¬ BoxesMeet c d → g.inter c d = 0

/-- The documented ratio: intersection over union, or over the smallest polygon, or over the second polygon. -/
def ratio (o : Options) (i a0 a1 : Rat) : Rat :=
  i / (if o.minimal then min a0 a1 else if o.p1 then a1 else a0 + a1 - i)

theorem ratio_range {o : Options} {i a0 a1 : Rat} (hi : 0 < i) (h0 : i ≤ a0) (h1 : i ≤ a1) :
    0 < ratio o i a0 a1 ∧ ratio o i a0 a1 ≤ 1 := by
  unfold ratio
  have hm : i ≤ min a0 a1 := le_min h0 h1
  split
  · exact ⟨div_pos hi (by linarith), (div_le_one (by linarith)).2 hm⟩
  · split
    · exact ⟨div_pos hi (by linarith), (div_le_one (by linarith)).2 h1⟩
    · exact ⟨div_pos hi (by linarith), (div_le_one (by linarith)).2 (by linarith)⟩

/-- **C74** (scores): the score is the documented ratio when there is an intersection and the ratio reaches `min_overlap` (or, with
`hybrid_area`, one polygon is in the other one), and 0 otherwise. -/
theorem score_spec (o : Options) {i a0 a1 : Rat} (hi : 0 ≤ i) (h0 : i ≤ a0) (h1 : i ≤ a1) :
    score o i a0 a1 =
      if 0 < i ∧ (o.minOverlap ≤ ratio o i a0 a1 ∨ o.hybrid = true ∧ 99 / 100 < i / min a0 a1) then ratio o i a0 a1 else 0 := by
  unfold score
  by_cases hz : i = 0
  · rw [if_pos hz, if_neg]
    rintro ⟨h, _⟩
    linarith
  · have hpos : 0 < i := lt_of_le_of_ne hi (Ne.symm hz)
    rw [if_neg hz]
    have he : (if o.minimal = true then i / min a0 a1 else if o.p1 = true then i / a1 else i / (a0 + a1 - i)) = ratio o i a0 a1 := by
      unfold ratio
      split
      · rfl
      · split <;> rfl
    simp only
    rw [he]
    have hr := (ratio_range (o := o) hpos h0 h1).1
    by_cases hm : ratio o i a0 a1 ≥ o.minOverlap
    · rw [if_pos hm, if_pos ⟨hpos, Or.inl hm⟩]
    · rw [if_neg hm]
      by_cases hh : o.hybrid = true ∧ 99 / 100 < i / min a0 a1
      · rw [if_pos ⟨hh.1, by linarith, hh.2⟩, if_pos ⟨hpos, Or.inr hh⟩]
      · rw [if_neg (fun h => hh ⟨h.1, h.2.2⟩), if_neg]
        rintro ⟨_, h | h⟩
        · exact hm h
        · exact hh h

theorem score_range (o : Options) {i a0 a1 : Rat} (hi : 0 ≤ i) (h0 : i ≤ a0) (h1 : i ≤ a1) : 0 ≤ score o i a0 a1 ∧ score o i a0 a1 ≤ 1 := by
  rw [score_spec o hi h0 h1]
  split
  · rename_i h
    have := ratio_range (o := o) h.1 h0 h1
    exact ⟨le_of_lt this.1, this.2⟩
  · exact ⟨le_refl _, by norm_num⟩

/-- Without `p1_area`, the score does not depend on the order of the polygons. -/
theorem score_symm (o : Options) (hp : o.p1 = false) (i a0 a1 : Rat) : score o i a0 a1 = score o i a1 a0 := by
  unfold score
  rw [hp, min_comm a0 a1, add_comm a0 a1]
  simp

/-- The score is 1 exactly when, without option, the intersection is each polygon; the score over the smallest polygon is 1 exactly when
the intersection is one of the polygons. -/
theorem score_one {i a0 a1 : Rat} (hi : 0 < i) (h0 : i ≤ a0) (h1 : i ≤ a1) :
    (score {} i a0 a1 = 1 ↔ i = a0 ∧ i = a1) ∧ (score { minimal := true } i a0 a1 = 1 ↔ i = a0 ∨ i = a1) := by
  have hm : i ≤ min a0 a1 := le_min h0 h1
  rw [score_spec _ (le_of_lt hi) h0 h1, score_spec _ (le_of_lt hi) h0 h1, if_pos ⟨hi, Or.inl (le_of_lt (ratio_range hi h0 h1).1)⟩,
    if_pos ⟨hi, Or.inl (le_of_lt (ratio_range hi h0 h1).1)⟩]
  unfold ratio
  simp only [Bool.false_eq_true, if_false, if_true]
  rw [div_eq_one_iff_eq (by linarith), div_eq_one_iff_eq (by linarith)]
  constructor
  · constructor
    · intro h; constructor <;> linarith
    · rintro ⟨e1, e2⟩; linarith
  · rcases min_cases a0 a1 with ⟨e, h⟩ | ⟨e, h⟩ <;> rw [e]
    · constructor
      · intro h'; exact Or.inl h'
      · rintro (h' | h') <;> linarith
    · constructor
      · intro h'; exact Or.inr h'
      · rintro (h' | h') <;> linarith

/-- Score of two contours whose second one is moved by `k` turns. -/
def scoreAt (g : Areas) (o : Options) (k : Int) (c0 c1 : List Pt) : Rat :=
  if 0 < g.inter c0 (turned k c1) ∧ (o.minOverlap ≤ ratio o (g.inter c0 (turned k c1)) (g.area c0) (g.area (turned k c1)) ∨
      o.hybrid = true ∧ 99 / 100 < g.inter c0 (turned k c1) / min (g.area c0) (g.area (turned k c1)))
    then ratio o (g.inter c0 (turned k c1)) (g.area c0) (g.area (turned k c1)) else 0

theorem overlap_eq {g : Areas} (hg : Coherent g) (o : Options) {c0 c1 : List Pt} (h0 : c0 ≠ []) (h1 : c1 ≠ []) (hw : Narrow c0 c1) {k : Int}
    (h : BoxesMeet c0 (turned k c1)) : overlap g o c0 c1 = scoreAt g o k c0 c1 := by
  unfold overlap scoreAt
  simp only
  rw [wrap_vertice_partial h0 h1 hw h, score_spec o (hg.nonneg _ _) (hg.left _ _) (hg.right _ _)]

/-- **C74**: `match` gives each couple at most once; the couples are exactly those whose boxes meet modulo 360 and whose score reaches
`cmin`, with their score. Missing: wide contours. -/
theorem match_partial {g : Areas} (hg : Coherent g) (o : Options) (cmin : Rat) (l0 l1 : List (List Pt)) (h0 : [] ∉ l0) (h1 : [] ∉ l1)
    (hw : ∀ c ∈ l0, ∀ d ∈ l1, Narrow c d) :
    ((matchOverlap g o cmin l0 l1).map (fun p => (p.1, p.2.1))).Nodup ∧
    ∀ (i j : Nat) (s : Rat), (i, j, s) ∈ matchOverlap g o cmin l0 l1 ↔
      ∃ c d, l0[i]? = some c ∧ l1[j]? = some d ∧ cmin ≤ s ∧ ∃ k, BoxesMeet c (turned k d) ∧ s = scoreAt g o k c d := by
  constructor
  · unfold matchOverlap bboxIntersection
    have hsub : ((((couples boxTest l0 l1).map (fun p => (p.1, p.2, overlap g o (l0.getD p.1 []) (l1.getD p.2 [])))).filter
        (fun p => decide (p.2.2 ≥ cmin))).map (fun p => (p.1, p.2.1))).Sublist (couples boxTest l0 l1) := by
      have := (List.filter_sublist (l := (couples boxTest l0 l1).map (fun p => (p.1, p.2, overlap g o (l0.getD p.1 []) (l1.getD p.2 []))))
        (p := fun p => decide (p.2.2 ≥ cmin))).map (fun p => (p.1, p.2.1))
      rw [List.map_map] at this
      have hid : (couples boxTest l0 l1).map ((fun p : Nat × Nat × Rat => (p.1, p.2.1)) ∘
          (fun p => (p.1, p.2, overlap g o (l0.getD p.1 []) (l1.getD p.2 [])))) = couples boxTest l0 l1 := by
        conv_rhs => rw [← List.map_id (couples boxTest l0 l1)]
        rfl
      rw [hid] at this
      exact this
    exact (couples_nodup boxTest l0 l1).sublist hsub
  · intro i j s
    unfold matchOverlap bboxIntersection
    rw [List.mem_filter, List.mem_map, decide_eq_true_eq]
    constructor
    · rintro ⟨⟨⟨i', j'⟩, hm, e⟩, hs⟩
      simp only [Prod.mk.injEq] at e
      obtain ⟨rfl, rfl, rfl⟩ := e
      obtain ⟨c, d, hc, hd, ht⟩ := (mem_couples _ _ _ _ _).1 hm
      have hcm := List.mem_of_getElem? hc
      have hdm := List.mem_of_getElem? hd
      have nc : c ≠ [] := by rintro rfl; exact h0 hcm
      have nd : d ≠ [] := by rintro rfl; exact h1 hdm
      obtain ⟨k, hk⟩ := (box_test_partial nc nd (hw c hcm d hdm)).1 ht
      refine ⟨c, d, hc, hd, hs, k, hk, ?_⟩
      rw [List.getD_eq_getElem?_getD, List.getD_eq_getElem?_getD, hc, hd]
      exact overlap_eq hg o nc nd (hw c hcm d hdm) hk
    · rintro ⟨c, d, hc, hd, hs, k, hk, rfl⟩
      have hcm := List.mem_of_getElem? hc
      have hdm := List.mem_of_getElem? hd
      have nc : c ≠ [] := by rintro rfl; exact h0 hcm
      have nd : d ≠ [] := by rintro rfl; exact h1 hdm
      refine ⟨⟨(i, j), (mem_couples _ _ _ _ _).2 ⟨c, d, hc, hd, (box_test_partial nc nd (hw c hcm d hdm)).2 ⟨k, hk⟩⟩, ?_⟩, hs⟩
      simp only [Prod.mk.injEq, true_and]
      rw [List.getD_eq_getElem?_getD, List.getD_eq_getElem?_getD, hc, hd]
      exact overlap_eq hg o nc nd (hw c hcm d hdm) hk

/-- **C74**, with a positive `cmin`: exactly the couples which have, in some turn, a score of at least `cmin`. -/
theorem match_positive_partial {g : Areas} (hg : Coherent g) (o : Options) {cmin : Rat} (hc : 0 < cmin) (l0 l1 : List (List Pt)) (h0 : [] ∉ l0)
    (h1 : [] ∉ l1) (hw : ∀ c ∈ l0, ∀ d ∈ l1, Narrow c d) (i j : Nat) (s : Rat) :
    (i, j, s) ∈ matchOverlap g o cmin l0 l1 ↔
      ∃ c d, l0[i]? = some c ∧ l1[j]? = some d ∧ cmin ≤ s ∧ ∃ k, s = scoreAt g o k c d := by
  rw [(match_partial hg o cmin l0 l1 h0 h1 hw).2]
  constructor
  · rintro ⟨c, d, e1, e2, e3, k, _, e4⟩
    exact ⟨c, d, e1, e2, e3, k, e4⟩
  · rintro ⟨c, d, e1, e2, e3, k, e4⟩
    refine ⟨c, d, e1, e2, e3, k, ?_, e4⟩
    by_contra hn
    unfold scoreAt at e4
    rw [hg.apart _ _ hn, if_neg (by simp)] at e4
    linarith

/-- With the default `cmin=0`, two contours without intersection whose boxes meet are given, with a score of 0. -/
theorem match_default (g : Areas) (h : g.inter [(0, 0), (2, 0), (0, 2)] [(2, 2), (2, 1), (1, 2)] = 0) :
    matchOverlap g {} 0 [[(0, 0), (2, 0), (0, 2)]] [[(2, 2), (2, 1), (1, 2)]] = [(0, 0, 0)] := by
  have hb : bboxIntersection [[(0, 0), (2, 0), (0, 2)]] [[(2, 2), (2, 1), (1, 2)]] = [(0, 0)] := by decide +kernel
  have hv : wrapVertice [(0, 0), (2, 0), (0, 2)] [(2, 2), (2, 1), (1, 2)] = [(2, 2), (2, 1), (1, 2)] := by decide +kernel
  unfold matchOverlap
  rw [hb]
  simp only [List.map_cons, List.map_nil, List.getD_cons_zero]
  unfold overlap
  simp only
  rw [hv, h]
  simp [score]

/-- The hypotheses hold for two contours on both sides of the longitude 0, in two turns. -/
example : Narrow [(359, 0), (361, 0), (360, 1)] [(0, 0), (1, 1), (-1, 1)] ∧ boxTest [(359, 0), (361, 0), (360, 1)] [(0, 0), (1, 1), (-1, 1)] = true ∧
    wrapVertice [(359, 0), (361, 0), (360, 1)] [(0, 0), (1, 1), (-1, 1)] = [(360, 0), (361, 1), (359, 1)] := by
  refine ⟨?_, by decide +kernel, by decide +kernel⟩
  unfold Narrow
  decide +kernel

end Verif.Match
