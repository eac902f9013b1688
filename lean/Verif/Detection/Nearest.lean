import Verif.Py
import Mathlib.Tactic.Ring
import Mathlib.Algebra.Order.Ring.Rat

/-!
# C64: search of the contour of a level around a point

Model of `index_from_nearest_path_with_pt_in_bbox_` of /repo/src/py_eddy_tracker/eddy_feature.py. The arrays of the class `Contours`
are given by level: a contour is its box and its points.
-/

namespace Verif.Detection

/-- Box and points of a contour (eddy_feature.py:486-533). -/
structure Path where
  xmin : Rat
  xmax : Rat
  ymin : Rat
  ymax : Rat
  pts : List (Rat × Rat)

/-- `xpt_` (eddy_feature.py:766). -/
def shifted (c : Path) (x : Rat) : Rat := Py.fmod (x - c.xmin) 360 + c.xmin

/-- The box contains the point (eddy_feature.py:761-770). -/
def inBox (c : Path) (x y : Rat) : Bool :=
  !(decide (c.ymin > y) || decide (c.ymax < y) || decide (c.xmin > shifted c x) || decide (c.xmax < shifted c x))

/-- `d_x` (eddy_feature.py:781-783). -/
def deltaX (px x : Rat) : Rat := if |px - x| > 180 then Py.fmod (px - x + 180) 360 - 180 else px - x

/-- `dist` (eddy_feature.py:784). -/
def dist (c : Path) (x y : Rat) (p : Rat × Rat) : Rat := deltaX p.1 (shifted c x) ^ 2 + (p.2 - y) ^ 2

/-- The loop on the points of a contour (eddy_feature.py:780-787): distance and contour. -/
def ptsLoop (c : Path) (x y : Rat) (k : Nat) : List (Rat × Rat) → Rat × Nat → Rat × Nat
  | [], s => s
  | p :: l, s => ptsLoop c x y k l (if dist c x y p < s.1 then (dist c x y p, k) else s)

/-- The loop on the contours (eddy_feature.py:759-787): distance, contour, `find_contour`. -/
def pathLoop (x y : Rat) : List Path → Nat → (Rat × Nat) × Bool → (Rat × Nat) × Bool
  | [], _, s => s
  | c :: l, k, s => pathLoop x y l (k + 1) (if inBox c x y then (ptsLoop c x y k c.pts s.1, true) else s)

/-- `index_from_nearest_path_with_pt_in_bbox_` (eddy_feature.py:728-794) on the contours of one level. Every contour has points (at
least four, eddy_feature.py:446). -/
def nearestPath (paths : List Path) (x y : Rat) : Option Nat :=
  match paths with
  | [] => none
  | c :: _ =>
    let p := c.pts.headD (0, 0)
    let r := pathLoop x y paths 0 (((p.1 - x) ^ 2 + (p.2 - y) ^ 2, 0), false)
    if r.2 then some r.1.2 else none

/-! ### Specification -/

/-- The point, or the point moved by whole turns, is in the box. -/
def Around (c : Path) (x y : Rat) : Prop := c.ymin ≤ y ∧ y ≤ c.ymax ∧ ∃ k : Int, c.xmin ≤ x + 360 * k ∧ x + 360 * k ≤ c.xmax

theorem inBox_iff (c : Path) (x y : Rat) : inBox c x y = true ↔ Around c x y := by
  obtain ⟨h1, h2, k, hk⟩ := Py.fmod_spec (x - c.xmin) (show (0 : Rat) < 360 by norm_num)
  have hs : shifted c x = x + 360 * k := by unfold shifted; rw [hk]; ring
  unfold inBox Around
  simp only [Bool.not_eq_true', Bool.or_eq_false_iff, decide_eq_false_iff_not, not_lt, gt_iff_lt]
  constructor
  · rintro ⟨⟨⟨a1, a2⟩, a3⟩, a4⟩
    exact ⟨a1, a2, k, by rw [← hs]; exact a3, by rw [← hs]; exact a4⟩
  · rintro ⟨a1, a2, j, a3, a4⟩
    refine ⟨⟨⟨a1, a2⟩, by unfold shifted; linarith⟩, ?_⟩
    rw [hs]
    rw [hk] at h2
    -- the first position after xmin is before any other one
    have : (k : Rat) ≤ j := by
      have : (k : Rat) < j + 1 := by linarith
      have : k < j + 1 := by exact_mod_cast this
      exact_mod_cast (by omega : k ≤ j)
    linarith

/-- The difference of longitudes is the shortest one. -/
theorem deltaX_spec (px x : Rat) : (∃ k : Int, deltaX px x = px - x + 360 * k) ∧ ∀ k : Int, |deltaX px x| ≤ |px - x + 360 * k| := by
  have key : ∀ d : Rat, |d| ≤ 180 → (∃ k : Int, d = px - x + 360 * k) → ∀ k : Int, |d| ≤ |px - x + 360 * k| := by
    rintro d hd ⟨j, hj⟩ k
    rcases eq_or_ne k j with rfl | hne
    · rw [← hj]
    · have e : px - x + 360 * k = d + 360 * ((k : Rat) - j) := by rw [hj]; ring
      have h1 : (1 : Rat) ≤ |(k : Rat) - j| := by
        have : (1 : Int) ≤ |k - j| := Int.one_le_abs (by omega)
        calc (1 : Rat) ≤ ((|k - j| : Int) : Rat) := by exact_mod_cast this
          _ = |(k : Rat) - j| := by push_cast; rfl
      have h2 : |360 * ((k : Rat) - j)| - |d| ≤ |d + 360 * ((k : Rat) - j)| := by
        have := abs_sub_abs_le_abs_sub (360 * ((k : Rat) - j)) (-d)
        rw [abs_neg, sub_neg_eq_add, add_comm (360 * _)] at this
        exact this
      rw [e]
      rw [abs_mul, abs_of_pos (show (0 : Rat) < 360 by norm_num)] at h2
      linarith
  unfold deltaX
  split
  · obtain ⟨h1, h2, k, hk⟩ := Py.fmod_spec (px - x + 180) (show (0 : Rat) < 360 by norm_num)
    have he : Py.fmod (px - x + 180) 360 - 180 = px - x + 360 * k := by rw [hk]; ring
    exact ⟨⟨k, he⟩, key _ (abs_le.2 ⟨by linarith, by linarith⟩) ⟨k, he⟩⟩
  · rename_i h
    exact ⟨⟨0, by simp⟩, key _ (not_lt.1 h) ⟨0, by simp⟩⟩

/-- Square of the distance from the point to a vertex, all turns considered. -/
def IsDist (x y : Rat) (p : Rat × Rat) (d : Rat) : Prop :=
  (∃ k : Int, d = (p.1 - x + 360 * k) ^ 2 + (p.2 - y) ^ 2) ∧ ∀ k : Int, d ≤ (p.1 - x + 360 * k) ^ 2 + (p.2 - y) ^ 2

theorem dist_spec (c : Path) (x y : Rat) (p : Rat × Rat) : IsDist x y p (dist c x y p) := by
  obtain ⟨_, _, j, hj⟩ := Py.fmod_spec (x - c.xmin) (show (0 : Rat) < 360 by norm_num)
  have hs : shifted c x = x + 360 * j := by unfold shifted; rw [hj]; ring
  obtain ⟨⟨k, hk⟩, hmin⟩ := deltaX_spec p.1 (shifted c x)
  unfold dist
  constructor
  · refine ⟨k - j, ?_⟩
    rw [hk, hs]; push_cast; ring
  · intro i
    have := hmin (i + j)
    rw [hs] at this
    have e : p.1 - (x + 360 * j) + 360 * ((i + j : Int) : Rat) = p.1 - x + 360 * i := by push_cast; ring
    rw [e] at this
    rw [hs]
    have h2 := sq_le_sq.2 this
    linarith

theorem IsDist.unique {x y : Rat} {p : Rat × Rat} {d d' : Rat} (h : IsDist x y p d) (h' : IsDist x y p d') : d = d' := by
  obtain ⟨⟨k, hk⟩, hm⟩ := h
  obtain ⟨⟨k', hk'⟩, hm'⟩ := h'
  exact le_antisymm (by rw [hk']; exact hm k') (by rw [hk]; exact hm' k)

/-- The contour `k` is around the point and holds the vertex which is the nearest one of all contours around the point. -/
def Nearest (paths : List Path) (x y : Rat) (k : Nat) : Prop :=
  ∃ c p d, paths[k]? = some c ∧ Around c x y ∧ p ∈ c.pts ∧ IsDist x y p d ∧
    ∀ c' ∈ paths, Around c' x y → ∀ p' ∈ c'.pts, ∀ d', IsDist x y p' d' → d ≤ d'

/-- State of the search after the points `seen` (contour and distance), from the reference distance `d0` of the contour `k0`. -/
def Best (d0 : Rat) (k0 : Nat) (seen : List (Nat × Rat)) (s : Rat × Nat) : Prop :=
  s.1 ≤ d0 ∧ (∀ q ∈ seen, s.1 ≤ q.2) ∧ (s = (d0, k0) ∨ ((s.2, s.1) ∈ seen ∧ s.1 < d0))

theorem ptsLoop_best {d0 : Rat} {k0 : Nat} (c : Path) (x y : Rat) (k : Nat) : ∀ (l : List (Rat × Rat)) (seen : List (Nat × Rat))
    (s : Rat × Nat), Best d0 k0 seen s → Best d0 k0 (seen ++ l.map (fun p => (k, dist c x y p))) (ptsLoop c x y k l s)
  | [], seen, s, h => by simpa [ptsLoop] using h
  | p :: l, seen, s, h => by
    rw [ptsLoop, List.map_cons]
    rw [show seen ++ (k, dist c x y p) :: l.map (fun p => (k, dist c x y p)) =
      (seen ++ [(k, dist c x y p)]) ++ l.map (fun p => (k, dist c x y p)) by simp]
    apply ptsLoop_best c x y k l
    obtain ⟨h1, h2, h3⟩ := h
    split
    · rename_i hlt
      refine ⟨by simp only; linarith, ?_, Or.inr ⟨by simp, by simp only; linarith⟩⟩
      intro q hq
      rcases List.mem_append.1 hq with hq | hq
      · have := h2 q hq
        simp only; linarith
      · rw [List.mem_singleton] at hq
        rw [hq]
    · rename_i hlt
      refine ⟨h1, ?_, ?_⟩
      · intro q hq
        rcases List.mem_append.1 hq with hq | hq
        · exact h2 q hq
        · rw [List.mem_singleton] at hq
          rw [hq]
          exact not_lt.1 hlt
      · rcases h3 with h3 | ⟨h3, h4⟩
        · exact Or.inl h3
        · exact Or.inr ⟨List.mem_append_left _ h3, h4⟩

/-- All the vertices seen by the search from the contour `k`. -/
def seenOf (x y : Rat) : List Path → Nat → List (Nat × Rat)
  | [], _ => []
  | c :: l, k => (if inBox c x y then c.pts.map (fun p => (k, dist c x y p)) else []) ++ seenOf x y l (k + 1)

theorem mem_seenOf (x y : Rat) : ∀ (l : List Path) (k : Nat) (q : Nat × Rat), q ∈ seenOf x y l k ↔
    ∃ (j : Nat) (c : Path) (p : Rat × Rat), l[j]? = some c ∧ inBox c x y = true ∧ p ∈ c.pts ∧ q = (k + j, dist c x y p)
  | [], k, q => by simp [seenOf]
  | c :: l, k, q => by
    rw [seenOf, List.mem_append, mem_seenOf x y l (k + 1) q]
    constructor
    · rintro (h | ⟨j, c', p, h1, h2, h3, rfl⟩)
      · split at h
        · rename_i hb
          obtain ⟨p, hp, rfl⟩ := List.mem_map.1 h
          exact ⟨0, c, p, rfl, hb, hp, rfl⟩
        · cases h
      · exact ⟨j + 1, c', p, by simpa using h1, h2, h3, by rw [show k + (j + 1) = k + 1 + j by omega]⟩
    · rintro ⟨j, c', p, h1, h2, h3, rfl⟩
      cases j with
      | zero =>
        simp only [List.getElem?_cons_zero, Option.some.injEq] at h1
        subst h1
        rw [if_pos h2]
        exact Or.inl (List.mem_map.2 ⟨p, h3, rfl⟩)
      | succ j =>
        exact Or.inr ⟨j, c', p, by simpa using h1, h2, h3, by rw [show k + (j + 1) = k + 1 + j by omega]⟩

theorem pathLoop_best {d0 : Rat} {k0 : Nat} (x y : Rat) : ∀ (l : List Path) (k : Nat) (seen : List (Nat × Rat)) (s : (Rat × Nat) × Bool),
    Best d0 k0 seen s.1 → Best d0 k0 (seen ++ seenOf x y l k) (pathLoop x y l k s).1 ∧
      ((pathLoop x y l k s).2 = true ↔ s.2 = true ∨ ∃ c ∈ l, inBox c x y = true)
  | [], k, seen, s, h => by simpa [pathLoop, seenOf] using h
  | c :: l, k, seen, s, h => by
    rw [pathLoop, seenOf, ← List.append_assoc]
    split
    · rename_i hb
      obtain ⟨h1, h2⟩ := pathLoop_best x y l (k + 1) _ (ptsLoop c x y k c.pts s.1, true) (ptsLoop_best c x y k c.pts seen s.1 h)
      refine ⟨h1, ?_⟩
      rw [h2]
      constructor
      · intro _; exact Or.inr ⟨c, by simp, hb⟩
      · intro _; exact Or.inl rfl
    · rename_i hb
      obtain ⟨h1, h2⟩ := pathLoop_best x y l (k + 1) seen s h
      refine ⟨by rw [List.append_nil]; exact h1, ?_⟩
      rw [h2]
      constructor
      · rintro (h | ⟨c', hc', h⟩)
        · exact Or.inl h
        · exact Or.inr ⟨c', List.mem_cons_of_mem _ hc', h⟩
      · rintro (h | ⟨c', hc', h⟩)
        · exact Or.inl h
        · rcases List.mem_cons.1 hc' with rfl | hc'
          · exact absurd h hb
          · exact Or.inr ⟨c', hc', h⟩

/-- No contour is found exactly when no box contains the point. -/
theorem nearest_none_iff (paths : List Path) (x y : Rat) : nearestPath paths x y = none ↔ ∀ c ∈ paths, ¬ Around c x y := by
  unfold nearestPath
  cases paths with
  | nil => simp
  | cons c l =>
    simp only
    obtain ⟨_, h2⟩ := pathLoop_best (d0 := ((c.pts.headD (0, 0)).1 - x) ^ 2 + ((c.pts.headD (0, 0)).2 - y) ^ 2) (k0 := 0) x y (c :: l) 0 []
      ((((c.pts.headD (0, 0)).1 - x) ^ 2 + ((c.pts.headD (0, 0)).2 - y) ^ 2, 0), false)
      ⟨le_refl _, fun q hq => (List.not_mem_nil hq).elim, Or.inl rfl⟩
    generalize (pathLoop x y (c :: l) 0
      ((((c.pts.headD (0, 0)).1 - x) ^ 2 + ((c.pts.headD (0, 0)).2 - y) ^ 2, 0), false)) = r at h2
    constructor
    · intro h c' hc' ha
      rw [if_pos (h2.2 (Or.inr ⟨c', hc', (inBox_iff c' x y).2 ha⟩))] at h
      cases h
    · intro h
      rw [if_neg]
      intro hr
      rcases h2.1 hr with h' | ⟨c', hc', h'⟩
      · cases h'
      · exact h c' hc' ((inBox_iff c' x y).1 h')

/-- **C64**: the contour found is around the point and the nearest one of them, provided that the first contour of the level is
around the point, or that some vertex of a contour around the point is nearer than the first vertex of the level. Missing: without
this the first contour of the level is given (`nearest_wrong`). -/
theorem nearest_partial {c0 : Path} {l : List Path} {p0 : Rat × Rat} {x y : Rat} (hp0 : c0.pts.head? = some p0)
    (h : Around c0 x y ∨ ∃ c ∈ c0 :: l, Around c x y ∧ ∃ p ∈ c.pts, ∃ d, IsDist x y p d ∧ d < (p0.1 - x) ^ 2 + (p0.2 - y) ^ 2) :
    ∃ k, nearestPath (c0 :: l) x y = some k ∧ Nearest (c0 :: l) x y k := by
  have hex : ∃ c ∈ c0 :: l, Around c x y := by
    rcases h with h | ⟨c, hc, h, _⟩
    · exact ⟨c0, by simp, h⟩
    · exact ⟨c, hc, h⟩
  have hsome : nearestPath (c0 :: l) x y ≠ none := by
    rw [Ne, nearest_none_iff]
    push Not
    exact hex
  have hhead : c0.pts.headD (0, 0) = p0 := by
    cases hc : c0.pts with
    | nil => rw [hc] at hp0; cases hp0
    | cons a t => rw [hc] at hp0; simpa using hp0
  obtain ⟨k, hk⟩ := Option.ne_none_iff_exists'.1 hsome
  refine ⟨k, hk, ?_⟩
  unfold nearestPath at hk
  simp only [hhead] at hk
  obtain ⟨⟨b1, b2, b3⟩, _⟩ := pathLoop_best (d0 := (p0.1 - x) ^ 2 + (p0.2 - y) ^ 2) (k0 := 0) x y (c0 :: l) 0 []
    (((p0.1 - x) ^ 2 + (p0.2 - y) ^ 2, 0), false) ⟨le_refl _, fun q hq => (List.not_mem_nil hq).elim, Or.inl rfl⟩
  generalize (pathLoop x y (c0 :: l) 0 (((p0.1 - x) ^ 2 + (p0.2 - y) ^ 2, 0), false)) = r at hk b1 b2 b3
  rw [List.nil_append] at b2 b3
  split at hk
  · have hrk := Option.some.inj hk
    have hall : ∀ c' ∈ c0 :: l, Around c' x y → ∀ p' ∈ c'.pts, ∀ d', IsDist x y p' d' → r.1.1 ≤ d' := by
      intro c' hc' ha p' hp' d' hd'
      obtain ⟨j, hj⟩ := List.mem_iff_getElem?.1 hc'
      have := b2 _ ((mem_seenOf x y _ 0 _).2 ⟨j, c', p', hj, (inBox_iff c' x y).2 ha, hp', rfl⟩)
      rw [hd'.unique (dist_spec c' x y p')]
      exact this
    rcases b3 with b3 | ⟨b3, b4⟩
    · -- the reference was not improved
      have hr1 : r.1.1 = (p0.1 - x) ^ 2 + (p0.2 - y) ^ 2 := by rw [b3]
      have hr2 : r.1.2 = 0 := by rw [b3]
      rcases h with h | ⟨c, hc, ha, p, hp, d, hd, hlt⟩
      · have hpm : p0 ∈ c0.pts := List.mem_of_mem_head? hp0
        refine ⟨c0, p0, dist c0 x y p0, by rw [← hrk, hr2]; rfl, h, hpm, dist_spec c0 x y p0, ?_⟩
        intro c' hc' ha p' hp' d' hd'
        have h1 := hall c' hc' ha p' hp' d' hd'
        have h2 := (dist_spec c0 x y p0).2 0
        simp only [Int.cast_zero, mul_zero, add_zero] at h2
        linarith
      · have := hall c hc ha p hp d hd
        linarith
    · obtain ⟨j, c, p, j1, j2, j3, j4⟩ := (mem_seenOf x y _ 0 _).1 b3
      simp only [Nat.zero_add, Prod.mk.injEq] at j4
      refine ⟨c, p, r.1.1, by rw [← hrk, j4.1]; exact j1, (inBox_iff c x y).1 j2, j3, ?_, hall⟩
      rw [j4.2]
      exact dist_spec c x y p
  · cases hk

/-- The first contour of the level is given though its box does not contain the point: its first vertex is nearer than the contour
around the point. -/
theorem nearest_wrong :
    nearestPath [⟨3, 4, 0, 1, [(3, 0), (4, 0), (4, 1), (3, 0)]⟩, ⟨-9, 9, -9, 9, [(-9, -9), (9, -9), (9, 9), (-9, -9)]⟩] 0 0 = some 0 ∧
    ¬ Around ⟨3, 4, 0, 1, [(3, 0), (4, 0), (4, 1), (3, 0)]⟩ 0 0 := by
  refine ⟨by decide +kernel, ?_⟩
  rw [← inBox_iff]
  decide +kernel

/-- The second contour is around the point and nearer than the first vertex, through the bound of the longitudes. -/
example : nearestPath [⟨30, 40, 0, 1, [(30, 0), (40, 0), (40, 1), (30, 0)]⟩, ⟨355, 365, -2, 2, [(355, -2), (365, -2), (360, 2), (355, -2)]⟩]
    1 0 = some 1 := by decide +kernel

end Verif.Detection
