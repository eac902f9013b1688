import Verif.Circle.Props
import Mathlib.Tactic.Abel

/-!
# C147: the circle of the same area as a contour

`_circle_from_equal_area` (src/py_eddy_tracker/dataset/grid.py:149-163), which gives the radii and the centres of `fit_circle_path("equal_area")`.
-/

namespace Verif.Circle

noncomputable section

open Real Finset
open Verif.Sphere (coordinatesToLocal)

open Classical in
/-- `_circle_from_equal_area(vertice)` (grid.py:149-163): longitude and latitude of the centre and radius; `none` is the answer `0, -90, nan, nan`. -/
def circleEqualArea (n : ℕ) (lons lats : ℕ → ℝ) : Option (ℝ × ℝ × ℝ) :=
  let lon0 := meanTail n lons
  let lat0 := meanTail n lats
  let c_x := fun i => (coordinatesToLocal (lons i) (lats i) lon0 lat0).1
  let c_y := fun i => (coordinatesToLocal (lons i) (lats i) lon0 lat0).2
  let d_lon := arrMax lons n - arrMin lons n
  let d_lat := arrMax lats n - arrMin lats n
  if d_lon < 1e-7 ∧ d_lat < 1e-7 then none else some (lon0, lat0, √(polyArea n c_x c_y / π))

/-- The area in square metres of a contour in degrees: the one of its image in the coordinates local to a point. -/
def localArea (n : ℕ) (lons lats : ℕ → ℝ) (lon0 lat0 : ℝ) : ℝ :=
  |shoelace n (fun i => (coordinatesToLocal (lons i) (lats i) lon0 lat0).1) (fun i => (coordinatesToLocal (lons i) (lats i) lon0 lat0).2)| / 2

/-- All the vertices are the same within 1e-7 degree. -/
def Dot (n : ℕ) (lons lats : ℕ → ℝ) : Prop := ∀ i ≤ n, ∀ j ≤ n, |lons i - lons j| < 1e-7 ∧ |lats i - lats j| < 1e-7

/-- **C147** (nan): the answer is nan exactly for the contours smaller than 1e-7 degree in both directions. -/
theorem equal_area_dot (n : ℕ) (lons lats : ℕ → ℝ) : circleEqualArea n lons lats = none ↔ Dot n lons lats := by
  unfold circleEqualArea Dot
  simp only
  split_ifs with h <;> rw [spread_lt, spread_lt] at h
  · exact ⟨fun _ i hi j hj => ⟨h.1 i hi j hj, h.2 i hi j hj⟩, fun _ => rfl⟩
  · simp only [reduceCtorEq, false_iff]
    exact fun h' => h ⟨fun i hi j hj => (h' i hi j hj).1, fun i hi j hj => (h' i hi j hj).2⟩

/-- **C147**: the centre is the mean of the vertices (each one once), and the circle has the area of the contour in local coordinates. -/
theorem equal_area_spec {n : ℕ} {lons lats : ℕ → ℝ} (hc : Closed n lons lats) {clon clat r : ℝ}
    (h : circleEqualArea n lons lats = some (clon, clat, r)) :
    clon = (∑ i ∈ range n, lons i) / n ∧ clat = (∑ i ∈ range n, lats i) / n ∧ 0 ≤ r ∧ π * r ^ 2 = localArea n lons lats clon clat := by
  have mean : ∀ f : ℕ → ℝ, f n = f 0 → meanTail n f = (∑ i ∈ range n, f i) / n := by
    intro f hf
    unfold meanTail
    congr 1
    have h1 := sum_range_succ f n
    have h2 := sum_range_succ' f n
    linarith
  unfold circleEqualArea at h
  simp only at h
  split_ifs at h with hd
  simp only [Option.some.injEq, Prod.mk.injEq] at h
  obtain ⟨h1, h2, h3⟩ := h
  refine ⟨by rw [← h1, mean lons hc.2.1], by rw [← h2, mean lats hc.2.2], by rw [← h3]; exact sqrt_nonneg _, ?_⟩
  have hcl : Closed n (fun i => (coordinatesToLocal (lons i) (lats i) (meanTail n lons) (meanTail n lats)).1)
      (fun i => (coordinatesToLocal (lons i) (lats i) (meanTail n lons) (meanTail n lats)).2) :=
    ⟨hc.1, by simp only [hc.2.1, hc.2.2], by simp only [hc.2.1, hc.2.2]⟩
  rw [polyArea_shoelace hcl] at h3
  unfold localArea
  rw [← h3, ← h1, ← h2, sq_sqrt (by positivity)]
  field_simp

theorem local_shift (lon lat lon0 lat0 t : ℝ) : coordinatesToLocal (lon + t) lat (lon0 + t) lat0 = coordinatesToLocal lon lat lon0 lat0 := by
  unfold Sphere.coordinatesToLocal
  simp only [show lon + t - (lon0 + t) = lon - lon0 by ring]

theorem equal_area_eq (n : ℕ) (lons lats : ℕ → ℝ) :
    (Dot n lons lats ∧ circleEqualArea n lons lats = none) ∨ (¬ Dot n lons lats ∧ circleEqualArea n lons lats =
      some (meanTail n lons, meanTail n lats,
        √(polyArea n (fun i => (coordinatesToLocal (lons i) (lats i) (meanTail n lons) (meanTail n lats)).1)
          (fun i => (coordinatesToLocal (lons i) (lats i) (meanTail n lons) (meanTail n lats)).2) / π))) := by
  by_cases hd : Dot n lons lats
  · exact Or.inl ⟨hd, (equal_area_dot n lons lats).2 hd⟩
  · refine Or.inr ⟨hd, ?_⟩
    have : circleEqualArea n lons lats ≠ none := fun h => hd ((equal_area_dot n lons lats).1 h)
    unfold circleEqualArea at this ⊢
    simp only at this ⊢
    split_ifs at this ⊢ with h
    · exact absurd rfl this
    · rfl

/-- **C147** (longitude): a contour moved in longitude, by whole turns for instance, has the same radius, and its centre is moved with it. -/
theorem equal_area_shift (n : ℕ) (hn : 0 < n) (lons lats : ℕ → ℝ) (t : ℝ) :
    circleEqualArea n (fun i => lons i + t) lats = (circleEqualArea n lons lats).map (fun c => (c.1 + t, c.2)) := by
  have hdot : Dot n (fun i => lons i + t) lats ↔ Dot n lons lats := by
    unfold Dot
    simp only [add_sub_add_right_eq_sub]
  have hm : meanTail n (fun i => lons i + t) = meanTail n lons + t := by
    unfold meanTail
    rw [sum_add_distrib, sum_const, card_range, nsmul_eq_mul]
    have : (n : ℝ) ≠ 0 := by positivity
    field_simp
  rcases equal_area_eq n (fun i => lons i + t) lats with ⟨h1, h2⟩ | ⟨h1, h2⟩ <;> rcases equal_area_eq n lons lats with ⟨h3, h4⟩ | ⟨h3, h4⟩
  · rw [h2, h4]; rfl
  · exact absurd (hdot.1 h1) h3
  · exact absurd (hdot.2 h3) h1
  · rw [h2, h4, Option.map_some, hm]
    simp only [local_shift]

/-- The contour which starts at the next vertex. -/
def next (n : ℕ) (f : ℕ → ℝ) (i : ℕ) : ℝ := if i < n then f (i + 1) else f 1

theorem dot_next {n : ℕ} {lons lats : ℕ → ℝ} (hc : Closed n lons lats) : Dot n (next n lons) (next n lats) ↔ Dot n lons lats := by
  obtain ⟨hn, hx, hy⟩ := hc
  constructor
  · intro h i hi j hj
    have key : ∀ i ≤ n, ∃ k ≤ n, next n lons k = lons i ∧ next n lats k = lats i := by
      intro i hi
      rcases Nat.eq_zero_or_pos i with rfl | hp
      · refine ⟨n - 1, by omega, ?_⟩
        unfold next
        rw [if_pos (by omega), if_pos (by omega), show n - 1 + 1 = n by omega]
        exact ⟨hx, hy⟩
      · refine ⟨i - 1, by omega, ?_⟩
        unfold next
        rw [if_pos (by omega), if_pos (by omega), show i - 1 + 1 = i by omega]
        exact ⟨rfl, rfl⟩
    obtain ⟨a, ha, a1, a2⟩ := key i hi
    obtain ⟨b, hb, b1, b2⟩ := key j hj
    have := h a ha b hb
    rwa [a1, a2, b1, b2] at this
  · intro h i hi j hj
    have key : ∀ i, ∃ k ≤ n, next n lons i = lons k ∧ next n lats i = lats k := by
      intro i
      unfold next
      by_cases hi : i < n
      · rw [if_pos hi, if_pos hi]; exact ⟨i + 1, by omega, rfl, rfl⟩
      · rw [if_neg hi, if_neg hi]; exact ⟨1, by omega, rfl, rfl⟩
    obtain ⟨a, ha, a1, a2⟩ := key i
    obtain ⟨b, hb, b1, b2⟩ := key j
    rw [a1, a2, b1, b2]
    exact h a ha b hb

theorem next_sum {n : ℕ} (hn : 0 < n) (g : ℕ → ℝ) (hg : g n = g 0) : ∑ i ∈ range n, g (if i + 1 < n then i + 2 else 1) = ∑ i ∈ range n, g (i + 1) := by
  obtain ⟨m, rfl⟩ : ∃ m, n = m + 1 := ⟨n - 1, by omega⟩
  rw [sum_range_succ, sum_range_succ' (fun i => g (i + 1))]
  congr 1
  · apply sum_congr rfl
    intro i hi
    rw [if_pos (by have := mem_range.1 hi; omega)]
  · rw [if_neg (by omega)]

theorem mean_next {n : ℕ} (hn : 0 < n) {f : ℕ → ℝ} (hf : f n = f 0) : meanTail n (next n f) = meanTail n f := by
  unfold meanTail
  congr 1
  rw [← next_sum hn f hf]
  apply sum_congr rfl
  intro i _
  unfold next
  split <;> rfl

theorem shoelace_next {n : ℕ} {x y : ℕ → ℝ} (hc : Closed n x y) : shoelace n (next n x) (next n y) = shoelace n x y := by
  obtain ⟨hn, hx, hy⟩ := hc
  obtain ⟨m, rfl⟩ : ∃ m, n = m + 1 := ⟨n - 1, by omega⟩
  unfold shoelace
  rw [sum_range_succ, sum_range_succ' (fun i => x i * y (i + 1) - x (i + 1) * y i)]
  congr 1
  · apply sum_congr rfl
    intro i hi
    have := mem_range.1 hi
    unfold next
    rw [if_pos (by omega), if_pos (by omega), if_pos (by omega), if_pos (by omega)]
  · unfold next
    rw [if_pos (by omega), if_neg (by omega), if_neg (by omega), if_pos (by omega), hx, hy]

theorem closed_next {n : ℕ} {x y : ℕ → ℝ} (hc : Closed n x y) : Closed n (next n x) (next n y) := by
  refine ⟨hc.1, ?_, ?_⟩ <;> unfold next <;> rw [if_neg (by omega), if_pos hc.1]

/-- **C147** (start): the circle does not depend on the vertex where the closed contour starts. -/
theorem equal_area_start {n : ℕ} {lons lats : ℕ → ℝ} (hc : Closed n lons lats) :
    circleEqualArea n (next n lons) (next n lats) = circleEqualArea n lons lats := by
  have m1 := mean_next hc.1 hc.2.1
  have m2 := mean_next hc.1 hc.2.2
  have hd := dot_next hc
  rcases equal_area_eq n (next n lons) (next n lats) with ⟨h1, h2⟩ | ⟨h1, h2⟩ <;> rcases equal_area_eq n lons lats with ⟨h3, h4⟩ | ⟨h3, h4⟩
  · rw [h2, h4]
  · exact absurd (hd.1 h1) h3
  · exact absurd (hd.2 h3) h1
  · rw [h2, h4, m1, m2]
    have hcl : Closed n (fun i => (coordinatesToLocal (lons i) (lats i) (meanTail n lons) (meanTail n lats)).1)
        (fun i => (coordinatesToLocal (lons i) (lats i) (meanTail n lons) (meanTail n lats)).2) :=
      ⟨hc.1, by simp only [hc.2.1, hc.2.2], by simp only [hc.2.1, hc.2.2]⟩
    have e1 : (fun i => (coordinatesToLocal (next n lons i) (next n lats i) (meanTail n lons) (meanTail n lats)).1) =
        next n (fun i => (coordinatesToLocal (lons i) (lats i) (meanTail n lons) (meanTail n lats)).1) := by
      funext i; unfold next; split <;> rfl
    have e2 : (fun i => (coordinatesToLocal (next n lons i) (next n lats i) (meanTail n lons) (meanTail n lats)).2) =
        next n (fun i => (coordinatesToLocal (lons i) (lats i) (meanTail n lons) (meanTail n lats)).2) := by
      funext i; unfold next; split <;> rfl
    rw [e1, e2, polyArea_shoelace (closed_next hcl), polyArea_shoelace hcl, shoelace_next hcl]

/-- The contour in the other direction. -/
def back (n : ℕ) (f : ℕ → ℝ) (i : ℕ) : ℝ := f (n - i)

theorem shoelace_back (n : ℕ) (x y : ℕ → ℝ) : shoelace n (back n x) (back n y) = -shoelace n x y := by
  unfold shoelace
  rw [← sum_range_reflect, ← sum_neg_distrib]
  apply sum_congr rfl
  intro i hi
  have := mem_range.1 hi
  unfold back
  rw [show n - (n - 1 - i) = i + 1 by omega, show n - (n - 1 - i + 1) = i by omega]
  ring

theorem mean_back {n : ℕ} {f : ℕ → ℝ} (hf : f n = f 0) : meanTail n (back n f) = meanTail n f := by
  unfold meanTail
  congr 1
  have h1 : ∑ i ∈ range n, back n f (i + 1) = ∑ i ∈ range n, f i := by
    rw [← sum_range_reflect]
    apply sum_congr rfl
    intro i hi
    have := mem_range.1 hi
    unfold back
    rw [show n - (n - 1 - i + 1) = i by omega]
  rw [h1]
  have h2 := sum_range_succ f n
  have h3 := sum_range_succ' f n
  linarith

/-- **C147** (direction): the circle does not depend on the direction of the contour. -/
theorem equal_area_back {n : ℕ} {lons lats : ℕ → ℝ} (hc : Closed n lons lats) :
    circleEqualArea n (back n lons) (back n lats) = circleEqualArea n lons lats := by
  have m1 := mean_back hc.2.1
  have m2 := mean_back hc.2.2
  have hd : Dot n (back n lons) (back n lats) ↔ Dot n lons lats := by
    constructor
    · intro h i hi j hj
      have := h (n - i) (by omega) (n - j) (by omega)
      unfold back at this
      rwa [show n - (n - i) = i by omega, show n - (n - j) = j by omega] at this
    · intro h i hi j hj
      exact h (n - i) (by omega) (n - j) (by omega)
  rcases equal_area_eq n (back n lons) (back n lats) with ⟨h1, h2⟩ | ⟨h1, h2⟩ <;> rcases equal_area_eq n lons lats with ⟨h3, h4⟩ | ⟨h3, h4⟩
  · rw [h2, h4]
  · exact absurd (hd.1 h1) h3
  · exact absurd (hd.2 h3) h1
  · rw [h2, h4, m1, m2]
    have hcl : Closed n (fun i => (coordinatesToLocal (lons i) (lats i) (meanTail n lons) (meanTail n lats)).1)
        (fun i => (coordinatesToLocal (lons i) (lats i) (meanTail n lons) (meanTail n lats)).2) :=
      ⟨hc.1, by simp only [hc.2.1, hc.2.2], by simp only [hc.2.1, hc.2.2]⟩
    have hcb : Closed n (back n fun i => (coordinatesToLocal (lons i) (lats i) (meanTail n lons) (meanTail n lats)).1)
        (back n fun i => (coordinatesToLocal (lons i) (lats i) (meanTail n lons) (meanTail n lats)).2) := by
      refine ⟨hc.1, ?_, ?_⟩ <;> unfold back <;> simp only [Nat.sub_self, Nat.sub_zero, hc.2.1, hc.2.2]
    have e1 : (fun i => (coordinatesToLocal (back n lons i) (back n lats i) (meanTail n lons) (meanTail n lats)).1) =
        back n (fun i => (coordinatesToLocal (lons i) (lats i) (meanTail n lons) (meanTail n lats)).1) := rfl
    have e2 : (fun i => (coordinatesToLocal (back n lons i) (back n lats i) (meanTail n lons) (meanTail n lats)).2) =
        back n (fun i => (coordinatesToLocal (lons i) (lats i) (meanTail n lons) (meanTail n lats)).2) := rfl
    rw [e1, e2, polyArea_shoelace hcb, polyArea_shoelace hcl, shoelace_back, abs_neg]

/-- A square of two degrees: closed, not a dot, its circle is centred on its middle. -/
example : Closed 4 sqX sqY ∧ ¬ Dot 4 sqX sqY ∧ ∃ r, circleEqualArea 4 sqX sqY = some (1, 1, r) := by
  have hn : ¬ Dot 4 sqX sqY := fun h => by
    have := (h 0 (by omega) 2 (by omega)).1
    norm_num [sqX] at this
  refine ⟨⟨by norm_num, by norm_num [sqX], by norm_num [sqY]⟩, hn, ?_⟩
  rcases equal_area_eq 4 sqX sqY with ⟨h, _⟩ | ⟨_, h⟩
  · exact absurd h hn
  · have e1 : meanTail 4 sqX = 1 := by norm_num [meanTail, sum_range_succ, sqX]
    have e2 : meanTail 4 sqY = 1 := by norm_num [meanTail, sum_range_succ, sqY]
    rw [e1, e2] at h
    exact ⟨_, h⟩

end

end Verif.Circle
