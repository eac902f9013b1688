import Verif.Circle.EqualArea

/-!
# C203: the circle fitted to a contour does not depend on its first vertex, its direction or the turn of its longitudes

`fit_circle`, `shape_error` (src/py_eddy_tracker/poly.py:529-570, 672-703) and `_fit_circle_path` (src/py_eddy_tracker/dataset/grid.py:166-183).
-/

namespace Verif.Circle

noncomputable section

open Real Finset
open Verif.Sphere (coordinatesToLocal localToCoordinates fmod360)

/-- `fit_circle(x, y)` with the shape error (poly.py:529-570); `none` is the division by zero of `shape_error`. -/
def fitFull (lstsq : Lstsq) (n : ℕ) (x y : ℕ → ℝ) : Option ((ℝ × ℝ × ℝ) × ℝ) :=
  (shapeError n x y (fitCircle lstsq n x y).1 (fitCircle lstsq n x y).2.1 (fitCircle lstsq n x y).2.2).map (fun e => (fitCircle lstsq n x y, e))

/-- The longitude and the latitude of the centre (grid.py:181-182). -/
def centre (x y lon0 lat0 : ℝ) : ℝ × ℝ :=
  (fmod360 ((localToCoordinates x y lon0 lat0).1 - lon0 + 180) + lon0 - 180, (localToCoordinates x y lon0 lat0).2)

open Classical in
/-- `_fit_circle_path(vertice)` (grid.py:166-183): longitude and latitude of the centre, radius, shape error. The first `none` is an exception, the
second one the answer `0, -90, nan, nan` for a dot. -/
def fitPath (lstsq : Lstsq) (n : ℕ) (lons lats : ℕ → ℝ) : Option (Option (ℝ × ℝ × ℝ × ℝ)) :=
  let lon0 := meanTail n lons
  let lat0 := meanTail n lats
  let c_x := fun i => (coordinatesToLocal (lons i) (lats i) lon0 lat0).1
  let c_y := fun i => (coordinatesToLocal (lons i) (lats i) lon0 lat0).2
  let d_lon := arrMax lons n - arrMin lons n
  let d_lat := arrMax lats n - arrMin lats n
  if d_lon < 1e-7 ∧ d_lat < 1e-7 then some none
  else (fitFull lstsq n c_x c_y).map (fun f => some ((centre f.1.1 f.1.2.1 lon0 lat0).1, (centre f.1.1 f.1.2.1 lon0 lat0).2, f.1.2.2, f.2))

/-! ### Specification -/

/-- The ways to write a closed contour of vertices `0 .. n`, the last one being the first one again: the vertex `i` of the new writing is the
vertex `σ i` of the old one. From a writing one gets the one which starts at the next vertex and the one in the other direction. -/
inductive Writing (n : ℕ) : (ℕ → ℕ) → Prop
  | same : Writing n id
  | next {σ : ℕ → ℕ} : Writing n σ → Writing n (fun i => σ (if i < n then i + 1 else 1))
  | back {σ : ℕ → ℕ} : Writing n σ → Writing n (fun i => σ (n - i))

/-- Every vertex can be the first one. -/
theorem Writing.start (n : ℕ) : ∀ k ≤ n, ∃ σ, Writing n σ ∧ ∀ i, i + k ≤ n → σ i = i + k
  | 0, _ => ⟨id, .same, fun _ _ => rfl⟩
  | k + 1, hk => by
    obtain ⟨σ, h, e⟩ := Writing.start n k (by omega)
    refine ⟨_, .next h, fun i hi => ?_⟩
    rw [if_pos (by omega), e (i + 1) (by omega)]
    omega

/-! ### Proofs -/

/-- What is used of a writing. -/
structure Reorder (n : ℕ) (σ : ℕ → ℕ) : Prop where
  closed : ∀ g : ℕ → ℝ, g n = g 0 → g (σ n) = g (σ 0)
  sum : ∀ g : ℕ → ℝ, g n = g 0 → ∑ i ∈ range n, g (σ (i + 1)) = ∑ i ∈ range n, g (i + 1)
  lace : ∀ x y : ℕ → ℝ, Closed n x y → |shoelace n (fun i => x (σ i)) (fun i => y (σ i))| = |shoelace n x y|
  le : ∀ i ≤ n, σ i ≤ n
  onto : ∀ i ≤ n, ∃ k ≤ n, ∀ g : ℕ → ℝ, g n = g 0 → g (σ k) = g i

theorem Reorder.comp {n : ℕ} (hn : 0 < n) {σ τ : ℕ → ℕ} (hσ : Reorder n σ) (hτ : Reorder n τ) : Reorder n (fun i => σ (τ i)) where
  closed g hg := hτ.closed (fun i => g (σ i)) (hσ.closed g hg)
  sum g hg := (hτ.sum (fun i => g (σ i)) (hσ.closed g hg)).trans (hσ.sum g hg)
  lace x y h := (hτ.lace (fun i => x (σ i)) (fun i => y (σ i)) ⟨hn, hσ.closed x h.2.1, hσ.closed y h.2.2⟩).trans (hσ.lace x y h)
  le i hi := hσ.le _ (hτ.le i hi)
  onto i hi := by
    obtain ⟨k, hk, e⟩ := hσ.onto i hi
    obtain ⟨l, hl, e'⟩ := hτ.onto k hk
    exact ⟨l, hl, fun g hg => (e' (fun i => g (σ i)) (hσ.closed g hg)).trans (e g hg)⟩

theorem reorder_next {n : ℕ} (hn : 0 < n) : Reorder n (fun i => if i < n then i + 1 else 1) where
  closed g _ := by
    rw [if_neg (by omega), if_pos hn]
  sum g hg := by
    rw [← next_sum hn g hg]
  lace x y h := by
    have e : ∀ f : ℕ → ℝ, (fun i => f (if i < n then i + 1 else 1)) = next n f := by
      intro f
      funext i
      unfold next
      split <;> rfl
    rw [e, e, shoelace_next h]
  le i hi := by split <;> omega
  onto i hi := by
    rcases Nat.eq_zero_or_pos i with rfl | hp
    · refine ⟨n - 1, by omega, fun g hg => ?_⟩
      rw [if_pos (by omega), show n - 1 + 1 = n by omega, hg]
    · refine ⟨i - 1, by omega, fun g _ => ?_⟩
      rw [if_pos (by omega), show i - 1 + 1 = i by omega]

theorem reorder_back (n : ℕ) : Reorder n (fun i => n - i) where
  closed g hg := by
    simp only [Nat.sub_self, Nat.sub_zero]
    exact hg.symm
  sum g hg := by
    have h1 : ∑ i ∈ range n, g (n - (i + 1)) = ∑ i ∈ range n, g i := by
      rw [← sum_range_reflect]
      apply sum_congr rfl
      intro i hi
      have := mem_range.1 hi
      rw [show n - (n - 1 - i + 1) = i by omega]
    rw [h1]
    have h2 := sum_range_succ g n
    have h3 := sum_range_succ' g n
    linarith
  lace x y _ := by
    have := shoelace_back n x y
    unfold back at this
    rw [this, abs_neg]
  le i _ := by omega
  onto i hi := ⟨n - i, by omega, fun g _ => by rw [show n - (n - i) = i by omega]⟩

theorem Writing.reorder {n : ℕ} (hn : 0 < n) {σ : ℕ → ℕ} (h : Writing n σ) : Reorder n σ := by
  induction h with
  | same => exact ⟨fun _ h => h, fun _ _ => rfl, fun _ _ _ => rfl, fun _ h => h, fun i hi => ⟨i, hi, fun _ _ => rfl⟩⟩
  | next _ ih => exact ih.comp hn (reorder_next hn)
  | back _ ih => exact ih.comp hn (reorder_back n)

variable {n : ℕ} {σ : ℕ → ℕ} {x y : ℕ → ℝ}

theorem mean_reorder (hσ : Reorder n σ) (hx : x n = x 0) : meanTail n (fun i => x (σ i)) = meanTail n x := by
  unfold meanTail
  rw [hσ.sum x hx]

theorem area_reorder (hσ : Reorder n σ) (hc : Closed n x y) : polyArea n (fun i => x (σ i)) (fun i => y (σ i)) = polyArea n x y := by
  rw [polyArea_shoelace hc, polyArea_shoelace (x := fun i => x (σ i)) (y := fun i => y (σ i)) ⟨hc.1, hσ.closed x hc.2.1, hσ.closed y hc.2.2⟩, hσ.lace x y hc]

theorem best_reorder (hσ : Reorder n σ) (hc : Closed n x y) (f : ℝ × ℝ × ℝ) :
    BestCircle n (fun i => x (σ i)) (fun i => y (σ i)) f ↔ BestCircle n x y f := by
  have e : ∀ cx cy ρ, powerError n (fun i => x (σ i)) (fun i => y (σ i)) cx cy ρ = powerError n x y cx cy ρ := by
    intro cx cy ρ
    unfold powerError
    exact hσ.sum (fun i => ((x i - cx) ^ 2 + (y i - cy) ^ 2 - ρ) ^ 2) (by simp only [hc.2.1, hc.2.2])
  unfold BestCircle
  simp only [e]

theorem wide_reorder (hσ : Reorder n σ) (hc : Closed n x y) (hw : Wide n x y) : Wide n (fun i => x (σ i)) (fun i => y (σ i)) := by
  have key : ∀ i < n, ∃ k < n, x (σ (k + 1)) = x (i + 1) ∧ y (σ (k + 1)) = y (i + 1) := by
    intro i hi
    obtain ⟨k, hk, e⟩ := hσ.onto (i + 1) (by omega)
    rcases Nat.eq_zero_or_pos k with rfl | hp
    · refine ⟨n - 1, by omega, ?_⟩
      rw [show n - 1 + 1 = n by omega, hσ.closed x hc.2.1, hσ.closed y hc.2.2]
      exact ⟨e x hc.2.1, e y hc.2.2⟩
    · refine ⟨k - 1, by omega, ?_⟩
      rw [show k - 1 + 1 = k by omega]
      exact ⟨e x hc.2.1, e y hc.2.2⟩
  obtain ⟨i, j, k, hi, hj, hk, h⟩ := hw
  obtain ⟨i', hi', i1, i2⟩ := key i hi
  obtain ⟨j', hj', j1, j2⟩ := key j hj
  obtain ⟨k', hk', k1, k2⟩ := key k hk
  refine ⟨i', j', k', hi', hj', hk', ?_⟩
  simp only [i1, i2, j1, j2, k1, k2]
  exact h

/-- **C203** (circle): the circle is the same for every writing of the contour. -/
theorem fit_writing {lstsq : Lstsq} (hl : ∀ A b, LeastSquares n A b (lstsq n A b)) (h : Writing n σ) (hc : Closed n x y) (hw : Wide n x y) :
    fitCircle lstsq n (fun i => x (σ i)) (fun i => y (σ i)) = fitCircle lstsq n x y := by
  have hσ := h.reorder hc.1
  have hw' := wide_reorder hσ hc hw
  refine bestCircle_unique hw ((best_reorder hσ hc _).1 (fit_circle_spec lstsq n _ _ (wide_distinct hw') (hl _ _))) ?_
  exact fit_circle_spec lstsq n _ _ (wide_distinct hw) (hl _ _)

/-- **C203** (shape error): the shape error for a given circle is the same for every writing of the contour, exceptions included. -/
theorem error_writing (h : Writing n σ) (hc : Closed n x y) (cx cy r : ℝ) :
    shapeError n (fun i => x (σ i)) (fun i => y (σ i)) cx cy r = shapeError n x y cx cy r := by
  have hσ := h.reorder hc.1
  have e : (∃ i ≤ n, √((x (σ i) - cx) ^ 2 + (y (σ i) - cy) ^ 2) = 0) ↔ ∃ i ≤ n, √((x i - cx) ^ 2 + (y i - cy) ^ 2) = 0 := by
    constructor
    · rintro ⟨i, hi, h0⟩
      exact ⟨σ i, hσ.le i hi, h0⟩
    · rintro ⟨i, hi, h0⟩
      obtain ⟨k, hk, ek⟩ := hσ.onto i hi
      exact ⟨k, hk, by rw [ek x hc.2.1, ek y hc.2.2]; exact h0⟩
  have hq : Closed n (fun i => clip (ratio cx cy r (x i) (y i)) cx (x i)) (fun i => clip (ratio cx cy r (x i) (y i)) cy (y i)) :=
    ⟨hc.1, by simp only [hc.2.1, hc.2.2], by simp only [hc.2.1, hc.2.2]⟩
  have e2 := area_reorder hσ hq
  unfold shapeError
  simp only at e2 ⊢
  rw [area_reorder hσ hc, e2]
  simp only [e]

theorem full_writing {lstsq : Lstsq} (hl : ∀ A b, LeastSquares n A b (lstsq n A b)) (h : Writing n σ) (hc : Closed n x y) (hw : Wide n x y) :
    fitFull lstsq n (fun i => x (σ i)) (fun i => y (σ i)) = fitFull lstsq n x y := by
  unfold fitFull
  rw [fit_writing hl h hc hw, error_writing h hc]

theorem dot_reorder (hσ : Reorder n σ) (hc : Closed n x y) : Dot n (fun i => x (σ i)) (fun i => y (σ i)) ↔ Dot n x y := by
  constructor
  · intro h i hi j hj
    obtain ⟨a, ha, ea⟩ := hσ.onto i hi
    obtain ⟨b, hb, eb⟩ := hσ.onto j hj
    have := h a ha b hb
    simp only [ea x hc.2.1, ea y hc.2.2, eb x hc.2.1, eb y hc.2.2] at this
    exact this
  · intro h i hi j hj
    exact h _ (hσ.le i hi) _ (hσ.le j hj)

theorem spread_dot (n : ℕ) (lons lats : ℕ → ℝ) :
    (arrMax lons n - arrMin lons n < 1e-7 ∧ arrMax lats n - arrMin lats n < 1e-7) ↔ Dot n lons lats := by
  rw [spread_lt, spread_lt]
  exact ⟨fun h i hi j hj => ⟨h.1 i hi j hj, h.2 i hi j hj⟩, fun h => ⟨fun i hi j hj => (h i hi j hj).1, fun i hi j hj => (h i hi j hj).2⟩⟩

theorem fitPath_eq (lstsq : Lstsq) (n : ℕ) (lons lats : ℕ → ℝ) :
    (Dot n lons lats ∧ fitPath lstsq n lons lats = some none) ∨ (¬ Dot n lons lats ∧ fitPath lstsq n lons lats =
      (fitFull lstsq n (fun i => (coordinatesToLocal (lons i) (lats i) (meanTail n lons) (meanTail n lats)).1)
        (fun i => (coordinatesToLocal (lons i) (lats i) (meanTail n lons) (meanTail n lats)).2)).map (fun f =>
          some ((centre f.1.1 f.1.2.1 (meanTail n lons) (meanTail n lats)).1, (centre f.1.1 f.1.2.1 (meanTail n lons) (meanTail n lats)).2, f.1.2.2, f.2))) := by
  unfold fitPath
  simp only
  split_ifs with h
  · exact Or.inl ⟨(spread_dot n lons lats).1 h, rfl⟩
  · exact Or.inr ⟨fun hd => h ((spread_dot n lons lats).2 hd), rfl⟩

/-- **C203** (contour in degrees): the centre, the radius and the shape error are the same for every writing of the contour, if it is not flat in
the coordinates local to its mean. -/
theorem path_writing {lstsq : Lstsq} {lons lats : ℕ → ℝ} (hl : ∀ A b, LeastSquares n A b (lstsq n A b)) (h : Writing n σ) (hc : Closed n lons lats)
    (hw : Wide n (fun i => (coordinatesToLocal (lons i) (lats i) (meanTail n lons) (meanTail n lats)).1)
      (fun i => (coordinatesToLocal (lons i) (lats i) (meanTail n lons) (meanTail n lats)).2)) :
    fitPath lstsq n (fun i => lons (σ i)) (fun i => lats (σ i)) = fitPath lstsq n lons lats := by
  have hσ := h.reorder hc.1
  have hcl : Closed n (fun i => (coordinatesToLocal (lons i) (lats i) (meanTail n lons) (meanTail n lats)).1)
      (fun i => (coordinatesToLocal (lons i) (lats i) (meanTail n lons) (meanTail n lats)).2) :=
    ⟨hc.1, by simp only [hc.2.1, hc.2.2], by simp only [hc.2.1, hc.2.2]⟩
  have e := full_writing hl h hcl hw
  have hd := dot_reorder hσ hc
  have m1 := mean_reorder hσ hc.2.1
  have m2 := mean_reorder hσ hc.2.2
  rcases fitPath_eq lstsq n (fun i => lons (σ i)) (fun i => lats (σ i)) with ⟨h1, h2⟩ | ⟨h1, h2⟩ <;>
    rcases fitPath_eq lstsq n lons lats with ⟨h3, h4⟩ | ⟨h3, h4⟩
  · rw [h2, h4]
  · exact absurd (hd.1 h1) h3
  · exact absurd (hd.2 h3) h1
  · rw [h2, h4, m1, m2]
    exact congrArg (Option.map _) e

theorem centre_shift (x y lon0 lat0 t : ℝ) : centre x y (lon0 + t) lat0 = ((centre x y lon0 lat0).1 + t, (centre x y lon0 lat0).2) := by
  unfold centre
  have e : localToCoordinates x y (lon0 + t) lat0 = ((localToCoordinates x y lon0 lat0).1 + t, (localToCoordinates x y lon0 lat0).2) := by
    unfold Sphere.localToCoordinates
    simp only
    refine Prod.ext ?_ rfl
    simp only
    ring
  rw [e]
  refine Prod.ext ?_ rfl
  simp only
  rw [show (localToCoordinates x y lon0 lat0).1 + t - (lon0 + t) + 180 = (localToCoordinates x y lon0 lat0).1 - lon0 + 180 by ring]
  ring

/-- **C203** (longitude): a contour moved in longitude, by whole turns for instance, has the same radius and the same shape error, its centre is
moved with it. No hypothesis on the contour. -/
theorem path_shift (lstsq : Lstsq) (hn : 0 < n) (lons lats : ℕ → ℝ) (t : ℝ) :
    fitPath lstsq n (fun i => lons i + t) lats = (fitPath lstsq n lons lats).map (Option.map (fun c => (c.1 + t, c.2))) := by
  have hdot : Dot n (fun i => lons i + t) lats ↔ Dot n lons lats := by
    unfold Dot
    simp only [add_sub_add_right_eq_sub]
  have hm : meanTail n (fun i => lons i + t) = meanTail n lons + t := by
    unfold meanTail
    rw [sum_add_distrib, sum_const, card_range, nsmul_eq_mul]
    have : (n : ℝ) ≠ 0 := by positivity
    field_simp
  rcases fitPath_eq lstsq n (fun i => lons i + t) lats with ⟨h1, h2⟩ | ⟨h1, h2⟩ <;> rcases fitPath_eq lstsq n lons lats with ⟨h3, h4⟩ | ⟨h3, h4⟩
  · rw [h2, h4]; rfl
  · exact absurd (hdot.1 h1) h3
  · exact absurd (hdot.2 h3) h1
  · rw [h2, h4, hm, Option.map_map]
    simp only [local_shift, centre_shift]
    rfl

/-! A square: the writing from its next vertex, and the one in the other direction. -/

example : ∃ lstsq : Lstsq, fitCircle lstsq 4 (fun i => sqX (if i < 4 then i + 1 else 1)) (fun i => sqY (if i < 4 then i + 1 else 1)) = (1, 1, √2) ∧
    fitCircle lstsq 4 (fun i => sqX (4 - i)) (fun i => sqY (4 - i)) = (1, 1, √2) := by
  obtain ⟨lstsq, hl⟩ := lstsq_exists
  have h := fit_circle_exact lstsq 4 sqX sqY _ square_wide (hl _ _ _) square_on
  have hc : Closed 4 sqX sqY := ⟨by norm_num, by norm_num [sqX], by norm_num [sqY]⟩
  refine ⟨lstsq, ?_, ?_⟩
  · rw [← h]; exact fit_writing (hl 4) (.next .same) hc square_wide
  · rw [← h]; exact fit_writing (hl 4) (.back .same) hc square_wide

example : shapeError 4 (fun i => sqX (4 - i)) (fun i => sqY (4 - i)) 1 1 1 = some 100 := by
  rw [show shapeError 4 (fun i => sqX (4 - i)) (fun i => sqY (4 - i)) 1 1 1 = shapeError 4 sqX sqY 1 1 1 from
    error_writing (.back .same) ⟨by norm_num, by norm_num [sqX], by norm_num [sqY]⟩ 1 1 1]
  exact shape_error_square_wrong.1

end

end Verif.Circle
