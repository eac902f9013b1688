import Verif.Kernels.Props

/-!
# C132: weights of the kernels; what does not hold near the poles
-/

namespace Verif.Kernels

open Real Verif.Sphere Verif.Convolve

noncomputable section

/-! ### Weights -/

/-- **C132**: the weights of the local regression of order 1 are in `[0, 1]`, the one of the pixel is 1, and a cell which is further has not more
weight. -/
theorem loess_weights_partial {g : Steps} (hy : 0 < g.y) {lat wl : ℝ} (hw : 0 < wl) :
    weightAt tricube g lat wl 1 0 0 = 1 ∧ (∀ a b, 0 ≤ weightAt tricube g lat wl 1 a b ∧ weightAt tricube g lat wl 1 a b ≤ 1) ∧
    ∀ a b a' b', away g lat wl a b ≤ away g lat wl a' b' → weightAt tricube g lat wl 1 a' b' ≤ weightAt tricube g lat wl 1 a b := by
  have cube : ∀ x : ℝ, 0 ≤ x → x ≤ 1 → 0 ≤ tricube x ∧ tricube x ≤ 1 := by
    intro x h0 h1
    unfold tricube
    rw [abs_of_nonneg h0]
    have h3 : x ^ 3 ≤ 1 := pow_le_one₀ h0 h1
    have h4 : 0 ≤ x ^ 3 := by positivity
    exact ⟨pow_nonneg (by linarith) 3, pow_le_one₀ (by linarith) (by linarith)⟩
  refine ⟨?_, ?_, ?_⟩
  · unfold weightAt
    rw [away_meridian hy (by simp)]
    simp [tricube]
  · intro a b
    unfold weightAt
    split_ifs with h
    · exact cube _ (away_nonneg hw a b) (by simpa using h)
    · exact ⟨le_refl _, zero_le_one⟩
  · intro a b a' b' hab
    unfold weightAt
    have h0 := away_nonneg hw (g := g) (lat := lat) a b
    by_cases h' : away g lat wl a' b' ≤ (1 : Nat)
    · rw [if_pos h', if_pos (hab.trans h')]
      have h1 : away g lat wl a' b' ≤ 1 := by simpa using h'
      unfold tricube
      rw [abs_of_nonneg h0, abs_of_nonneg (h0.trans hab)]
      have e1 : away g lat wl a b ^ 3 ≤ away g lat wl a' b' ^ 3 := pow_le_pow_left₀ h0 hab 3
      have e2 : away g lat wl a' b' ^ 3 ≤ 1 := pow_le_one₀ (h0.trans hab) h1
      exact pow_le_pow_left₀ (by linarith) (by linarith) 3
    · rw [if_neg h']
      split_ifs with h
      · exact (cube _ h0 (by simpa using h)).1
      · exact le_refl _

/-- The weights of a local regression are not negative, whatever the order. -/
def NotNegative : Prop := ∀ (g : Steps) (lat wl order : ℝ) (k : Kernel ℝ), 0 < g.x → 0 < g.y → |lat| < 90 → 0 < order →
  loess g lat wl order = some k → ∀ i j, i < k.kx → j < k.ky → 0 ≤ k.w i j

theorem equator_km (g : Steps) : kmX g 0 = 6370.997 * (π / 180) * g.x := by
  unfold kmX
  rw [distance_arccos]
  simp only [zero_mul, sin_zero, cos_zero, mul_zero, zero_add, one_mul, sub_zero]
  have hD := D2R_pos
  rw [arccos_cos hD.le (by unfold D2R; linarith [pi_pos])]
  unfold D2R
  ring

/-- **C132**, refuted: at the order 2 cells between one and two wave lengths have negative weights (`inc_func` is not used). -/
theorem negative_wrong : ¬ NotNegative := by
  intro H
  let g : Steps := ⟨1, 1⟩
  have hx : 0 < g.x := one_pos
  have hy : 0 < g.y := one_pos
  obtain ⟨K, hK⟩ : ∃ K, K = kmY g := ⟨_, rfl⟩
  have hKp : 0 < K := hK ▸ kmY_pos hy
  have hX : kmX g 0 = K := by rw [equator_km, hK]; rfl
  have hr : Resolved g 0 (2 * K) := ⟨by rw [hX], by rw [hK]⟩
  have hn : ¬ loess g 0 (2 * K) 2 = none := by
    rw [loess_none_iff hx hy]
    exact fun h => h hr
  obtain ⟨k, hk⟩ := Option.ne_none_iff_exists'.1 hn
  have h2 : checkOrder 2 = 2 := by unfold checkOrder; norm_num; rfl
  have hk' := hk
  unfold loess at hk'
  rw [h2] at hk'
  obtain ⟨_, rx, y0, _, _, _, hh, hall⟩ := kernel_spec hx hy (by simp) (loess_follows g 0 (2 * K) 2) hk'
  have ha : away g 0 (2 * K) 0 3 = 3 / 2 := by
    rw [away_meridian hy (by norm_num [g]), ← hK]
    norm_num
    field_simp
  have hw : weightAt tricube g 0 (2 * K) 2 0 3 < 0 := by
    unfold weightAt
    rw [ha]
    norm_num [tricube, abs_of_pos]
  obtain ⟨_, b1, b2⟩ := hall 0 3 (by simp) (Or.inl (by norm_num [g])) hw.ne
  have hi := H g 0 (2 * K) 2 k hx hy (by simp) (by norm_num) hk rx (3 + y0).toNat (by rw [hh.odd]; omega) (by omega)
  rw [hh.weight rx _ (by rw [hh.odd]; omega) (by omega), sub_self, show (((3 + y0).toNat : ℤ) - y0) = 3 by omega] at hi
  linarith

/-! ### Longitudes -/

theorem distance_shift (s lat : ℝ) : distance s lat (s + 1) lat = distance 0 lat 1 lat := by
  rw [distance_arccos, distance_arccos]
  congr 4
  ring_nf

theorem distance_steps (lat : ℝ) : ∀ n : Nat, distance 0 lat n lat ≤ n * distance 0 lat 1 lat
  | 0 => by
    rw [Nat.cast_zero, zero_mul]
    exact ((distance_eq_zero _ _ _ _).2 rfl).le
  | n + 1 => by
    have h := distance_triangle 0 lat n lat ((n + 1 : Nat) : ℝ) lat
    have h2 := distance_steps lat n
    have h3 := distance_shift n lat
    push_cast at h ⊢
    rw [h3] at h
    linarith

theorem sixty : (60 : ℝ) * D2R = π / 3 := by unfold D2R; ring

/-- Every cell of the globe with a weight is in the kernel. -/
def AllCells : Prop := ∀ (g : Steps) (lat wl : ℝ) (k : Kernel ℝ), 0 < g.x → 0 < g.y → |lat| < 90 → loess g lat wl 1 = some k →
  ∀ a b : ℤ, |lat + b * g.y| ≤ 90 → |(a : ℝ) * g.x| ≤ 180 → weightAt tricube g lat wl 1 a b ≠ 0 → 2 * a.natAbs + 1 ≤ k.kx ∧ 2 * b.natAbs + 1 ≤ k.ky

/-- **C132**, refuted: the number of longitudes is the wave length over the length of one step, as on a plane. At the latitude 60, for a wave
length of 65 degrees, the cell at the same latitude on the other side of the pole is at 60 degrees, and it is not in the kernel. -/
theorem longitudes_wrong : ¬ AllCells := by
  intro H
  let g : Steps := ⟨1, 1⟩
  have hx : 0 < g.x := one_pos
  have hy : 0 < g.y := one_pos
  have hp := pi_pos
  have s60 : sin (60 * D2R) ^ 2 = 3 / 4 := by
    rw [sixty, sin_pi_div_three, div_pow, sq_sqrt (by norm_num)]
    norm_num
  have c60 : cos (60 * D2R) = 1 / 2 := by rw [sixty, cos_pi_div_three]
  obtain ⟨wl, hwl⟩ : ∃ wl : ℝ, wl = 6370.997 * (13 * π / 36) := ⟨_, rfl⟩
  have hw : 0 < wl := by rw [hwl]; positivity
  have hKX : 0 < kmX g 60 := kmX_pos hx (by norm_num [abs_of_pos])
  have lower : 6370.997 * π / 480 ≤ kmX g 60 := by
    have h := distance_steps 60 120
    rw [distance_arccos] at h
    have e : ((120 : Nat) : ℝ) - 0 = 120 := by norm_num
    rw [e] at h
    have c120 : cos (120 * D2R) = -(1 / 2) := by
      rw [show (120 : ℝ) * D2R = π - π / 3 by unfold D2R; ring, cos_pi_sub, cos_pi_div_three]
    have hv : sin (60 * D2R) * sin (60 * D2R) + cos (60 * D2R) * cos (60 * D2R) * cos (120 * D2R) = 5 / 8 := by
      rw [← pow_two, s60, c60, c120]
      norm_num
    rw [hv] at h
    have h4 : π / 4 ≤ arccos (5 / 8) := by
      have : arccos (cos (π / 4)) = π / 4 := arccos_cos (by positivity) (by linarith)
      rw [← this]
      apply arccos_le_arccos
      rw [cos_pi_div_four]
      have : (5 / 4 : ℝ) ≤ √2 := by
        apply le_sqrt_of_sq_le
        norm_num
      linarith
    unfold kmX
    push_cast at h
    simp only [g, mul_one]
    rw [le_div_iff₀ (by norm_num)]
    linarith
  have upper : kmX g 60 ≤ kmY g := by
    have h := distance_parallel 0 1 60 (by norm_num)
    unfold kmX kmY
    simp only [g, mul_one]
    rw [div_le_iff₀ (by norm_num)]
    norm_num at h ⊢
    linarith
  have hKY : kmY g = 6370.997 * (π / 180) := by unfold kmY; simp [g]
  have hr : Resolved g 60 wl := by
    refine ⟨?_, ?_⟩
    · rw [hKY] at upper
      rw [hwl]
      linarith
    · rw [hKY, hwl]
      linarith
  have hn : ¬ loess g 60 wl 1 = none := by
    rw [loess_none_iff hx hy]
    exact fun h => h hr
  obtain ⟨k, hk⟩ := Option.ne_none_iff_exists'.1 hn
  have hall := H g 60 wl k hx hy (by norm_num [abs_of_pos]) hk
  have hk' := hk
  unfold loess at hk'
  rw [checkOrder_one one_pos le_rfl] at hk'
  obtain ⟨_, rx, y0, hrx, _, _, hh, _⟩ := kernel_spec hx hy (by norm_num [abs_of_pos]) (loess_follows g 60 wl 1) hk'
  have hsz : sizeX g 60 wl 1 ≤ 174 := by
    unfold sizeX
    rw [mul_one]
    have : ⌈wl / kmX g 60⌉ ≤ 174 := by
      rw [Int.ceil_le, div_le_iff₀ hKX, hwl]
      push_cast
      nlinarith
    omega
  have ha : away g 60 wl 180 0 = 12 / 13 := by
    unfold away
    rw [distance_arccos]
    have e : sin (60 * D2R) * sin ((60 + ((0 : ℤ) : ℝ) * g.y) * D2R) +
        cos (60 * D2R) * cos ((60 + ((0 : ℤ) : ℝ) * g.y) * D2R) * cos ((((180 : ℤ) : ℝ) * g.x - 0) * D2R) = cos (π / 3) := by
      have e2 : (((180 : ℤ) : ℝ) * g.x - 0) * D2R = π := by simp only [g]; push_cast; unfold D2R; ring
      rw [e2, cos_pi]
      simp only [Int.cast_zero, zero_mul, add_zero]
      rw [← pow_two, s60, c60, cos_pi_div_three]
      norm_num
    rw [e, arccos_cos (by positivity) (by linarith), hwl]
    field_simp
    norm_num
  have hne : weightAt tricube g 60 wl 1 180 0 ≠ 0 := by
    unfold weightAt
    rw [ha, if_pos (by norm_num)]
    exact (tricube_pos (by norm_num [abs_of_pos])).ne'
  have := (hall 180 0 (by norm_num [abs_of_pos]) (by norm_num [g, abs_of_pos]) hne).1
  rw [hh.odd] at this
  simp at this
  omega

/-! ### The pixel in the kernel -/

/-- The pixel is where the filter reads it, at the column `(ky - 1) / 2` (`d_lat`, grid.py:1483). -/
def AtCentre : Prop := ∀ (g : Steps) (lat wl : ℝ) (k : Kernel ℝ), 0 < g.x → 0 < g.y → |lat| < 90 → loess g lat wl 1 = some k →
  ∃ rx : Nat, Holds k (weightAt tricube g lat wl 1) rx ((k.ky - 1) / 2 : Nat)

/-- **C131**, refuted near the south pole: the rows of the matrix go on under the latitude -90, where they are on the other side of the pole, and
have weights; the opposite row has none and is removed. The kernel has one more row under the pixel than above, and every weight is used for the
row above its own. -/
theorem south_wrong : ¬ AtCentre := by
  intro H
  let g : Steps := ⟨20, 20⟩
  have hx : 0 < g.x := by norm_num [g]
  have hy : 0 < g.y := by norm_num [g]
  have hp := pi_pos
  have hKY : kmY g = 6370.997 * (π / 9) := by unfold kmY; simp only [g]; ring
  have hKYp := kmY_pos hy
  obtain ⟨wl, hwl⟩ : ∃ wl : ℝ, wl = 3 * kmY g := ⟨_, rfl⟩
  have hw : 0 < wl := by rw [hwl]; positivity
  have hl : |(-60 : ℝ)| < 90 := by norm_num
  have hKX : 0 < kmX g (-60) := kmX_pos hx hl
  have upper : kmX g (-60) ≤ kmY g := by
    have h := distance_parallel 0 1 (-60) (by norm_num)
    unfold kmX
    rw [hKY]
    simp only [g]
    norm_num at h ⊢
    linarith
  have hr : Resolved g (-60) wl := ⟨by linarith, by linarith⟩
  have hn : ¬ loess g (-60) wl 1 = none := by
    rw [loess_none_iff hx hy]
    exact fun h => h hr
  obtain ⟨k, hk⟩ := Option.ne_none_iff_exists'.1 hn
  obtain ⟨rx', hh'⟩ := H g (-60) wl k hx hy hl hk
  have hk' := hk
  unfold loess at hk'
  rw [checkOrder_one one_pos le_rfl] at hk'
  obtain ⟨_, rx, y0, _, hy0, hy1, hh, hall⟩ := kernel_spec hx hy hl.le (loess_follows g (-60) wl 1) hk'
  have hsy : sizeY g wl 1 = 3 := by
    unfold sizeY
    rw [hwl, mul_div_cancel_right₀ _ hKYp.ne']
    norm_num
    rfl
  have hsx : 3 ≤ sizeX g (-60) wl 1 := by
    unfold sizeX
    rw [mul_one]
    have : 2 < ⌈wl / kmX g (-60)⌉ := by
      rw [Int.lt_ceil, lt_div_iff₀ hKX, hwl]
      push_cast
      linarith
    omega
  have s60 : sin (60 * D2R) ^ 2 = 3 / 4 := by
    rw [sixty, sin_pi_div_three, div_pow, sq_sqrt (by norm_num)]
    norm_num
  -- the row under the pole
  have hd : away g (-60) wl 3 (-3) < 1 := by
    unfold away
    rw [distance_arccos]
    have e : sin (-60 * D2R) * sin ((-60 + ((-3 : ℤ) : ℝ) * g.y) * D2R) +
        cos (-60 * D2R) * cos ((-60 + ((-3 : ℤ) : ℝ) * g.y) * D2R) * cos ((((3 : ℤ) : ℝ) * g.x - 0) * D2R) = 5 / 8 := by
      have e1 : (-60 + ((-3 : ℤ) : ℝ) * g.y) * D2R = -(π - π / 3) := by simp only [g]; push_cast; unfold D2R; ring
      have e2 : (((3 : ℤ) : ℝ) * g.x - 0) * D2R = π / 3 := by simp only [g]; push_cast; unfold D2R; ring
      have e3 : (-60 : ℝ) * D2R = -(60 * D2R) := by ring
      rw [e1, e2, e3, sin_neg, sin_neg, cos_neg, cos_neg, sin_pi_sub, cos_pi_sub, ← sixty]
      rw [sixty, cos_pi_div_three, ← sixty]
      linear_combination s60
    rw [e, div_lt_one hw, hwl, hKY]
    have h3 : arccos (5 / 8) < π / 3 := by
      have : arccos (cos (π / 3)) = π / 3 := arccos_cos (by positivity) (by linarith)
      rw [← this, cos_pi_div_three]
      exact arccos_lt_arccos (by norm_num) (by norm_num) (by norm_num)
    rw [div_lt_iff₀ (by norm_num)]
    linarith
  have hd0 := away_nonneg hw (g := g) (lat := -60) 3 (-3)
  have hsouth : weightAt tricube g (-60) wl 1 3 (-3) ≠ 0 := by
    unfold weightAt
    rw [if_pos (by push_cast; exact hd.le)]
    exact (tricube_pos (by rwa [abs_of_nonneg hd0])).ne'
  have h1 := hall 3 (-3) (by simpa using hsx) (Or.inr (by simp [hsy])) hsouth
  have ey : y0 = 3 := by omega
  subst ey
  -- the row above
  have ha2 : away g (-60) wl 0 2 = 2 / 3 := by
    rw [away_meridian hy (by norm_num [g, abs_of_pos]), hwl]
    field_simp
    norm_num
  have h2 : weightAt tricube g (-60) wl 1 0 2 ≠ 0 := by
    unfold weightAt
    rw [ha2, if_pos (by norm_num)]
    exact (tricube_pos (by norm_num [abs_of_pos])).ne'
  have h2' := hall 0 2 (by simp) (Or.inr (by simp [hsy])) h2
  -- the last row has no weight
  have h3 : ∀ a : ℤ, weightAt tricube g (-60) wl 1 a 3 = 0 := by
    intro a
    unfold weightAt
    split_ifs with h
    · have h4 := away_latitude hy hw hl.le (a := a) (b := 3) (by norm_num [g])
      rw [hwl] at h4 h
      have e : |((3 : ℤ) : ℝ)| * kmY g / (3 * kmY g) = 1 := by
        rw [div_eq_iff (by positivity)]
        norm_num [abs_of_pos]
      rw [e] at h4
      have : away g (-60) (3 * kmY g) a 3 = 1 := le_antisymm (by simpa using h) h4
      rw [hwl, this]
      norm_num [tricube]
    · rfl
  have hky : k.ky = 6 := by
    by_contra hne
    have h7 : k.ky = 7 := by omega
    obtain ⟨l, hl1, hl2⟩ := hh.last
    rw [hh.weight l _ hl1 (by omega), h7] at hl2
    exact hl2 (h3 _)
  have erx : rx' = rx := by
    have := hh.odd
    have := hh'.odd
    omega
  subst erx
  have w1 := hh.weight rx' 5 (by rw [hh.odd]; omega) (by omega)
  have w2 := hh'.weight rx' 5 (by rw [hh.odd]; omega) (by omega)
  rw [w1, hky] at w2
  norm_num at w2
  rw [h3 0] at w2
  exact h2 w2

/-! ### Examples -/

example : Resolved ⟨1, 1⟩ 0 300 := by
  have := pi_le_four
  refine ⟨?_, ?_⟩
  · rw [equator_km]
    norm_num
    linarith
  · unfold kmY
    norm_num
    linarith

/-- Hypotheses of `loess_centred_partial` for a grid of one degree at the equator. -/
example : ∃ k : Kernel ℝ, loess ⟨1, 1⟩ 0 (2 * kmY ⟨1, 1⟩) 1 = some k ∧ |(0 : ℝ)| + sizeY ⟨1, 1⟩ (2 * kmY ⟨1, 1⟩) 1 * (1 : ℝ) ≤ 90 := by
  have hp := kmY_pos (g := ⟨1, 1⟩) one_pos
  have hn : ¬ loess ⟨1, 1⟩ 0 (2 * kmY ⟨1, 1⟩) 1 = none := by
    rw [loess_none_iff one_pos one_pos]
    refine fun h => h ⟨le_of_eq ?_, le_refl _⟩
    rw [equator_km]
    rfl
  obtain ⟨k, hk⟩ := Option.ne_none_iff_exists'.1 hn
  refine ⟨k, hk, ?_⟩
  unfold sizeY
  rw [mul_div_cancel_right₀ _ hp.ne']
  norm_num

/-- Hypotheses of `bessel_centred_partial`, for a function in the place of `j1`. -/
example : |(0 : ℝ)| + sizeY ⟨1, 1⟩ (2 * kmY ⟨1, 1⟩) 1 * (1 : ℝ) ≤ 90 ∧ sizeX ⟨1, 1⟩ 0 (2 * kmY ⟨1, 1⟩) 1 * (1 : ℝ) < 360 ∧
    besselProfile (fun x => x) 1 (lastRow ⟨1, 1⟩ (2 * kmY ⟨1, 1⟩) 1 * kmY ⟨1, 1⟩ / (2 * kmY ⟨1, 1⟩)) ≠ 0 := by
  have hp := kmY_pos (g := ⟨1, 1⟩) one_pos
  have e : kmX ⟨1, 1⟩ 0 = kmY ⟨1, 1⟩ := equator_km _
  have hl : lastRow ⟨1, 1⟩ (2 * kmY ⟨1, 1⟩) 1 = 1 := by
    unfold lastRow
    rw [Nat.cast_one, one_mul, mul_div_cancel_right₀ _ hp.ne']
    norm_num
    rfl
  refine ⟨?_, ?_, ?_⟩
  · unfold sizeY
    rw [mul_div_cancel_right₀ _ hp.ne']
    norm_num
  · unfold sizeX
    rw [e, mul_div_cancel_right₀ _ hp.ne']
    norm_num
  · rw [hl, Nat.cast_one, one_mul, show kmY ⟨1, 1⟩ / (2 * kmY ⟨1, 1⟩) = 1 / 2 by field_simp]
    unfold besselProfile
    rw [if_neg (by norm_num)]
    have := npSinc_pos (d := 1 / 2) (by norm_num) (by norm_num)
    have hpi := pi_pos
    rw [Nat.cast_one, div_one]
    positivity

end

end Verif.Kernels
