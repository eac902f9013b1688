import Verif.Kernels.Model
import Verif.Convolve.Props
import Verif.Sphere.Props

/-!
# C131, C132: kernels of the filters
-/

namespace Verif.Kernels

open Real Verif.Sphere Verif.Convolve

noncomputable section

/-! ### Distances -/

theorem distance_arccos (lon0 lat0 lon1 lat1 : ℝ) : distance lon0 lat0 lon1 lat1 =
    6370997 * arccos (sin (lat0 * D2R) * sin (lat1 * D2R) + cos (lat0 * D2R) * cos (lat1 * D2R) * cos ((lon1 - lon0) * D2R)) := by
  rw [distance_spec, arc, InnerProductGeometry.angle, norm_onSphere, norm_onSphere, inner_onSphere, mul_one, div_one]

theorem cos_lat_nonneg {lat : ℝ} (h : |lat| ≤ 90) : 0 ≤ cos (lat * D2R) := by
  have hp := D2R_pos
  have e : (90 : ℝ) * D2R = π / 2 := by unfold D2R; ring
  obtain ⟨h1, h2⟩ := abs_le.1 h
  apply cos_nonneg_of_mem_Icc
  constructor
  · nlinarith
  · nlinarith

/-- Two points are never nearer than their latitudes. -/
theorem distance_latitudes (lon0 lat0 lon1 lat1 : ℝ) (h0 : |lat0| ≤ 90) (h1 : |lat1| ≤ 90) :
    6370997 * (|lat1 - lat0| * (π / 180)) ≤ distance lon0 lat0 lon1 lat1 := by
  have hd : |lat1 - lat0| ≤ 180 := by
    have := abs_sub lat1 lat0
    linarith
  rw [← distance_meridian lon0 lat0 lat1 hd, distance_arccos, distance_arccos]
  apply mul_le_mul_of_nonneg_left _ (by norm_num)
  apply arccos_le_arccos
  have hc := mul_nonneg (cos_lat_nonneg h0) (cos_lat_nonneg h1)
  have h2 := cos_le_one ((lon1 - lon0) * D2R)
  rw [sub_self, zero_mul, cos_zero, mul_one]
  nlinarith

/-- Along a parallel the distance is never longer than along the equator. -/
theorem distance_parallel (lon0 lon1 lat : ℝ) (h : |lon1 - lon0| ≤ 180) :
    distance lon0 lat lon1 lat ≤ 6370997 * (|lon1 - lon0| * (π / 180)) := by
  rw [distance_arccos]
  apply mul_le_mul_of_nonneg_left _ (by norm_num)
  have hp : (0 : ℝ) < π / 180 := by positivity
  have e : |lon1 - lon0| * (π / 180) = arccos (cos ((lon1 - lon0) * D2R)) := by
    rw [← cos_abs, abs_mul, abs_of_pos D2R_pos, arccos_cos (mul_nonneg (abs_nonneg _) D2R_pos.le)]
    · rfl
    · have : (180 : ℝ) * D2R = π := by unfold D2R; ring
      rw [← this]
      exact mul_le_mul_of_nonneg_right h D2R_pos.le
  rw [e]
  apply arccos_le_arccos
  have h1 := sin_sq_add_cos_sq (lat * D2R)
  have h2 := cos_le_one ((lon1 - lon0) * D2R)
  nlinarith [sq_nonneg (sin (lat * D2R))]

theorem distance_east_west (lat x y : ℝ) : distance 0 lat (-x) y = distance 0 lat x y := by
  rw [distance_arccos, distance_arccos, show (-x - 0) * D2R = -((x - 0) * D2R) by ring, cos_neg]

/-- Steps in kilometres: distance of one step of latitude. -/
def kmY (g : Steps) : ℝ := 6370.997 * (π / 180) * g.y

/-- As many steps of longitude as degrees, of the distance of one degree at the latitude. -/
def kmX (g : Steps) (lat : ℝ) : ℝ := distance 0 lat 1 lat / 1000 * g.x

theorem stepY_eq (g : Steps) : g.y * distance 0 0 0 1 / 1000 = kmY g := by
  rw [distance_meridian 0 0 1 (by norm_num)]
  unfold kmY
  norm_num
  ring

theorem kmY_pos {g : Steps} (hy : 0 < g.y) : 0 < kmY g := by
  unfold kmY
  positivity

theorem kmX_pos {g : Steps} {lat : ℝ} (hx : 0 < g.x) (hl : |lat| < 90) : 0 < kmX g lat := by
  have hc := cos_pos_lat hl
  have hs : 0 < sin ((1 - 0) * 0.5 * D2R) := by
    apply sin_pos_of_pos_of_lt_pi
    · have := D2R_pos
      linarith
    · unfold D2R
      linarith [pi_pos]
  have h := distance_lower 0 lat 1 lat (sin ((1 - 0) * 0.5 * D2R) * cos (lat * D2R)) (by
    unfold aVal
    simp only
    nlinarith [sq_nonneg (sin ((lat - lat) * 0.5 * D2R))])
  have : 0 < sin ((1 - 0) * 0.5 * D2R) * cos (lat * D2R) := mul_pos hs hc
  have h' : 0 < distance 0 lat 1 lat := by linarith
  unfold kmX
  positivity

/-! ### C131: sizes and weights -/

/-- Distance of the cell at `a` steps of longitude and `b` steps of latitude, in wave lengths. -/
def away (g : Steps) (lat wl : ℝ) (a b : ℤ) : ℝ := distance 0 lat (a * g.x) (lat + b * g.y) / 1000 / wl

/-- The weight which the profile `f` gives to this cell: nothing further than `order` wave lengths. -/
def weightAt (f : ℝ → ℝ) (g : Steps) (lat wl : ℝ) (order : Nat) (a b : ℤ) : ℝ := if away g lat wl a b ≤ order then f (away g lat wl a b) else 0

/-- Half sizes of the matrix before the removal of unused rows and columns. -/
def sizeX (g : Steps) (lat wl : ℝ) (order : Nat) : Nat := ⌈wl / kmX g lat⌉.toNat * order
def sizeY (g : Steps) (wl : ℝ) (order : Nat) : Nat := ⌈wl / kmY g⌉.toNat * order

/-- The wave length is at least two steps of the grid. -/
def Resolved (g : Steps) (lat wl : ℝ) : Prop := 2 * kmX g lat ≤ wl ∧ 2 * kmY g ≤ wl

theorem resolved_iff (g : Steps) (lat wl : ℝ) : Resolved g lat wl ↔ ¬ wl < max (kmX g lat) (kmY g) * 2 := by
  unfold Resolved
  rw [not_lt, max_mul_of_nonneg _ _ (by norm_num : (0 : ℝ) ≤ 2), max_le_iff, mul_comm 2, mul_comm 2]

theorem arange_length {start stop step : ℝ} {n : Nat} (h0 : (n : ℝ) - 1 < (stop - start) / step) (h1 : (stop - start) / step ≤ n) :
    (arange start stop step).length = n := by
  unfold arange
  rw [List.length_map, List.length_range]
  have : ⌈(stop - start) / step⌉ = (n : ℤ) := by
    rw [Int.ceil_eq_iff]
    push_cast
    exact ⟨h0, h1⟩
  rw [this]
  rfl

theorem arange_get {start stop step : ℝ} {k : Nat} (h : k < (arange start stop step).length) : (arange start stop step)[k]? = some (start + k * step) := by
  unfold arange at h ⊢
  rw [List.length_map, List.length_range] at h
  rw [List.getElem?_map, List.getElem?_range h]
  rfl

/-- The matrix of distances. -/
structure Covers (g : Steps) (lat wl : ℝ) (order : Nat) (s : Shape) : Prop where
  halfX : s.halfX * order = sizeX g lat wl order
  halfY : s.halfY * order = sizeY g wl order
  rows : s.dist.length = sizeX g lat wl order + 1
  cols : ∀ r ∈ s.dist, r.length = 2 * sizeY g wl order + 1
  cell : ∀ a b : Nat, a ≤ sizeX g lat wl order → b ≤ 2 * sizeY g wl order →
    (s.dist.getD a []).getD b 0 = away g lat wl a ((b : ℤ) - sizeY g wl order)

theorem shape_spec {g : Steps} (hx : 0 < g.x) (hy : 0 < g.y) (lat wl : ℝ) (order : Nat) :
    (¬ Resolved g lat wl ∧ shape g lat wl order = none) ∨ (Resolved g lat wl ∧ ∃ s, shape g lat wl order = some s ∧ Covers g lat wl order s) := by
  have e : g.x * distance 0 lat 1 lat / 1000 = kmX g lat := by unfold kmX; ring
  by_cases hr : Resolved g lat wl
  · right
    refine ⟨hr, ?_⟩
    have hn := (resolved_iff g lat wl).1 hr
    unfold shape stepInKm
    simp only
    rw [stepY_eq, e, if_neg hn]
    refine ⟨_, rfl, ?_⟩
    simp only
    have hX : (sizeX g lat wl order : ℝ) = (⌈wl / kmX g lat⌉.toNat : ℝ) * order := by unfold sizeX; push_cast; rfl
    have hY : (sizeY g wl order : ℝ) = (⌈wl / kmY g⌉.toNat : ℝ) * order := by unfold sizeY; push_cast; rfl
    have lx : (arange 0 (g.x * (⌈wl / kmX g lat⌉.toNat : ℝ) * order + 0.01 * g.x) g.x).length = sizeX g lat wl order + 1 := by
      have e1 : (g.x * (⌈wl / kmX g lat⌉.toNat : ℝ) * order + 0.01 * g.x - 0) / g.x = sizeX g lat wl order + 0.01 := by
        rw [hX]
        field_simp
        ring
      apply arange_length <;> rw [e1] <;> push_cast <;> norm_num
    have ly : (arange (lat - g.y * (⌈wl / kmY g⌉.toNat : ℝ) * order) (lat + g.y * (⌈wl / kmY g⌉.toNat : ℝ) * order + 0.01 * g.y) g.y).length =
        2 * sizeY g wl order + 1 := by
      have e1 : (lat + g.y * (⌈wl / kmY g⌉.toNat : ℝ) * order + 0.01 * g.y - (lat - g.y * (⌈wl / kmY g⌉.toNat : ℝ) * order)) / g.y =
          2 * sizeY g wl order + 0.01 := by
        rw [hY]
        field_simp
        ring
      apply arange_length <;> rw [e1] <;> push_cast <;> norm_num
    refine ⟨rfl, rfl, by rw [List.length_map, lx], ?_, ?_⟩
    · intro r hr
      obtain ⟨x, _, rfl⟩ := List.mem_map.1 hr
      rw [List.length_map, ly]
    · intro a b ha hb
      rw [List.getD_eq_getElem?_getD, List.getD_eq_getElem?_getD, List.getElem?_map, arange_get (by omega), Option.map_some, Option.getD_some,
        List.getElem?_map, arange_get (by omega), Option.map_some, Option.getD_some]
      unfold away
      congr 3
      · push_cast
        ring
      · push_cast
        rw [hY]
        ring
  · left
    refine ⟨hr, ?_⟩
    unfold shape stepInKm
    simp only
    rw [stepY_eq, e, if_pos (by rw [resolved_iff, not_not] at hr; exact hr)]
    rfl

/-- `weight` gives the profile `f` on the matrix. -/
def Follows (g : Steps) (lat wl : ℝ) (order : Nat) (weight : Shape → Nat → Nat → ℝ → ℝ) (f : ℝ → ℝ) : Prop :=
  ∀ (s : Shape) (a b : Nat), s.halfY * order = sizeY g wl order → a ≤ sizeX g lat wl order → b ≤ 2 * sizeY g wl order →
    weight s a b (away g lat wl a ((b : ℤ) - sizeY g wl order)) = f (away g lat wl a ((b : ℤ) - sizeY g wl order))

theorem kernelOf_eq {g : Steps} (hx : 0 < g.x) (hy : 0 < g.y) {lat wl : ℝ} {order : Nat} {weight : Shape → Nat → Nat → ℝ → ℝ} {f : ℝ → ℝ}
    (hf : Follows g lat wl order weight f) :
    (¬ Resolved g lat wl ∧ kernelOf g lat wl order weight = none) ∨
    (Resolved g lat wl ∧ ∃ w : Nat → Nat → ℝ, kernelOf g lat wl order weight = finalizeKernel (sizeX g lat wl order) (2 * sizeY g wl order + 1) w ∧
      ∀ a b : Nat, a ≤ sizeX g lat wl order → b ≤ 2 * sizeY g wl order → w a b = weightAt f g lat wl order a ((b : ℤ) - sizeY g wl order)) := by
  rcases shape_spec hx hy lat wl order with ⟨h1, h2⟩ | ⟨h1, s, h2, h3⟩
  · left
    refine ⟨h1, ?_⟩
    unfold kernelOf
    rw [h2]
    rfl
  · right
    refine ⟨h1, ?_⟩
    have e : s.halfY * 2 * order + 1 = 2 * sizeY g wl order + 1 := by
      rw [← h3.halfY]
      ring
    unfold kernelOf
    rw [h2, Option.bind_some, if_pos ⟨by rw [h3.rows, h3.halfX], fun r hr => by rw [h3.cols r hr, e]⟩, e, h3.halfX]
    refine ⟨_, rfl, fun a b ha hb => ?_⟩
    simp only
    rw [h3.cell a b ha hb, hf s a b h3.halfY ha hb]
    unfold weightAt
    by_cases hd : away g lat wl a ((b : ℤ) - sizeY g wl order) ≤ order
    · rw [if_neg (not_lt.2 hd), if_pos hd]
    · rw [if_pos (not_le.1 hd), if_neg hd]

theorem wl_pos {g : Steps} (hy : 0 < g.y) {lat wl : ℝ} (hr : Resolved g lat wl) : 0 < wl := by
  have := kmY_pos hy
  linarith [hr.2]

/-- A cell is not nearer than its latitude. -/
theorem away_latitude {g : Steps} (hy : 0 < g.y) {lat wl : ℝ} (hw : 0 < wl) (hl : |lat| ≤ 90) {a b : ℤ} (hb : |lat + b * g.y| ≤ 90) :
    |(b : ℝ)| * kmY g / wl ≤ away g lat wl a b := by
  have h := distance_latitudes 0 lat (a * g.x) (lat + b * g.y) hl hb
  rw [add_sub_cancel_left, abs_mul, abs_of_pos hy] at h
  unfold away kmY
  apply div_le_div_of_nonneg_right _ hw.le
  rw [le_div_iff₀ (by norm_num)]
  nlinarith

/-- Cells of the same meridian. -/
theorem away_meridian {g : Steps} (hy : 0 < g.y) {lat wl : ℝ} {b : ℤ} (hb : |(b : ℝ)| * g.y ≤ 180) :
    away g lat wl 0 b = |(b : ℝ)| * kmY g / wl := by
  have h := distance_meridian 0 lat (lat + b * g.y) (by rwa [add_sub_cancel_left, abs_mul, abs_of_pos hy])
  unfold away kmY
  rw [Int.cast_zero, zero_mul, h, add_sub_cancel_left, abs_mul, abs_of_pos hy]
  norm_num
  ring

theorem away_nonneg {g : Steps} {lat wl : ℝ} (hw : 0 < wl) (a b : ℤ) : 0 ≤ away g lat wl a b := by
  unfold away
  have := distance_nonneg 0 lat (a * g.x) (lat + b * g.y)
  positivity

theorem away_neg (g : Steps) (lat wl : ℝ) (a b : ℤ) : away g lat wl (-a) b = away g lat wl a b := by
  unfold away
  rw [Int.cast_neg, neg_mul, distance_east_west]

theorem weightAt_neg (f : ℝ → ℝ) (g : Steps) (lat wl : ℝ) (order : Nat) (a b : ℤ) : weightAt f g lat wl order (-a) b = weightAt f g lat wl order a b := by
  unfold weightAt
  rw [away_neg]

theorem weightAt_natAbs (f : ℝ → ℝ) (g : Steps) (lat wl : ℝ) (order : Nat) (a b : ℤ) :
    weightAt f g lat wl order (a.natAbs : ℤ) b = weightAt f g lat wl order a b := by
  rcases Int.natAbs_eq a with h | h
  · rw [← h]
  · conv_rhs => rw [h, weightAt_neg]

theorem size_reach {x wl : ℝ} (hx : 0 < x) (order : Nat) : order * wl ≤ (⌈wl / x⌉.toNat * order : Nat) * x := by
  have h1 : wl / x ≤ (⌈wl / x⌉.toNat : ℝ) := by
    have h := Int.le_ceil (wl / x)
    have h2 : ((⌈wl / x⌉ : ℤ) : ℝ) ≤ ((⌈wl / x⌉.toNat : ℤ) : ℝ) := by exact_mod_cast Int.self_le_toNat _
    push_cast at h2 ⊢
    linarith
  rw [div_le_iff₀ hx] at h1
  have h3 : (0 : ℝ) ≤ order := Nat.cast_nonneg _
  push_cast
  nlinarith

/-- No cell of the grid with a weight is above or under the matrix. -/
theorem reach_latitude {f : ℝ → ℝ} {g : Steps} (hy : 0 < g.y) {lat wl : ℝ} (hw : 0 < wl) (hl : |lat| ≤ 90) {order : Nat} {a b : ℤ}
    (hb : |lat + b * g.y| ≤ 90) (h : weightAt f g lat wl order a b ≠ 0) : b.natAbs ≤ sizeY g wl order := by
  have h1 : away g lat wl a b ≤ order := by
    by_contra hc
    unfold weightAt at h
    rw [if_neg hc] at h
    exact h rfl
  have h2 := (away_latitude hy hw hl hb (a := a)).trans h1
  rw [div_le_iff₀ hw] at h2
  have h3 := size_reach (wl := wl) (kmY_pos hy) order
  have h4 : |(b : ℝ)| * kmY g ≤ (sizeY g wl order : ℝ) * kmY g := h2.trans h3
  have h5 := le_of_mul_le_mul_right h4 (kmY_pos hy)
  have h6 : ((b.natAbs : ℕ) : ℝ) ≤ (sizeY g wl order : ℝ) := by rwa [Nat.cast_natAbs, Int.cast_abs]
  exact_mod_cast h6

/-- A kernel against the weights of the cells around the pixel: the pixel is at the row `rx` and the column `y0` of the kernel. -/
structure Holds (k : Kernel ℝ) (w : ℤ → ℤ → ℝ) (rx : Nat) (y0 : ℤ) : Prop where
  odd : k.kx = 2 * rx + 1
  weight : ∀ i j : Nat, i < k.kx → j < k.ky → k.w i j = w ((i : ℤ) - rx) ((j : ℤ) - y0)
  first : ∃ i, i < k.kx ∧ k.w i 0 ≠ 0
  last : ∃ i, i < k.kx ∧ k.w i (k.ky - 1) ≠ 0
  east : ∃ j, j < k.ky ∧ k.w (k.kx - 1) j ≠ 0
  some : 1 ≤ k.ky

/-- **C131**: the function raises when the wave length is under two steps or when every weight is 0. Otherwise each weight is the one of the cell
at its place around the pixel (`y0` is the column of the pixel), no row or column of zeros is left on the borders, and every cell of the globe with
a weight is in the kernel, provided that it is not further than `sizeX` steps of longitude. -/
theorem kernel_spec {g : Steps} (hx : 0 < g.x) (hy : 0 < g.y) {lat wl : ℝ} (hl : |lat| ≤ 90) {order : Nat}
    {weight : Shape → Nat → Nat → ℝ → ℝ} {f : ℝ → ℝ} (hf : Follows g lat wl order weight f) {k : Kernel ℝ} (hk : kernelOf g lat wl order weight = some k) :
    Resolved g lat wl ∧ ∃ (rx : Nat) (y0 : ℤ), rx ≤ sizeX g lat wl order ∧ y0 ≤ sizeY g wl order ∧ k.ky - y0 ≤ sizeY g wl order + 1 ∧
      Holds k (weightAt f g lat wl order) rx y0 ∧
      ∀ a b : ℤ, a.natAbs ≤ sizeX g lat wl order → |lat + b * g.y| ≤ 90 ∨ b.natAbs ≤ sizeY g wl order → weightAt f g lat wl order a b ≠ 0 →
        a.natAbs ≤ rx ∧ 0 ≤ b + y0 ∧ b + y0 < k.ky := by
  rcases kernelOf_eq hx hy hf with ⟨_, h2⟩ | ⟨h1, w, h2, h3⟩
  · rw [h2] at hk
    cases hk
  refine ⟨h1, ?_⟩
  rw [h2] at hk
  obtain ⟨d, c, hd, hkx, hc, hky, hs, hw, hall, ⟨be, hbe, hbe'⟩, ⟨af, haf, haf'⟩, ⟨al, hal, hal'⟩⟩ := finalize_spec hk
  have hin : ∀ i j : Nat, i < k.kx → j < k.ky → k.w i j = weightAt f g lat wl order ((i : ℤ) - d) ((j : ℤ) - ((sizeY g wl order : ℤ) - c)) := by
    intro i j hi hj
    have key : ∀ a : Nat, a ≤ d → k.w (d + a) j = weightAt f g lat wl order a ((j : ℤ) - ((sizeY g wl order : ℤ) - c)) := by
      intro a ha
      rw [hw a j ha, h3 a (c + j) (by omega) (by omega)]
      congr 1
      push_cast
      ring
    by_cases hid : d ≤ i
    · have := key (i - d) (by omega)
      rw [show d + (i - d) = i by omega] at this
      rw [this]
      congr 1
      omega
    · have := key (d - i) (by omega)
      rw [show d + (d - i) = 2 * d - i by omega, hs i j hi] at this
      rw [this, ← weightAt_neg]
      congr 1
      omega
  refine ⟨d, (sizeY g wl order : ℤ) - c, hd, by omega, by omega, ⟨hkx, hin, ⟨d + af, by omega, ?_⟩, ⟨d + al, by omega, ?_⟩, ⟨be, hbe, ?_⟩, hky⟩, ?_⟩
  · rw [hw af 0 haf]
    exact haf'
  · rw [hw al _ hal]
    exact hal'
  · rw [show k.kx - 1 = d + d by omega, hw d be (le_refl _)]
    exact hbe'
  · intro a b ha hb hab
    have hn : b.natAbs ≤ sizeY g wl order := hb.elim (fun hb => reach_latitude hy (wl_pos hy h1) hl hb hab) id
    rw [← weightAt_natAbs] at hab
    have hcell := h3 a.natAbs (b + sizeY g wl order).toNat ha (by omega)
    rw [show (((b + sizeY g wl order).toNat : ℤ) - sizeY g wl order) = b by omega] at hcell
    have := hall a.natAbs (b + sizeY g wl order).toNat ha (by omega) (by rw [hcell]; exact hab)
    omega

theorem kernel_none_iff {g : Steps} (hx : 0 < g.x) (hy : 0 < g.y) {lat wl : ℝ} {order : Nat} {weight : Shape → Nat → Nat → ℝ → ℝ} {f : ℝ → ℝ}
    (hf : Follows g lat wl order weight f) (h0 : f 0 ≠ 0) : kernelOf g lat wl order weight = none ↔ ¬ Resolved g lat wl := by
  rcases kernelOf_eq hx hy hf with ⟨h1, h2⟩ | ⟨h1, w, h2, h3⟩
  · simp [h1, h2]
  · simp only [h1, not_true_eq_false, iff_false]
    rw [h2, finalize_raises]
    intro hz
    have := hz 0 (sizeY g wl order) (Nat.zero_le _) (by omega)
    rw [h3 0 _ (Nat.zero_le _) (by omega)] at this
    rw [sub_self] at this
    unfold weightAt at this
    rw [show ((0 : ℕ) : ℤ) = 0 from rfl, away_meridian hy (by simp)] at this
    simp at this
    exact h0 this

/-- **C131**: rows of latitudes of the globe only, and a profile which stops at the row `m`: the pixel is at the centre of the kernel. -/
theorem kernel_centred_partial {g : Steps} (hx : 0 < g.x) (hy : 0 < g.y) {lat wl : ℝ} {order : Nat} {weight : Shape → Nat → Nat → ℝ → ℝ} {f : ℝ → ℝ}
    (hf : Follows g lat wl order weight f) {k : Kernel ℝ} (hk : kernelOf g lat wl order weight = some k)
    (hin : |lat| + sizeY g wl order * g.y ≤ 90) {m : Nat} (hm : m * kmY g ≤ order * wl) (hm0 : f (m * kmY g / wl) ≠ 0)
    (hm1 : ∀ d, (m + 1) * kmY g / wl ≤ d → d ≤ order → f d = 0) :
    ∃ rx, Holds k (weightAt f g lat wl order) rx m ∧ k.ky = 2 * m + 1 := by
  have hs0 : 0 ≤ (sizeY g wl order : ℝ) * g.y := mul_nonneg (Nat.cast_nonneg _) hy.le
  have hl : |lat| ≤ 90 := by linarith
  obtain ⟨hr, rx, y0, hrx, hy0, hy1, hh, hall⟩ := kernel_spec hx hy hl hf hk
  have hw := wl_pos hy hr
  have hmy : m ≤ sizeY g wl order := by
    have h3 := size_reach (wl := wl) (kmY_pos hy) order
    have h4 := le_of_mul_le_mul_right (hm.trans h3) (kmY_pos hy)
    exact_mod_cast h4
  have hmy' : (m : ℝ) * g.y ≤ sizeY g wl order * g.y := mul_le_mul_of_nonneg_right (by exact_mod_cast hmy) hy.le
  have hrow : ∀ b : ℤ, b.natAbs ≤ sizeY g wl order → |lat + b * g.y| ≤ 90 := by
    intro b hb
    have h1 : |(b : ℝ)| ≤ sizeY g wl order := by
      have : ((b.natAbs : ℕ) : ℝ) ≤ sizeY g wl order := by exact_mod_cast hb
      rwa [Nat.cast_natAbs, Int.cast_abs] at this
    have h2 := abs_add_le lat (b * g.y)
    rw [abs_mul, abs_of_pos hy] at h2
    have h3 := mul_le_mul_of_nonneg_right h1 hy.le
    linarith
  have hon : ∀ b : ℤ, b.natAbs = m → weightAt f g lat wl order 0 b ≠ 0 := by
    intro b hb
    have hab : |(b : ℝ)| = m := by rw [← Int.cast_abs, ← hb, Nat.cast_natAbs]
    have hd : away g lat wl 0 b = m * kmY g / wl := by
      rw [away_meridian hy (by rw [hab]; have := abs_nonneg lat; linarith), hab]
    unfold weightAt
    rw [hd, if_pos (by rw [div_le_iff₀ hw]; exact hm)]
    exact hm0
  have hoff : ∀ a b : ℤ, m < b.natAbs → b.natAbs ≤ sizeY g wl order → weightAt f g lat wl order a b = 0 := by
    intro a b h1 h2
    unfold weightAt
    split_ifs with h
    · refine hm1 _ ?_ h
      refine le_trans ?_ (away_latitude hy hw hl (hrow b h2))
      apply div_le_div_of_nonneg_right _ hw.le
      apply mul_le_mul_of_nonneg_right _ (kmY_pos hy).le
      rw [← Int.cast_abs, ← Nat.cast_natAbs]
      exact_mod_cast h1
    · rfl
  have n1 := hall 0 m (by simp) (Or.inr (by simpa using hmy)) (hon m (by simp))
  have n2 := hall 0 (-m) (by simp) (Or.inr (by simpa using hmy)) (hon (-m) (by simp))
  obtain ⟨i, hi, hi0⟩ := hh.first
  obtain ⟨l, hli, hl0⟩ := hh.last
  have hky := hh.some
  rw [hh.weight i 0 hi (by omega)] at hi0
  rw [hh.weight l _ hli (by omega)] at hl0
  have e1 : y0 ≤ m := by
    by_contra hc
    exact hi0 (hoff _ _ (by omega) (by omega))
  have e2 : k.ky - 1 - y0 ≤ m := by
    by_contra hc
    exact hl0 (hoff _ _ (by omega) (by omega))
  have e3 : y0 = m := by omega
  subst e3
  exact ⟨rx, hh, by omega⟩

theorem checkOrder_one {o : ℝ} (h0 : 0 < o) (h1 : o ≤ 1) : checkOrder o = 1 := by
  unfold checkOrder
  rw [show ⌈o⌉ = 1 by rw [Int.ceil_eq_iff]; push_cast; constructor <;> linarith]
  rfl

/-- The order is rounded up. -/
theorem checkOrder_spec {o : ℝ} (h0 : 0 < o) : o ≤ checkOrder o ∧ (checkOrder o : ℝ) < o + 1 := by
  unfold checkOrder
  have h : ((⌈o⌉.toNat : ℤ) : ℝ) = ⌈o⌉ := by rw [Int.toNat_of_nonneg (Int.ceil_nonneg h0.le)]
  push_cast at h
  rw [h]
  exact ⟨Int.le_ceil o, Int.ceil_lt_add_one o⟩

/-- The last row before `order` wave lengths. -/
def lastRow (g : Steps) (wl : ℝ) (order : Nat) : Nat := ⌈order * wl / kmY g⌉.toNat - 1

theorem lastRow_spec {g : Steps} (hy : 0 < g.y) {wl : ℝ} (hw : 0 < wl) {order : Nat} (ho : 0 < order) :
    lastRow g wl order * kmY g < order * wl ∧ order * wl ≤ (lastRow g wl order + 1) * kmY g := by
  have hq : 0 < order * wl / kmY g := div_pos (mul_pos (by exact_mod_cast ho) hw) (kmY_pos hy)
  have hp : 0 < ⌈order * wl / kmY g⌉ := Int.ceil_pos.2 hq
  have e : ((lastRow g wl order : ℕ) : ℝ) = (⌈order * wl / kmY g⌉ : ℝ) - 1 := by
    unfold lastRow
    rw [Nat.cast_sub (by omega)]
    have h : ((⌈order * wl / kmY g⌉.toNat : ℤ) : ℝ) = ⌈order * wl / kmY g⌉ := by rw [Int.toNat_of_nonneg hp.le]
    push_cast at h
    rw [h]
    simp
  rw [e]
  constructor
  · rw [← lt_div_iff₀ (kmY_pos hy)]
    have := Int.ceil_lt_add_one (order * wl / kmY g)
    linarith
  · rw [← div_le_iff₀ (kmY_pos hy)]
    have := Int.le_ceil (order * wl / kmY g)
    linarith

/-- The centre, for a profile which is null at `order` wave lengths. -/
theorem centred_of_null {g : Steps} (hx : 0 < g.x) (hy : 0 < g.y) {lat wl : ℝ} {order : Nat} (ho : 0 < order) {weight : Shape → Nat → Nat → ℝ → ℝ}
    {f : ℝ → ℝ} (hf : Follows g lat wl order weight f) {k : Kernel ℝ} (hk : kernelOf g lat wl order weight = some k)
    (hin : |lat| + sizeY g wl order * g.y ≤ 90) (h0 : f order = 0) (h1 : f (lastRow g wl order * kmY g / wl) ≠ 0) :
    ∃ rx, Holds k (weightAt f g lat wl order) rx (lastRow g wl order) ∧ k.ky = 2 * lastRow g wl order + 1 := by
  have hs0 : 0 ≤ (sizeY g wl order : ℝ) * g.y := mul_nonneg (Nat.cast_nonneg _) hy.le
  have hl : |lat| ≤ 90 := by linarith
  obtain ⟨hr, _⟩ := kernel_spec hx hy hl hf hk
  have hw := wl_pos hy hr
  obtain ⟨l0, l1⟩ := lastRow_spec hy hw ho
  refine kernel_centred_partial hx hy hf hk hin l0.le h1 ?_
  intro d hd hd'
  have : (order : ℝ) ≤ d := by
    refine le_trans ?_ hd
    rw [le_div_iff₀ hw]
    exact l1
  rw [le_antisymm hd' this]
  exact h0

/-! ### Profiles -/

/-- Profile of `kernel_loess`. -/
def tricube (d : ℝ) : ℝ := (1 - |d| ^ 3) ^ 3

theorem tricube_pos {d : ℝ} (h : |d| < 1) : 0 < tricube d := by
  unfold tricube
  have h1 : |d| ^ 3 < 1 := pow_lt_one₀ (abs_nonneg d) h (by norm_num)
  have h2 : 0 < 1 - |d| ^ 3 := by linarith
  positivity

theorem loess_follows (g : Steps) (lat wl : ℝ) (order : Nat) : Follows g lat wl order (fun _ _ _ d => (1 - |d| ^ 3) ^ 3) tricube := fun _ _ _ _ _ _ => rfl

theorem lanczos_follows (g : Steps) (lat wl : ℝ) (order : Nat) :
    Follows g lat wl order (fun _ _ _ d => npSinc (d / order) * npSinc d) (fun d => npSinc (d / order) * npSinc d) := fun _ _ _ _ _ _ => rfl

theorem npSinc_pos {d : ℝ} (h0 : 0 ≤ d) (h1 : d < 1) : 0 < npSinc d := by
  unfold npSinc
  rcases h0.eq_or_lt with rfl | h0
  · simp
  · have hp := pi_pos
    rw [sinc_of_ne_zero (by positivity)]
    apply div_pos _ (by positivity)
    apply sin_pos_of_pos_of_lt_pi (by positivity)
    nlinarith

theorem npSinc_one : npSinc 1 = 0 := by
  unfold npSinc
  rw [mul_one, sinc_of_ne_zero pi_pos.ne', sin_pi, zero_div]

/-- The functions raise exactly when the wave length is under two steps. -/
theorem loess_none_iff {g : Steps} (hx : 0 < g.x) (hy : 0 < g.y) (lat wl order : ℝ) : loess g lat wl order = none ↔ ¬ Resolved g lat wl :=
  kernel_none_iff hx hy (loess_follows g lat wl _) (by simp [tricube])

theorem lanczos_none_iff {g : Steps} (hx : 0 < g.x) (hy : 0 < g.y) (lat wl order : ℝ) : lanczos g lat wl order = none ↔ ¬ Resolved g lat wl :=
  kernel_none_iff hx hy (lanczos_follows g lat wl _) (by simp [npSinc])

/-- **C131**: local regression of order 1, the pixel is at the centre. -/
theorem loess_centred_partial {g : Steps} (hx : 0 < g.x) (hy : 0 < g.y) {lat wl order : ℝ} (h0 : 0 < order) (h1 : order ≤ 1) {k : Kernel ℝ}
    (hk : loess g lat wl order = some k) (hin : |lat| + sizeY g wl 1 * g.y ≤ 90) :
    ∃ rx ry : Nat, Holds k (weightAt tricube g lat wl 1) rx ry ∧ k.ky = 2 * ry + 1 := by
  unfold loess at hk
  rw [checkOrder_one h0 h1] at hk
  have hs0 : 0 ≤ (sizeY g wl 1 : ℝ) * g.y := mul_nonneg (Nat.cast_nonneg _) hy.le
  obtain ⟨hr, _⟩ := kernel_spec hx hy (by linarith) (loess_follows g lat wl 1) hk
  have hw := wl_pos hy hr
  have hl := (lastRow_spec hy hw (order := 1) one_pos).1
  obtain ⟨rx, h⟩ := centred_of_null hx hy one_pos (loess_follows g lat wl 1) hk hin (by simp [tricube]) (by
    apply ne_of_gt
    apply tricube_pos
    have : 0 ≤ (lastRow g wl 1 : ℝ) * kmY g / wl := div_nonneg (mul_nonneg (Nat.cast_nonneg _) (kmY_pos hy).le) hw.le
    rw [abs_of_nonneg this, div_lt_one hw]
    simpa using hl)
  exact ⟨rx, _, h⟩

/-- **C131**: Lanczos of order 1. -/
theorem lanczos_centred_partial {g : Steps} (hx : 0 < g.x) (hy : 0 < g.y) {lat wl order : ℝ} (h0 : 0 < order) (h1 : order ≤ 1) {k : Kernel ℝ}
    (hk : lanczos g lat wl order = some k) (hin : |lat| + sizeY g wl 1 * g.y ≤ 90) :
    ∃ rx ry : Nat, Holds k (weightAt (fun d => npSinc d * npSinc d) g lat wl 1) rx ry ∧ k.ky = 2 * ry + 1 := by
  unfold lanczos at hk
  rw [checkOrder_one h0 h1] at hk
  have hf : Follows g lat wl 1 (fun _ _ _ d => npSinc (d / (1 : Nat)) * npSinc d) (fun d => npSinc d * npSinc d) := by
    intro s a b _ _ _
    simp
  have hs0 : 0 ≤ (sizeY g wl 1 : ℝ) * g.y := mul_nonneg (Nat.cast_nonneg _) hy.le
  obtain ⟨hr, _⟩ := kernel_spec hx hy (by linarith) hf hk
  have hw := wl_pos hy hr
  have hl := (lastRow_spec hy hw (order := 1) one_pos).1
  obtain ⟨rx, h⟩ := centred_of_null hx hy one_pos hf hk hin (by simp [npSinc_one]) (by
    have : 0 < npSinc ((lastRow g wl 1 : ℝ) * kmY g / wl) := by
      apply npSinc_pos
      · exact div_nonneg (mul_nonneg (Nat.cast_nonneg _) (kmY_pos hy).le) hw.le
      · rw [div_lt_one hw]
        simpa using hl
    positivity)
  exact ⟨rx, _, h⟩

/-- Profile of `kernel_bessel`. -/
def besselProfile (j1 : ℝ → ℝ) (order : Nat) (d : ℝ) : ℝ := if d = 0 then π else npSinc (d / order) * j1 (2 * π * d) / d

/-- Away from the poles and for less than a turn, the only cell at the distance 0 is the pixel. -/
theorem away_zero {g : Steps} (hx : 0 < g.x) (hy : 0 < g.y) {lat wl : ℝ} (hw : 0 < wl) (hl : |lat| < 90) {a : Nat} {b : ℤ} (ha : a * g.x < 360)
    (hb : |lat + b * g.y| ≤ 90) (h : away g lat wl a b = 0) : a = 0 ∧ b = 0 := by
  have hb0 : b = 0 := by
    have h1 := away_latitude hy hw hl.le hb (a := a)
    rw [h] at h1
    by_contra hne
    have : 0 < |(b : ℝ)| := abs_pos.2 (by exact_mod_cast hne)
    have := div_pos (mul_pos this (kmY_pos hy)) hw
    linarith
  subst hb0
  refine ⟨?_, rfl⟩
  unfold away at h
  have hd : distance 0 lat ((a : ℤ) * g.x) lat = 0 := by
    simp only [Int.cast_zero, zero_mul, add_zero] at h
    rcases div_eq_zero_iff.1 h with h | h
    · rcases div_eq_zero_iff.1 h with h | h
      · exact h
      · norm_num at h
    · exact absurd h hw.ne'
  rw [distance_arccos, mul_eq_zero, or_iff_right (by norm_num), arccos_eq_zero] at hd
  have hc := cos_pos_lat hl
  have h1 := sin_sq_add_cos_sq (lat * D2R)
  have h2 := cos_le_one (((a : ℤ) * g.x - 0) * D2R)
  have h3 : cos (((a : ℤ) * g.x - 0) * D2R) = 1 := by
    apply le_antisymm h2
    by_contra hlt
    have : 0 < cos (lat * D2R) * cos (lat * D2R) := mul_pos hc hc
    nlinarith
  have hD := D2R_pos
  have h360 : (360 : ℝ) * D2R = 2 * π := by unfold D2R; ring
  have ha0 : 0 ≤ (a : ℝ) * g.x := mul_nonneg (Nat.cast_nonneg _) hx.le
  have hz := (cos_eq_one_iff_of_lt_of_lt (by push_cast; nlinarith [pi_pos]) (by push_cast; nlinarith)).1 h3
  have : ((a : ℤ) : ℝ) * g.x - 0 = 0 := by
    rcases mul_eq_zero.1 hz with h | h
    · exact h
    · exact absurd h hD.ne'
  rw [sub_zero] at this
  rcases mul_eq_zero.1 this with h | h
  · exact_mod_cast h
  · exact absurd h hx.ne'

/-- **C131**: Bessel, away from the poles, for less than a turn of longitudes and a weight which is not null on the last row of the meridian. -/
theorem bessel_centred_partial {j1 : ℝ → ℝ} {g : Steps} (hx : 0 < g.x) (hy : 0 < g.y) {lat wl order : ℝ} (h0 : 0 < order) {k : Kernel ℝ}
    (hk : bessel j1 g lat wl order = some k) (hin : |lat| + sizeY g wl (checkOrder order) * g.y ≤ 90) (hl : |lat| < 90)
    (hturn : sizeX g lat wl (checkOrder order) * g.x < 360)
    (hj : besselProfile j1 (checkOrder order) (lastRow g wl (checkOrder order) * kmY g / wl) ≠ 0) :
    ∃ rx ry : Nat, Holds k (weightAt (besselProfile j1 (checkOrder order)) g lat wl (checkOrder order)) rx ry ∧ k.ky = 2 * ry + 1 := by
  have ho : 0 < checkOrder order := by
    have := (checkOrder_spec h0).1
    have : (0 : ℝ) < checkOrder order := by linarith
    exact_mod_cast this
  unfold bessel at hk
  simp only at hk
  generalize checkOrder order = n at *
  by_cases hr : Resolved g lat wl
  · have hw := wl_pos hy hr
    have hf : Follows g lat wl n (fun s a b d => if a = 0 ∧ b = s.halfY * n then π else npSinc (d / n) * j1 (2 * π * d) / d) (besselProfile j1 n) := by
      intro s a b hs ha hb
      simp only
      unfold besselProfile
      rw [hs]
      by_cases hab : a = 0 ∧ b = sizeY g wl n
      · obtain ⟨rfl, rfl⟩ := hab
        rw [if_pos ⟨rfl, rfl⟩, sub_self, if_pos]
        rw [show ((0 : ℕ) : ℤ) = 0 from rfl, away_meridian hy (by simp)]
        simp
      · rw [if_neg hab, if_neg]
        intro hz
        have hrow : |lat + ((b : ℤ) - sizeY g wl n : ℤ) * g.y| ≤ 90 := by
          have h1 : |(((b : ℤ) - sizeY g wl n : ℤ) : ℝ)| ≤ sizeY g wl n := by
            rw [← Int.cast_abs]
            have : |(b : ℤ) - sizeY g wl n| ≤ sizeY g wl n := by
              rw [abs_le]
              omega
            exact_mod_cast this
          have h2 := abs_add_le lat (((b : ℤ) - sizeY g wl n : ℤ) * g.y)
          rw [abs_mul, abs_of_pos hy] at h2
          have h3 := mul_le_mul_of_nonneg_right h1 hy.le
          linarith
        have hax : (a : ℝ) * g.x < 360 := by
          have : (a : ℝ) ≤ sizeX g lat wl n := by exact_mod_cast ha
          nlinarith
        have := away_zero hx hy hw hl hax hrow hz
        apply hab
        omega
    obtain ⟨rx, h⟩ := centred_of_null hx hy ho hf hk hin (by
      unfold besselProfile
      have hn : (n : ℝ) ≠ 0 := by exact_mod_cast ho.ne'
      rw [if_neg hn, div_self hn, npSinc_one]
      simp) hj
    exact ⟨rx, _, h⟩
  · rcases shape_spec hx hy lat wl n with ⟨_, h2⟩ | ⟨h1, _⟩
    · unfold kernelOf at hk
      rw [h2] at hk
      cases hk
    · exact absurd h1 hr

end

end Verif.Kernels
