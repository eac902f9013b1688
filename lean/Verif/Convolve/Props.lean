import Verif.Convolve.Model
import Verif.Tracks.Lemmas

/-!
# C81, C82: filters of a regular grid
-/

namespace Verif.Convolve

/-! ### C82: kernels -/

theorem mirrored_symm {α : Type} (h : Nat) (w : Nat → Nat → α) {a : Nat} (ha : a ≤ 2 * h) (b : Nat) : mirrored h w (2 * h - a) b = mirrored h w a b := by
  unfold mirrored
  by_cases h1 : h ≤ a
  · by_cases h2 : h ≤ 2 * h - a
    · rw [if_pos h1, if_pos h2]
      congr 1
      omega
    · rw [if_pos h1, if_neg h2]
      congr 1
      omega
  · rw [if_neg h1, if_pos (by omega)]
    congr 1
    omega

theorem filter_range_sorted (n : Nat) (p : Nat → Bool) : ((List.range n).filter p).Pairwise (· < ·) := List.Pairwise.filter _ List.pairwise_lt_range

theorem head_least {l : List Nat} (hs : l.Pairwise (· < ·)) {x : Nat} (h : l.head? = some x) : x ∈ l ∧ ∀ y ∈ l, x ≤ y := by
  cases l with
  | nil => cases h
  | cons a l =>
    simp only [List.head?_cons, Option.some.injEq] at h
    subst h
    refine ⟨List.mem_cons_self, fun y hy => ?_⟩
    rcases List.mem_cons.1 hy with rfl | hy
    · exact le_refl _
    · exact le_of_lt ((List.pairwise_cons.1 hs).1 y hy)

theorem last_greatest {l : List Nat} (hs : l.Pairwise (· < ·)) {x : Nat} (h : l.getLast? = some x) : x ∈ l ∧ ∀ y ∈ l, y ≤ x := by
  obtain ⟨r, rfl⟩ := List.getLast?_eq_some_iff.1 h
  refine ⟨by simp, fun y hy => ?_⟩
  rw [List.pairwise_append] at hs
  rcases List.mem_append.1 hy with hy | hy
  · exact le_of_lt (hs.2.2 y hy x (by simp))
  · simp at hy
    omega

/-- **C82**: the kernel has an odd number of longitudes, it is symmetric around its centre, which is the first row of the half kernel, and no
weight which is not 0 is lost. Its first and last rows and columns have a weight which is not 0. -/
theorem finalize_spec {α : Type} [Zero α] [DecidableEq α] {h v : Nat} {w : Nat → Nat → α} {k : Kernel α} (hk : finalizeKernel h v w = some k) :
    ∃ d y0 : Nat, d ≤ h ∧ k.kx = 2 * d + 1 ∧ y0 + k.ky ≤ v ∧ 1 ≤ k.ky ∧
      (∀ a b, a < k.kx → k.w (2 * d - a) b = k.w a b) ∧
      (∀ a b, a ≤ d → k.w (d + a) b = w a (y0 + b)) ∧
      (∀ a b, a ≤ h → b < v → w a b ≠ 0 → a ≤ d ∧ y0 ≤ b ∧ b < y0 + k.ky) ∧
      (∃ b, b < k.ky ∧ w d (y0 + b) ≠ 0) ∧ (∃ a, a ≤ d ∧ w a y0 ≠ 0) ∧ ∃ a, a ≤ d ∧ w a (y0 + (k.ky - 1)) ≠ 0 := by
  unfold finalizeKernel at hk
  simp only [Option.bind_eq_bind, Option.bind_eq_some_iff] at hk
  obtain ⟨x0, hx0, x1, hx1, y0, hy0, y1, hy1, hk⟩ := hk
  have hk := Option.some.inj hk
  subst hk
  have sx := filter_range_sorted (2 * h + 1) (fun a => (List.range v).any (fun b => decide (mirrored h w a b ≠ 0)))
  have sy := filter_range_sorted v (fun b => (List.range (2 * h + 1)).any (fun a => decide (mirrored h w a b ≠ 0)))
  obtain ⟨mx0, lx0⟩ := head_least sx hx0
  obtain ⟨mx1, lx1⟩ := last_greatest sx hx1
  obtain ⟨my0, ly0⟩ := head_least sy hy0
  obtain ⟨my1, ly1⟩ := last_greatest sy hy1
  simp only [List.mem_filter, List.mem_range, List.any_eq_true, decide_eq_true_eq] at mx0 mx1 my0 my1 lx0 lx1 ly0 ly1
  -- symmetry of the rows with a value
  have sym : ∀ a, a < 2 * h + 1 → (∃ b, b < v ∧ mirrored h w a b ≠ 0) → ∃ b, b < v ∧ mirrored h w (2 * h - a) b ≠ 0 := by
    rintro a ha ⟨b, hb, hw⟩
    exact ⟨b, hb, by rwa [mirrored_symm h w (by omega) b]⟩
  have e1 := lx1 (2 * h - x0) ⟨by omega, sym x0 mx0.1 mx0.2⟩
  have e2 := lx0 (2 * h - x1) ⟨by omega, sym x1 mx1.1 mx1.2⟩
  have l01 := lx0 x1 mx1
  have hsum : x0 + x1 = 2 * h := by omega
  have yy := ly0 y1 my1
  have edge : ∀ b, b < v ∧ (∃ a, a < 2 * h + 1 ∧ mirrored h w a b ≠ 0) → ∃ a, a ≤ h - x0 ∧ w a b ≠ 0 := by
    rintro b ⟨hb, a, ha, hw⟩
    have f1 := lx0 a ⟨ha, b, hb, hw⟩
    have f2 := lx1 a ⟨ha, b, hb, hw⟩
    unfold mirrored at hw
    split at hw
    · exact ⟨a - h, by omega, hw⟩
    · exact ⟨h - a, by omega, hw⟩
  refine ⟨h - x0, y0, by omega, by simp only; omega, by simp only; omega, by simp only; omega, ?_, ?_, ?_, ?_, ?_, ?_⟩
  · intro a b ha
    simp only at ha ⊢
    rw [show x0 + (2 * (h - x0) - a) = 2 * h - (x0 + a) by omega, mirrored_symm h w (by omega)]
  · intro a b ha
    simp only
    rw [show x0 + (h - x0 + a) = h + a by omega]
    unfold mirrored
    rw [if_pos (by omega), Nat.add_sub_cancel_left]
  · intro a b ha hb hw
    have hm : mirrored h w (h + a) b ≠ 0 := by
      unfold mirrored
      rwa [if_pos (by omega), Nat.add_sub_cancel_left]
    have f1 := lx1 (h + a) ⟨by omega, b, hb, hm⟩
    have f2 := ly0 b ⟨hb, h + a, by omega, hm⟩
    have f3 := ly1 b ⟨hb, h + a, by omega, hm⟩
    simp only
    omega
  · obtain ⟨b, hb, hw⟩ := sym x1 mx1.1 mx1.2
    rw [mirrored_symm h w (by omega)] at hw
    have hm : mirrored h w (h + (h - x0)) b ≠ 0 := by rwa [show h + (h - x0) = x1 by omega]
    have f2 := ly0 b ⟨hb, x1, mx1.1, hw⟩
    have f3 := ly1 b ⟨hb, x1, mx1.1, hw⟩
    refine ⟨b - y0, by simp only; omega, ?_⟩
    rw [show y0 + (b - y0) = b by omega]
    unfold mirrored at hm
    rwa [if_pos (by omega), Nat.add_sub_cancel_left] at hm
  · exact edge y0 my0
  · have := edge y1 my1
    simp only
    rwa [show y0 + (y1 + 1 - y0 - 1) = y1 by omega]

/-- The function raises exactly for a kernel without value. -/
theorem finalize_raises {α : Type} [Zero α] [DecidableEq α] (h v : Nat) (w : Nat → Nat → α) : finalizeKernel h v w = none ↔ ∀ a b, a ≤ h → b < v → w a b = 0 := by
  constructor
  · intro hn a b ha hb
    by_contra hw
    have hm : mirrored h w (h + a) b ≠ 0 := by
      unfold mirrored
      rwa [if_pos (by omega), Nat.add_sub_cancel_left]
    have hx : xValid h v w ≠ [] := by
      apply List.ne_nil_of_mem (a := h + a)
      unfold xValid
      simp only [List.mem_filter, List.mem_range, List.any_eq_true, decide_eq_true_eq]
      exact ⟨by omega, b, hb, hm⟩
    have hy : yValid h v w ≠ [] := by
      apply List.ne_nil_of_mem (a := b)
      unfold yValid
      simp only [List.mem_filter, List.mem_range, List.any_eq_true, decide_eq_true_eq]
      exact ⟨hb, h + a, by omega, hm⟩
    unfold finalizeKernel at hn
    obtain ⟨x0, hx0⟩ := Option.ne_none_iff_exists'.1 (mt List.head?_eq_none_iff.1 hx)
    obtain ⟨x1, hx1⟩ := Option.ne_none_iff_exists'.1 (mt List.getLast?_eq_none_iff.1 hx)
    obtain ⟨y0, hy0⟩ := Option.ne_none_iff_exists'.1 (mt List.head?_eq_none_iff.1 hy)
    obtain ⟨y1, hy1⟩ := Option.ne_none_iff_exists'.1 (mt List.getLast?_eq_none_iff.1 hy)
    rw [hx0, hx1, hy0, hy1] at hn
    cases hn
  · intro hz
    have hm : ∀ a b, a < 2 * h + 1 → b < v → mirrored h w a b = 0 := by
      intro a b ha hb
      unfold mirrored
      split
      · exact hz _ _ (by omega) hb
      · exact hz _ _ (by omega) hb
    have hx : xValid h v w = [] := by
      unfold xValid
      rw [List.filter_eq_nil_iff]
      intro a ha
      simp only [List.mem_range] at ha
      simp only [List.any_eq_true, List.mem_range, decide_eq_true_eq, not_exists, not_and, not_not]
      intro b hb
      exact hm a b ha hb
    unfold finalizeKernel
    rw [hx]
    rfl

/-! ### C81: the filter -/

/-- Value of the grid at any integer position: longitudes turn on a circular grid. -/
def Grid.at' (g : Grid) (x y : Int) : Option Rat :=
  if 0 ≤ y ∧ y < g.m then
    if g.circular then g.v (x % g.n).toNat y.toNat
    else if 0 ≤ x ∧ x < g.n then g.v x.toNat y.toNat else none
  else none

/-- Sum over the weights of the kernel centred on the pixel. -/
def overKernel (k : Kernel) (f : Nat → Nat → Rat) : Rat :=
  ((List.range k.kx).map (fun a => ((List.range k.ky).map (fun b => k.w a b * f a b)).sum)).sum

theorem overKernel_congr (k : Kernel) {f g : Nat → Nat → Rat} (h : ∀ a b, a < k.kx → b < k.ky → f a b = g a b) : overKernel k f = overKernel k g := by
  unfold overKernel
  congr 1
  apply List.map_congr_left
  intro a ha
  congr 1
  apply List.map_congr_left
  intro b hb
  rw [h a b (List.mem_range.1 ha) (List.mem_range.1 hb)]

theorem tmp_eq {g : Grid} {dlon dlat i : Nat} (hi : i < g.m) (hc : g.circular = true → dlon ≤ g.n) {x a b : Nat} (hx : x < g.n) (ha : a ≤ 2 * dlon)
    (hb : b ≤ 2 * dlat) : tmp g dlon dlat i (x + a) b = g.at' ((x : Int) + a - dlon) ((i : Int) + b - dlat) := by
  unfold tmp Grid.at'
  simp only
  by_cases hy : 0 ≤ (i : Int) + b - dlat ∧ (i : Int) + b - dlat < g.m
  · rw [if_pos hy, if_pos (by omega)]
    have ey : i - dlat + (b - (dlat - (i - (i - dlat)))) = ((i : Int) + b - dlat).toNat := by omega
    rw [ey]
    by_cases hin : dlon ≤ x + a ∧ x + a < dlon + g.n
    · rw [if_pos hin]
      have ex : (x : Int) + a - dlon = ((x + a - dlon : Nat) : Int) := by omega
      by_cases hcirc : g.circular = true
      · rw [if_pos hcirc, ex, Int.emod_eq_of_lt (by omega) (by omega), Int.toNat_natCast]
      · rw [if_neg hcirc, if_pos (by omega), ex, Int.toNat_natCast]
    · rw [if_neg hin]
      by_cases hcirc : g.circular = true
      · rw [if_pos hcirc, if_pos hcirc]
        have hle := hc hcirc
        by_cases hr : dlon + g.n ≤ x + a
        · rw [if_pos hr]
          congr 1
          have : ((x : Int) + a - dlon) % g.n = (x : Int) + a - dlon - g.n := by
            rw [← Int.sub_emod_right]
            exact Int.emod_eq_of_lt (by omega) (by omega)
          rw [this]
          omega
        · rw [if_neg hr]
          congr 1
          have : ((x : Int) + a - dlon) % g.n = (x : Int) + a - dlon + g.n := by
            rw [← Int.add_emod_right]
            exact Int.emod_eq_of_lt (by omega) (by omega)
          rw [this]
          omega
      · rw [if_neg hcirc, if_neg hcirc, if_neg (by omega)]
  · rw [if_neg hy, if_neg (by omega)]

/-- A kernel accepted by the code: odd sizes, at least three longitudes, and not larger than twice a circular grid. -/
structure Fits (g : Grid) (k : Kernel) (dlon dlat : Nat) : Prop where
  kx : k.kx = 2 * dlon + 1
  ky : k.ky = 2 * dlat + 1
  pos : 1 ≤ dlon
  wide : g.circular = true → dlon ≤ g.n

/-- **C81**: the two sums of a pixel are the sums over the pixels under the kernel centred on it, in the grid (around the turn if the grid is
circular) and not masked. -/
theorem filterLat_spec {g : Grid} {k : Kernel} {dlon dlat i : Nat} (hk : Fits g k dlon dlat) (hi : i < g.m) :
    ∃ f, filterLat g k i = some f ∧ ∀ x, x < g.n →
      f x = (overKernel k (fun a b => (g.at' ((x : Int) + a - dlon) ((i : Int) + b - dlat)).getD 0),
        overKernel k (fun a b => if (g.at' ((x : Int) + a - dlon) ((i : Int) + b - dlat)).isSome then 1 else 0)) := by
  have h1 : (k.kx - 1) / 2 = dlon := by rw [hk.kx]; omega
  have h2 : (k.ky - 1) / 2 = dlat := by rw [hk.ky]; omega
  have h3 : k.kx / 2 = dlon := by rw [hk.kx]; omega
  have h4 : k.ky / 2 = dlat := by rw [hk.ky]; omega
  have hpos := hk.pos
  unfold filterLat
  simp only
  rw [h1, h2, h3, h4, if_neg (by
    rintro (h | ⟨hc, h⟩)
    · omega
    · have := hk.wide hc
      omega)]
  refine ⟨_, rfl, fun x hx => ?_⟩
  have cor : ∀ f : Nat → Nat → Rat, correlate k f (x + dlon) dlat = overKernel k (fun a b => f (x + a) b) := by
    intro f
    unfold correlate
    rw [h3, h4]
    apply overKernel_congr (f := fun a b => f (x + dlon + a - dlon) (dlat + b - dlat))
    intro a b _ _
    rw [show x + dlon + a - dlon = x + a by omega, show dlat + b - dlat = b by omega]
  rw [cor, cor]
  congr 1
  · apply overKernel_congr
    intro a b ha hb
    rw [tmp_eq hi hk.wide hx (by rw [hk.kx] at ha; omega) (by rw [hk.ky] at hb; omega)]
  · apply overKernel_congr
    intro a b ha hb
    rw [tmp_eq hi hk.wide hx (by rw [hk.kx] at ha; omega) (by rw [hk.ky] at hb; omega)]

/-- The sums of a pixel. -/
def sums (g : Grid) (k : Kernel) (dlon dlat x i : Nat) : Rat × Rat :=
  (overKernel k (fun a b => (g.at' ((x : Int) + a - dlon) ((i : Int) + b - dlat)).getD 0),
    overKernel k (fun a b => if (g.at' ((x : Int) + a - dlon) ((i : Int) + b - dlat)).isSome then 1 else 0))

/-- **C81** (whole function, `extend=False`): a pixel of the result is masked exactly when it is masked in the data or at a latitude over
`lat_max`; otherwise it is the weighted mean of the valid pixels under the kernel. Missing: kernels of one longitude
(`one_longitude_raises`), kernels with more than twice the longitudes of a circular grid (`wide_raises`), kernels with an even number of
latitudes. -/
theorem convolve_partial (g : Grid) (far : Nat → Bool) (kernel : Nat → Kernel) (dlon dlat : Nat → Nat)
    (hk : ∀ i, i < g.m → far i = false → Fits g (kernel i) (dlon i) (dlat i)) :
    ∃ out, convolveFilter 0 g far kernel = some out ∧ ∀ i, i < g.m → ∃ row, out[i]? = some row ∧ ∀ x, x < g.n → row[x]? =
      some (if far i = true ∨ (g.v x i).isNone = true then Out.masked else Out.value (quotient (sums g (kernel i) (dlon i) (dlat i) x i))) := by
  have hrow : ∀ i, i < g.m → ∃ row, filterRow 0 g far kernel i = some row ∧ ∀ x, x < g.n → row[x]? =
      some (if far i = true ∨ (g.v x i).isNone = true then Out.masked else Out.value (quotient (sums g (kernel i) (dlon i) (dlat i) x i))) := by
    intro i hi
    unfold filterRow
    by_cases hf : far i = true
    · rw [hf, Bool.true_or, if_pos rfl]
      refine ⟨_, rfl, fun x hx => ?_⟩
      rw [List.getElem?_map, List.getElem?_range hx, Option.map_some, if_pos (Or.inl rfl)]
    · rw [Bool.not_eq_true] at hf
      rw [hf, Bool.false_or]
      by_cases ham : allMasked g i = true
      · rw [if_pos ham]
        refine ⟨_, rfl, fun x hx => ?_⟩
        unfold allMasked at ham
        rw [List.all_eq_true] at ham
        rw [List.getElem?_map, List.getElem?_range hx, Option.map_some, if_pos (Or.inr (ham x (List.mem_range.2 hx)))]
      · rw [if_neg ham]
        obtain ⟨f, h1, h2⟩ := filterLat_spec (hk i hi hf) hi
        rw [h1, Option.map_some]
        refine ⟨_, rfl, fun x hx => ?_⟩
        rw [List.getElem?_map, List.getElem?_range hx, Option.map_some, h2 x hx]
        unfold pixel
        rw [if_neg (by simp)]
        simp only [Bool.false_eq_true, false_or, Option.some.injEq]
        rfl
  refine ⟨(List.range g.m).map (fun i => (filterRow 0 g far kernel i).getD []), ?_, ?_⟩
  · apply Tracks.mapM_some_map
    intro i hi
    obtain ⟨row, h, _⟩ := hrow i (List.mem_range.1 hi)
    rw [h, Option.getD_some]
  · intro i hi
    obtain ⟨row, h, h'⟩ := hrow i hi
    refine ⟨row, ?_, h'⟩
    rw [List.getElem?_map, List.getElem?_range hi, Option.map_some, h, Option.getD_some]

/-! ### Consequences -/

theorem sum_const_mul (c : Rat) (f : Nat → Rat) : ∀ l : List Nat, (l.map (fun a => c * f a)).sum = c * (l.map f).sum
  | [] => by simp
  | a :: l => by
    simp only [List.map_cons, List.sum_cons, sum_const_mul c f l]
    ring

theorem sum_map_add (f g : Nat → Rat) : ∀ l : List Nat, (l.map (fun a => f a + g a)).sum = (l.map f).sum + (l.map g).sum
  | [] => by simp
  | a :: l => by
    simp only [List.map_cons, List.sum_cons, sum_map_add f g l]
    ring

theorem sum_map_le {f g : Nat → Rat} : ∀ l : List Nat, (∀ a ∈ l, f a ≤ g a) → (l.map f).sum ≤ (l.map g).sum
  | [], _ => by simp
  | a :: l, h => by
    have h1 := h a (by simp)
    have h2 := sum_map_le l (fun b hb => h b (by simp [hb]))
    simp only [List.map_cons, List.sum_cons]
    linarith

theorem overKernel_mul (k : Kernel) (c : Rat) (f : Nat → Nat → Rat) : overKernel k (fun a b => c * f a b) = c * overKernel k f := by
  unfold overKernel
  rw [← sum_const_mul]
  congr 1
  apply List.map_congr_left
  intro a _
  rw [← sum_const_mul]
  congr 1
  apply List.map_congr_left
  intro b _
  ring

theorem overKernel_add (k : Kernel) (f g : Nat → Nat → Rat) : overKernel k (fun a b => f a b + g a b) = overKernel k f + overKernel k g := by
  unfold overKernel
  rw [← sum_map_add]
  congr 1
  apply List.map_congr_left
  intro a _
  rw [← sum_map_add]
  congr 1
  apply List.map_congr_left
  intro b _
  ring

theorem overKernel_le (k : Kernel) {f g : Nat → Nat → Rat} (hw : ∀ a b, a < k.kx → b < k.ky → 0 ≤ k.w a b)
    (h : ∀ a b, a < k.kx → b < k.ky → f a b ≤ g a b) : overKernel k f ≤ overKernel k g := by
  unfold overKernel
  apply sum_map_le
  intro a ha
  apply sum_map_le
  intro b hb
  exact mul_le_mul_of_nonneg_left (h a b (List.mem_range.1 ha) (List.mem_range.1 hb)) (hw a b (List.mem_range.1 ha) (List.mem_range.1 hb))

theorem at_valid {g : Grid} {P : Rat → Prop} (hn : 0 < g.n) (h : ∀ x y v, x < g.n → y < g.m → g.v x y = some v → P v) {x y : Int} {v : Rat}
    (hv : g.at' x y = some v) : P v := by
  unfold Grid.at' at hv
  split at hv
  · rename_i hy
    split at hv
    · have h0 := Int.emod_nonneg x (show (g.n : Int) ≠ 0 by omega)
      have h1 := Int.emod_lt_of_pos x (show (0 : Int) < g.n by omega)
      exact h _ _ v (by omega) (by omega) hv
    · split at hv
      · exact h _ _ v (by omega) (by omega) hv
      · cases hv
  · cases hv

/-- **C81** (constant): the filter gives back a constant field, wherever the sum of the weights over the valid pixels is not 0: the high pass
filter of a constant field is 0. -/
theorem filter_constant {g : Grid} (hn : 0 < g.n) {c : Rat} (h : ∀ x y v, x < g.n → y < g.m → g.v x y = some v → v = c) (k : Kernel)
    (dlon dlat x i : Nat) (hs : (sums g k dlon dlat x i).2 ≠ 0) : quotient (sums g k dlon dlat x i) = some c := by
  unfold quotient
  rw [if_neg hs]
  congr 1
  rw [div_eq_iff hs]
  unfold sums
  simp only
  rw [← overKernel_mul]
  apply overKernel_congr
  intro a b _ _
  cases e : g.at' ((x : Int) + a - dlon) ((i : Int) + b - dlat) with
  | none => simp
  | some v =>
    have := at_valid hn h e
    simp [this]

/-- **C81** (range): with weights which are not negative the value is between the least and the greatest value of the valid pixels. -/
theorem filter_range {g : Grid} (hn : 0 < g.n) {lo hi : Rat} (h : ∀ x y v, x < g.n → y < g.m → g.v x y = some v → lo ≤ v ∧ v ≤ hi) {k : Kernel}
    (hw : ∀ a b, a < k.kx → b < k.ky → 0 ≤ k.w a b) {dlon dlat x i : Nat} {q : Rat} (hq : quotient (sums g k dlon dlat x i) = some q) :
    lo ≤ q ∧ q ≤ hi := by
  unfold quotient at hq
  split at hq
  · cases hq
  · rename_i hs
    have hq := Option.some.inj hq
    have hpos : 0 < (sums g k dlon dlat x i).2 := by
      refine lt_of_le_of_ne ?_ (Ne.symm hs)
      have hz : overKernel k (fun _ _ => 0) = 0 := by
        have := overKernel_mul k 0 (fun _ _ => 0)
        simpa using this
      rw [← hz]
      apply overKernel_le k hw
      intro a b _ _
      split <;> norm_num
    rw [← hq, le_div_iff₀ hpos, div_le_iff₀ hpos]
    unfold sums
    simp only
    rw [← overKernel_mul, ← overKernel_mul]
    constructor
    · apply overKernel_le k hw
      intro a b _ _
      cases e : g.at' ((x : Int) + a - dlon) ((i : Int) + b - dlat) with
      | none => simp
      | some v =>
        have := (at_valid hn h e).1
        simpa using this
    · apply overKernel_le k hw
      intro a b _ _
      cases e : g.at' ((x : Int) + a - dlon) ((i : Int) + b - dlat) with
      | none => simp
      | some v =>
        have := (at_valid hn h e).2
        simpa using this

/-- The grid with another field on the same valid pixels. -/
def Grid.withField (g : Grid) (f : Nat → Nat → Rat) : Grid := { g with v := fun x y => (g.v x y).map (fun _ => f x y) }

theorem at_withField (g : Grid) (f : Nat → Nat → Rat) (x y : Int) :
    (g.withField f).at' x y = (g.at' x y).map (fun _ => f (if g.circular then (x % g.n).toNat else x.toNat) y.toNat) := by
  unfold Grid.at' Grid.withField
  simp only
  split
  · split
    · rename_i h1 h2
      rfl
    · split
      · rfl
      · rfl
  · rfl

/-- **C81** (linearity): the filter of a combination of two fields (same mask) is the combination of the filters. -/
theorem filter_linear (g : Grid) (f f' : Nat → Nat → Rat) (c c' : Rat) (k : Kernel) (dlon dlat x i : Nat) {q q' : Rat}
    (h : quotient (sums (g.withField f) k dlon dlat x i) = some q) (h' : quotient (sums (g.withField f') k dlon dlat x i) = some q') :
    quotient (sums (g.withField (fun u w => c * f u w + c' * f' u w)) k dlon dlat x i) = some (c * q + c' * q') := by
  have e2 : ∀ t : Nat → Nat → Rat, (sums (g.withField t) k dlon dlat x i).2 = (sums g k dlon dlat x i).2 := by
    intro t
    unfold sums
    apply overKernel_congr
    intro a b _ _
    rw [at_withField, Option.isSome_map]
  have e1 : (sums (g.withField (fun u w => c * f u w + c' * f' u w)) k dlon dlat x i).1 =
      c * (sums (g.withField f) k dlon dlat x i).1 + c' * (sums (g.withField f') k dlon dlat x i).1 := by
    unfold sums
    simp only
    rw [← overKernel_mul, ← overKernel_mul, ← overKernel_add]
    apply overKernel_congr
    intro a b _ _
    rw [at_withField, at_withField, at_withField]
    cases g.at' ((x : Int) + a - dlon) ((i : Int) + b - dlat) with
    | none => simp
    | some v => simp
  unfold quotient at h h' ⊢
  rw [e2] at h h' ⊢
  by_cases hz : (sums g k dlon dlat x i).2 = 0
  · rw [if_pos hz] at h
    cases h
  · rw [if_neg hz] at h h' ⊢
    rw [← Option.some.inj h, ← Option.some.inj h', e1]
    congr 1
    field_simp

/-- The grid turned by `s` longitudes. -/
def Grid.turn (g : Grid) (s : Nat) : Grid := { g with v := fun x y => g.v ((x + s) % g.n) y }

/-- **C81** (turn): on a circular grid the filter of the turned field is the turned filter. -/
theorem filter_turn {g : Grid} (hc : g.circular = true) (hn : 0 < g.n) (s : Nat) (k : Kernel) (dlon dlat x i : Nat) :
    sums (g.turn s) k dlon dlat x i = sums g k dlon dlat ((x + s) % g.n) i := by
  have key : ∀ a b : Nat, (g.turn s).at' ((x : Int) + a - dlon) ((i : Int) + b - dlat) =
      g.at' ((((x + s) % g.n : Nat) : Int) + a - dlon) ((i : Int) + b - dlat) := by
    intro a b
    unfold Grid.at' Grid.turn
    simp only
    rw [hc]
    simp only [if_true]
    split
    · congr 1
      have h0 := Int.emod_nonneg ((x : Int) + a - dlon) (show (g.n : Int) ≠ 0 by omega)
      apply Int.ofNat_inj.1
      rw [Int.natCast_mod, Int.natCast_add, Int.toNat_of_nonneg h0, Int.toNat_of_nonneg (Int.emod_nonneg _ (by omega)), Int.natCast_mod,
        Int.emod_add_emod]
      rw [show ((x + s : Nat) : Int) % (g.n : Int) + a - dlon = ((x + s : Nat) : Int) % (g.n : Int) + (a - dlon) by ring, Int.emod_add_emod]
      congr 1
      push_cast
      ring
    · rfl
  unfold sums
  simp only [key]

/-- **C81** (locality): the sums of a pixel depend only on the values under the kernel. -/
theorem filter_local {g g' : Grid} (k : Kernel) (dlon dlat x i : Nat)
    (h : ∀ a b, a < k.kx → b < k.ky → g.at' ((x : Int) + a - dlon) ((i : Int) + b - dlat) = g'.at' ((x : Int) + a - dlon) ((i : Int) + b - dlat)) :
    sums g k dlon dlat x i = sums g' k dlon dlat x i := by
  unfold sums
  congr 1
  · apply overKernel_congr
    intro a b ha hb
    rw [h a b ha hb]
  · apply overKernel_congr
    intro a b ha hb
    rw [h a b ha hb]

/-! ### What the code does not do -/

/-- A kernel of one longitude (for instance a filter along latitudes) raises. -/
theorem one_longitude_raises (g : Grid) (k : Kernel) (h : k.kx = 1) (i : Nat) : filterLat g k i = none := by
  unfold filterLat
  simp [h]

/-- On a circular grid a kernel whose half is larger than the grid raises. -/
theorem wide_raises (g : Grid) (k : Kernel) (hc : g.circular = true) (h : g.n < (k.kx - 1) / 2) (i : Nat) : filterLat g k i = none := by
  unfold filterLat
  rw [if_pos (Or.inr ⟨hc, h⟩)]

/-- A kernel with an even number of latitudes (which `finalize_kernel` may give): the weights of the last one are never used. -/
theorem even_latitudes_wrong : convolveFilter 0 ⟨2, 2, fun _ _ => some 1, true⟩ (fun _ => false) (fun _ => ⟨3, 2, fun _ b => if b = 1 then 1 else 0⟩) =
    some [[.value none, .value none], [.value none, .value none]] := by
  decide +kernel

/-- A circular grid of four longitudes and a kernel of three: the mean of a pixel of the border uses both ends. -/
example : Fits ⟨4, 1, fun x _ => if x = 2 then none else some x, true⟩ ⟨3, 1, fun _ _ => 1⟩ 1 0 ∧
    convolveFilter 0 ⟨4, 1, fun x _ => if x = 2 then none else some x, true⟩ (fun _ => false) (fun _ => ⟨3, 1, fun _ _ => 1⟩) =
      some [[.value (some (4 / 3)), .value (some (1 / 2)), .masked, .value (some (3 / 2))]] := by
  refine ⟨⟨rfl, rfl, by norm_num, fun _ => by norm_num⟩, by decide +kernel⟩

/-- A half kernel with an empty last row and an empty last column. -/
example : ((finalizeKernel 2 3 (fun a b => if a < 2 ∧ b < 2 then 1 else 0)).map (fun k => (k.kx, k.ky))) = some (3, 2) := by decide +kernel

end Verif.Convolve
