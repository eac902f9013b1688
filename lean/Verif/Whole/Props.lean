import Verif.Whole.Scale
import Mathlib.Tactic.FieldSimp

/-!
# C134, C135, C136, C137: levels, units, symmetry and longitudes of the identification
-/

namespace Verif.Whole

open Verif.Detection Verif.Amplitude

/-! ### Levels -/

theorem levels_eq {step : Rat} (hs : 0 < step) (zmin zmax : Rat) : levels zmin zmax step =
    (List.range (⌊zmax / step⌋ + 2 - ⌊zmin / step⌋).toNat).map (fun (k : Nat) => ((⌊zmin / step⌋ + k : Int) : Rat) * step) := by
  unfold levels arange Py.fmod
  have e1 : zmin - (zmin - step * (⌊zmin / step⌋ : Rat)) = ⌊zmin / step⌋ * step := by ring
  have e2 : (zmax - (zmax - step * (⌊zmax / step⌋ : Rat)) + 2 * step - ⌊zmin / step⌋ * step) / step = ((⌊zmax / step⌋ + 2 - ⌊zmin / step⌋ : Int) : Rat) := by
    rw [div_eq_iff hs.ne']
    push_cast
    ring
  rw [e1, e2, Int.ceil_intCast]
  apply List.map_congr_left
  intro k _
  push_cast
  ring

/-- Position of a level. -/
theorem levels_get {step : Rat} (hs : 0 < step) {zmin zmax : Rat} {i : Nat} (hi : (i : Int) < ⌊zmax / step⌋ + 2 - ⌊zmin / step⌋) :
    (levels zmin zmax step)[i]? = some (((⌊zmin / step⌋ + i : Int) : Rat) * step) := by
  rw [levels_eq hs, List.getElem?_map, List.getElem?_range (by omega)]
  rfl

/-- **C135**: the levels are consecutive multiples of the step, the first one is the last multiple which is not above the least height, and every
height of the range is between two consecutive levels. -/
theorem levels_spec {step : Rat} (hs : 0 < step) (zmin zmax : Rat) :
    (∀ (i : Nat) (x : Rat), (levels zmin zmax step)[i]? = some x → (∃ n : Int, x = n * step) ∧
      ∀ y, (levels zmin zmax step)[i + 1]? = some y → y = x + step) ∧
    (zmin ≤ zmax → ∃ x, (levels zmin zmax step)[0]? = some x ∧ x ≤ zmin ∧ zmin < x + step) ∧
    ∀ h, zmin ≤ h → h ≤ zmax → ∃ (i : Nat) (x y : Rat), (levels zmin zmax step)[i]? = some x ∧ (levels zmin zmax step)[i + 1]? = some y ∧ x ≤ h ∧ h < y := by
  have hlen : (levels zmin zmax step).length = (⌊zmax / step⌋ + 2 - ⌊zmin / step⌋).toNat := by rw [levels_eq hs]; simp
  have fl : ∀ x : Rat, (⌊x / step⌋ : Rat) * step ≤ x ∧ x < (⌊x / step⌋ : Rat) * step + step := by
    intro x
    have a := Int.floor_le (x / step)
    have b := Int.lt_floor_add_one (x / step)
    rw [le_div_iff₀ hs] at a
    rw [div_lt_iff₀ hs] at b
    exact ⟨a, by linarith⟩
  have mono : ∀ x y : Rat, x ≤ y → ⌊x / step⌋ ≤ ⌊y / step⌋ := fun x y h => Int.floor_le_floor (div_le_div_of_nonneg_right h hs.le)
  refine ⟨?_, ?_, ?_⟩
  · intro i x hx
    have hi := (List.getElem?_eq_some_iff.1 hx).1
    rw [hlen] at hi
    rw [levels_get hs (by omega)] at hx
    cases hx
    refine ⟨⟨_, rfl⟩, ?_⟩
    intro y hy
    have hi' := (List.getElem?_eq_some_iff.1 hy).1
    rw [hlen] at hi'
    rw [levels_get hs (by omega)] at hy
    cases hy
    push_cast
    ring
  · intro hz
    have := mono _ _ hz
    refine ⟨_, levels_get hs (by push_cast; omega), ?_, ?_⟩
    · push_cast
      rw [add_zero]
      exact (fl zmin).1
    · push_cast
      rw [add_zero]
      exact (fl zmin).2
  · intro h h1 h2
    have m1 := mono _ _ h1
    have m2 := mono _ _ h2
    refine ⟨(⌊h / step⌋ - ⌊zmin / step⌋).toNat, _, _, levels_get hs (by omega), levels_get hs (by push_cast; omega), ?_, ?_⟩
    · have e : (⌊zmin / step⌋ + ((⌊h / step⌋ - ⌊zmin / step⌋).toNat : Int) : Int) = ⌊h / step⌋ := by omega
      rw [e]
      exact (fl h).1
    · have e : (⌊zmin / step⌋ + (((⌊h / step⌋ - ⌊zmin / step⌋).toNat + 1 : Nat) : Int) : Int) = ⌊h / step⌋ + 1 := by push_cast; omega
      rw [e]
      have := (fl h).2
      push_cast
      linarith

/-- **C135** for a field: every height which is not masked is between two consecutive levels, or it is out of the range of the percentiles and the
whole range is more than twice as wide as this one. -/
theorem levelsOf_covers (g : Grid) (h : Pixel → Rat) (mask : Pixel → Bool) {step : Rat} (hs : 0 < step) {p : Pixel} (hp : p ∈ g.cells)
    (hm : mask p = false) (hord : ∀ l, (g.percentiles l).1 ≤ (g.percentiles l).2) :
    (∃ (i : Nat) (x y : Rat), (levelsOf g h mask step)[i]? = some x ∧ (levelsOf g h mask step)[i + 1]? = some y ∧ x ≤ h p ∧ h p < y) ∨
    ∃ lo hi, g.percentiles ((g.cells.filter (fun p => !mask p)).map h) = (lo, hi) ∧ (h p < lo ∨ hi < h p) ∧
      ∃ q ∈ g.cells, ∃ r ∈ g.cells, mask q = false ∧ mask r = false ∧ 2 * (hi - lo) < h r - h q := by
  obtain ⟨l, hl⟩ : ∃ l, l = (g.cells.filter (fun p => !mask p)).map h := ⟨_, rfl⟩
  have hmem : ∀ x, x ∈ l ↔ ∃ q ∈ g.cells, mask q = false ∧ h q = x := by
    intro x
    rw [hl, List.mem_map]
    constructor
    · rintro ⟨q, hq, rfl⟩
      rw [List.mem_filter] at hq
      exact ⟨q, hq.1, by simpa using hq.2, rfl⟩
    · rintro ⟨q, hq, hq', rfl⟩
      exact ⟨q, List.mem_filter.2 ⟨hq, by simp [hq']⟩, rfl⟩
  have hpl : h p ∈ l := (hmem _).2 ⟨p, hp, hm, rfl⟩
  obtain ⟨a1, a2⟩ := Poly.minR_spec (List.ne_nil_of_mem hpl)
  obtain ⟨b1, b2⟩ := Poly.maxR_spec (List.ne_nil_of_mem hpl)
  obtain ⟨lo, hi, hpct⟩ : ∃ lo hi, g.percentiles l = (lo, hi) := ⟨_, _, rfl⟩
  have hlv : levelsOf g h mask step = levels (range (Poly.minR l, Poly.maxR l) (lo, hi)).1 (range (Poly.minR l, Poly.maxR l) (lo, hi)).2 step := by
    unfold levelsOf extent
    simp only
    rw [← hl, hpct]
  rw [hlv, ← hl]
  by_cases ho : outliers (Poly.minR l, Poly.maxR l) (lo, hi) = true
  · unfold range
    rw [if_pos ho]
    by_cases hin : lo ≤ h p ∧ h p ≤ hi
    · exact Or.inl ((levels_spec hs _ _).2.2 _ hin.1 hin.2)
    · right
      refine ⟨lo, hi, hpct, ?_, ?_⟩
      · rcases not_and_or.1 hin with h1 | h1
        · exact Or.inl (not_le.1 h1)
        · exact Or.inr (not_le.1 h1)
      · obtain ⟨q, q1, q2, q3⟩ := (hmem _).1 a1
        obtain ⟨r, r1, r2, r3⟩ := (hmem _).1 b1
        refine ⟨q, q1, r, r1, ?_⟩
        rw [q3, r3]
        unfold outliers at ho
        split_ifs at ho with hz
        · simp only [decide_eq_true_eq] at ho hz
          exact ⟨q2, r2, by linarith⟩
        · simp only [decide_eq_true_eq] at ho hz
          have hle := hord l
          rw [hpct] at hle
          have hpos : 0 < hi - lo := lt_of_le_of_ne (by linarith) (Ne.symm hz)
          rw [gt_iff_lt, lt_div_iff₀ hpos] at ho
          exact ⟨q2, r2, ho⟩
  · unfold range
    rw [if_neg ho]
    exact Or.inl ((levels_spec hs _ _).2.2 _ (a2 _ hpl) (b2 _ hpl))

example : levels (-3 / 2) 5 2 = [-2, 0, 2, 4, 6] := by decide +kernel

/-! ### Units -/

theorem levels_affine {step k : Rat} (hs : 0 < step) (hk : 0 < k) (m : Int) (zmin zmax : Rat) :
    levels (aff k (k * (m * step)) zmin) (aff k (k * (m * step)) zmax) (k * step) = (levels zmin zmax step).map (aff k (k * (m * step))) := by
  have fl : ∀ z, ⌊aff k (k * (m * step)) z / (k * step)⌋ = ⌊z / step⌋ + m := by
    intro z
    have : aff k (k * (m * step)) z / (k * step) = z / step + m := by
      unfold aff
      field_simp
    rw [this, Int.floor_add_intCast]
  rw [levels_eq (mul_pos hk hs), levels_eq hs, fl, fl, List.map_map]
  have e : ⌊zmax / step⌋ + m + 2 - (⌊zmin / step⌋ + m) = ⌊zmax / step⌋ + 2 - ⌊zmin / step⌋ := by ring
  rw [e]
  apply List.map_congr_left
  intro i _
  simp only [Function.comp_apply, aff]
  push_cast
  ring

theorem minR_aff {k : Rat} (hk : 0 < k) (c : Rat) {l : List Rat} (hl : l ≠ []) : Poly.minR (l.map (aff k c)) = aff k c (Poly.minR l) := by
  obtain ⟨a1, a2⟩ := Poly.minR_spec hl
  have hl' : l.map (aff k c) ≠ [] := by simpa using hl
  obtain ⟨b1, b2⟩ := Poly.minR_spec hl'
  obtain ⟨x, hx, e⟩ := List.mem_map.1 b1
  refine le_antisymm (b2 _ (List.mem_map_of_mem a1)) ?_
  rw [← e]
  exact (aff_le hk c _ _).2 (a2 x hx)

theorem maxR_aff {k : Rat} (hk : 0 < k) (c : Rat) {l : List Rat} (hl : l ≠ []) : Poly.maxR (l.map (aff k c)) = aff k c (Poly.maxR l) := by
  obtain ⟨a1, a2⟩ := Poly.maxR_spec hl
  have hl' : l.map (aff k c) ≠ [] := by simpa using hl
  obtain ⟨b1, b2⟩ := Poly.maxR_spec hl'
  obtain ⟨x, hx, e⟩ := List.mem_map.1 b1
  refine le_antisymm ?_ (b2 _ (List.mem_map_of_mem a1))
  rw [← e]
  exact (aff_le hk c _ _).2 (a2 x hx)

theorem range_aff {k : Rat} (hk : 0 < k) (c : Rat) (z p : Rat × Rat) :
    range (aff k c z.1, aff k c z.2) (aff k c p.1, aff k c p.2) = (aff k c (range z p).1, aff k c (range z p).2) := by
  have ho : outliers (aff k c z.1, aff k c z.2) (aff k c p.1, aff k c p.2) = outliers z p := by
    unfold outliers
    simp only [aff_sub, mul_eq_zero, hk.ne', false_or, gt_iff_lt, mul_pos_iff_of_pos_left hk, mul_div_mul_left _ _ hk.ne']
  unfold range
  rw [ho]
  split_ifs <;> rfl

/-- What is assumed of the libraries for the heights `k h + c`: the lines of matplotlib are the same, one collection by level, with their pixels in
their boxes, and the percentiles of numpy follow the heights. -/
structure Follows (g : Grid) (k c : Rat) (h : Pixel → Rat) (mask : Pixel → Bool) : Prop where
  lines : ∀ lv, g.contours (fun p => aff k c (h p)) mask (lv.map (aff k c)) = g.contours h mask lv
  length : ∀ lv, (g.contours h mask lv).length = lv.length
  inBox : ∀ lv, ∀ x ∈ g.contours h mask lv, ∀ b ∈ x, InBox g b
  percentiles : ∀ l, l ≠ [] → g.percentiles (l.map (aff k c)) = (aff k c (g.percentiles l).1, aff k c (g.percentiles l).2)

theorem run_aff {g : Grid} {k : Rat} (hk : 0 < k) {step : Rat} (hs : 0 < step) (m : Int) {h : Pixel → Rat} {mask : Pixel → Bool}
    (hfo : Follows g k (k * (m * step)) h mask) (hne : ∃ p ∈ g.cells, mask p = false) (h1 : Small h)
    (h2 : Small (fun p => aff k (k * (m * step)) (h p))) :
    run g (fun p => aff k (k * (m * step)) (h p)) mask (k * step) = affState k (k * (m * step)) (run g h mask step) := by
  obtain ⟨c, hc⟩ : ∃ c, c = k * (m * step) := ⟨_, rfl⟩
  have hf : Follows g k c h mask := by rw [hc]; exact hfo
  have hl : (g.cells.filter (fun p => !mask p)).map h ≠ [] := by
    obtain ⟨p, hp, hm⟩ := hne
    exact List.ne_nil_of_mem (List.mem_map_of_mem (List.mem_filter.2 ⟨hp, by simp [hm]⟩))
  have hmap : (g.cells.filter (fun p => !mask p)).map (fun p => aff k c (h p)) = ((g.cells.filter (fun p => !mask p)).map h).map (aff k c) := by
    rw [List.map_map]
    rfl
  have hlv : levelsOf g (fun p => aff k c (h p)) mask (k * step) = (levelsOf g h mask step).map (aff k c) := by
    unfold levelsOf extent
    simp only
    rw [hmap, minR_aff hk c hl, maxR_aff hk c hl, hf.percentiles _ hl]
    have := range_aff hk c (Poly.minR ((g.cells.filter (fun p => !mask p)).map h), Poly.maxR ((g.cells.filter (fun p => !mask p)).map h))
      (g.percentiles ((g.cells.filter (fun p => !mask p)).map h))
    simp only at this
    rw [this]
    simp only
    rw [hc]
    exact levels_affine hs hk m _ _
  rw [← hc] at h2 ⊢
  unfold run
  rw [hlv, hf.lines]
  exact identify_aff hk h1 h2 step (hf.length _) (hf.inBox _) mask

theorem rounded_scale {k : Rat} (hk : 0 < k) (q : Option Rat) (factor : Rat) (h : Pixel → Rat) :
    rounded (q.map (· / (factor / k))) (fun p => k * h p) = fun p => k * rounded (q.map (· / factor)) h p := by
  cases q with
  | none => rfl
  | some q =>
    funext p
    show (Amplitude.rint (k * h p / (q / (factor / k))) : Rat) * (q / (factor / k)) = k * ((Amplitude.rint (h p / (q / factor)) : Rat) * (q / factor))
    have e : q / (factor / k) = k * (q / factor) := by rw [div_div_eq_mul_div]; ring
    rw [e, mul_div_mul_left _ _ hk.ne']
    ring

/-- **C134**: the eddies do not depend on the unit of the heights. With heights `k` times larger in a unit `k` times smaller, the same contours are
eddies, with the same amplitudes and levels in metres. -/
theorem unit_independent {g : Grid} {k factor step : Rat} (hk : 0 < k) (hf : 0 < factor) (hs : 0 < step) (q : Option Rat) {h : Pixel → Rat}
    {mask : Pixel → Bool} (hfo : Follows g k 0 (rounded (q.map (· / factor)) h) mask) (hne : ∃ p ∈ g.cells, mask p = false)
    (h1 : ∀ p, |rounded (q.map (· / factor)) h p| ≤ 20000000000) (h2 : ∀ p, |k * rounded (q.map (· / factor)) h p| ≤ 20000000000) :
    identification g (factor / k) step q (fun p => k * h p) mask = identification g factor step q h mask := by
  unfold identification
  rw [rounded_scale hk]
  have e0 : k * (((0 : Int) : Rat) * (step / factor)) = 0 := by simp
  have e1 : step / (factor / k) = k * (step / factor) := by rw [div_div_eq_mul_div]; ring
  have e2 : (fun p => k * rounded (q.map (· / factor)) h p) = fun p => aff k 0 (rounded (q.map (· / factor)) h p) := by
    funext p
    unfold aff
    rw [add_zero]
  have := run_aff hk (div_pos hs hf) 0 (e0 ▸ hfo) hne h1 (by
    rw [e0]
    intro p
    simp only [aff, add_zero]
    exact h2 p)
  rw [e0] at this
  rw [e1, e2, this]
  show ((run g _ mask _).eddies.map (affEddy k 0)).map (inMetres (factor / k)) = _
  rw [List.map_map]
  apply List.map_congr_left
  intro e _
  unfold inMetres affEddy aff
  simp only [Function.comp_apply, Eddy.mk.injEq, true_and, and_true]
  constructor <;> field_simp
  ring

/-- **C134** (reference): adding a whole number of steps to the heights gives the same eddies with the same amplitudes. -/
theorem reference_independent {g : Grid} {factor step : Rat} (hf : 0 < factor) (hs : 0 < step) (m : Int) {h : Pixel → Rat}
    {mask : Pixel → Bool} (hfo : Follows g 1 (m * (step / factor)) h mask) (hne : ∃ p ∈ g.cells, mask p = false)
    (h1 : ∀ p, |h p| ≤ 20000000000) (h2 : ∀ p, |h p + m * (step / factor)| ≤ 20000000000) :
    identification g factor step none (fun p => h p + m * (step / factor)) mask =
      (identification g factor step none h mask).map (fun e => { e with level := e.level + m * step }) := by
  unfold identification
  have e1 : (fun p => h p + m * (step / factor)) = fun p => aff 1 (m * (step / factor)) (h p) := by
    funext p
    unfold aff
    rw [one_mul]
  have := run_aff one_pos (div_pos hs hf) m ((one_mul (m * (step / factor) : Rat)).symm ▸ hfo) hne h1 (by
    rw [one_mul]
    intro p
    simp only [aff, one_mul]
    exact h2 p)
  rw [one_mul, one_mul] at this
  show (run g (fun p => h p + m * (step / factor)) mask (step / factor)).eddies.map (inMetres factor) = _
  rw [e1, this]
  show ((run g _ mask _).eddies.map (affEddy 1 (m * (step / factor)))).map (inMetres factor) = ((run g h mask (step / factor)).eddies.map (inMetres factor)).map _
  rw [List.map_map, List.map_map]
  apply List.map_congr_left
  intro e _
  unfold inMetres affEddy aff
  simp only [Function.comp_apply, Eddy.mk.injEq, true_and, and_true, one_mul]
  field_simp

/-! A bump of three metres above a level, in metres then in centimetres. -/

def bump : Pixel → Rat
  | (1, 1) => 5
  | _ => 1

def bumpContour : Contour := ⟨1, [(1, 1)], some 0⟩

def bumpGrid : Grid where
  nx := 3
  cells := [(0, 0), (0, 1), (0, 2), (1, 0), (1, 1), (1, 2), (2, 0), (2, 1), (2, 2)]
  box := fun _ => ((0, 3), (0, 3))
  contours := fun _ _ lv => (List.range lv.length).map (fun i => if i = 1 then [bumpContour] else [])
  percentiles := fun l => (Poly.minR l, Poly.maxR l)
  nested := fun _ _ _ _ => []
  shapeError := 70
  pixelMin := 1
  pixelMax := 10
  mle := 1
  nbMin := 1
  nbMle := 1

theorem bump_follows {k : Rat} (hk : 0 < k) (c : Rat) (h : Pixel → Rat) (mask : Pixel → Bool) : Follows bumpGrid k c h mask where
  lines := by
    intro lv
    simp [bumpGrid]
  length := by
    intro lv
    simp [bumpGrid]
  inBox := by
    intro lv x hx b hb
    have : b = bumpContour := by
      obtain ⟨i, _, rfl⟩ := List.mem_map.1 hx
      split_ifs at hb with hi
      · simpa using hb
      · simp at hb
    rw [this]
    unfold InBox
    decide
  percentiles := by
    intro l hl
    show (Poly.minR _, Poly.maxR _) = _
    rw [minR_aff hk c hl, maxR_aff hk c hl]
    rfl

example : ((identification bumpGrid 1 2 none bump (fun _ => false)).map (fun e => (e.contour.id, e.anti, e.level, e.amplitude))) =
    [(1, true, 2, 3)] := by decide +kernel

theorem bump_small (k c : Rat) (h : |k * 5 + c| ≤ 20000000000 ∧ |k * 1 + c| ≤ 20000000000) (p : Pixel) : |k * bump p + c| ≤ 20000000000 := by
  unfold bump
  split
  · exact h.1
  · exact h.2

example : identification bumpGrid (1 / 100) 2 none (fun p => 100 * bump p) (fun _ => false) = identification bumpGrid 1 2 none bump (fun _ => false) :=
  unit_independent (by norm_num) (by norm_num) (by norm_num) none (bump_follows (by norm_num) 0 _ _) ⟨(0, 0), by decide, rfl⟩
    (fun p => by simpa [rounded] using bump_small 1 0 (by norm_num [abs_of_pos]) p)
    (fun p => by simpa [rounded] using bump_small 100 0 (by norm_num [abs_of_pos]) p)

/-! ### The two signs -/

/-- An eddy of the other sign. -/
def negEddy (e : Eddy) : Eddy := { e with anti := !e.anti, level := -e.level }

def negState (s : State) : State := { s with eddies := s.eddies.map negEddy }

theorem test_neg (g : Grid) (h : Pixel → Rat) (st : Rat) {lv lv' : List Rat} (anti : Bool) (mask : Pixel → Bool) {i i' : Int} {v : Rat}
    (hv : Py.get lv i = some v) (hv' : Py.get lv' i' = some (-v)) (b : Contour) :
    test g (fun p => -h p) st lv' anti mask i' b = test g h st lv (!anti) mask i b := by
  unfold test
  rw [hv, hv']
  simp only [Option.getD_some]
  cases anti with
  | true =>
    simp only [if_true, Bool.not_true, Bool.false_eq_true, if_false]
    rw [above_eq_below_neg, neg_neg]
    congr 1
    unfold neg fieldOf
    simp
  | false =>
    simp only [if_true, Bool.not_false, Bool.false_eq_true, if_false]
    rw [above_eq_below_neg]
    rfl

theorem hasValue_neg (h : Pixel → Rat) (v : Rat) (anti : Bool) (l : List Pixel) :
    hasValue (fun p => -h p) (-v) anti l = hasValue h v (!anti) l := by
  rw [Bool.eq_iff_iff, hasValue_iff, hasValue_iff]
  cases anti <;> simp

theorem step_neg {g : Grid} (h : Pixel → Rat) (st : Rat) {lv lv' : List Rat} (anti : Bool) {i i' : Int} {v : Rat}
    (hv : Py.get lv i = some v) (hv' : Py.get lv' i' = some (-v)) (hn : ∀ c p, g.nested anti i' c p = g.nested (!anti) i c p) (s : State) (b : Contour) :
    step (env g (fun p => -h p) st lv') anti i' (-v) (negState s) b = negState (step (env g h st lv) (!anti) i v s b) := by
  have hval : hasValue (env g (fun p => -h p) st lv').height (-v) anti b.pixels = hasValue (env g h st lv).height v (!anti) b.pixels :=
    hasValue_neg h v anti b.pixels
  have hbad : badShape (env g (fun p => -h p) st lv') b = badShape (env g h st lv) b := rfl
  have hamp : (env g (fun p => -h p) st lv').amplitude anti s.mask i' b = (env g h st lv).amplitude (!anti) s.mask i b := by
    show amplitudeOf (test g _ _ _ anti s.mask i' b) = amplitudeOf (test g h st lv (!anti) s.mask i b)
    rw [test_neg g h st anti s.mask hv hv' b]
  have hnest : (env g (fun p => -h p) st lv').nested anti s.mask i' b = (env g h st lv).nested (!anti) s.mask i b := by
    show ((test g _ _ _ anti s.mask i' b).map _).getD [] = ((test g h st lv (!anti) s.mask i b).map _).getD []
    rw [test_neg g h st anti s.mask hv hv' b]
    simp only [hn]
  unfold step
  rw [show (negState s).used = s.used from rfl, show (negState s).mask = s.mask from rfl, hbad, hval, hamp, hnest]
  rw [show (env g (fun p => -h p) st lv').pixelMin = (env g h st lv).pixelMin from rfl,
    show (env g (fun p => -h p) st lv').pixelMax = (env g h st lv).pixelMax from rfl,
    show (env g (fun p => -h p) st lv').ampMin = (env g h st lv).ampMin from rfl]
  split_ifs
  iterate 6 rfl
  unfold negState
  simp [negEddy]

theorem coll_neg {g : Grid} (h : Pixel → Rat) (st : Rat) {lv lv' : List Rat} (anti : Bool) {i i' : Int} {v : Rat} (hv : Py.get lv i = some v)
    (hv' : Py.get lv' i' = some (-v)) (hn : ∀ c p, g.nested anti i' c p = g.nested (!anti) i c p) : ∀ (l : List Contour) (s : State),
    l.foldl (step (env g (fun p => -h p) st lv') anti i' (-v)) (negState s) = negState (l.foldl (step (env g h st lv) (!anti) i v) s)
  | [], _ => rfl
  | b :: l, s => by
    rw [List.foldl_cons, List.foldl_cons, step_neg h st anti hv hv' hn]
    exact coll_neg h st anti hv hv' hn l _

/-- The contours marked from one level by a search are those marked by the other search on the opposite field. -/
def SameNested (g : Grid) : Prop := ∀ anti k c p, g.nested anti (corrected anti k) c p = g.nested (!anti) (corrected (!anti) k) c p

theorem levels_neg {g : Grid} (h : Pixel → Rat) (st : Rat) (lv : List Rat) (anti : Bool) (hn : SameNested g) :
    ∀ (l : List (List Contour)) (n : Nat), n + l.length = lv.length → ∀ s : State,
    Detection.levels (env g (fun p => -h p) st (lv.map (fun x => -x)).reverse) anti (lv.map (fun x => -x)).reverse l n (negState s) =
      negState (Detection.levels (env g h st lv) (!anti) lv l n s)
  | [], _, _, _ => rfl
  | x :: l, n, hl, s => by
    rw [Detection.levels, Detection.levels]
    rw [List.length_cons] at hl
    obtain ⟨v, hv⟩ : ∃ v, Py.get lv (corrected (!anti) n) = some v := by
      rw [get_corrected]
      cases anti with
      | false => exact ⟨_, List.getElem?_eq_getElem (by simp only [Bool.not_false, if_true]; omega)⟩
      | true => exact ⟨_, List.getElem?_eq_getElem (by simp only [Bool.not_true, Bool.false_eq_true, if_false, List.length_reverse]; omega)⟩
    have hv' : Py.get (lv.map (fun x => -x)).reverse (corrected anti n) = some (-v) := by
      rw [get_corrected] at hv ⊢
      cases anti with
      | false =>
        simp only [Bool.not_false, if_true, Bool.false_eq_true, if_false, List.reverse_reverse, List.getElem?_map] at hv ⊢
        rw [hv]
        rfl
      | true =>
        simp only [Bool.not_true, if_true, Bool.false_eq_true, if_false, ← List.map_reverse, List.getElem?_map] at hv ⊢
        rw [hv]
        rfl
    rw [hv, hv']
    simp only [Option.getD_some]
    rw [coll_neg h st anti hv hv' (hn anti n)]
    exact levels_neg h st lv anti hn l (n + 1) (by omega) _

/-- **C136**: one search on the opposite heights finds the eddies of the other search, with the opposite sign and level and the same amplitude. -/
theorem search_neg {g : Grid} (h : Pixel → Rat) (st : Rat) {lv : List Rat} (anti : Bool) (hn : SameNested g) {colls : List (List Contour)}
    (hlen : colls.length = lv.length) (s : State) :
    search (env g (fun p => -h p) st (lv.map (fun x => -x)).reverse) anti (lv.map (fun x => -x)).reverse colls.reverse (negState s) =
      negState (search (env g h st lv) (!anti) lv colls s) := by
  unfold search
  cases anti with
  | true =>
    simp only [Bool.not_true, if_true, Bool.false_eq_true, if_false]
    exact levels_neg h st lv true hn colls.reverse 0 (by rw [List.length_reverse]; omega) s
  | false =>
    simp only [Bool.not_false, if_true, Bool.false_eq_true, if_false, List.reverse_reverse]
    exact levels_neg h st lv false hn colls 0 (by omega) s

/-- **C136** (partial: see `symmetry_wrong`): the identification of the opposite heights gives the opposite of the two searches made in the other
order. -/
theorem symmetry_partial {g : Grid} (h : Pixel → Rat) (st : Rat) {lv : List Rat} (hn : SameNested g) {colls : List (List Contour)}
    (hlen : colls.length = lv.length) (mask : Pixel → Bool) :
    identify (env g (fun p => -h p) st (lv.map (fun x => -x)).reverse) (lv.map (fun x => -x)).reverse colls.reverse mask =
      negState (search (env g h st lv) true lv colls (search (env g h st lv) false lv colls ⟨mask, fun _ => false, []⟩)) := by
  have h0 : (⟨mask, fun _ => false, []⟩ : State) = negState ⟨mask, fun _ => false, []⟩ := rfl
  unfold identify
  rw [h0, search_neg h st true hn hlen, search_neg h st false hn hlen]
  rfl

/-- A dome with a crater. -/
def crater : Pixel → Rat
  | (2, 2) => 2
  | (0, _) => 0
  | (_, 0) => 0
  | (4, _) => 0
  | (_, 4) => 0
  | _ => 4

def craterColls : List (List Contour) :=
  [[⟨1, [(1, 1), (1, 2), (1, 3), (2, 1), (2, 2), (2, 3), (3, 1), (3, 2), (3, 3)], some 0⟩], [⟨2, [(2, 2)], some 0⟩]]

def craterGrid : Grid where
  nx := 5
  cells := []
  box := fun c => if c.id = 1 then ((0, 5), (0, 5)) else ((1, 4), (1, 4))
  contours := fun _ _ _ => craterColls
  percentiles := fun l => (Poly.minR l, Poly.maxR l)
  nested := fun _ _ _ _ => []
  shapeError := 70
  pixelMin := 1
  pixelMax := 100
  mle := 1
  nbMin := 1
  nbMle := 1

/-- **C136 refuted**: a dome with a crater is one anticyclone; the opposite, a bowl with a bump, is not a cyclone but only the bump, an
anticyclone. -/
theorem symmetry_wrong :
    (identify (env craterGrid crater 1 [1, 3]) [1, 3] craterColls (fun _ => false)).eddies.map (fun e => (e.contour.id, e.anti)) = [(1, true)] ∧
    (identify (env craterGrid (fun p => -crater p) 1 [-3, -1]) [-3, -1] craterColls.reverse (fun _ => false)).eddies.map
      (fun e => (e.contour.id, e.anti)) = [(2, true)] := by decide +kernel

/-! ### Longitudes -/

/-- **C137**: the longitude of an eddy is in `[0, 360[`, each vertex of its contour is at less than half a turn of it and at a whole number of turns of
where it was. -/
theorem normalized_spec (lon : Rat) (contour : List Rat) : 0 ≤ (normalized lon contour).1 ∧ (normalized lon contour).1 < 360 ∧
    (∃ n : Int, (normalized lon contour).1 = lon + n * 360) ∧ (normalized lon contour).2.length = contour.length ∧
    ∀ (i : Nat) (x : Rat), contour[i]? = some x → ∃ y, (normalized lon contour).2[i]? = some y ∧ (∃ n : Int, y = x + n * 360) ∧
      (normalized lon contour).1 - 180 ≤ y ∧ y < (normalized lon contour).1 + 180 := by
  have h360 : (0 : Rat) < 360 := by norm_num
  obtain ⟨a, b, c⟩ := Py.fmod_spec lon h360
  unfold normalized
  refine ⟨a, b, c, by simp, ?_⟩
  intro i x hx
  obtain ⟨d, e, n, hn⟩ := Py.fmod_spec (x - (Py.fmod lon 360 - 180)) h360
  refine ⟨_, by rw [List.getElem?_map, hx]; rfl, ⟨n, by simp only []; rw [hn]; ring⟩, ?_, ?_⟩
  · simp only []
    linarith
  · simp only []
    linarith

/-- **C137**: a contour which is at less than half a turn of the centre moves as a whole, by the same number of turns as the centre: its shape does not
change. -/
theorem normalized_rigid {lon : Rat} {contour : List Rat} (h : ∀ x ∈ contour, lon - 180 ≤ x ∧ x < lon + 180) :
    ∃ n : Int, normalized lon contour = (lon + n * 360, contour.map (fun (x : Rat) => x + n * 360)) := by
  have h360 : (0 : Rat) < 360 := by norm_num
  obtain ⟨a, b, n, hn⟩ := Py.fmod_spec lon h360
  refine ⟨n, ?_⟩
  unfold normalized
  rw [hn]
  simp only [Prod.mk.injEq, true_and]
  apply List.map_congr_left
  intro x hx
  obtain ⟨h1, h2⟩ := h x hx
  have hfl : ⌊(x - (lon + n * 360 - 180)) / 360⌋ = -n := by
    rw [Int.floor_eq_iff]
    push_cast
    constructor
    · rw [le_div_iff₀ h360]
      linarith
    · rw [div_lt_iff₀ h360]
      linarith
  unfold Py.fmod
  rw [hfl]
  push_cast
  ring

example : normalized 725 [720, 730] = (5, [0, 10]) := by decide +kernel

example : normalized (-1) [-5, 3] = (359, [355, 363]) := by decide +kernel

end Verif.Whole
