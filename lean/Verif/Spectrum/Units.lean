import Verif.Spectrum.Props
import Mathlib.Algebra.Order.Ring.Rat
import Mathlib.Tactic.Positivity
import Mathlib.Algebra.BigOperators.Ring.List
import Mathlib.Algebra.Order.GroupWithZero.Basic
import Mathlib.Tactic.Ring
import Mathlib.Tactic.NormNum

/-!
# C220: the spectra of a grid in other units

The field or the distances are written in other units: `spectrum_lonlat` (src/py_eddy_tracker/dataset/grid.py:1606-1671). What `welch` of scipy does with other
units is a hypothesis.
-/

namespace Verif.Spectrum

/-! ### Specification -/

/-- Frequencies multiplied by `a` and powers by `b`. -/
def sc (a b : Rat) (r : List Rat × List (Option Rat)) : List Rat × List (Option Rat) := (r.1.map (a * ·), r.2.map (Option.map (b * ·)))

/-- The same for the spectrum given to the user. -/
def scContent (a b : Rat) (c : Content) : Content := ⟨c.freq.map (a * ·), c.power.map (List.map (b * ·))⟩

/-- The powers given by `welch` are quadratic in the signal. -/
def Quadratic (welch : Welch Rat) : Prop := ∀ u d fs s, welch (d.map (u * ·)) fs s = sc 1 (u ^ 2) (welch d fs s)

/-- The frequencies given by `welch` follow the frequency of the samples; a density is a power by unit of frequency. -/
def Density {V : Type} (welch : Welch V) : Prop :=
  ∀ k, 0 < k → ∀ d fs, welch d (fs / k) .density = sc (1 / k) k (welch d fs .density) ∧ welch d (fs / k) .spectrum = sc (1 / k) 1 (welch d fs .spectrum)

/-- The values of the field multiplied by `u`. -/
def Area.scaled (g : Area Rat) (u : Rat) : Area Rat := { g with value := fun i j => u * g.value i j }

/-- The steps multiplied by `k`. -/
def Area.inUnits {V : Type} (g : Area V) (k : Rat) : Area V := { g with stepY := g.stepY * k, stepX := fun j => g.stepX j * k }

/-! ### Proofs -/

theorem valid_sc (a b : Rat) (r : List Rat × List (Option Rat)) :
    valid (sc a b r) = (valid r).map (fun q => (q.1.map (a * ·), q.2.map (b * ·))) := by
  rw [valid_eq, valid_eq]
  have hm : none ∈ (sc a b r).2 ↔ none ∈ r.2 := by simp [sc]
  by_cases h : none ∈ r.2
  · rw [if_pos h, if_pos (hm.2 h)]
    rfl
  · rw [if_neg h, if_neg (fun h' => h (hm.1 h'))]
    simp only [sc, Option.map_some, Option.some.injEq, Prod.mk.injEq, true_and, List.map_map]
    refine List.map_congr_left (fun x hx => ?_)
    cases x with
    | none => exact absurd hx h
    | some x => rfl

theorem filterMap_sc (a b : Rat) (rs : List (List Rat × List (Option Rat))) :
    (rs.map (sc a b)).filterMap valid = (rs.filterMap valid).map (fun q => (q.1.map (a * ·), q.2.map (b * ·))) := by
  induction rs with
  | nil => rfl
  | cons r rs ih =>
    rw [List.map_cons, List.filterMap_cons, List.filterMap_cons, valid_sc, ih]
    cases valid r <;> rfl

theorem meanRows_sc (b : Rat) (ls : List (List Rat)) : meanRows (ls.map (List.map (b * ·))) = (meanRows ls).map (List.map (b * ·)) := by
  cases ls with
  | nil => rfl
  | cons p l =>
    simp only [List.map_cons, meanRows, Option.map_some, List.length_map, List.map_map, Option.some.injEq, List.length_cons]
    refine List.map_congr_left (fun j _ => ?_)
    have hg : ∀ q : List Rat, (q.map (b * ·)).getD j 0 = b * q.getD j 0 := by
      intro q
      simp only [List.getD, List.getElem?_map]
      cases q[j]? <;> simp
    have hs : (l.map ((fun q : List Rat => q.getD j 0) ∘ List.map (b * ·))).sum = b * (l.map (fun q => q.getD j 0)).sum := by
      rw [← List.sum_map_mul_left]
      refine congrArg List.sum (List.map_congr_left (fun q _ => hg q))
    simp only [Function.comp_apply, List.sum_cons, hg]
    rw [hs, ← mul_add, mul_div_assoc]

theorem min_sc {a : Rat} (ha : 0 < a) (l : List Rat) : (l.map (a * ·)).min? = l.min?.map (a * ·) := by
  cases l with
  | nil => rfl
  | cons x xs =>
    rw [List.map_cons, List.min?_cons', List.min?_cons', Option.map_some, List.foldl_map]
    congr 1
    exact List.foldl_hom (g₁ := min) (g₂ := fun x y => min x (a * y)) (a * ·) (fun x y => (mul_min_of_nonneg x y ha.le).symm)

theorem max_sc {a : Rat} (ha : 0 < a) (l : List Rat) : (l.map (a * ·)).max? = l.max?.map (a * ·) := by
  cases l with
  | nil => rfl
  | cons x xs =>
    rw [List.map_cons, List.max?_cons', List.max?_cons', Option.map_some, List.foldl_map]
    congr 1
    exact List.foldl_hom (g₁ := max) (g₂ := fun x y => max x (a * y)) (a * ·) (fun x y => (mul_max_of_nonneg x y ha.le).symm)

theorem linspace_sc (a p q : Rat) (n : Nat) : linspace (a * p) (a * q) n = (linspace p q n).map (a * ·) := by
  unfold linspace
  rw [List.map_map]
  refine List.map_congr_left (fun j _ => ?_)
  simp only [Function.comp]
  split
  · rfl
  · ring

theorem interp_sc {a : Rat} (ha : 0 < a) (b : Rat) : ∀ (l : List (Rat × Rat)) (z : Rat),
    interpAt (l.map (fun p => (a * p.1, b * p.2))) (a * z) = b * interpAt l z
  | [], _ => by simp [interpAt]
  | [(x, p)], z => by
    simp only [List.map_cons, List.map_nil, interpAt, mul_right_inj' ha.ne']
    split <;> simp
  | (x, p) :: (y, q) :: l, z => by
    have ih := interp_sc ha b ((y, q) :: l) z
    simp only [List.map_cons] at ih
    simp only [List.map_cons, interpAt, mul_lt_mul_iff_right₀ ha, mul_le_mul_iff_right₀ ha]
    rw [ih]
    split
    · simp
    · split
      · rw [← mul_sub, ← mul_sub, mul_div_mul_left _ _ ha.ne']
        ring
      · rfl

theorem mapM_sc {a : Rat} {f : List Rat → Option Rat} (hf : ∀ l, f (l.map (a * ·)) = (f l).map (a * ·)) (k : List Rat → List Rat) :
    ∀ vs : List (List Rat × List Rat), (vs.map (fun q => (q.1.map (a * ·), k q.2))).mapM (fun r => f r.1) =
      (vs.mapM (fun r => f r.1)).map (List.map (a * ·))
  | [] => rfl
  | v :: vs => by
    rw [List.map_cons, List.mapM_cons, List.mapM_cons, mapM_sc hf k vs, hf]
    cases f v.1 with
    | none => rfl
    | some x =>
      cases List.mapM (fun r : List Rat × List Rat => f r.1) vs <;> rfl

/-- Two grids whose columns and lines have the same spectra up to the units. -/
theorem lat_sc {V V' : Type} {welch : Welch V} {welch' : Welch V'} {s s' : Scaling} {g : Area V} {g' : Area V'} {a b : Rat} (hx : g'.nx = g.nx)
    (hc : ∀ i, column welch' s' g' i = sc a b (column welch s g i)) : latContent welch' s' g' = (latContent welch s g).map (scContent a b) := by
  have e : (List.range g'.nx).map (column welch' s' g') = ((List.range g.nx).map (column welch s g)).map (sc a b) := by
    rw [List.map_map, hx]
    exact List.map_congr_left (fun i _ => hc i)
  show (do
    let last ← ((List.range g'.nx).map (column welch' s' g')).getLast?
    some (⟨last.1, meanRows ((((List.range g'.nx).map (column welch' s' g')).filterMap valid).map (·.2))⟩ : Content)) = Option.map (scContent a b) (do
    let last ← ((List.range g.nx).map (column welch s g)).getLast?
    some (⟨last.1, meanRows ((((List.range g.nx).map (column welch s g)).filterMap valid).map (·.2))⟩ : Content))
  rw [e, filterMap_sc]
  generalize (List.range g.nx).map (column welch s g) = rs
  rw [List.getLast?_map]
  cases rs.getLast? with
  | none => rfl
  | some last =>
    simp only [Option.map_some, Option.bind_eq_bind, Option.bind_some, scContent, sc, List.map_map, Option.some.injEq, Content.mk.injEq, true_and]
    rw [← meanRows_sc, List.map_map]
    rfl

theorem lon_sc {V V' : Type} {welch : Welch V} {welch' : Welch V'} {s s' : Scaling} {g : Area V} {g' : Area V'} {a b : Rat} (ha : 0 < a) (hy : g'.ny = g.ny)
    (hl : ∀ j, line welch' s' g' j = sc a b (line welch s g j)) : lonContent welch' s' g' = (lonContent welch s g).map (scContent a b) := by
  have e : (List.range g'.ny).map (line welch' s' g') = ((List.range g.ny).map (line welch s g)).map (sc a b) := by
    rw [List.map_map, hy]
    exact List.map_congr_left (fun i _ => hl i)
  have form : ∀ {W : Type} (w : Welch W) (σ : Scaling) (h : Area W), lonContent w σ h = (((List.range h.ny).map (line w σ h)).getLast?).bind (fun last =>
      (((((List.range h.ny).map (line w σ h)).filterMap valid).mapM (fun (r : List Rat × List Rat) => r.1.min?)).bind (·.max?)).bind (fun fmin =>
      (((((List.range h.ny).map (line w σ h)).filterMap valid).mapM (fun (r : List Rat × List Rat) => r.1.max?)).bind (·.min?)).bind (fun fmax =>
      some ⟨linspace fmin fmax last.1.length, meanRows ((((List.range h.ny).map (line w σ h)).filterMap valid).map (fun r =>
        (linspace fmin fmax last.1.length).map (interpAt (r.1.zip r.2))))⟩))) := by
    intro W w σ h
    simp only [lonContent, Option.bind_eq_bind, Option.bind_assoc]
    rfl
  rw [form, form, e, filterMap_sc]
  generalize (List.range g.ny).map (line welch s g) = rs
  rw [List.getLast?_map, mapM_sc (fun l => min_sc ha l) (List.map (b * ·)), mapM_sc (fun l => max_sc ha l) (List.map (b * ·))]
  cases rs.getLast? with
  | none => rfl
  | some last =>
    simp only [Option.map_some, Option.bind_some]
    cases (rs.filterMap valid).mapM (fun r => r.1.min?) with
    | none => rfl
    | some mins =>
      simp only [Option.map_some, Option.bind_some, max_sc ha]
      cases mins.max? with
      | none => rfl
      | some fmin =>
        simp only [Option.map_some, Option.bind_some]
        cases (rs.filterMap valid).mapM (fun r => r.1.max?) with
        | none => rfl
        | some maxs =>
          simp only [Option.map_some, Option.bind_some, min_sc ha]
          cases maxs.min? with
          | none => rfl
          | some fmax =>
            simp only [Option.map_some, Option.bind_some, scContent, sc, List.length_map, linspace_sc, Option.some.injEq, Content.mk.injEq, true_and]
            rw [← meanRows_sc, List.map_map, List.map_map]
            congr 1
            refine List.map_congr_left (fun r _ => ?_)
            simp only [Function.comp, List.map_map]
            refine List.map_congr_left (fun z _ => ?_)
            simp only [Function.comp]
            rw [← interp_sc ha b, List.zip_map]
            rfl

theorem spectrum_sc {V V' : Type} {welch : Welch V} {welch' : Welch V'} {s s' : Scaling} {g : Area V} {g' : Area V'} {a b : Rat} (ha : 0 < a) (hx : g'.nx = g.nx)
    (hy : g'.ny = g.ny) (hc : ∀ i, column welch' s' g' i = sc a b (column welch s g i)) (hl : ∀ j, line welch' s' g' j = sc a b (line welch s g j)) :
    spectrum welch' s' g' = (spectrum welch s g).map (fun c => (scContent a b c.1, scContent a b c.2)) := by
  unfold spectrum
  rw [lat_sc hx hc, lon_sc ha hy hl]
  cases latContent welch s g with
  | none => rfl
  | some c => cases lonContent welch s g <;> rfl

theorem ratio_sc {b : Rat} (hb : b ≠ 0) (p q : Option (List Rat)) : ratio (p.map (List.map (b * ·))) (q.map (List.map (b * ·))) = ratio p q := by
  cases p with
  | none => rfl
  | some p =>
    cases q with
    | none => rfl
    | some q =>
      simp only [ratio, Option.map_some, Option.bind_eq_bind, Option.bind_some, List.length_map, List.zip_map, List.map_map]
      congr 2
      refine List.map_congr_left (fun x _ => ?_)
      simp only [Function.comp, Prod.map, mul_eq_zero, hb, false_or, mul_div_mul_left _ _ hb]

theorem ratio_div {k : Rat} (hk : k ≠ 0) (p q : Option (List Rat)) :
    ratio (p.map (List.map (1 * ·))) (q.map (List.map (k * ·))) = (ratio p q).map (List.map (Option.map (· / k))) := by
  cases p with
  | none => rfl
  | some p =>
    cases q with
    | none => rfl
    | some q =>
      simp only [ratio, Option.map_some, Option.bind_eq_bind, Option.bind_some, List.length_map, List.zip_map, List.map_map]
      split
      · simp only [Option.map_some, List.map_map]
        congr 1
        refine List.map_congr_left (fun x _ => ?_)
        simp only [Function.comp, Prod.map, mul_eq_zero, hk, false_or, one_mul]
        split
        · rfl
        · rw [Option.map_some, div_div, mul_comm]
      · rfl

/-! ### C220 -/

/-- **C220** (units of the field): with a field multiplied by `u` the wavelengths are the same and the powers are multiplied by the square of `u`. -/
theorem spectrum_field {welch : Welch Rat} (hw : Quadratic welch) (s : Scaling) (g : Area Rat) (u : Rat) :
    spectrum welch s (g.scaled u) = (spectrum welch s g).map (fun c => (⟨c.1.freq, c.1.power.map (List.map (u ^ 2 * ·))⟩,
      ⟨c.2.freq, c.2.power.map (List.map (u ^ 2 * ·))⟩)) := by
  have hc : ∀ i, column welch s (g.scaled u) i = sc 1 (u ^ 2) (column welch s g i) := by
    intro i
    have := hw u ((List.range g.ny).map (g.value i)) (1 / g.stepY) s
    rw [List.map_map] at this
    exact this
  have hl : ∀ j, line welch s (g.scaled u) j = sc 1 (u ^ 2) (line welch s g j) := by
    intro j
    have := hw u ((List.range g.nx).map (fun i => g.value i j)) (1 / g.stepX j) s
    rw [List.map_map] at this
    exact this
  rw [spectrum_sc (g := g) (g' := g.scaled u) one_pos rfl rfl hc hl]
  simp [scContent]

/-- **C220** (units of the distances): with distances multiplied by `k` (1000 from km to m) the frequencies are divided by `k`, a density is multiplied by `k` and
a power is the same. -/
theorem spectrum_distance {V : Type} {welch : Welch V} (hw : Density welch) (s : Scaling) (g : Area V) {k : Rat} (hk : 0 < k) :
    spectrum welch s (g.inUnits k) = (spectrum welch s g).map (fun c =>
      (scContent (1 / k) (if s = .density then k else 1) c.1, scContent (1 / k) (if s = .density then k else 1) c.2)) := by
  have key : ∀ d x, welch d (1 / (x * k)) s = sc (1 / k) (if s = .density then k else 1) (welch d (1 / x) s) := by
    intro d x
    rw [← div_div]
    obtain ⟨h1, h2⟩ := hw k hk d (1 / x)
    cases s with
    | density => exact h1
    | spectrum => exact h2
  exact spectrum_sc (by positivity) rfl rfl (fun i => key _ _) (fun j => key _ _)

/-- **C220** (relative spectrum): the ratio to a reference written in the same units is the same. -/
theorem reference_field {welch : Welch Rat} (hw : Quadratic welch) (s : Scaling) (g ref : Area Rat) {u : Rat} (hu : u ≠ 0) :
    spectrumRef welch s (g.scaled u) (ref.scaled u) = spectrumRef welch s g ref := by
  unfold spectrumRef
  rw [spectrum_field hw, spectrum_field hw]
  cases spectrum welch s g with
  | none => rfl
  | some a =>
    cases spectrum welch .density ref with
    | none => rfl
    | some b => simp only [Option.map_some, Option.bind_eq_bind, Option.bind_some, ratio_sc (pow_ne_zero 2 hu)]

/-- **C220** (relative spectrum): with the density, the ratio does not depend on the units of the distances. -/
theorem reference_distance {V : Type} {welch : Welch V} (hw : Density welch) (g ref : Area V) {k : Rat} (hk : 0 < k) :
    spectrumRef welch .density (g.inUnits k) (ref.inUnits k) =
      (spectrumRef welch .density g ref).map (fun r => ((r.1.1.map (1 / k * ·), r.1.2), (r.2.1.map (1 / k * ·), r.2.2))) := by
  unfold spectrumRef
  rw [spectrum_distance hw _ _ hk, spectrum_distance hw _ _ hk]
  cases spectrum welch .density g with
  | none => rfl
  | some a =>
    cases spectrum welch .density ref with
    | none => rfl
    | some b => simp only [Option.map_some, Option.bind_eq_bind, Option.bind_some, scContent, if_true, ratio_sc hk.ne']

/-- **C220** (relative spectrum): with `scaling="spectrum"` the reference is still a density, and the ratio is divided by `k`. -/
theorem reference_spectrum {V : Type} {welch : Welch V} (hw : Density welch) (g ref : Area V) {k : Rat} (hk : 0 < k) :
    spectrumRef welch .spectrum (g.inUnits k) (ref.inUnits k) =
      (spectrumRef welch .spectrum g ref).map (fun r => ((r.1.1.map (1 / k * ·), r.1.2.map (List.map (Option.map (· / k)))),
        (r.2.1.map (1 / k * ·), r.2.2.map (List.map (Option.map (· / k)))))) := by
  unfold spectrumRef
  rw [spectrum_distance hw _ _ hk, spectrum_distance hw _ _ hk]
  cases spectrum welch .spectrum g with
  | none => rfl
  | some a =>
    cases spectrum welch .density ref with
    | none => rfl
    | some b => simp only [Option.map_some, Option.bind_eq_bind, Option.bind_some, scContent, if_true, reduceCtorEq, if_false, ratio_div hk.ne']

/-- A periodogram of two frequencies, with both properties. -/
def powerWelch : Welch Rat := fun d fs s => ([fs / 4, fs / 2], match s with
  | .density => [some ((d.map (fun x => x ^ 2)).sum / fs), some (d.getD 0 0 ^ 2 / fs)]
  | .spectrum => [some (d.map (fun x => x ^ 2)).sum, some (d.getD 0 0 ^ 2)])

theorem powerWelch_quadratic : Quadratic powerWelch := by
  intro u d fs s
  have hg : (d.map (u * ·)).getD 0 0 = u * d.getD 0 0 := by cases d <;> simp
  have hs : ((d.map (u * ·)).map (fun x => x ^ 2)).sum = u ^ 2 * (d.map (fun x => x ^ 2)).sum := by
    rw [List.map_map, ← List.sum_map_mul_left]
    exact congrArg List.sum (List.map_congr_left (fun x _ => mul_pow u x 2))
  cases s <;> simp only [powerWelch, sc, hg, hs, List.map_cons, List.map_nil, Option.map_some, one_mul, mul_pow, mul_div_assoc]

theorem powerWelch_density : Density powerWelch := by
  intro k hk d fs
  have e : ∀ x : Rat, x / (fs / k) = k * (x / fs) := fun x => by rw [div_div_eq_mul_div, mul_comm x k, mul_div_assoc]
  have e' : ∀ x : Rat, fs / k / x = 1 / k * (fs / x) := fun x => by rw [div_right_comm, div_eq_mul_one_div (fs / x) k, mul_comm]
  exact ⟨by simp only [powerWelch, sc, List.map_cons, List.map_nil, Option.map_some, e, e'],
    by simp only [powerWelch, sc, List.map_cons, List.map_nil, Option.map_some, e', one_mul]⟩

/-- Two columns and two lines, the second line is shorter. -/
def exUnits : Area Rat := ⟨2, 2, fun i j => i + 2 * j + 1, 2, fun j => if j = 0 then 2 else 1⟩

/-- Another field on the same points. -/
def exUnitsRef : Area Rat := ⟨2, 2, fun i j => i + j + 1, 2, fun j => if j = 0 then 2 else 1⟩

example : spectrum powerWelch .density exUnits = some (⟨[1 / 4, 1 / 4], some [27 / 2, 27 / 2]⟩, ⟨[1 / 8, 1 / 4], some [30, 5]⟩) ∧
    spectrum powerWelch .density (exUnits.scaled 100) = some (⟨[1 / 4, 1 / 4], some [135000, 135000]⟩, ⟨[1 / 8, 1 / 4], some [300000, 50000]⟩) ∧
    spectrum powerWelch .density (exUnits.inUnits 1000) = some (⟨[1 / 4000, 1 / 4000], some [13500, 13500]⟩, ⟨[1 / 8000, 1 / 4000], some [30000, 5000]⟩) := by
  decide +kernel

example : Quadratic powerWelch ∧ Density powerWelch ∧
    spectrumRef powerWelch .density exUnits exUnitsRef = some (([1 / 4, 1 / 4], some [some (9 / 5), some (9 / 5)]), ([1 / 8, 1 / 4], some [some (5 / 3), some 1])) :=
  ⟨powerWelch_quadratic, powerWelch_density, by decide +kernel⟩

/-- **C220** (negation): with `scaling="spectrum"` the ratio depends on the units of the distances. -/
theorem reference_spectrum_wrong : ∃ (welch : Welch Rat) (g ref : Area Rat) (k : Rat), Density welch ∧ 0 < k ∧
    (spectrumRef welch .spectrum (g.inUnits k) (ref.inUnits k)).map (fun r => r.2.2) ≠ (spectrumRef welch .spectrum g ref).map (fun r => r.2.2) :=
  ⟨powerWelch, exUnits, exUnitsRef, 1000, powerWelch_density, by norm_num, by decide +kernel⟩

end Verif.Spectrum
