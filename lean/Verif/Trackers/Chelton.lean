import Verif.Trackers.Model
import Verif.Match.Props
import Verif.Matching.Props
import Verif.Pixels.Props
import Verif.Sphere.Props

/-!
# C106, C107: the candidates and the links of the tracker of Chelton
-/

namespace Verif.Trackers

open Verif.Poly

/-! ### The major axis -/

/-- A number limited to the interval from 0 to 1. -/
def clamp (t : Rat) : Rat := max 0 (min 1 t)

/-- **C106**: the major axis is `cmax` below `lat2`, `cmin` above `lat1`, with a straight line between, in both hemispheres. -/
theorem major_axis_spec (cmin cmax : Rat) {lat1 lat2 : Rat} (h : lat2 < lat1) (degrees : Bool) (lat : Rat) :
    majorAxis cmin cmax lat1 lat2 degrees lat =
      some ((cmin + (cmax - cmin) * clamp ((lat1 - |lat|) / (lat1 - lat2))) * (if degrees then 1 else 1112 / 10)) := by
  have hd : lat1 - lat2 ≠ 0 := by intro e; linarith
  have hp : 0 < lat1 - lat2 := by linarith
  have key : (if (!(decide (|lat| > lat1) || decide (|lat| < lat2))) = true then
      (cmin - cmax) / (lat1 - lat2) * |lat| + ((cmin - cmax) / (lat1 - lat2) * -lat1 + cmin)
      else if |lat| < lat2 then cmax else cmin) = cmin + (cmax - cmin) * clamp ((lat1 - |lat|) / (lat1 - lat2)) := by
    by_cases h1 : |lat| > lat1
    · rw [if_neg (by simp [h1]), if_neg (by linarith)]
      have : clamp ((lat1 - |lat|) / (lat1 - lat2)) = 0 := by
        unfold clamp
        have : (lat1 - |lat|) / (lat1 - lat2) ≤ 0 := div_nonpos_of_nonpos_of_nonneg (by linarith) hp.le
        exact max_eq_left (le_trans (min_le_right _ _) this)
      rw [this]; ring
    · by_cases h2 : |lat| < lat2
      · rw [if_neg (by simp [h2]), if_pos h2]
        have : clamp ((lat1 - |lat|) / (lat1 - lat2)) = 1 := by
          unfold clamp
          rw [min_eq_left ((one_le_div hp).2 (by linarith))]
          norm_num
        rw [this]; ring
      · rw [if_pos (by simp [not_lt.1 h1, not_lt.1 h2])]
        have : clamp ((lat1 - |lat|) / (lat1 - lat2)) = (lat1 - |lat|) / (lat1 - lat2) := by
          unfold clamp
          rw [min_eq_right ((div_le_one hp).2 (by linarith))]
          exact max_eq_right (div_nonneg (by linarith) hp.le)
        rw [this]
        field_simp
        ring
  unfold majorAxis
  simp only [if_neg hd]
  rw [key]
  cases degrees <;> simp

theorem clamp_range (t : Rat) : 0 ≤ clamp t ∧ clamp t ≤ 1 :=
  ⟨le_max_left _ _, max_le (by norm_num) (min_le_left _ _)⟩

theorem clamp_mono {s t : Rat} (h : s ≤ t) : clamp s ≤ clamp t := max_le_max_left _ (min_le_min_left _ h)

/-- The major axis is between `cmin` and `cmax`, and never grows from the equator to the poles. -/
theorem major_axis_monotone {cmin cmax lat1 lat2 : Rat} (hc : cmin ≤ cmax) (h : lat2 < lat1) (lat lat' : Rat) (hl : |lat| ≤ |lat'|) :
    ∃ y y', majorAxis cmin cmax lat1 lat2 true lat = some y ∧ majorAxis cmin cmax lat1 lat2 true lat' = some y' ∧
      cmin ≤ y' ∧ y' ≤ y ∧ y ≤ cmax := by
  refine ⟨_, _, major_axis_spec cmin cmax h true lat, major_axis_spec cmin cmax h true lat', ?_, ?_, ?_⟩
  · have := clamp_range ((lat1 - |lat'|) / (lat1 - lat2))
    simp only [if_true, mul_one]
    nlinarith
  · have : clamp ((lat1 - |lat'|) / (lat1 - lat2)) ≤ clamp ((lat1 - |lat|) / (lat1 - lat2)) :=
      clamp_mono ((div_le_div_iff_of_pos_right (by linarith)).2 (by linarith))
    simp only [if_true, mul_one]
    nlinarith
  · have := clamp_range ((lat1 - |lat|) / (lat1 - lat2))
    simp only [if_true, mul_one]
    nlinarith

/-- Equal limits divide by zero. -/
theorem major_axis_equal (cmin cmax l lat : Rat) (d : Bool) : majorAxis cmin cmax l l d lat = none := by
  simp [majorAxis]

example : majorAxis (105 / 100) (3 / 2) 23 5 true (-14) = some (51 / 40) := by decide +kernel

/-! ### The ellipse -/

/-- The gap is the smallest distance of the two longitudes over all turns. -/
theorem gap_spec (x c : Rat) : (∃ k : Int, gap x c = |x + 360 * k - c|) ∧ ∀ k : Int, gap x c ≤ |x + 360 * k - c| := by
  have hrep : gap x c ≤ 180 ∧ ∃ k : Int, gap x c = |x + 360 * k - c| := by
    unfold gap
    simp only
    split
    · obtain ⟨a, b, m, hm⟩ := Py.fmod_spec (|x - c| + 180) (show (0 : Rat) < 360 by norm_num)
      refine ⟨abs_le.2 ⟨by linarith, by linarith⟩, ?_⟩
      rcases abs_cases (x - c) with ⟨e, _⟩ | ⟨e, _⟩
      · exact ⟨m, by rw [hm, e]; congr 1; ring⟩
      · refine ⟨-m, ?_⟩
        rw [hm, e, ← abs_neg]
        congr 1
        push_cast
        ring
    · rename_i h
      exact ⟨not_lt.1 h, 0, by simp⟩
  refine ⟨hrep.2, fun k => ?_⟩
  obtain ⟨h180, k0, hk0⟩ := hrep
  by_cases hk : k = k0
  · rw [hk, hk0]
  · have h1 : (1 : Rat) ≤ |((k - k0 : Int) : Rat)| := by
      have : 1 ≤ |k - k0| := Int.one_le_abs (sub_ne_zero.2 hk)
      exact_mod_cast this
    have h2 : |(x + 360 * k - c) - (x + 360 * k0 - c)| = 360 * |((k - k0 : Int) : Rat)| := by
      rw [show (x + 360 * k - c) - (x + 360 * k0 - c) = 360 * ((k - k0 : Int) : Rat) by push_cast; ring, abs_mul]
      norm_num
    have h3 := abs_sub (x + 360 * k - c) (x + 360 * k0 - c)
    rw [h2, ← hk0] at h3
    linarith

/-- A point is inside the ellipse whose horizontal axis goes from `x0` to `x1` at the ordinate `y0`, with vertical semi axis `h`. -/
def InEllipse (x0 x1 y0 h x y : Rat) : Prop := ((x - (x0 + x1) / 2) / ((x1 - x0) / 2)) ^ 2 + ((y - y0) / h) ^ 2 < 1

/-- **C106**: a candidate is inside the ellipse which reaches `major` degrees west and `minor` degrees east of the observation and `minor`
degrees north and south, in some turn of longitude. -/
theorem ellipse_spec {minor major : Rat} (hm : 0 < minor) (hM : 0 < minor + major) (p q : Obs) :
    ∃ b, ellipseCell minor major p q = some b ∧
      (b = true ↔ ∃ k : Int, InEllipse (p.lon - major) (p.lon + minor) p.lat minor (q.lon + 360 * k) q.lat) := by
  have hc : (p.lon - (major - minor) + p.lon) * (1 / 2) = (p.lon - major + (p.lon + minor)) / 2 := by ring
  have ha : minor + 1 / 2 * (major - minor) = (p.lon + minor - (p.lon - major)) / 2 := by ring
  have hpos : 0 < minor + 1 / 2 * (major - minor) := by linarith
  obtain ⟨⟨k0, hk0⟩, hmin⟩ := gap_spec q.lon ((p.lon - (major - minor) + p.lon) * (1 / 2))
  unfold ellipseCell InEllipse
  simp only
  rw [← ha, ← hc]
  obtain ⟨xc, hxc⟩ : ∃ xc, xc = (p.lon - (major - minor) + p.lon) * (1 / 2) := ⟨_, rfl⟩
  obtain ⟨a, haa⟩ : ∃ a, a = minor + 1 / 2 * (major - minor) := ⟨_, rfl⟩
  rw [← hxc] at hk0 hmin ⊢
  rw [← haa] at hpos ⊢
  have hdy : (q.lat - p.lat) ^ 2 = |q.lat - p.lat| ^ 2 := (sq_abs _).symm
  have hiff : (∃ k : Int, ((q.lon + 360 * k - xc) / a) ^ 2 + ((q.lat - p.lat) / minor) ^ 2 < 1) ↔
      gap q.lon xc ^ 2 / a ^ 2 + |q.lat - p.lat| ^ 2 / minor ^ 2 < 1 := by
    constructor
    · rintro ⟨k, hk⟩
      have h1 := hmin k
      have h0 : 0 ≤ gap q.lon xc := by rw [hk0]; exact abs_nonneg _
      have h2 : gap q.lon xc ^ 2 ≤ (q.lon + 360 * k - xc) ^ 2 := by
        rw [← sq_abs (q.lon + 360 * k - xc)]
        exact pow_le_pow_left₀ h0 h1 2
      have h3 : gap q.lon xc ^ 2 / a ^ 2 ≤ (q.lon + 360 * k - xc) ^ 2 / a ^ 2 := div_le_div_of_nonneg_right h2 (by positivity)
      rw [div_pow, div_pow, hdy] at hk
      linarith
    · intro h
      refine ⟨k0, ?_⟩
      rw [div_pow, div_pow, hdy, ← sq_abs (q.lon + 360 * k0 - xc), ← hk0]
      exact h
  rw [hiff]
  split
  · rename_i h
    refine ⟨false, rfl, ?_⟩
    simp only [Bool.false_eq_true, false_iff, not_lt]
    have : 1 ≤ |q.lat - p.lat| ^ 2 / minor ^ 2 := by
      rw [one_le_div (by positivity)]
      exact pow_le_pow_left₀ hm.le h.le 2
    have : 0 ≤ gap q.lon xc ^ 2 / a ^ 2 := by positivity
    linarith
  · split
    · rename_i h
      refine ⟨false, rfl, ?_⟩
      simp only [Bool.false_eq_true, false_iff, not_lt]
      have : 1 ≤ gap q.lon xc ^ 2 / a ^ 2 := by
        rw [one_le_div (by positivity)]
        exact pow_le_pow_left₀ hpos.le (le_of_lt h) 2
      have : 0 ≤ |q.lat - p.lat| ^ 2 / minor ^ 2 := by positivity
      linarith
    · rw [if_neg (by rintro (h | h) <;> linarith)]
      exact ⟨_, rfl, by simp⟩

/-- Two positions on both sides of the longitude 0, in two turns. -/
example : ellipseCell (105 / 100) (3 / 2) ⟨1 / 2, 0, 1, 1⟩ ⟨3597 / 10, 0, 1, 1⟩ = some true ∧
    ellipseCell (105 / 100) (3 / 2) ⟨3597 / 10, 0, 1, 1⟩ ⟨1, 0, 1, 1⟩ = some false := by decide +kernel

/-! ### The ratios -/

/-- Two positive sizes are comparable: neither reaches 2.5 times the other. -/
def Comparable (a b : Rat) : Prop := a < 5 / 2 * b ∧ b < 5 / 2 * a

theorem ratio_test_spec {a b : Rat} (hb : 0 < b) : ∃ r, ratioTest a b = some r ∧ (r = true ↔ Comparable a b) := by
  refine ⟨_, by unfold ratioTest; rw [if_neg hb.ne'], ?_⟩
  unfold Comparable
  simp only [Bool.not_eq_true', Bool.or_eq_false_iff, decide_eq_false_iff_not, not_le, ge_iff_le]
  rw [div_lt_iff₀ hb, lt_div_iff₀ hb]
  constructor <;> rintro ⟨h1, h2⟩ <;> constructor <;> linarith

theorem comparable_comm (a b : Rat) : Comparable a b ↔ Comparable b a := And.comm

/-- A candidate keeps its flag exactly when its amplitude and its radius are comparable with those of the observation. -/
theorem ratio_spec (m : Bool) (p q : Obs) (ha : 0 < p.amp) (hr : 0 < p.rad) :
    ∃ b, ratioCell m p q = some b ∧ (b = true ↔ m = true ∧ Comparable q.amp p.amp ∧ Comparable q.rad p.rad) := by
  obtain ⟨r1, e1, h1⟩ := ratio_test_spec (a := q.amp) ha
  obtain ⟨r2, e2, h2⟩ := ratio_test_spec (a := q.rad) hr
  cases m with
  | false => exact ⟨false, rfl, by simp⟩
  | true =>
    unfold ratioCell
    simp only [if_true, e1]
    cases r1 with
    | false => exact ⟨false, rfl, by simp [← h1]⟩
    | true => exact ⟨r2, by simp [e2], by rw [h2]; simp [← h1]⟩

/-- A null amplitude inside the ellipse divides by zero. -/
theorem ratio_zero_wrong (p q : Obs) (h : p.amp = 0) : ratioCell true p q = none := by
  simp [ratioCell, ratioTest, h]

/-! ### The ground -/

theorem mem_select_rep {β : Type} (f : β → Bool) : ∀ (ps : List (List β)) (s k : Nat),
    k ∈ Py.select (ps.flatten.map f) (Py.rep (List.range' s ps.length) (ps.map List.length)) ↔
      ∃ i p, ps[i]? = some p ∧ k = s + i ∧ ∃ x ∈ p, f x = true
  | [], s, k => by simp [Py.select, Py.rep]
  | p :: ps, s, k => by
    have ih := mem_select_rep f ps (s + 1) k
    have hsplit : Py.select ((p :: ps).flatten.map f) (Py.rep (List.range' s (p :: ps).length) ((p :: ps).map List.length)) =
        Py.select (p.map f) (List.replicate p.length s) ++
          Py.select (ps.flatten.map f) (Py.rep (List.range' (s + 1) ps.length) (ps.map List.length)) := by
      unfold Py.select Py.rep
      simp only [List.flatten_cons, List.map_append, List.length_cons, List.range'_succ, List.map_cons, List.zip_cons_cons, List.flatMap_cons]
      rw [List.zip_append (by simp), List.filterMap_append]
    rw [hsplit, List.mem_append, ih]
    have hfirst : k ∈ Py.select (p.map f) (List.replicate p.length s) ↔ k = s ∧ ∃ x ∈ p, f x = true := by
      have : List.replicate p.length s = p.map (fun _ => s) := by simp
      rw [this, Py.select_map, List.mem_map]
      constructor
      · rintro ⟨x, hx, rfl⟩
        exact ⟨rfl, x, (List.mem_filter.1 hx).1, (List.mem_filter.1 hx).2⟩
      · rintro ⟨rfl, x, hx, hf⟩
        exact ⟨x, List.mem_filter.2 ⟨hx, hf⟩, rfl⟩
    rw [hfirst]
    constructor
    · rintro (⟨rfl, h⟩ | ⟨i, p', e, rfl, h⟩)
      · exact ⟨0, p, rfl, rfl, h⟩
      · exact ⟨i + 1, p', by simpa using e, by omega, h⟩
    · rintro ⟨i, p', e, rfl, h⟩
      cases i with
      | zero =>
        simp only [List.getElem?_cons_zero, Option.some.injEq] at e
        subst e
        exact Or.inl ⟨rfl, h⟩
      | succ i => exact Or.inr ⟨i, p', by simpa using e, by omega, h⟩

/-- A connected path of pixels between the two observations, as `compute_pixel_path` gives it (C48). -/
def Path (g : Ground) (p q : Obs) (l : List (Int × Int)) : Prop :=
  PixelPath.Connected g.nx (ends g p q) l ∧
    ∃ d, PixelPath.Shortest g.nx (ends g p q) d ∧ l.length = max d.natAbs ((ends g p q).iy1 - (ends g p q).iy0).natAbs + 1

/-- The column `i` of a grid of step `s` from `x0` is the one of the first bound the nearest of the longitude, in the turn from `x0`. -/
def NearColumn (x0 s lon : Rat) (i : Int) : Prop :=
  ∃ t : Int, x0 ≤ lon + 360 * t ∧ lon + 360 * t < x0 + 360 ∧ |x0 + i * s - (lon + 360 * t)| ≤ s / 2

theorem rint_near {s : Rat} (hs : 0 < s) (o v : Rat) : |o + Amplitude.rint (v / s) * s - (o + v)| ≤ s / 2 := by
  obtain ⟨r1, r2⟩ := Pixels.rint_bounds (v / s)
  generalize Amplitude.rint (v / s) = r at *
  have e : v = v / s * s := by rw [div_mul_cancel₀ _ hs.ne']
  rw [abs_le]
  constructor <;> nlinarith

/-- **C107** (ends of the path): the pixels of the ends are the nearest of the positions, in the turn of the grid. -/
theorem ends_spec {g : Ground} (hx : 0 < g.xs) (hy : 0 < g.ys) (p q : Obs) :
    NearColumn g.x0 g.xs p.lon (ends g p q).ix0 ∧ NearColumn g.x0 g.xs q.lon (ends g p q).ix1 ∧
    |g.y0 + (ends g p q).iy0 * g.ys - p.lat| ≤ g.ys / 2 ∧ |g.y0 + (ends g p q).iy1 * g.ys - q.lat| ≤ g.ys / 2 := by
  have col : ∀ lon : Rat, NearColumn g.x0 g.xs lon (Amplitude.rint (Py.fmod (lon - g.x0) 360 / g.xs)) := fun lon => by
    obtain ⟨f1, f2, k, hk⟩ := Py.fmod_spec (lon - g.x0) (show (0 : Rat) < 360 by norm_num)
    refine ⟨k, by linarith, by linarith, ?_⟩
    have := rint_near hx g.x0 (Py.fmod (lon - g.x0) 360)
    rwa [show g.x0 + Py.fmod (lon - g.x0) 360 = lon + 360 * k by rw [hk]; ring] at this
  have row : ∀ lat : Rat, |g.y0 + Amplitude.rint ((lat - g.y0) / g.ys) * g.ys - lat| ≤ g.ys / 2 := fun lat => by
    have := rint_near hy g.y0 (lat - g.y0)
    rwa [show g.y0 + (lat - g.y0) = lat by ring] at this
  exact ⟨col _, col _, row _, row _⟩

/-- **C107** (turns): the path does not depend on the turn of the longitudes. -/
theorem ends_turn (g : Ground) (p q : Obs) (k l : Int) : ends g { p with lon := p.lon + 360 * k } { q with lon := q.lon + 360 * l } = ends g p q := by
  have col : ∀ (lon : Rat) (k : Int), Py.fmod (lon + 360 * k - g.x0) 360 = Py.fmod (lon - g.x0) 360 := fun lon k => by
    obtain ⟨f1, f2, m, hm⟩ := Py.fmod_spec (lon - g.x0) (show (0 : Rat) < 360 by norm_num)
    exact Poly.fmod_unique f1 f2 (k := m - k) (by rw [hm]; push_cast; ring)
  unfold ends
  simp only [col]

/-- **C107**: `across_ground` never raises; it refuses a couple exactly when a pixel of ground is on the path of this couple. -/
theorem across_ground_spec (g : Ground) (hn : 0 < g.nx) (couples : List (Obs × Obs)) :
    ∃ res, acrossGround g couples = some res ∧ res.length = couples.length ∧
      ∀ (k : Nat) p q, couples[k]? = some (p, q) → ∃ l, Path g p q l ∧
        ∃ b, res[k]? = some b ∧ (b = true ↔ ∀ x ∈ l, g.land x = false) := by
  obtain ⟨ps, e, hlen, hps⟩ := PixelPath.pixelPath_spec (nb := g.nx) (by exact_mod_cast hn) (couples.map (fun c => ends g c.1 c.2))
  rw [List.length_map] at hlen
  have hcount : (ps.map (·.length - 1)).map (· + 1) = ps.map List.length := by
    rw [List.map_map]
    apply List.map_congr_left
    intro p hp
    obtain ⟨k, hk⟩ := List.getElem?_of_mem hp
    have hk' := (List.getElem?_eq_some_iff.1 hk).1
    rw [hlen] at hk'
    obtain ⟨_, d, _, h⟩ := hps k _ p (by rw [List.getElem?_map, List.getElem?_eq_getElem hk']; rfl) hk
    simp only [Function.comp]
    omega
  unfold acrossGround
  simp only [e, hcount]
  refine ⟨_, rfl, by simp, ?_⟩
  intro k p q hk
  have hk' := (List.getElem?_eq_some_iff.1 hk).1
  have hkp : k < ps.length := by omega
  have hpk : ps[k]? = some ps[k] := List.getElem?_eq_getElem hkp
  have := hps k (ends g p q) ps[k] (by rw [List.getElem?_map, hk]; rfl) hpk
  refine ⟨ps[k], this, _, by rw [List.getElem?_map, List.getElem?_range hk']; rfl, ?_⟩
  have hmem : k ∈ Py.unique (Py.select (ps.flatten.map g.land) (Py.rep (List.range couples.length) (ps.map List.length))) ↔
      ∃ x ∈ ps[k], g.land x = true := by
    rw [Py.mem_unique, List.range_eq_range', ← hlen, mem_select_rep]
    constructor
    · rintro ⟨i, p', e1, e2, h⟩
      rw [Nat.zero_add] at e2
      subst e2
      rw [hpk] at e1
      injection e1 with e1
      subst e1
      exact h
    · exact fun h => ⟨k, ps[k], hpk, by omega, h⟩
  generalize Py.unique (Py.select (ps.flatten.map g.land) (Py.rep (List.range couples.length) (ps.map List.length))) = u at hmem
  by_cases hg : ∃ x ∈ ps[k], g.land x = true
  · have h := scatter_mem (u.map (fun k => (k, false))) (fun _ => true) k ⟨(k, false), List.mem_map.2 ⟨k, hmem.2 hg, rfl⟩, rfl⟩
    obtain ⟨k', _, hk'⟩ := List.mem_map.1 h
    injection hk' with _ hk'
    rw [← hk']
    simp only [Bool.false_eq_true, false_iff, not_forall]
    obtain ⟨x, hx, hl⟩ := hg
    exact ⟨x, hx, by simp [hl]⟩
  · rw [scatter_of_not_mem _ _ _ (by
      intro w hw hwk
      obtain ⟨k', hk2, rfl⟩ := List.mem_map.1 hw
      simp only at hwk
      subst hwk
      exact hg (hmem.1 hk2))]
    simp only [true_iff]
    intro x hx
    cases hl : g.land x with
    | false => rfl
    | true => exact absurd ⟨x, hx, hl⟩ hg

/-! ### The whole mask -/

/-- What the tracker asks of a couple before the ground: the ellipse of the latitude of the first observation and comparable sizes. -/
def Near (p q : Obs) : Prop :=
  (∃ k : Int, InEllipse (p.lon - (105 / 100 + (3 / 2 - 105 / 100) * clamp ((23 - |p.lat|) / (23 - 5)))) (p.lon + 105 / 100) p.lat (105 / 100)
    (q.lon + 360 * k) q.lat) ∧ Comparable q.amp p.amp ∧ Comparable q.rad p.rad

theorem mapM_some_of {α β : Type} (f : α → Option β) : ∀ (l : List α), (∀ a ∈ l, ∃ b, f a = some b) →
    ∃ r, l.mapM f = some r ∧ r.length = l.length ∧ ∀ (i : Nat) a, l[i]? = some a → ∃ b, r[i]? = some b ∧ f a = some b
  | [], _ => ⟨[], rfl, rfl, by simp⟩
  | a :: l, h => by
    obtain ⟨b, hb⟩ := h a List.mem_cons_self
    obtain ⟨r, e, hl, hr⟩ := mapM_some_of f l (fun x hx => h x (List.mem_cons_of_mem _ hx))
    refine ⟨b :: r, by rw [List.mapM_cons, hb, e]; rfl, by simp [hl], ?_⟩
    intro i x hx
    cases i with
    | zero =>
      simp only [List.getElem?_cons_zero, Option.some.injEq] at hx
      subst hx
      exact ⟨b, rfl, hb⟩
    | succ i => exact hr i x (by simpa using hx)

theorem near_mask_spec (self_ other : List Obs) (ha : ∀ p ∈ self_, 0 < p.amp ∧ 0 < p.rad) :
    ∃ rows : List (List Bool), nearMask self_ other = some rows ∧
      ∀ i j : Nat, ((rows[i]?).bind (fun r => r[j]?)).getD false = true ↔ ∃ p q, self_[i]? = some p ∧ other[j]? = some q ∧ Near p q := by
  have hcell : ∀ p ∈ self_, ∀ q, ∃ b, ((majorAxis (105 / 100) (3 / 2) 23 5 true p.lat).bind (fun y =>
      (ellipseCell (105 / 100) y p q).bind (fun m => ratioCell m p q))) = some b ∧ (b = true ↔ Near p q) := by
    intro p hp q
    rw [major_axis_spec _ _ (by norm_num : (5 : Rat) < 23)]
    simp only [if_true, mul_one, Option.bind_some]
    have := clamp_range ((23 - |p.lat|) / (23 - 5))
    obtain ⟨m, em, hm⟩ := ellipse_spec (minor := 105 / 100)
      (major := 105 / 100 + (3 / 2 - 105 / 100) * clamp ((23 - |p.lat|) / (23 - 5))) (by norm_num) (by nlinarith) p q
    obtain ⟨b, eb, hb⟩ := ratio_spec m p q (ha p hp).1 (ha p hp).2
    exact ⟨b, by rw [em, Option.bind_some, eb], by rw [hb, hm]; rfl⟩
  have hrow : ∀ p ∈ self_, ∃ r, ((majorAxis (105 / 100) (3 / 2) 23 5 true p.lat).bind (fun y =>
      other.mapM (fun q => (ellipseCell (105 / 100) y p q).bind (fun m => ratioCell m p q)))) = some r := by
    intro p hp
    have hy := major_axis_spec (105 / 100) (3 / 2) (by norm_num : (5 : Rat) < 23) true p.lat
    have hc := hcell p hp
    rw [hy] at hc ⊢
    simp only [Option.bind_some] at hc ⊢
    obtain ⟨r, e, _⟩ := mapM_some_of _ other (fun q _ => (hc q).imp (fun b h => h.1))
    exact ⟨r, e⟩
  obtain ⟨rows, e, hlen, hr⟩ := mapM_some_of _ self_ hrow
  refine ⟨rows, e, fun i j => ?_⟩
  cases hi : self_[i]? with
  | none =>
    have : rows[i]? = none := by
      rw [List.getElem?_eq_none_iff, hlen]
      exact List.getElem?_eq_none_iff.1 hi
    simp [this]
  | some p =>
    have hp := List.mem_of_getElem? hi
    obtain ⟨r, e1, e2⟩ := hr i p hi
    have hy := major_axis_spec (105 / 100) (3 / 2) (by norm_num : (5 : Rat) < 23) true p.lat
    have hc := hcell p hp
    rw [hy] at hc e2
    simp only [Option.bind_some] at hc e2
    obtain ⟨r', e3, hl', hr'⟩ := mapM_some_of _ other (fun q _ => (hc q).imp (fun b h => h.1))
    rw [e3] at e2
    injection e2 with e2
    subst e2
    rw [e1, Option.bind_some]
    cases hj : other[j]? with
    | none =>
      have : r'[j]? = none := by
        rw [List.getElem?_eq_none_iff, hl']
        exact List.getElem?_eq_none_iff.1 hj
      simp [this]
    | some q =>
      obtain ⟨b, e4, e5⟩ := hr' j q hj
      obtain ⟨b', e6, h6⟩ := hc q
      rw [e5] at e6
      injection e6 with e6
      subst e6
      rw [e4]
      simp only [Option.getD_some, h6]
      constructor
      · intro h
        exact ⟨p, q, rfl, rfl, h⟩
      · rintro ⟨p', q', f1, f2, h⟩
        injection f1 with f1
        injection f2 with f2
        subst f1 f2
        exact h

theorem setCells_other : ∀ (l : List ((Nat × Nat) × Bool)) (m : Nat → Nat → Bool) (i j : Nat), (∀ c ∈ l, c.1 ≠ (i, j)) →
    setCells m l i j = m i j
  | [], _, _, _, _ => rfl
  | c :: l, m, i, j, h => by
    have h1 := h c List.mem_cons_self
    unfold setCells
    rw [List.foldl_cons]
    have ih := setCells_other l (fun x y => if x = c.1.1 ∧ y = c.1.2 then c.2 else m x y) i j (fun x hx => h x (List.mem_cons_of_mem _ hx))
    unfold setCells at ih
    rw [ih, if_neg]
    rintro ⟨rfl, rfl⟩
    exact h1 rfl

theorem setCells_at : ∀ (l : List ((Nat × Nat) × Bool)) (m : Nat → Nat → Bool), (l.map (·.1)).Nodup → ∀ c ∈ l,
    setCells m l c.1.1 c.1.2 = c.2
  | [], _, _, _, h => absurd h (by simp)
  | d :: l, m, hnd, c, hc => by
    simp only [List.map_cons, List.nodup_cons] at hnd
    have hstep : setCells m (d :: l) = setCells (fun x y => if x = d.1.1 ∧ y = d.1.2 then d.2 else m x y) l := rfl
    rw [hstep]
    rcases List.mem_cons.1 hc with rfl | hc
    · rw [setCells_other]
      · simp
      · intro x hx e
        exact hnd.1 (List.mem_map.2 ⟨x, hx, e⟩)
    · exact setCells_at l _ hnd.2 c hc

/-- **C107**: the mask of the tracker. With positive amplitudes and radii it never raises; a couple is a candidate exactly when the second
observation is in the ellipse of the first one, the sizes are comparable, and no pixel of ground is on the path between them. -/
theorem chelton_mask_spec (g : Ground) (hn : 0 < g.nx) (self_ other : List Obs) (ha : ∀ p ∈ self_, 0 < p.amp ∧ 0 < p.rad) :
    ∃ m, cheltonMask g self_ other = some m ∧ (∀ i j, m i j = true → i < self_.length ∧ j < other.length) ∧
      ∀ i j p q, self_[i]? = some p → other[j]? = some q →
        ∃ l, Path g p q l ∧ (m i j = true ↔ Near p q ∧ ∀ x ∈ l, g.land x = false) := by
  obtain ⟨rows, e, hrows⟩ := near_mask_spec self_ other ha
  obtain ⟨m, hm⟩ : ∃ m : Nat → Nat → Bool, m = fun i j => ((rows[i]?).bind (fun r => r[j]?)).getD false := ⟨_, rfl⟩
  have hmi : ∀ i j, m i j = true ↔ ∃ p q, self_[i]? = some p ∧ other[j]? = some q ∧ Near p q := by rw [hm]; exact hrows
  obtain ⟨closest, hcl⟩ : ∃ c, c = Matching.whereMask self_.length other.length m := ⟨_, rfl⟩
  have hmem : ∀ i j, (i, j) ∈ closest ↔ m i j = true := by
    intro i j
    rw [hcl, Matching.mem_whereMask]
    constructor
    · exact fun h => h.2.2
    · intro h
      obtain ⟨p, q, e1, e2, _⟩ := (hmi i j).1 h
      exact ⟨(List.getElem?_eq_some_iff.1 e1).1, (List.getElem?_eq_some_iff.1 e2).1, h⟩
  have hnd : closest.Nodup := hcl ▸ Matching.whereMask_nodup _ _ _
  obtain ⟨pair, hpair⟩ : ∃ f : Nat × Nat → Option (Obs × Obs), f = fun c =>
    (self_[c.1]?).bind (fun p => (other[c.2]?).map (fun q => (p, q))) := ⟨_, rfl⟩
  have hps : ∀ c ∈ closest, ∃ x, pair c = some x := by
    intro c hc
    obtain ⟨p, q, e1, e2, _⟩ := (hmi c.1 c.2).1 ((hmem _ _).1 hc)
    exact ⟨(p, q), by rw [hpair]; simp [e1, e2]⟩
  have hfm : ∀ cl : List (Nat × Nat), (∀ c ∈ cl, ∃ x, pair c = some x) →
      (cl.filterMap pair).length = cl.length ∧ ∀ (k : Nat) c, cl[k]? = some c → (cl.filterMap pair)[k]? = pair c := by
    intro cl
    induction cl with
    | nil => simp
    | cons c cl ih =>
      intro h
      obtain ⟨x, hx⟩ := h c List.mem_cons_self
      obtain ⟨i1, i2⟩ := ih (fun d hd => h d (List.mem_cons_of_mem _ hd))
      rw [List.filterMap_cons_some hx]
      refine ⟨by simp [i1], fun k d hd => ?_⟩
      cases k with
      | zero =>
        simp only [List.getElem?_cons_zero, Option.some.injEq] at hd ⊢
        rw [← hd, hx]
      | succ k => simpa using i2 k d (by simpa using hd)
  obtain ⟨hl1, hl2⟩ := hfm closest hps
  obtain ⟨free, ef, hlf, hf⟩ := across_ground_spec g hn (closest.filterMap pair)
  rw [hl1] at hlf
  have hmask : cheltonMask g self_ other = some (setCells m (closest.zip free)) := by
    unfold cheltonMask
    simp only [e, Option.bind_eq_bind, Option.bind_some, ← hm, ← hcl, ← hpair, ef]
  have hz : (closest.zip free).map (·.1) = closest := by
    rw [show (fun c : (Nat × Nat) × Bool => c.1) = Prod.fst from rfl, List.map_fst_zip (by omega)]
  have hval : ∀ i j, m i j = true → ∃ (k : Nat) (b : Bool), closest[k]? = some (i, j) ∧ free[k]? = some b ∧ setCells m (closest.zip free) i j = b := by
    intro i j h
    obtain ⟨k, hk⟩ := List.getElem?_of_mem ((hmem i j).2 h)
    have hk' := (List.getElem?_eq_some_iff.1 hk).1
    have hfk : free[k]? = some free[k] := List.getElem?_eq_getElem (by omega)
    refine ⟨k, free[k], hk, hfk, ?_⟩
    have hin : ((i, j), free[k]) ∈ closest.zip free := by
      apply List.mem_of_getElem? (i := k)
      rw [List.getElem?_zip_eq_some]
      exact ⟨hk, hfk⟩
    exact setCells_at _ m (by rw [hz]; exact hnd) _ hin
  have hoth : ∀ i j, m i j = false → setCells m (closest.zip free) i j = false := by
    intro i j h
    rw [setCells_other, h]
    intro c hc he
    have : (i, j) ∈ closest := by
      rw [← hz]
      exact List.mem_map.2 ⟨c, hc, he⟩
    rw [hmem, h] at this
    exact absurd this (by simp)
  refine ⟨_, hmask, ?_, ?_⟩
  · intro i j h
    cases hmij : m i j with
    | false => rw [hoth i j hmij] at h; exact absurd h (by simp)
    | true =>
      obtain ⟨p, q, e1, e2, _⟩ := (hmi i j).1 hmij
      exact ⟨(List.getElem?_eq_some_iff.1 e1).1, (List.getElem?_eq_some_iff.1 e2).1⟩
  · intro i j p q e1 e2
    cases hmij : m i j with
    | true =>
      obtain ⟨k, b, hk, hb, hv⟩ := hval i j hmij
      have hpq : (closest.filterMap pair)[k]? = some (p, q) := by
        rw [hl2 k _ hk, hpair]
        simp [e1, e2]
      obtain ⟨l, hl, b', hb', hiff⟩ := hf k p q hpq
      rw [hb] at hb'
      injection hb' with hb'
      subst hb'
      refine ⟨l, hl, ?_⟩
      rw [hv, hiff]
      obtain ⟨p', q', f1, f2, hN⟩ := (hmi i j).1 hmij
      rw [e1] at f1
      rw [e2] at f2
      injection f1 with f1
      injection f2 with f2
      subst f1 f2
      exact ⟨fun h => ⟨hN, h⟩, fun h => h.2⟩
    | false =>
      obtain ⟨res, _, _, hres⟩ := across_ground_spec g hn [(p, q)]
      obtain ⟨l, hl, _⟩ := hres 0 p q rfl
      refine ⟨l, hl, ?_⟩
      rw [hoth i j hmij]
      simp only [Bool.false_eq_true, false_iff]
      rintro ⟨hN, _⟩
      have := (hmi i j).2 ⟨p, q, e1, e2, hN⟩
      rw [hmij] at this
      exact absurd this (by simp)

/-! ### The links -/

theorem near_close {p q : Obs} (h : Near p q) : |q.lat - p.lat| ≤ 2 ∧ ∃ k : Int, |q.lon + 360 * k - p.lon| ≤ 3 := by
  obtain ⟨⟨k, hk⟩, _⟩ := h
  have hc := clamp_range ((23 - |p.lat|) / (23 - 5))
  generalize clamp ((23 - |p.lat|) / (23 - 5)) = t at hk hc
  unfold InEllipse at hk
  have hs1 := sq_nonneg ((q.lon + 360 * k - (p.lon - (105 / 100 + (3 / 2 - 105 / 100) * t) + (p.lon + 105 / 100)) / 2) /
    ((p.lon + 105 / 100 - (p.lon - (105 / 100 + (3 / 2 - 105 / 100) * t))) / 2))
  have hs2 := sq_nonneg ((q.lat - p.lat) / (105 / 100))
  constructor
  · have h1 : ((q.lat - p.lat) / (105 / 100)) ^ 2 ≤ 1 := by linarith
    have h2 := (sq_le_one_iff_abs_le_one _).1 h1
    rw [abs_div, div_le_one (by norm_num), abs_of_pos (by norm_num : (0 : Rat) < 105 / 100)] at h2
    linarith
  · refine ⟨k, ?_⟩
    have ha : (p.lon + 105 / 100 - (p.lon - (105 / 100 + (3 / 2 - 105 / 100) * t))) / 2 = 105 / 100 + 9 / 40 * t := by ring
    have hx : q.lon + 360 * k - (p.lon - (105 / 100 + (3 / 2 - 105 / 100) * t) + (p.lon + 105 / 100)) / 2 =
      (q.lon + 360 * k - p.lon) + 9 / 40 * t := by ring
    rw [ha, hx] at hk hs1
    have h1 : ((q.lon + 360 * k - p.lon + 9 / 40 * t) / (105 / 100 + 9 / 40 * t)) ^ 2 ≤ 1 := by linarith
    have h2 := (sq_le_one_iff_abs_le_one _).1 h1
    rw [abs_div, div_le_one (abs_pos.2 (by linarith)), abs_of_pos (by linarith : 0 < 105 / 100 + 9 / 40 * t)] at h2
    rw [abs_le] at h2 ⊢
    constructor <;> linarith

theorem near_cell {p q : Obs} (h : Near p q) :
    Sphere.gridCell p.lon p.lat q.lon q.lat = some (Sphere.distance p.lon p.lat q.lon q.lat / 1000) := by
  obtain ⟨h1, k, h2⟩ := near_close h
  have h2' : |(q.lon : ℝ) - p.lon + 360 * k| ≤ 3 := by
    have : ((|q.lon + 360 * k - p.lon| : Rat) : ℝ) ≤ ((3 : Rat) : ℝ) := by exact_mod_cast h2
    push_cast at this
    rw [show (q.lon : ℝ) - p.lon + 360 * k = q.lon + 360 * k - p.lon by ring]
    exact this
  have h1' : |(q.lat : ℝ) - p.lat| ≤ 2 := by
    have : ((|q.lat - p.lat| : Rat) : ℝ) ≤ ((2 : Rat) : ℝ) := by exact_mod_cast h1
    push_cast at this
    exact this
  rw [Sphere.grid_cell_spec _ _ _ _ _ (⟨by linarith, k, rfl⟩ : Sphere.IsGap p.lon q.lon |(q.lon : ℝ) - p.lon + 360 * k|),
    if_pos ⟨by linarith, by linarith⟩]

/-- **C107**: the links of the tracker. With positive sizes and rows in both datasets it never raises; its links are one to one; each link is
a candidate (ellipse, comparable sizes, free path), the nearest one of its observation by the great-circle distance; and an observation
without link, with candidates, lost its nearest candidate to an observation of at least the same amplitude. -/
theorem chelton_tracking_spec (g : Ground) (hn : 0 < g.nx) (self_ other : List Obs) (h0 : self_ ≠ []) (h1 : other ≠ [])
    (ha : ∀ p ∈ self_, 0 < p.amp ∧ 0 < p.rad) :
    ∃ (cand : Nat → Nat → Prop) (links : List (Nat × Nat)),
      (∀ i j p q, self_[i]? = some p → other[j]? = some q →
        ∃ l, Path g p q l ∧ (cand i j ↔ Near p q ∧ ∀ x ∈ l, g.land x = false)) ∧
      cheltonTracking g self_ other = some links ∧ (links.map (·.1)).Nodup ∧ (links.map (·.2)).Nodup ∧
      (∀ i j, (i, j) ∈ links → ∃ p q, self_[i]? = some p ∧ other[j]? = some q ∧ cand i j ∧
        ∀ j' q', other[j']? = some q' → cand i j' →
          Sphere.distance p.lon p.lat q.lon q.lat ≤ Sphere.distance p.lon p.lat q'.lon q'.lat) ∧
      ∀ i j p, self_[i]? = some p → cand i j →
        ∃ i' j' p', (i', j') ∈ links ∧ self_[i']? = some p' ∧ p.amp ≤ p'.amp ∧ cand i j' := by
  obtain ⟨m, em, hdom, hm⟩ := chelton_mask_spec g hn self_ other ha
  obtain ⟨dist, hdist⟩ : ∃ d : Nat → Nat → Option ℝ, d = fun i j =>
      (self_[i]?).bind (fun p => (other[j]?).bind (fun q => Sphere.gridCell p.lon p.lat q.lon q.lat)) := ⟨_, rfl⟩
  have hget : ∀ i j, m i j = true → ∃ p q, self_[i]? = some p ∧ other[j]? = some q ∧ Near p q := by
    intro i j h
    obtain ⟨a, b⟩ := hdom i j h
    obtain ⟨l, _, hl⟩ := hm i j _ _ (List.getElem?_eq_getElem a) (List.getElem?_eq_getElem b)
    exact ⟨_, _, List.getElem?_eq_getElem a, List.getElem?_eq_getElem b, (hl.1 h).1⟩
  have hd : ∀ i j p q, self_[i]? = some p → other[j]? = some q → Near p q →
      dist i j = some (Sphere.distance p.lon p.lat q.lon q.lat / 1000) := by
    intro i j p q e1 e2 h
    rw [hdist]
    simp only [e1, e2, Option.bind_some, near_cell h]
  obtain ⟨links, e, n1, n2, c1, c2⟩ := Matching.tracking_chelton_one_to_one self_.length other.length m dist
    (fun i => (((self_[i]?).map (·.amp)).getD 0 : Rat)) (List.length_pos_iff.2 h0) (List.length_pos_iff.2 h1) hdom
    (fun i j h => by
      obtain ⟨p, q, e1, e2, h⟩ := hget i j h
      exact ⟨_, hd i j p q e1 e2 h⟩)
  refine ⟨fun i j => m i j = true, links, hm, ?_, n1, n2, ?_, ?_⟩
  · unfold cheltonTracking
    simp only [em, Option.bind_some, ← hdist, e]
  · intro i j h
    obtain ⟨hc, hmin⟩ := c1 (i, j) h
    obtain ⟨p, q, e1, e2, hN⟩ := hget i j hc
    refine ⟨p, q, e1, e2, hc, fun j' q' e3 hc' => ?_⟩
    obtain ⟨p2, q2, f1, f2, hN2⟩ := hget i j' hc'
    rw [e1] at f1
    rw [e3] at f2
    injection f1 with f1
    injection f2 with f2
    subst f1 f2
    obtain ⟨c, hc1, hc2⟩ := hmin j' _ hc' (hd i j' _ _ e1 e3 hN2)
    rw [hd i j _ _ e1 e2 hN] at hc1
    injection hc1 with hc1
    subst hc1
    linarith
  · intro i j p e1 hc
    obtain ⟨⟨i', j'⟩, hl, hamp, hcand⟩ := c2 i ⟨j, hc⟩
    obtain ⟨p', q', f1, f2, _⟩ := hget i' j' (c1 _ hl).1
    refine ⟨i', j', p', hl, f1, ?_, hcand⟩
    simp only [e1, f1, Option.map_some, Option.getD_some] at hamp
    exact_mod_cast hamp

/-- A strip of land of one column stops the links which cross it: columns 1 and 3 of a grid of 8 columns of 45 degrees. -/
example : acrossGround ⟨0, 0, 45, 45, 8, fun x => decide (x.1 = 2)⟩ [(⟨50, 0, 1, 1⟩, ⟨140, 0, 1, 1⟩), (⟨140, 0, 1, 1⟩, ⟨190, 0, 1, 1⟩)] =
    some [false, true] := by decide +kernel

end Verif.Trackers
