import Verif.Tracks.Direction
import Verif.Tracks.Iter
import Verif.Sphere.Props

/-!
# C161: the azimuth of the tracks

`get_azimuth` (src/py_eddy_tracker/observations/tracking.py). Angles are real numbers; the sign of zero is not modelled.
-/

namespace Verif.Tracks

noncomputable section

open Real Verif.Sphere

variable {α : Type}

/-- Toward the north at the first position, `x` (observations/tracking.py:284-287). -/
def northPart (p q : ℝ × ℝ) : ℝ :=
  cos (p.2 * (π / 180)) * sin (q.2 * (π / 180)) - sin (p.2 * (π / 180)) * cos (q.2 * (π / 180)) * cos (q.1 * (π / 180) - p.1 * (π / 180))

/-- Toward the east, `y` (observations/tracking.py:288). -/
def eastPart (p q : ℝ × ℝ) : ℝ := sin (q.1 * (π / 180) - p.1 * (π / 180)) * cos (q.2 * (π / 180))

/-- The value of one track, from its first and last positions `(lon, lat)` (observations/tracking.py:284-293). -/
def azimuthOf (equatorward : Bool) (p q : ℝ × ℝ) : ℝ :=
  let a := arctan2 (eastPart p q) (northPart p q) * (180 / π) + 90
  if equatorward && decide (p.2 * (π / 180) < 0) then a * -1 else a

/-- `get_azimuth` (observations/tracking.py:270-293): one value by number which has observations. `none` is an exception. -/
def getAzimuth (equatorward : Bool) (pos : α → ℝ × ℝ) (data : List (Nat × α)) : Option (List ℝ) :=
  (computeIndex (data.map Prod.fst)).bind (fun ti =>
    ((List.range ti.size).filter (fun t => decide (ti.number t ≠ 0))).mapM (fun t =>
      (Py.get (data.map (fun o => pos o.2)) (ti.index t)).bind (fun p =>
        (Py.get (data.map (fun o => pos o.2)) (ti.index t - 1 + ti.number t)).map (fun q => azimuthOf equatorward p q))))

/-! ### Specification -/

/-- The unit vector toward the north at a position. -/
def northVec (p : ℝ × ℝ) : EuclideanSpace ℝ (Fin 3) :=
  !₂[-sin (p.2 * (π / 180)) * cos (p.1 * (π / 180)), -sin (p.2 * (π / 180)) * sin (p.1 * (π / 180)), cos (p.2 * (π / 180))]

/-- The unit vector toward the east at a position. -/
def eastVec (p : ℝ × ℝ) : EuclideanSpace ℝ (Fin 3) := !₂[-sin (p.1 * (π / 180)), cos (p.1 * (π / 180)), 0]

/-- The great circle from `p` to `q` leaves `p` with the bearing `b` in degrees, clockwise from the north. -/
def Heads (p q : ℝ × ℝ) (b : ℝ) : Prop :=
  ∃ r : ℝ, 0 < r ∧ inner ℝ (northVec p) (onSphere q.1 q.2) = r * cos (b * (π / 180)) ∧ inner ℝ (eastVec p) (onSphere q.1 q.2) = r * sin (b * (π / 180))

/-- The great circle leaves `p` toward the pole of its hemisphere. -/
def HeadsPole (p q : ℝ × ℝ) : Prop :=
  (0 ≤ p.2 ∧ 0 < inner ℝ (northVec p) (onSphere q.1 q.2)) ∨ (p.2 < 0 ∧ inner ℝ (northVec p) (onSphere q.1 q.2) < 0)

/-- The great circle leaves `p` toward the west. -/
def HeadsWest (p q : ℝ × ℝ) : Prop := inner ℝ (eastVec p) (onSphere q.1 q.2) < 0

/-- The great circle leaves `p` toward the east. -/
def HeadsEast (p q : ℝ × ℝ) : Prop := 0 < inner ℝ (eastVec p) (onSphere q.1 q.2)

/-! ### Proofs -/

theorem inner_north (p q : ℝ × ℝ) : inner ℝ (northVec p) (onSphere q.1 q.2) = northPart p q := by
  unfold northVec onSphere northPart
  rw [EuclideanSpace.inner_eq_star_dotProduct]
  simp [dotProduct, Fin.sum_univ_three, cos_sub]
  ring

theorem inner_east (p q : ℝ × ℝ) : inner ℝ (eastVec p) (onSphere q.1 q.2) = eastPart p q := by
  unfold eastVec onSphere eastPart
  rw [EuclideanSpace.inner_eq_star_dotProduct]
  simp [dotProduct, Fin.sum_univ_three, sin_sub]
  ring

theorem azimuthOf_false (p q : ℝ × ℝ) : azimuthOf false p q = arctan2 (eastPart p q) (northPart p q) * (180 / π) + 90 := by
  simp [azimuthOf]

theorem azimuthOf_true (p q : ℝ × ℝ) : azimuthOf true p q = if p.2 < 0 then -azimuthOf false p q else azimuthOf false p q := by
  rw [azimuthOf_false]
  unfold azimuthOf
  have : p.2 * (π / 180) < 0 ↔ p.2 < 0 := by
    have : (0 : ℝ) < π / 180 := by positivity
    constructor
    · intro h
      by_contra hc
      have := mul_nonneg (not_lt.1 hc) this.le
      linarith
    · intro h
      exact mul_neg_of_neg_of_pos h this
  by_cases h : p.2 < 0
  · simp [this, h]
  · simp [this, h]

/-- **C161** (bearing): the value is the bearing of the great circle from the first to the last position, in ]-180, 180], plus 90. Missing: it is not the
bearing (`azimuth_wrong`). -/
theorem azimuth_partial (p q : ℝ × ℝ) (h : northPart p q ≠ 0 ∨ eastPart p q ≠ 0) :
    Heads p q (azimuthOf false p q - 90) ∧ -90 < azimuthOf false p q ∧ azimuthOf false p q ≤ 270 := by
  have hpi := pi_pos
  have e : (azimuthOf false p q - 90) * (π / 180) = arctan2 (eastPart p q) (northPart p q) := by
    rw [azimuthOf_false]
    field_simp
    ring
  obtain ⟨h1, h2⟩ := arctan2_mem (eastPart p q) (northPart p q)
  have hz : (⟨northPart p q, eastPart p q⟩ : ℂ) ≠ 0 := by
    intro hz
    have hz1 : northPart p q = 0 := congrArg Complex.re hz
    have hz2 : eastPart p q = 0 := congrArg Complex.im hz
    rcases h with h | h
    · exact h hz1
    · exact h hz2
  refine ⟨⟨‖(⟨northPart p q, eastPart p q⟩ : ℂ)‖, norm_pos_iff.2 hz, ?_, ?_⟩, ?_, ?_⟩
  · rw [inner_north, e]
    unfold arctan2
    rw [Complex.cos_arg hz, mul_div_cancel₀ _ (norm_ne_zero_iff.2 hz)]
  · rw [inner_east, e]
    unfold arctan2
    rw [Complex.sin_arg, mul_div_cancel₀ _ (norm_ne_zero_iff.2 hz)]
  · rw [azimuthOf_false]
    have : -180 < arctan2 (eastPart p q) (northPart p q) * (180 / π) := by
      rw [← div_lt_iff₀ (by positivity)]
      calc -180 / (180 / π) = -π := by field_simp
        _ < _ := h1
    linarith
  · rw [azimuthOf_false]
    have : arctan2 (eastPart p q) (northPart p q) * (180 / π) ≤ 180 := by
      rw [← le_div_iff₀ (by positivity)]
      calc _ ≤ π := h2
        _ = 180 / (180 / π) := by field_simp
    linarith

theorem heads_unique {p q : ℝ × ℝ} {b b' : ℝ} (h : Heads p q b) (h' : Heads p q b') : ∃ k : ℤ, b' = b + 360 * k := by
  obtain ⟨r, hr, h1, h2⟩ := h
  obtain ⟨r', hr', h1', h2'⟩ := h'
  obtain ⟨k, hk⟩ := arctan2_polar r (b * (π / 180)) hr
  obtain ⟨k', hk'⟩ := arctan2_polar r' (b' * (π / 180)) hr'
  rw [← h1, ← h2] at hk
  rw [← h1', ← h2', hk] at hk'
  refine ⟨k - k', ?_⟩
  have hpi := pi_pos
  have h3 : (b' - b) * (π / 180) = ((k - k' : ℤ) : ℝ) * (2 * π) := by push_cast; linarith
  have h4 : (b' - b) * (π / 180) * (180 / π) = ((k - k' : ℤ) : ℝ) * (2 * π) * (180 / π) := by rw [h3]
  have e1 : (b' - b) * (π / 180) * (180 / π) = b' - b := by field_simp
  have e2 : ((k - k' : ℤ) : ℝ) * (2 * π) * (180 / π) = 360 * ((k - k' : ℤ) : ℝ) := by field_simp; ring
  rw [e1, e2] at h4
  linarith

/-- C161 refuted: no track has its bearing for azimuth. -/
theorem azimuth_wrong (p q : ℝ × ℝ) (h : northPart p q ≠ 0 ∨ eastPart p q ≠ 0) : ¬ Heads p q (azimuthOf false p q) := by
  intro h'
  obtain ⟨k, hk⟩ := heads_unique (azimuth_partial p q h).1 h'
  have h1 : (4 : ℝ) * k = 1 := by linarith
  have h2 : (4 : ℤ) * k = 1 := by exact_mod_cast h1
  omega

/-- Signs of the angle. -/
theorem arctan2_west {y x : ℝ} (hy : y < 0) : (0 < arctan2 y x * (180 / π) + 90 ↔ 0 < x) ∧ (arctan2 y x * (180 / π) + 90 < 0 ↔ x < 0) ∧
    arctan2 y x * (180 / π) + 90 < 90 := by
  have hpi := pi_pos
  have hneg : arctan2 y x < 0 := Complex.arg_neg_iff.2 hy
  have hcmp : 0 < arctan2 y x * (180 / π) + 90 ↔ -(π / 2) < arctan2 y x := by
    have e : arctan2 y x * (180 / π) + 90 = (arctan2 y x + π / 2) * (180 / π) := by field_simp; ring
    rw [e]
    have hk : (0 : ℝ) < 180 / π := by positivity
    constructor
    · intro h
      have := pos_of_mul_pos_left h hk.le
      linarith
    · intro h
      exact mul_pos (by linarith) hk
  have hcmp' : arctan2 y x * (180 / π) + 90 < 0 ↔ arctan2 y x < -(π / 2) := by
    have e : arctan2 y x * (180 / π) + 90 = (arctan2 y x + π / 2) * (180 / π) := by field_simp; ring
    rw [e]
    have hk : (0 : ℝ) < 180 / π := by positivity
    constructor
    · intro h
      by_contra hcon
      have := mul_nonneg (by linarith : 0 ≤ arctan2 y x + π / 2) hk.le
      linarith
    · intro h
      exact mul_neg_of_neg_of_pos (by linarith) hk
  have hp : 0 < x → -(π / 2) < arctan2 y x := by
    intro h
    have := Complex.abs_arg_lt_pi_div_two_iff.2 (Or.inl (show 0 < (⟨x, y⟩ : ℂ).re from h))
    exact (abs_lt.1 this).1
  have hz : x = 0 → arctan2 y x = -(π / 2) := by
    intro h
    subst h
    have : (⟨0, y⟩ : ℂ).arg = -(π / 2) := Complex.arg_eq_neg_pi_div_two_iff.2 ⟨rfl, hy⟩
    exact this
  have hn : x < 0 → arctan2 y x < -(π / 2) := by
    intro h
    by_contra hcon
    have h1 : |(⟨x, y⟩ : ℂ).arg| ≤ π / 2 := abs_le.2 ⟨not_lt.1 hcon, by
      have : (⟨x, y⟩ : ℂ).arg < 0 := hneg
      linarith⟩
    have := Complex.abs_arg_le_pi_div_two_iff.1 h1
    exact absurd this (not_le.2 h)
  refine ⟨?_, ?_, ?_⟩
  · rw [hcmp]
    refine ⟨fun h => ?_, hp⟩
    rcases lt_trichotomy x 0 with h' | h' | h'
    · have := hn h'; linarith
    · have := hz h'; linarith
    · exact h'
  · rw [hcmp']
    refine ⟨fun h => ?_, hn⟩
    rcases lt_trichotomy x 0 with h' | h' | h'
    · exact h'
    · have := hz h'; linarith
    · have := hp h'; linarith
  · have : arctan2 y x * (180 / π) < 0 := mul_neg_of_neg_of_pos hneg (by positivity)
    linarith

/-- **C161** (`equatorward`): for the tracks which leave toward the west, the value is positive exactly when they leave toward the pole of their hemisphere,
and negative exactly when they leave toward the equator. Missing: the tracks toward the east (`poleward_east_wrong`). -/
theorem poleward_partial (p q : ℝ × ℝ) (hw : HeadsWest p q) : (0 < azimuthOf true p q ↔ HeadsPole p q) ∧
    (azimuthOf true p q < 0 ↔ (0 ≤ p.2 ∧ inner ℝ (northVec p) (onSphere q.1 q.2) < 0) ∨ (p.2 < 0 ∧ 0 < inner ℝ (northVec p) (onSphere q.1 q.2))) := by
  unfold HeadsWest at hw
  unfold HeadsPole
  rw [inner_east] at hw
  simp only [inner_north]
  obtain ⟨h1, h2, _⟩ := arctan2_west (x := northPart p q) hw
  rw [← azimuthOf_false] at h1 h2
  rw [azimuthOf_true]
  by_cases h : p.2 < 0
  · rw [if_pos h]
    have hn : ¬ 0 ≤ p.2 := not_le.2 h
    simp only [h, hn, false_and, true_and, false_or]
    rw [← h1, ← h2]
    constructor
    · constructor <;> intro h' <;> linarith
    · constructor <;> intro h' <;> linarith
  · rw [if_neg h]
    have hn : 0 ≤ p.2 := not_lt.1 h
    simp only [h, hn, false_and, true_and, or_false]
    exact ⟨h1, h2⟩

/-- C161 refuted: the tracks which leave toward the east are all positive in the northern hemisphere and all negative in the southern one, wherever they
go. -/
theorem poleward_east_wrong (p q : ℝ × ℝ) (he : HeadsEast p q) : (0 ≤ p.2 → 90 < azimuthOf true p q) ∧ (p.2 < 0 → azimuthOf true p q < -90) := by
  unfold HeadsEast at he
  rw [inner_east] at he
  have hpos : 0 < arctan2 (eastPart p q) (northPart p q) := by
    have h0 : 0 ≤ arctan2 (eastPart p q) (northPart p q) := Complex.arg_nonneg_iff.2 he.le
    rcases lt_or_eq_of_le h0 with h | h
    · exact h
    · have := Complex.arg_eq_zero_iff.1 h.symm
      exact absurd this.2 (ne_of_gt he)
  have h90 : 90 < azimuthOf false p q := by
    rw [azimuthOf_false]
    have : 0 < arctan2 (eastPart p q) (northPart p q) * (180 / π) := mul_pos hpos (by have := pi_pos; positivity)
    linarith
  rw [azimuthOf_true]
  refine ⟨fun h => ?_, fun h => ?_⟩
  · rw [if_neg (not_lt.2 h)]
    exact h90
  · rw [if_pos h]
    linarith

/-- On the equator, toward the east: 180. -/
theorem azimuth_equator : azimuthOf false (0, 0) (90, 0) = 180 := by
  have hpi := pi_pos
  have h1 : northPart (0, 0) (90, 0) = 0 := by simp [northPart]
  have h2 : eastPart (0, 0) (90, 0) = 1 := by
    unfold eastPart
    simp only [zero_mul, cos_zero, mul_one, sub_zero]
    rw [show (90 : ℝ) * (π / 180) = π / 2 by ring, sin_pi_div_two]
  rw [azimuthOf_false, h1, h2]
  have : arctan2 1 0 = π / 2 := by
    have : (⟨0, 1⟩ : ℂ).arg = π / 2 := Complex.arg_eq_pi_div_two_iff.2 ⟨rfl, one_pos⟩
    exact this
  rw [this]
  field_simp
  norm_num

/-- C161 refuted: a track of the northern hemisphere toward the equator, by the east, has a positive value. -/
theorem south_east_wrong : HeadsEast (0, 45) (90, -45) ∧ inner ℝ (northVec (0, 45)) (onSphere 90 (-45)) < 0 ∧ 90 < azimuthOf true (0, 45) (90, -45) := by
  have h90 : (90 : ℝ) * (π / 180) = π / 2 := by ring
  have h45 : (45 : ℝ) * (π / 180) = π / 4 := by ring
  have h45' : (-45 : ℝ) * (π / 180) = -(π / 4) := by ring
  have hs : (0 : ℝ) < √2 / 2 := by positivity
  have h2 : 0 < eastPart (0, 45) (90, -45) := by
    unfold eastPart
    simp only [zero_mul, sub_zero]
    rw [h90, h45', sin_pi_div_two, cos_neg, cos_pi_div_four]
    linarith
  have h1 : northPart (0, 45) (90, -45) < 0 := by
    unfold northPart
    simp only [zero_mul, sub_zero]
    rw [h90, h45, h45', cos_pi_div_two, sin_neg, sin_pi_div_four, cos_pi_div_four]
    nlinarith
  have he : HeadsEast (0, 45) (90, -45) := by
    unfold HeadsEast
    rw [inner_east]
    exact h2
  refine ⟨he, ?_, (poleward_east_wrong _ _ he).1 (by norm_num)⟩
  have := inner_north (0, 45) (90, -45)
  simp only at this
  rw [this]
  exact h1

/-- The hypotheses of the parts proved: the equator toward the west, and the north west. -/
example : HeadsWest (90, 0) (0, 0) ∧ (northPart (90, 0) (0, 0) ≠ 0 ∨ eastPart (90, 0) (0, 0) ≠ 0) := by
  have h2 : eastPart (90, 0) (0, 0) = -1 := by
    unfold eastPart
    simp only [zero_mul, cos_zero, mul_one, zero_sub]
    rw [show (90 : ℝ) * (π / 180) = π / 2 by ring, sin_neg, sin_pi_div_two]
  refine ⟨?_, Or.inr (by rw [h2]; norm_num)⟩
  unfold HeadsWest
  rw [inner_east, h2]
  norm_num

/-- **C161** (`get_azimuth`): where the observations of each track follow each other, one value by track, by increasing numbers, from the first and the last
observations of the track. -/
theorem get_azimuth_spec (equatorward : Bool) (pos : α → ℝ × ℝ) (data : List (Nat × α)) (hne : data ≠ []) (hs : (data.map Prod.fst).Pairwise (· ≤ ·)) :
    ∃ l, getAzimuth equatorward pos data = some l ∧ l.length = (Py.unique (data.map Prod.fst)).length ∧
      ∀ (k : Nat) t, (Py.unique (data.map Prod.fst))[k]? = some t → ∃ a b, Ends data t a b ∧ l[k]? = some (azimuthOf equatorward (pos a) (pos b)) := by
  obtain ⟨ti, e⟩ := computeIndex_total (contig_ne hne)
  have hread : ∀ t ∈ Py.unique (data.map Prod.fst), ∃ v, (∃ a b, Ends data t a b ∧ v = azimuthOf equatorward (pos a) (pos b)) ∧
      (Py.get (data.map (fun o => pos o.2)) (ti.index t)).bind (fun p =>
        (Py.get (data.map (fun o => pos o.2)) (ti.index t - 1 + ti.number t)).map (fun q => azimuthOf equatorward p q)) = some v := by
    intro t ht
    rw [Py.mem_unique, List.mem_map] at ht
    obtain ⟨o, ho, rfl⟩ := ht
    obtain ⟨i, j, a, b, hi, hj, ha, hb, hends⟩ := ends_read hs e ho
    refine ⟨_, ⟨a, b, hends, rfl⟩, ?_⟩
    rw [show ti.index o.1 - 1 + ti.number o.1 = ti.index o.1 + ti.number o.1 - 1 by ring, hj, hi, Py.get_natCast, Py.get_natCast, List.getElem?_map,
      List.getElem?_map, ha, hb]
    rfl
  choose! g hg hg' using hread
  refine ⟨(Py.unique (data.map Prod.fst)).map g, ?_, by simp, fun k t hk => ?_⟩
  · unfold getAzimuth
    rw [e, Option.bind_some, numbers_ids e]
    exact mapM_some_map hg'
  · obtain ⟨a, b, h1, h2⟩ := hg t (List.mem_of_getElem? hk)
    exact ⟨a, b, h1, by rw [List.getElem?_map, hk, Option.map_some, h2]⟩

example : ([(1, 0), (1, 1), (3, 2)].map Prod.fst).Pairwise (· ≤ ·) ∧ Ends [(1, 0), (1, 1), (3, 2)] 1 0 1 := by
  refine ⟨by decide, 0, 1, ⟨1, rfl, by intro j hj; omega⟩, ⟨1, rfl, ?_⟩, rfl, rfl⟩
  intro j hj
  match j, hj with
  | 2, _ => simp
  | j + 3, _ => simp

end

end Verif.Tracks
