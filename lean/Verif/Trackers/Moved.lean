import Verif.Trackers.Run

/-!
# C209: the default tracking in other units, from another meridian and in the mirror

The default class (src/py_eddy_tracker/observations/observation.py:1288-1318, 1524-1546, 1128-1178) in the loop of `Correspondances.track`
(src/py_eddy_tracker/tracking.py:365-403), see `Verif.Trackers.Run`.
-/

namespace Verif.Trackers

open Verif.Tracking Sphere

/-! ### Specification -/

/-- Another description of the same ocean: longitudes from another meridian (`shift`), possibly to the west (`west`), latitudes possibly to the south
(`south`), amplitudes and radii in other units. -/
structure View where
  shift : ℝ
  west : Bool
  south : Bool
  amp : ℝ
  rad : ℝ

/-- The sign of an axis. -/
def axis (b : Bool) : ℝ := if b then -1 else 1

/-- The observation `q` is the observation `p` in another description, in any turn of longitude. -/
def Seen (v : View) (p q : RObs) : Prop :=
  ∃ k : Int, q = ⟨axis v.west * p.lon + v.shift + 360 * k, axis v.south * p.lat, v.amp * p.amp, v.rad * p.rad⟩

/-- The same displacement in the other description. -/
def SeenDrift (v : View) (d e : ℝ × ℝ) : Prop := ∃ k : Int, e = (axis v.west * d.1 + 360 * k, axis v.south * d.2)

/-! ### Distances and costs -/

theorem axis_abs (b : Bool) (x y : ℝ) : |axis b * x - axis b * y| = |x - y| := by
  unfold axis
  cases b
  · simp
  · simp only [if_true]
    rw [show -1 * x - -1 * y = -(x - y) by ring, abs_neg]

theorem axis_cos (b : Bool) (x : ℝ) : Real.cos (axis b * x * D2R) = Real.cos (x * D2R) := by
  unfold axis
  cases b
  · simp
  · simp only [if_true]
    rw [show -1 * x * D2R = -(x * D2R) by ring, Real.cos_neg]

theorem cell_seen (v : View) (lon0 lat0 lon1 lat1 : ℝ) (j k : Int) :
    gridCell (axis v.west * lon0 + v.shift + 360 * j) (axis v.south * lat0) (axis v.west * lon1 + v.shift + 360 * k) (axis v.south * lat1) =
      gridCell lon0 lat0 lon1 lat1 := by
  rw [grid_cell_turn]
  have hf : foldLon (axis v.west * lon0 + v.shift) (axis v.west * lon1 + v.shift) = foldLon lon0 lon1 := by
    unfold foldLon
    rw [show axis v.west * lon1 + v.shift - (axis v.west * lon0 + v.shift) = axis v.west * lon1 - axis v.west * lon0 by ring, axis_abs]
  unfold gridCell
  rw [hf]
  simp only [axis_abs, axis_cos]

theorem ratio_scale {a : ℝ} (ha : a ≠ 0) (x y : ℝ) : (a * x - a * y) / (a * x) = (x - y) / x := by
  rw [← mul_sub, mul_div_mul_left _ _ ha]

theorem cost_seen {v : View} (ha : v.amp ≠ 0) (hr : v.rad ≠ 0) {p p' q q' : RObs} (hp : Seen v p p') (hq : Seen v q q') (d : ℝ) :
    costFunction p' q' d = costFunction p q d := by
  obtain ⟨j, rfl⟩ := hp
  obtain ⟨k, rfl⟩ := hq
  unfold costFunction
  simp only [ratio_scale ha, ratio_scale hr, mul_eq_zero, ha, hr, false_or]

theorem costs_seen {v : View} (ha : v.amp ≠ 0) (hr : v.rad ≠ 0) {self_ self' other other' : List RObs} (h0 : List.Forall₂ (Seen v) self_ self')
    (h1 : List.Forall₂ (Seen v) other other') : defaultCosts self' other' = defaultCosts self_ other := by
  funext i j
  unfold defaultCosts
  rcases forall_get h0 i with ⟨e, e'⟩ | ⟨p, p', e, e', hp⟩
  · rw [e, e']; rfl
  · rcases forall_get h1 j with ⟨x, x'⟩ | ⟨q, q', x, x', hq⟩
    · rw [e, e', x, x']; rfl
    · rw [e, e', x, x']
      simp only [Option.bind_some]
      rw [show costFunction p' q' = costFunction p q from funext (cost_seen ha hr hp hq)]
      obtain ⟨a, rfl⟩ := hp
      obtain ⟨b, rfl⟩ := hq
      rw [cell_seen]

theorem mask_seen (v : View) {self_ self' other other' : List RObs} (h0 : List.Forall₂ (Seen v) self_ self')
    (h1 : List.Forall₂ (Seen v) other other') : defaultMask self' other' = defaultMask self_ other := by
  have hg : distanceGrid (self'.map (fun p => (p.lon, p.lat))) (other'.map (fun q => (q.lon, q.lat))) =
      distanceGrid (self_.map (fun p => (p.lon, p.lat))) (other.map (fun q => (q.lon, q.lat))) := by
    unfold distanceGrid
    simp only [List.map_map]
    refine (forall_map (fun p p' hp => ?_) h0).symm
    refine forall_map (fun q q' hq => ?_) h1
    obtain ⟨j, rfl⟩ := hp
    obtain ⟨k, rfl⟩ := hq
    exact (cell_seen v _ _ _ _ j k).symm
  unfold defaultMask
  rw [hg]

/-- **C209** (two dates): the links are the same. -/
theorem links_seen {v : View} (ha : v.amp ≠ 0) (hr : v.rad ≠ 0) {self_ self' other other' : List RObs} (h0 : List.Forall₂ (Seen v) self_ self')
    (h1 : List.Forall₂ (Seen v) other other') : defaultTracking self' other' = defaultTracking self_ other := by
  unfold defaultTracking
  rw [mask_seen v h0 h1, costs_seen ha hr h0 h1, h0.length_eq, h1.length_eq]

/-! ### The loop -/

theorem seen_alike {v : View} (ha : v.amp ≠ 0) (hr : v.rad ≠ 0) (round : ℝ → Rat) (n : Nat) :
    Alike (Seen v) (SeenDrift v) (defaultCfg round n) (defaultCfg round n) where
  tracking p p' c c' hp hc := by
    simp only [defaultCfg]
    rw [links_seen ha hr hp hc, costs_seen ha hr hp hc]
  extend := by
    rintro a _ b _ ⟨j, rfl⟩ ⟨k, rfl⟩
    refine ⟨⟨2 * k - j, ?_⟩, k - j, ?_⟩
    · simp only [defaultCfg, RObs.mk.injEq, and_true]
      push_cast
      constructor <;> ring
    · simp only [defaultCfg, Prod.mk.injEq]
      push_cast
      constructor <;> ring
  prolong := by
    rintro p _ d _ ⟨j, rfl⟩ ⟨k, rfl⟩
    refine ⟨j + k, ?_⟩
    simp only [defaultCfg, RObs.mk.injEq, and_true]
    push_cast
    constructor <;> ring
  nb := rfl

/-- **C209** the tracks are the same rows of the same files, and the lost eddies are searched at the same places of the ocean. -/
theorem default_run_seen {v : View} (ha : v.amp ≠ 0) (hr : v.rad ≠ 0) (round : ℝ → Rat) (n : Nat) {files files' : List (List RObs)}
    (hf : List.Forall₂ (List.Forall₂ (Seen v)) files files') {s : St RObs (ℝ × ℝ)} (hs : track (defaultCfg round n) files = some s) :
    ∃ t, track (defaultCfg round n) files' = some t ∧ t.corrs = s.corrs ∧ t.currentId = s.currentId ∧
      merged (defaultCfg round n) t = merged (defaultCfg round n) s ∧
      unused (defaultCfg round n).virtual (files'.map List.length) t.corrs.reverse =
        unused (defaultCfg round n).virtual (files.map List.length) s.corrs.reverse ∧
      Option.Rel (List.Forall₂ (RelV (Seen v) (SeenDrift v))) s.virtualObs t.virtualObs := by
  have h := track_rel (seen_alike ha hr round n) hf
  obtain ⟨t, ht, _, _, hm, hu⟩ := tracks_rel (seen_alike ha hr round n) hf hs
  rw [hs, ht] at h
  cases h with
  | some k => exact ⟨t, ht, k.corrs, k.currentId, hm, hu, k.virtualObs⟩

/-! ### Two descriptions one after the other -/

/-- The description `w` of the description `v`. -/
noncomputable def View.then (v w : View) : View := ⟨axis w.west * v.shift + w.shift, xor v.west w.west, xor v.south w.south, w.amp * v.amp, w.rad * v.rad⟩

theorem axis_xor (a b : Bool) : axis (xor a b) = axis b * axis a := by
  unfold axis
  cases a <;> cases b <;> norm_num

/-- Descriptions compose. -/
theorem seen_then {v w : View} {p q r : RObs} (h : Seen v p q) (k : Seen w q r) : Seen (v.then w) p r := by
  obtain ⟨i, rfl⟩ := h
  obtain ⟨j, rfl⟩ := k
  cases hw : w.west
  · refine ⟨i + j, ?_⟩
    simp only [View.then, axis_xor, hw, RObs.mk.injEq]
    simp only [axis, Bool.false_eq_true, if_false]
    push_cast
    refine ⟨?_, ?_, ?_, ?_⟩ <;> ring
  · refine ⟨-i + j, ?_⟩
    simp only [View.then, axis_xor, hw, RObs.mk.injEq]
    simp only [axis, if_true]
    push_cast
    refine ⟨?_, ?_, ?_, ?_⟩ <;> ring

/-- Amplitudes in centimetres, radii in kilometres, longitudes from Hawaii, the south above. -/
example : Seen ⟨-200, false, true, 100, 1 / 1000⟩ ⟨359, 10, 1 / 5, 50000⟩ ⟨159, -10, 20, 50⟩ := ⟨0, by simp [axis]; norm_num⟩

end Verif.Trackers
