import Verif.Trackers.Model
import Verif.Matching.Props
import Verif.Sphere.Props

/-!
# C105: the links of the default tracker
-/

namespace Verif.Trackers

open Real Verif.Sphere

/-- Great-circle distance of two observations, in kilometres. -/
noncomputable def km (p q : RObs) : ℝ := arc 6370.997 (onSphere p.lon p.lat) (onSphere q.lon q.lat)

/-- The documented cost: relative change of amplitude, relative change of radius and distance over 125 km, as a vector. -/
noncomputable def change (p q : RObs) : ℝ :=
  √(((p.amp - q.amp) / p.amp) ^ 2 + ((p.rad - q.rad) / p.rad) ^ 2 + (km p q / 125) ^ 2)

theorem distance_km (p q : RObs) : distance p.lon p.lat q.lon q.lat / 1000 = km p q := by
  rw [distance_spec]
  unfold km arc
  ring

/-- A candidate of the default tracker is a couple of rows at less than 125 km, up to 80 degrees of latitude. -/
theorem default_mask_iff (self_ other : List RObs) (h0 : ∀ p ∈ self_, |p.lat| ≤ 80) (h1 : ∀ q ∈ other, |q.lat| ≤ 80) (i j : Nat) :
    defaultMask self_ other i j = true ↔ ∃ p q, self_[i]? = some p ∧ other[j]? = some q ∧ km p q < 125 := by
  cases hi : self_[i]? with
  | none =>
    simp only [reduceCtorEq, false_and, exists_false, iff_false, Bool.not_eq_true]
    have : (maskFunction (distanceGrid (self_.map fun p => (p.lon, p.lat)) (other.map fun q => (q.lon, q.lat))))[i]? = none := by
      simp [maskFunction, distanceGrid, hi]
    simp [defaultMask, this]
  | some p =>
    cases hj : other[j]? with
    | none =>
      simp only [reduceCtorEq, false_and, and_false, exists_false, iff_false, Bool.not_eq_true]
      unfold defaultMask
      simp [maskFunction, distanceGrid, hi, hj]
    | some q =>
      obtain ⟨row, hr, b, hb, hiff⟩ := mask_function_partial (self_.map fun p => (p.lon, p.lat)) (other.map fun q => (q.lon, q.lat))
        (fun x hx => by obtain ⟨p, hp, rfl⟩ := List.mem_map.1 hx; exact h0 p hp)
        (fun x hx => by obtain ⟨p, hp, rfl⟩ := List.mem_map.1 hx; exact h1 p hp) i j (p.lon, p.lat) (q.lon, q.lat)
        (by simp [hi]) (by simp [hj])
      have e : defaultMask self_ other i j = b := by
        unfold defaultMask
        simp [hr, hb]
      rw [e, hiff]
      have := distance_km p q
      constructor
      · intro h
        exact ⟨p, q, rfl, rfl, by simp only at h; linarith⟩
      · rintro ⟨p', q', e1, e2, h⟩
        injection e1 with e1
        injection e2 with e2
        subst e1 e2
        simp only
        linarith

/-- **C105**. Full statement: the same for all latitudes. With non null amplitudes and radii, up to 80 degrees of latitude, the default
tracker never raises; its links are one to one; each joins two observations at less than 125 km; and a couple at less than 125 km which is
not linked loses to a link of the same observation whose change is not larger. Missing: the neighbourhood of the poles (C97). -/
theorem default_tracking_partial (self_ other : List RObs) (h0 : ∀ p ∈ self_, |p.lat| ≤ 80) (h1 : ∀ q ∈ other, |q.lat| ≤ 80)
    (ha : ∀ p ∈ self_, p.amp ≠ 0 ∧ p.rad ≠ 0) :
    ∃ links, defaultTracking self_ other = .ok links ∧ (links.map (·.1)).Nodup ∧ (links.map (·.2)).Nodup ∧
      (∀ i j, (i, j) ∈ links → ∃ p q, self_[i]? = some p ∧ other[j]? = some q ∧ km p q < 125) ∧
      ∀ i j p q, self_[i]? = some p → other[j]? = some q → km p q < 125 →
        ∃ i' j' p' q', (i', j') ∈ links ∧ self_[i']? = some p' ∧ other[j']? = some q' ∧ (i' = i ∨ j' = j) ∧
          change p' q' ≤ change p q := by
  have hcost : ∀ i j p q, self_[i]? = some p → other[j]? = some q → km p q < 125 →
      defaultCosts self_ other i j = some (change p q) := by
    intro i j p q hi hj hd
    have hp := List.mem_of_getElem? hi
    have hq := List.mem_of_getElem? hj
    have hn : gridCell p.lon p.lat q.lon q.lat ≠ none := by
      intro hn
      have := grid_cell_far_partial _ _ _ _ (h0 p hp) (h1 q hq) hn
      have := distance_km p q
      linarith
    have hs : gridCell p.lon p.lat q.lon q.lat = some (km p q) := by
      have e := grid_cell_spec p.lon p.lat q.lon q.lat _ (foldLon_spec p.lon q.lon)
      split_ifs at e with h
      · rw [e, distance_km]
      · exact absurd e hn
    unfold defaultCosts costFunction
    simp only [hi, hj, Option.bind_some, hs, change]
    rw [if_neg (by rintro (h | h); exacts [(ha p hp).1 h, (ha p hp).2 h])]
  have hdom : ∀ i j, defaultMask self_ other i j = true → i < self_.length ∧ j < other.length := by
    intro i j h
    obtain ⟨p, q, e1, e2, _⟩ := (default_mask_iff self_ other h0 h1 i j).1 h
    exact ⟨(List.getElem?_eq_some_iff.1 e1).1, (List.getElem?_eq_some_iff.1 e2).1⟩
  have hfin : ∀ i j, defaultMask self_ other i j = true → ∃ c, defaultCosts self_ other i j = some c := by
    intro i j h
    obtain ⟨p, q, e1, e2, e3⟩ := (default_mask_iff self_ other h0 h1 i j).1 h
    exact ⟨_, hcost i j p q e1 e2 e3⟩
  obtain ⟨R, eR, r1, r2, r3⟩ := Matching.solve_simultaneous_matching _ _ _ _ hdom hfin
  have hst := Matching.solve_simultaneous_stable _ _ _ _ hdom hfin R eR
  refine ⟨Matching.whereMask self_.length other.length R, ?_, Matching.whereMask_fst_nodup r2, Matching.whereMask_snd_nodup r3, ?_, ?_⟩
  · simp only [defaultTracking, Matching.trackingDefault, eR, Matching.whereMask_snd_nodup r3, if_true]
  · intro i j h
    exact (default_mask_iff self_ other h0 h1 i j).1 (r1 _ _ (Matching.mem_whereMask.1 h).2.2)
  · intro i j p q e1 e2 e3
    have hm := (default_mask_iff self_ other h0 h1 i j).2 ⟨p, q, e1, e2, e3⟩
    cases hR : R i j with
    | true =>
      exact ⟨i, j, p, q, Matching.mem_whereMask.2 ⟨(hdom _ _ hm).1, (hdom _ _ hm).2, hR⟩, e1, e2, Or.inl rfl, le_refl _⟩
    | false =>
      obtain ⟨i', j', c', k1, k2, k3, k4⟩ := hst i j hm hR _ (hcost i j p q e1 e2 e3)
      have hm' := r1 _ _ k1
      obtain ⟨p', q', f1, f2, f3⟩ := (default_mask_iff self_ other h0 h1 i' j').1 hm'
      rw [hcost i' j' p' q' f1 f2 f3] at k3
      injection k3 with k3
      exact ⟨i', j', p', q', Matching.mem_whereMask.2 ⟨(hdom _ _ hm').1, (hdom _ _ hm').2, k1⟩, f1, f2, k2, by rw [k3]; exact k4⟩

/-- The order of the two datasets matters: the change is relative to the first observation. An eddy whose amplitude is divided by two
changes less than one whose amplitude doubles. -/
theorem change_order : ∃ p q : RObs, p.amp ≠ 0 ∧ q.amp ≠ 0 ∧ p.rad ≠ 0 ∧ q.rad ≠ 0 ∧ change p q ≠ change q p := by
  refine ⟨⟨0, 0, 2, 1⟩, ⟨0, 0, 1, 1⟩, by norm_num, by norm_num, by norm_num, by norm_num, ?_⟩
  have hz : ∀ p q : RObs, p.lon = q.lon → p.lat = q.lat → km p q = 0 := by
    intro p q e1 e2
    rw [← distance_km, e1, e2, (distance_eq_zero _ _ _ _).2 rfl, zero_div]
  unfold change
  rw [hz ⟨0, 0, 2, 1⟩ ⟨0, 0, 1, 1⟩ rfl rfl, hz ⟨0, 0, 1, 1⟩ ⟨0, 0, 2, 1⟩ rfl rfl]
  intro h
  have := (Real.sqrt_inj (by positivity) (by positivity)).1 h
  norm_num at this

/-- The same observation never changes. -/
theorem change_self (p : RObs) : change p p = 0 := by
  unfold change
  rw [← distance_km, (distance_eq_zero _ _ _ _).2 rfl]
  simp

/-- The hypotheses hold for two observations half a degree apart, whose longitudes are in two turns, and they are linked. -/
example : ∃ links, defaultTracking [⟨0, 0, 1, 1⟩] [⟨360, 0.5, 1, 1⟩] = .ok links ∧ (0, 0) ∈ links := by
  obtain ⟨links, e, _, _, h1, h2⟩ := default_tracking_partial [⟨0, 0, 1, 1⟩] [⟨360, 0.5, 1, 1⟩]
    (by simp) (by simp [abs_le]; norm_num) (by simp)
  have hd : km ⟨0, 0, 1, 1⟩ ⟨360, 0.5, 1, 1⟩ < 125 := by
    rw [← distance_km]
    have hp := distance_period 0 0 0 0.5 0 1
    have hm := distance_meridian 0 0 0.5 (by norm_num [abs_le])
    have := pi_le_four
    norm_num at hp hm ⊢
    rw [hp, hm]
    linarith
  refine ⟨links, e, ?_⟩
  obtain ⟨i', j', p', q', m, g1, g2, _⟩ := h2 0 0 _ _ rfl rfl hd
  have a := (List.getElem?_eq_some_iff.1 g1).1
  have b := (List.getElem?_eq_some_iff.1 g2).1
  simp only [List.length_singleton, Nat.lt_one_iff] at a b
  subst a b
  exact m

end Verif.Trackers
