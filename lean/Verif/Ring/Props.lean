import Verif.Ring.Model
import Verif.Sphere.Props

/-!
# C126: circles around the centres
-/

namespace Verif.Ring

open Real Verif.Sphere

noncomputable section

/-- A contour of `n` vertices at equal steps of angle, all at the distance `r` of the centre (in metres along the sphere), which ends where it
starts. -/
structure Circle (n : Nat) (r lon lat : ℝ) (c : List (ℝ × ℝ)) : Prop where
  size : c.length = n
  closed : c.head? = c.getLast?
  far : ∀ v ∈ c, distance lon lat v.1 v.2 = r
  place : ∀ (k : Nat) (v : ℝ × ℝ), c[k]? = some v →
    coordinatesToLocal v.1 v.2 lon lat = (r * cos (2 * π * k / (n - 1 : ℝ)), r * sin (2 * π * k / (n - 1 : ℝ)))

theorem angle_eq (n k : Nat) : angle n k = 2 * π * k / (n - 1 : ℝ) := by
  unfold angle
  ring

theorem ring_circle {n : Nat} {r lon lat : ℝ} (hl : |lat| < 90) (h0 : 0 ≤ r) (h1 : r < 6370997 * π) : Circle n r lon lat (ring n r lon lat) := by
  have hr : ∀ a : ℝ, √((cos a * r) ^ 2 + (sin a * r) ^ 2) = r := by
    intro a
    have : (cos a * r) ^ 2 + (sin a * r) ^ 2 = r ^ 2 := by
      have := sin_sq_add_cos_sq a
      linear_combination r ^ 2 * this
    rw [this, sqrt_sq h0]
  have hp : ∀ a : ℝ, coordinatesToLocal (localToCoordinates (cos a * r) (sin a * r) lon lat).1
      (localToCoordinates (cos a * r) (sin a * r) lon lat).2 lon lat = (cos a * r, sin a * r) := by
    intro a
    exact coordinates_round_trip _ _ _ _ hl (by rw [hr]; exact h1)
  refine ⟨by simp [ring], ?_, ?_, ?_⟩
  · rw [List.head?_eq_getElem?, List.getLast?_eq_getElem?]
    unfold ring
    rw [List.getElem?_map, List.getElem?_map, List.length_map, List.length_range]
    rcases n with _ | _ | n
    · rfl
    · rfl
    · rw [List.getElem?_range (by omega), List.getElem?_range (by omega)]
      simp only [Option.map_some, Option.some.injEq]
      have e0 : angle (n + 2) 0 = 0 := by rw [angle_eq]; simp
      have e1 : angle (n + 2) (n + 2 - 1) = 2 * π := by
        rw [angle_eq]
        have : ((n + 2 : Nat) : ℝ) - 1 ≠ 0 := by
          push_cast
          have : (0 : ℝ) ≤ n := Nat.cast_nonneg n
          linarith
        have e : ((n + 2 - 1 : Nat) : ℝ) = ((n + 2 : Nat) : ℝ) - 1 := by
          rw [Nat.cast_sub (by omega)]
          simp
        rw [e]
        field_simp
      rw [show n + 1 + 1 = n + 2 from rfl, e0, e1]
      simp
  · intro v hv
    obtain ⟨k, _, rfl⟩ := List.mem_map.1 hv
    rw [← coordinates_to_local_distance, hp, hr]
  · intro k v hv
    unfold ring at hv
    rw [List.getElem?_map] at hv
    obtain ⟨j, hj, rfl⟩ := Option.map_eq_some_iff.1 hv
    obtain ⟨_, hj⟩ := List.getElem?_eq_some_iff.1 hj
    rw [List.getElem_range] at hj
    rw [hp, ← hj, ← angle_eq, mul_comm r, mul_comm r]

/-- What happens to one observation. -/
structure Replaced (n : Nat) (hasS hasE onlyVirtual : Bool) (factor : ℝ) (o p : Obs) : Prop where
  kept : p.lon = o.lon ∧ p.lat = o.lat ∧ p.radiusS = o.radiusS ∧ p.radiusE = o.radiusE ∧ p.virtual = o.virtual
  real : onlyVirtual = true → o.virtual = some false → p = o
  speed : (onlyVirtual = true → o.virtual = some true) → hasS = true → Circle n (o.radiusS * factor) o.lon o.lat p.contourS
  effective : (onlyVirtual = true → o.virtual = some true) → hasE = true → Circle n (o.radiusE * factor) o.lon o.lat p.contourE
  absentS : hasS = false → p.contourS = o.contourS
  absentE : hasE = false → p.contourE = o.contourE

/-- **C126**: one observation in, one out, with its contours on the circles around its centre; only the virtual ones with `only_virtual`. -/
theorem circle_contour_spec {n : Nat} {hasS hasE onlyVirtual : Bool} {factor : ℝ} {obs out : List Obs}
    (h : circleContour n hasS hasE onlyVirtual factor obs = some out)
    (hlat : ∀ o ∈ obs, |o.lat| < 90) (hs : ∀ o ∈ obs, 0 ≤ o.radiusS * factor ∧ o.radiusS * factor < 6370997 * π)
    (he : ∀ o ∈ obs, 0 ≤ o.radiusE * factor ∧ o.radiusE * factor < 6370997 * π) :
    List.Forall₂ (Replaced n hasS hasE onlyVirtual factor) obs out := by
  unfold circleContour at h
  induction obs generalizing out with
  | nil =>
    simp at h
    subst h
    exact List.Forall₂.nil
  | cons o obs ih =>
    rw [List.mapM_cons] at h
    obtain ⟨p, hp, h⟩ := Option.bind_eq_some_iff.1 h
    obtain ⟨ps, hps, h⟩ := Option.bind_eq_some_iff.1 h
    simp only [Option.pure_def, Option.some.injEq] at h
    subst h
    refine List.Forall₂.cons ?_ (ih hps (fun o ho => hlat o (by simp [ho])) (fun o ho => hs o (by simp [ho])) (fun o ho => he o (by simp [ho])))
    have c1 := ring_circle (n := n) (lon := o.lon) (hlat o (by simp)) (hs o (by simp)).1 (hs o (by simp)).2
    have c2 := ring_circle (n := n) (lon := o.lon) (hlat o (by simp)) (he o (by simp)).1 (he o (by simp)).2
    unfold circleOne at hp
    simp only at hp
    cases onlyVirtual with
    | false =>
      simp only [Bool.false_eq_true, if_false, Option.some.injEq] at hp
      subst hp
      exact ⟨⟨rfl, rfl, rfl, rfl, rfl⟩, by simp, fun _ h => by simp only [h, if_true]; exact c1, fun _ h => by simp only [h, if_true]; exact c2,
        fun h => by simp [h], fun h => by simp [h]⟩
    | true =>
      simp only [if_true] at hp
      split at hp
      · simp at hp
      · rename_i v hv
        cases v with
        | true =>
          simp only [if_true, Option.some.injEq] at hp
          subst hp
          exact ⟨⟨rfl, rfl, rfl, rfl, rfl⟩, by simp [hv], fun _ h => by simp only [h, if_true]; exact c1, fun _ h => by simp only [h, if_true]; exact c2,
            fun h => by simp [h], fun h => by simp [h]⟩
        | false =>
          simp only [Bool.false_eq_true, if_false, Option.some.injEq] at hp
          subst hp
          exact ⟨⟨rfl, rfl, rfl, rfl, rfl⟩, fun _ _ => rfl, fun h => by simp [hv] at h, fun h => by simp [hv] at h, fun _ => rfl, fun _ => rfl⟩

/-- It is refused exactly when `only_virtual` is asked on a dataset without this column. -/
theorem circle_contour_none {n : Nat} {hasS hasE onlyVirtual : Bool} {factor : ℝ} {obs : List Obs} :
    circleContour n hasS hasE onlyVirtual factor obs = none ↔ onlyVirtual = true ∧ ∃ o ∈ obs, o.virtual = none := by
  unfold circleContour
  induction obs with
  | nil => simp
  | cons o obs ih =>
    have h1 : circleOne n hasS hasE onlyVirtual factor o = none ↔ onlyVirtual = true ∧ o.virtual = none := by
      unfold circleOne
      cases onlyVirtual <;> simp
      split <;> simp_all
    rw [List.mapM_cons]
    rcases hc : circleOne n hasS hasE onlyVirtual factor o with _ | p
    · have := h1.1 hc
      simp [this.1, this.2]
    · have h2 : ¬(onlyVirtual = true ∧ o.virtual = none) := fun hx => by rw [h1.2 hx] at hc; simp at hc
      rcases hm : List.mapM (circleOne n hasS hasE onlyVirtual factor) obs with _ | ps
      · have := ih.1 hm
        obtain ⟨a, o', ho', b⟩ := this
        simp only [Option.bind_eq_bind, Option.bind_some, Option.bind_none, true_iff]
        exact ⟨a, o', by simp [ho'], b⟩
      · have h3 : ¬(onlyVirtual = true ∧ ∃ o ∈ obs, o.virtual = none) := fun hx => by rw [ih.2 hx] at hm; simp at hm
        simp only [Option.bind_eq_bind, Option.bind_some, Option.pure_def, reduceCtorEq, List.mem_cons, exists_eq_or_imp, false_iff]
        rintro ⟨a, b | b⟩
        · exact h2 ⟨a, b⟩
        · exact h3 ⟨a, b⟩

/-- A circle of 50 km at 30° of latitude. -/
example : ∃ out, circleContour 50 true true false 1 [⟨10, 30, 50000, 60000, none, [], []⟩] = some out ∧
    List.Forall₂ (Replaced 50 true true false 1) [⟨10, 30, 50000, 60000, none, [], []⟩] out := by
  refine ⟨_, rfl, circle_contour_spec rfl ?_ ?_ ?_⟩
  · intro o ho
    simp at ho
    subst ho
    norm_num [abs_lt]
  · intro o ho
    simp at ho
    subst ho
    norm_num
    nlinarith [two_le_pi]
  · intro o ho
    simp at ho
    subst ho
    norm_num
    nlinarith [two_le_pi]

end

end Verif.Ring
