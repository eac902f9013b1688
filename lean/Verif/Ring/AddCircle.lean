import Verif.Ring.Props

/-!
# The command EddyAddCircle (C183, `src/py_eddy_tracker/appli/eddies.py:25-42`)

The fields of a dataset are reduced to the presence of the two contours; the file is read and written exactly (packing of the
contours: `Store.Model`).
-/

namespace Verif.Ring

open Real Verif.Sphere

noncomputable section

/-- A dataset: size of the arrays (`track_array_variables`, 0 without array), presence of the contours, rows. -/
structure Arrays where
  size : Nat
  hasS : Bool
  hasE : Bool
  rows : List Obs

/-- Contours full of zeros. -/
def blank (o : Obs) : Obs := { o with contourS := List.replicate 50 (0, 0), contourE := List.replicate 50 (0, 0) }

/-- `add_fields(array_fields=...)` (observation.py:442-461) after `track_array_variables = 50` (appli/eddies.py:31-40): the new
fields are full of zeros. -/
def addContours (d : Arrays) : Arrays :=
  ⟨50, true, true, d.rows.map blank⟩

/-- `eddies_add_circle` (appli/eddies.py:25-42), from the dataset loaded to the dataset written. -/
def addCircle (d : Arrays) : Option Arrays :=
  let d' := if d.size = 0 then addContours d else d
  (circleContour d'.size d'.hasS d'.hasE false 1 d'.rows).map (fun rows => { d' with rows := rows })

/-! ### Specification -/

/-- The observations have centres out of the poles and radii of possible circles. -/
def Possible (rows : List Obs) : Prop := ∀ o ∈ rows, |o.lat| < 90 ∧ (0 ≤ o.radiusS ∧ o.radiusS < 6370997 * π) ∧
  (0 ≤ o.radiusE ∧ o.radiusE < 6370997 * π)

/-- The observation `p` has the centre and the radii of `o`, and the two circles. -/
structure Circled (n : Nat) (o p : Obs) : Prop where
  kept : p.lon = o.lon ∧ p.lat = o.lat ∧ p.radiusS = o.radiusS ∧ p.radiusE = o.radiusE ∧ p.virtual = o.virtual
  speed : Circle n o.radiusS o.lon o.lat p.contourS
  effective : Circle n o.radiusE o.lon o.lat p.contourE

/-- The two contours are in the result, on the circles of the radii. -/
def AllCircled (d r : Arrays) : Prop := r.hasS = true ∧ r.hasE = true ∧ List.Forall₂ (Circled r.size) d.rows r.rows

/-- Full statement: contours are added or replaced whatever the file. -/
def AddsCircles : Prop := ∀ d, Possible d.rows → ∃ r, addCircle d = some r ∧ AllCircled d r

/-! ### Proofs -/

theorem circleContour_total (n : Nat) (s e : Bool) (rows : List Obs) : ∃ out, circleContour n s e false 1 rows = some out := by
  cases h : circleContour n s e false 1 rows with
  | some out => exact ⟨out, rfl⟩
  | none =>
    have := circle_contour_none.1 h
    simp at this

theorem circled_of {n : Nat} : ∀ {rows out : List Obs}, List.Forall₂ (Replaced n true true false 1) rows out →
    List.Forall₂ (Circled n) rows out
  | _, _, .nil => .nil
  | _, _, .cons h t => .cons ⟨h.kept, by simpa using h.speed (by simp) rfl, by simpa using h.effective (by simp) rfl⟩ (circled_of t)

theorem forall2_of_map {n : Nat} (f : Obs → Obs) (hf : ∀ o, (f o).lon = o.lon ∧ (f o).lat = o.lat ∧ (f o).radiusS = o.radiusS ∧
    (f o).radiusE = o.radiusE ∧ (f o).virtual = o.virtual) : ∀ {rows out : List Obs}, List.Forall₂ (Circled n) (rows.map f) out →
    List.Forall₂ (Circled n) rows out
  | [], _, h => by cases h; exact .nil
  | o :: rows, _, h => by
    rw [List.map_cons] at h
    cases h with
    | cons h t =>
      obtain ⟨e1, e2, e3, e4, e5⟩ := hf o
      obtain ⟨k, s, e⟩ := h
      rw [e1, e2, e3] at s
      rw [e1, e2, e4] at e
      rw [e1, e2, e3, e4, e5] at k
      exact .cons ⟨k, s, e⟩ (forall2_of_map f hf t)

theorem circleContour_both {n : Nat} {rows out : List Obs} (hp : Possible rows) (h : circleContour n true true false 1 rows = some out) :
    List.Forall₂ (Circled n) rows out :=
  circled_of (circle_contour_spec h (fun o ho => (hp o ho).1) (fun o ho => by simpa using (hp o ho).2.1)
    (fun o ho => by simpa using (hp o ho).2.2))

/-- **C183**: files without arrays get the two contours with 50 vertices, files with the two contours get circles instead, of as
many vertices as before. Missing: files with arrays which have not the two contours. -/
theorem add_circle_partial (d : Arrays) (hp : Possible d.rows) (h : d.size = 0 ∨ (d.hasS = true ∧ d.hasE = true)) :
    ∃ r, addCircle d = some r ∧ AllCircled d r ∧ r.size = (if d.size = 0 then 50 else d.size) := by
  by_cases h0 : d.size = 0
  · obtain ⟨out, ho⟩ := circleContour_total 50 true true (addContours d).rows
    refine ⟨⟨50, true, true, out⟩, ?_, ⟨rfl, rfl, ?_⟩, by rw [if_pos h0]⟩
    · unfold addCircle
      rw [if_pos h0]
      show (circleContour 50 true true false 1 (addContours d).rows).map _ = _
      rw [ho]
      rfl
    · have hp' : Possible (addContours d).rows := by
        intro o ho
        obtain ⟨o', ho', rfl⟩ := List.mem_map.1 ho
        exact hp o' ho'
      exact forall2_of_map blank (fun o => ⟨rfl, rfl, rfl, rfl, rfl⟩) (circleContour_both hp' ho)
  · obtain ⟨hs, he⟩ := h.resolve_left h0
    obtain ⟨out, ho⟩ := circleContour_total d.size true true d.rows
    refine ⟨{ d with rows := out }, ?_, ⟨hs, he, circleContour_both hp ho⟩, by rw [if_neg h0]⟩
    unfold addCircle
    rw [if_neg h0]
    show (circleContour d.size d.hasS d.hasE false 1 d.rows).map _ = _
    rw [hs, he, ho]
    rfl

/-- In a file with arrays no contour is added. -/
theorem add_circle_fields {d r : Arrays} (h0 : d.size ≠ 0) (h : addCircle d = some r) :
    r.hasS = d.hasS ∧ r.hasE = d.hasE ∧ r.size = d.size := by
  unfold addCircle at h
  rw [if_neg h0] at h
  obtain ⟨out, _, rfl⟩ := Option.map_eq_some_iff.1 h
  exact ⟨rfl, rfl, rfl⟩

/-- A file with the profile of speeds, or with one contour: the other ones are not added. -/
theorem adds_circles_wrong : ¬ AddsCircles := by
  intro h
  obtain ⟨r, h1, h2⟩ := h ⟨20, true, false, []⟩ (fun o ho => by simp at ho)
  have := (add_circle_fields (d := ⟨20, true, false, []⟩) (by simp) h1).2.1
  rw [h2.2.1] at this
  simp at this

/-- An observation in the Gulf Stream, without array in its file. -/
example : ∃ r, addCircle ⟨0, false, false, [⟨300, 40, 50000, 80000, none, [], []⟩]⟩ = some r ∧
    AllCircled ⟨0, false, false, [⟨300, 40, 50000, 80000, none, [], []⟩]⟩ r ∧ r.size = 50 := by
  obtain ⟨r, h1, h2, h3⟩ := add_circle_partial ⟨0, false, false, [⟨300, 40, 50000, 80000, none, [], []⟩]⟩ (by
    intro o ho
    rw [List.mem_singleton] at ho
    subst ho
    have := two_le_pi
    show |(40 : ℝ)| < 90 ∧ ((0 : ℝ) ≤ 50000 ∧ (50000 : ℝ) < 6370997 * π) ∧ ((0 : ℝ) ≤ 80000 ∧ (80000 : ℝ) < 6370997 * π)
    refine ⟨by norm_num [abs_lt], ⟨by norm_num, by nlinarith⟩, ⟨by norm_num, by nlinarith⟩⟩) (Or.inl rfl)
  exact ⟨r, h1, h2, h3⟩

end

end Verif.Ring
