import Verif.Missing.Model
import Mathlib.Tactic.Linarith
import Mathlib.Tactic.Ring
import Mathlib.Tactic.NormNum

/-!
# The day of an observation (C179)

The date of a grid becomes a number of days since 1950-01-01 (`src/py_eddy_tracker/dataset/grid.py:951`), which is shown again as a
date in several places. Times are exact rationals; dates are numbers of seconds or of days since 1950-01-01.
-/

namespace Verif.Dates

/-- `(date - datetime(1950, 1, 1)).total_seconds() / 86400.0`, dataset/grid.py:951, for a date in seconds since 1950-01-01. -/
def detectionTime (seconds : Rat) : Rat := seconds / 86400

/-- `datetime64("1970-01-01") - datetime64("1950-01-01")` in days, observations/observation.py:1852: twenty years with five leap days. -/
def epoch : Int := 20 * 365 + 5

/-- `time_datetime64`, observations/observation.py:1851-1853: days since 1970-01-01; the conversion of floats is toward zero. -/
def datetime64 (t : Rat) : Int := Missing.trunc (t - epoch)

/-- The day shown by the interfaces and written in the attributes, `timedelta(int(t)) + datetime(1950, 1, 1)`, gui.py:197, appli/gui.py:207,
observations/tracking.py:240-241: days since 1950-01-01. -/
def shownDay (t : Rat) : Int := Missing.trunc t

/-- State of a dataset for `period`: the times and the value kept in `period_`. -/
structure Times where
  time : List Rat
  kept : Option (Option (Rat × Rat))

/-- `time.min(), time.max()`; `none` for an empty dataset (`nan, nan`). -/
def extent : List Rat → Option (Rat × Rat)
  | [] => none
  | t :: ts => some (ts.foldl min t, ts.foldl max t)

/-- `period`, observations/observation.py:2409-2421. -/
def period (d : Times) : Times × Option (Rat × Rat) :=
  let p := d.kept.getD (extent d.time)
  ({ d with kept := some p }, p)

/-! ### Specification -/

/-- The number of days since 1950-01-01 of the day which contains an instant. -/
def IsDay (seconds : Rat) (day : Int) : Prop := (day : Rat) * 86400 ≤ seconds ∧ seconds < (day + 1) * 86400

/-- The first and the last date. -/
def IsExtent (ts : List Rat) (p : Rat × Rat) : Prop := p.1 ∈ ts ∧ p.2 ∈ ts ∧ ∀ t ∈ ts, p.1 ≤ t ∧ t ≤ p.2

/-! ### Proofs -/

theorem trunc_mono {a b : Rat} (h : a ≤ b) : Missing.trunc a ≤ Missing.trunc b := by
  unfold Missing.trunc
  split
  · rw [if_pos (by linarith)]
    exact Int.floor_le_floor h
  · rename_i ha
    have h1 : 0 ≤ ⌊-a⌋ := Int.floor_nonneg.2 (by linarith)
    split
    · rename_i hb
      have h2 : 0 ≤ ⌊b⌋ := Int.floor_nonneg.2 hb
      omega
    · have : ⌊-b⌋ ≤ ⌊-a⌋ := Int.floor_le_floor (by linarith)
      omega

theorem trunc_floor {a : Rat} (h : 0 ≤ a ∨ ∃ n : Int, a = n) : Missing.trunc a = ⌊a⌋ := by
  unfold Missing.trunc
  rcases h with h | ⟨n, rfl⟩
  · rw [if_pos h]
  · split
    · rfl
    · have : -(n : Rat) = ((-n : Int) : Rat) := by push_cast; ring
      rw [this, Int.floor_intCast, Int.floor_intCast]; simp

theorem isDay_floor {s : Rat} {d : Int} (h : d = ⌊s / 86400⌋) : IsDay s d := by
  subst h
  have h1 := Int.floor_le (s / 86400)
  have h2 := Int.lt_floor_add_one (s / 86400)
  rw [le_div_iff₀ (by norm_num)] at h1
  rw [div_lt_iff₀ (by norm_num)] at h2
  exact ⟨h1, h2⟩

/-- C179, `time_datetime64`: the day of an observation is the day of its grid, from 1970 or for grids at midnight. -/
theorem datetime64_partial (s : Rat) (h : (epoch : Rat) * 86400 ≤ s ∨ ∃ n : Int, s = n * 86400) :
    IsDay s (datetime64 (detectionTime s) + epoch) := by
  apply isDay_floor
  unfold datetime64 detectionTime
  have e : s / 86400 = s / 86400 - epoch + (epoch : Int) := by ring
  rw [trunc_floor, eq_comm]
  · conv_lhs => rw [e]
    exact Int.floor_add_intCast _ _
  · rcases h with h | ⟨n, rfl⟩
    · left
      rw [sub_nonneg, le_div_iff₀ (by norm_num)]
      exact h
    · right
      exact ⟨n - epoch, by push_cast; ring⟩

/-- C179, interfaces and attributes: from 1950 or at midnight. -/
theorem shownDay_partial (s : Rat) (h : 0 ≤ s ∨ ∃ n : Int, s = n * 86400) : IsDay s (shownDay (detectionTime s)) := by
  apply isDay_floor
  unfold shownDay detectionTime
  apply trunc_floor
  rcases h with h | ⟨n, rfl⟩
  · left; positivity
  · right; exact ⟨n, by ring⟩

/-- The order of the observations is kept by each conversion, at all dates. -/
theorem days_order {s s' : Rat} (h : s ≤ s') :
    datetime64 (detectionTime s) ≤ datetime64 (detectionTime s') ∧ shownDay (detectionTime s) ≤ shownDay (detectionTime s') := by
  have : detectionTime s ≤ detectionTime s' := by
    unfold detectionTime
    exact div_le_div_of_nonneg_right h (by norm_num)
  exact ⟨trunc_mono (by linarith), trunc_mono this⟩

/-- C179, negation: the grid of 1969-12-31 at noon is shown at the date of the next day, which is also the one of the grid of
1970-01-01 at noon. -/
theorem before_1970_wrong : ¬ IsDay (7304 * 86400 + 43200) (datetime64 (detectionTime (7304 * 86400 + 43200)) + epoch) ∧
    datetime64 (detectionTime (7304 * 86400 + 43200)) = datetime64 (detectionTime (7305 * 86400 + 43200)) := by
  have h : datetime64 (detectionTime (7304 * 86400 + 43200)) = 0 := by decide +kernel
  refine ⟨?_, by decide +kernel⟩
  rw [h]
  unfold IsDay epoch
  norm_num

theorem fold_min (ts : List Rat) : ∀ a : Rat, (ts.foldl min a = a ∨ ts.foldl min a ∈ ts) ∧ ts.foldl min a ≤ a ∧ ∀ t ∈ ts, ts.foldl min a ≤ t := by
  induction ts with
  | nil => intro a; exact ⟨Or.inl rfl, le_refl _, fun t h => (by cases h)⟩
  | cons b ts ih =>
    intro a
    obtain ⟨h1, h2, h3⟩ := ih (min a b)
    rw [List.foldl_cons]
    refine ⟨?_, le_trans h2 (min_le_left a b), fun t ht => ?_⟩
    · rcases h1 with h1 | h1
      · rcases min_choice a b with h | h
        · left; rw [h1, h]
        · right; rw [h1, h]; exact List.mem_cons_self
      · right; exact List.mem_cons_of_mem _ h1
    · rcases List.mem_cons.1 ht with rfl | ht
      · exact le_trans h2 (min_le_right a t)
      · exact h3 t ht

theorem fold_max (ts : List Rat) : ∀ a : Rat, (ts.foldl max a = a ∨ ts.foldl max a ∈ ts) ∧ a ≤ ts.foldl max a ∧ ∀ t ∈ ts, t ≤ ts.foldl max a := by
  induction ts with
  | nil => intro a; exact ⟨Or.inl rfl, le_refl _, fun t h => (by cases h)⟩
  | cons b ts ih =>
    intro a
    obtain ⟨h1, h2, h3⟩ := ih (max a b)
    rw [List.foldl_cons]
    refine ⟨?_, le_trans (le_max_left a b) h2, fun t ht => ?_⟩
    · rcases h1 with h1 | h1
      · rcases max_choice a b with h | h
        · left; rw [h1, h]
        · right; rw [h1, h]; exact List.mem_cons_self
      · right; exact List.mem_cons_of_mem _ h1
    · rcases List.mem_cons.1 ht with rfl | ht
      · exact le_trans (le_max_right a t) h2
      · exact h3 t ht

/-- C179, `period` of a dataset whose times are not modified: the first and the last date, each time it is asked. -/
theorem period_partial (ts : List Rat) (hne : ts ≠ []) :
    ∃ p, IsExtent ts p ∧ (period ⟨ts, none⟩).2 = some p ∧ (period (period ⟨ts, none⟩).1).2 = some p := by
  cases ts with
  | nil => exact absurd rfl hne
  | cons t ts =>
    obtain ⟨h1, h2, h3⟩ := fold_min ts t
    obtain ⟨g1, g2, g3⟩ := fold_max ts t
    refine ⟨_, ⟨?_, ?_, ?_⟩, rfl, rfl⟩
    · rcases h1 with h | h
      · rw [h]; exact List.mem_cons_self
      · exact List.mem_cons_of_mem _ h
    · rcases g1 with h | h
      · rw [h]; exact List.mem_cons_self
      · exact List.mem_cons_of_mem _ h
    · intro x hx
      rcases List.mem_cons.1 hx with rfl | hx
      · exact ⟨h2, g2⟩
      · exact ⟨h3 x hx, g3 x hx⟩

/-- An empty dataset has no period. -/
theorem period_empty : (period ⟨[], none⟩).2 = none := rfl

/-- C179, negation for `period`: the value is kept when the times are modified afterwards. -/
theorem period_kept_wrong : ∃ ts ts' : List Rat, ¬ IsExtent ts' ((period { (period ⟨ts, none⟩).1 with time := ts' }).2.getD (0, 0)) := by
  refine ⟨[1, 2], [5, 6], ?_⟩
  have : (period { (period ⟨[1, 2], none⟩).1 with time := [5, 6] }).2.getD (0, 0) = (1, 2) := by decide +kernel
  rw [this]
  rintro ⟨h, -, -⟩
  norm_num at h

/-- The grid of 2000-01-01 at noon (18262 days after 1950-01-01). -/
example : (epoch : Rat) * 86400 ≤ 18262 * 86400 + 43200 ∧ datetime64 (detectionTime (18262 * 86400 + 43200)) = 10957 ∧
    shownDay (detectionTime (18262 * 86400 + 43200)) = 18262 ∧ (period ⟨[3, 1, 2], none⟩).2 = some (1, 3) := by
  refine ⟨by unfold epoch; norm_num, by decide +kernel, by decide +kernel, by decide +kernel⟩

end Verif.Dates
