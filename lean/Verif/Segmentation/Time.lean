import Verif.Segmentation.Props
import Verif.Missing.Model
import Verif.Smooth.Props

/-!
# Dates of the observations in `split_network` (C177, `src/py_eddy_tracker/observations/tracking.py:607-656`)

The model of C20 works on time steps; here they are computed from the dates. Dates are exact rationals (`f8` in the code, where
the quotient of a date by the step may fall just below an integer).
-/

namespace Verif.Segmentation

/-- `unique(self.time)`, then the differences, tracking.py:611-612. -/
def gaps (times : List Rat) : List Rat :=
  let t := times.dedup.insertionSort (· ≤ ·)
  List.zipWith (fun a b => b - a) t t.tail

/-- `int_(self.time / timestep)`, tracking.py:629: toward zero. -/
def stepOf (dt t : Rat) : Int := Missing.trunc (t / dt)

/-- `split_network`, tracking.py:607-656, for dates in days: the rows with their time step, and the field `time` of the result
(line 655). `none` when there is only one date: the step is then the median of nothing (`nan`). -/
def splitDates (groups : List Nat) (times : List Rat) (ov : Nat → Nat → Rat) (window : Int) : Option (List (Row × Rat)) := do
  let dt ← Smooth.median (gaps times)
  let rows ← splitNetwork groups ov (times.map (stepOf dt)) window
  some (rows.map (fun r => (r, r.time * dt)))

/-! ### Specification -/

/-- Most of the successive dates are separated by `dt`: `s` lists the dates in increasing order, each one once, and more than
half of the differences of neighbours are `dt`. -/
def MostGaps (dt : Rat) (times : List Rat) : Prop :=
  ∃ s : List Rat, s.Pairwise (· < ·) ∧ (∀ t, t ∈ s ↔ t ∈ times) ∧
    s.length - 1 < 2 * (List.zipWith (fun a b => b - a) s s.tail).count dt

/-- The dates are those of a sampling of period `dt` from `b`. -/
def Sampled (dt b : Rat) (times : List Rat) : Prop := ∀ t ∈ times, ∃ n : Int, t = b + n * dt

/-- Forward link in days: the first date after the one of `i`, at most `w` days later, where an observation overlaps `i`, and
the first observation of greatest overlap on this date. -/
def NextInDays (times : List Rat) (ov : Nat → Nat → Rat) (w : Rat) (i : Nat) (next : Int) (cost : Rat) : Prop :=
  (next = -1 ∧ ∀ (a b : Rat) (k : Nat), times[i]? = some a → times[k]? = some b → a < b → b ≤ a + w → ov i k = 0) ∨
  ∃ (j : Nat) (a b : Rat), next = j ∧ times[i]? = some a ∧ times[j]? = some b ∧ a < b ∧ b ≤ a + w ∧ cost = ov i j ∧ 0 < ov i j ∧
    (∀ (k : Nat) (b' : Rat), times[k]? = some b' → a < b' → b' < b → ov i k = 0) ∧
    (∀ k : Nat, times[k]? = some b → ov i k ≤ ov i j ∧ (k < j → ov i k < ov i j))

/-! ### Proofs -/

/-- In a sorted list, a value which fills more than half of it is at both middles. -/
theorem middle_eq {s : List Rat} (hs : s.Pairwise (· ≤ ·)) {d : Rat} (hc : s.length < 2 * s.count d) {m : Nat}
    (h1 : s.length ≤ 2 * m + 2) (h2 : 2 * m ≤ s.length) {x : Rat} (hx : s[m]? = some x) : x = d := by
  have hm : m < s.length := (List.getElem?_eq_some_iff.1 hx).1
  have hx' : s[m] = x := (List.getElem?_eq_some_iff.1 hx).2
  have hsplit : s = s.take m ++ x :: s.drop (m + 1) := by
    conv_lhs => rw [← List.take_append_drop m s]
    rw [List.drop_eq_getElem_cons hm, hx']
  by_contra hne
  rw [hsplit, List.count_append, List.count_cons_of_ne hne] at hc
  have hl1 : (s.take m).length = m := by rw [List.length_take]; omega
  have hl2 : (s.drop (m + 1)).length = s.length - (m + 1) := List.length_drop
  have c1 := (s.take m).count_le_length (a := d)
  have c2 := (s.drop (m + 1)).count_le_length (a := d)
  rw [List.length_append, List.length_cons, hl1, hl2] at hc
  rw [hsplit, List.pairwise_append, List.pairwise_cons] at hs
  rcases lt_or_gt_of_ne hne with h | h
  · -- nothing before
    have : (s.take m).count d = 0 := by
      rw [List.count_eq_zero]
      intro hd
      have := hs.2.2 d hd x List.mem_cons_self
      linarith
    omega
  · have : (s.drop (m + 1)).count d = 0 := by
      rw [List.count_eq_zero]
      intro hd
      have := hs.2.1.1 d hd
      linarith
    omega

/-- The gaps are the differences of neighbours in the increasing list of the dates. -/
theorem gaps_eq {s times : List Rat} (h1 : s.Pairwise (· < ·)) (h2 : ∀ t, t ∈ s ↔ t ∈ times) :
    gaps times = List.zipWith (fun a b => b - a) s s.tail := by
  have hd : s.Nodup := h1.imp (fun h => ne_of_lt h)
  have hp : s.Perm (times.dedup.insertionSort (· ≤ ·)) := by
    refine ((List.perm_ext_iff_of_nodup hd (List.nodup_dedup times)).2 (fun t => ?_)).trans
      (List.perm_insertionSort (· ≤ ·) times.dedup).symm
    rw [h2, List.mem_dedup]
  have he : s = times.dedup.insertionSort (· ≤ ·) :=
    hp.eq_of_pairwise (fun a b _ _ h h' => le_antisymm h h') (h1.imp le_of_lt) (List.pairwise_insertionSort (· ≤ ·) _)
  unfold gaps
  rw [← he]

/-- The time step is the most frequent gap. -/
theorem median_most {dt : Rat} {times : List Rat} (h : MostGaps dt times) : Smooth.median (gaps times) = some dt := by
  obtain ⟨s, h1, h2, h⟩ := h
  have e := gaps_eq h1 h2
  rw [← e] at h
  have hlen : (gaps times).length = s.length - 1 := by rw [e, List.length_zipWith, List.length_tail]; omega
  rw [← hlen] at h
  generalize gaps times = l at h
  have hne : l ≠ [] := by
    rintro rfl
    simp at h
  have hp := List.perm_insertionSort (· ≤ ·) l
  have hs := List.pairwise_insertionSort (· ≤ ·) l
  obtain ⟨a, b, h1, h2, h3⟩ := Smooth.median_is_middle l _ hp hs hne
  have hl : (l.insertionSort (· ≤ ·)).length = l.length := hp.length_eq
  have hc : (l.insertionSort (· ≤ ·)).length < 2 * (l.insertionSort (· ≤ ·)).count dt := by
    rw [hl, hp.count_eq]; exact h
  have hpos : 0 < l.length := List.length_pos_of_ne_nil hne
  have ea := middle_eq hs hc (by rw [hl]; omega) (by rw [hl]; omega) h1
  have eb := middle_eq hs hc (by rw [hl]; omega) (by rw [hl]; omega) h2
  rw [h3, ea, eb]
  congr 1; ring

/-- Steps of a regular sampling: the steps follow the dates. -/
theorem stepOf_sampled {dt b : Rat} (hdt : 0 < dt) {n : Int} (h : 0 ≤ b + n * dt ∨ b = 0) :
    stepOf dt (b + n * dt) = n + ⌊b / dt⌋ := by
  have e : (b + n * dt) / dt = b / dt + n := by field_simp
  unfold stepOf Missing.trunc
  rw [e]
  rcases h with h | rfl
  · have h0 : 0 ≤ b / dt + n := by rw [← e]; positivity
    rw [if_pos h0, Int.floor_add_intCast]; ring
  · rw [zero_div, zero_add]
    split
    · simp
    · have : -(n : Rat) = ((-n : Int) : Rat) := by push_cast; ring
      rw [this, Int.floor_intCast]; simp

section
variable {dt b : Rat} {times : List Rat}

theorem step_get (hdt : 0 < dt) (hs : Sampled dt b times) (hb : (∀ t ∈ times, 0 ≤ t) ∨ b = 0) {k : Nat} {s : Int}
    (h : (times.map (stepOf dt))[k]? = some s) : times[k]? = some (b + (s - ⌊b / dt⌋ : Int) * dt) := by
  rw [List.getElem?_map] at h
  obtain ⟨t, ht, rfl⟩ := Option.map_eq_some_iff.1 h
  obtain ⟨n, rfl⟩ := hs t (List.mem_of_getElem? ht)
  rw [stepOf_sampled hdt (hb.imp (fun h => h _ (List.mem_of_getElem? ht)) id), ht]
  congr 1; push_cast; ring

theorem get_step (hdt : 0 < dt) (hs : Sampled dt b times) (hb : (∀ t ∈ times, 0 ≤ t) ∨ b = 0) {k : Nat} {t : Rat}
    (h : times[k]? = some t) : ∃ s : Int, (times.map (stepOf dt))[k]? = some s ∧ t = b + (s - ⌊b / dt⌋ : Int) * dt := by
  have h2 : (times.map (stepOf dt))[k]? = some (stepOf dt t) := by rw [List.getElem?_map, h]; rfl
  refine ⟨_, h2, ?_⟩
  have := step_get hdt hs hb h2
  rw [h] at this
  exact Option.some.inj this

theorem lt_iff (hdt : 0 < dt) (c : Rat) (s s' : Int) (f : Int) :
    c + ((s - f : Int) : Rat) * dt < c + ((s' - f : Int) : Rat) * dt ↔ s < s' := by
  rw [add_lt_add_iff_left, mul_lt_mul_iff_of_pos_right hdt]
  constructor
  · intro h; have : s - f < s' - f := by exact_mod_cast h
    omega
  · intro h; have : s - f < s' - f := by omega
    exact_mod_cast this

theorem le_win_iff (hdt : 0 < dt) (c : Rat) (s s' w : Int) (f : Int) :
    c + ((s' - f : Int) : Rat) * dt ≤ c + ((s - f : Int) : Rat) * dt + w * dt ↔ s' ≤ s + w := by
  rw [add_assoc, add_le_add_iff_left, ← add_mul, mul_le_mul_iff_of_pos_right hdt]
  constructor
  · intro h; have : s' - f ≤ s - f + w := by exact_mod_cast h
    omega
  · intro h; have : s' - f ≤ s - f + w := by omega
    exact_mod_cast this

theorem next_days (hdt : 0 < dt) (hs : Sampled dt b times) (hb : (∀ t ∈ times, 0 ≤ t) ∨ b = 0) {ov : Nat → Nat → Rat}
    {window : Int} {i : Nat} {r : Option (Nat × Rat)} (h : BestForward (times.map (stepOf dt)) ov window i r) {next : Int}
    {cost : Rat} (hst : Stored r next cost) : NextInDays times ov (window * dt) i next cost := by
  rcases r with _ | ⟨j, c⟩
  · refine Or.inl ⟨hst, fun x y k hx hy h1 h2 => ?_⟩
    obtain ⟨sx, gx, rfl⟩ := get_step hdt hs hb hx
    obtain ⟨sy, gy, rfl⟩ := get_step hdt hs hb hy
    exact h sx sy k gx gy ((lt_iff hdt _ _ _ _).1 h1) ((le_win_iff hdt _ _ _ _ _).1 h2)
  · obtain ⟨sx, sy, gx, gy, h1, h2, h3, h4, h5, h6⟩ := h
    obtain ⟨e1, e2⟩ := hst
    refine Or.inr ⟨j, _, _, e1, step_get hdt hs hb gx, step_get hdt hs hb gy, (lt_iff hdt _ _ _ _).2 h1,
      (le_win_iff hdt _ _ _ _ _).2 h2, by rw [e2, h3], by rw [h3]; exact h4, fun k y hy g1 g2 => ?_, fun k hk => ?_⟩
    · obtain ⟨sk, gk, rfl⟩ := get_step hdt hs hb hy
      exact h5 k sk gk ((lt_iff hdt _ _ _ _).1 g1) ((lt_iff hdt _ _ _ _).1 g2)
    · obtain ⟨sk, gk, e⟩ := get_step hdt hs hb hk
      have : sk = sy := by
        rcases lt_trichotomy sk sy with g | g | g
        · have := (lt_iff hdt b sk sy ⌊b / dt⌋).2 g; linarith
        · exact g
        · have := (lt_iff hdt b sy sk ⌊b / dt⌋).2 g; linarith
      subst this
      rw [h3]
      exact h6 k gk
end

/-- C177 for a regular sampling (dates with the same remainder, most of which are at `dt` days from the following one) which does
not begin before 1950, or whose dates are multiples of the step: a segment has at most one observation by date, the forward link
is the best candidate of the first date with an overlap in the next `window * dt` days, and the field `time` of the result is
before the dates by their remainder. -/
theorem split_dates_partial (groups : List Nat) (hne : groups ≠ []) (hgs : groups.Pairwise (· ≤ ·)) (times : List Rat)
    (hlen : times.length = groups.length) (ov : Nat → Nat → Rat) (hov : ∀ i j, 0 ≤ ov i j) (window : Int)
    (ht : ∀ i j : Nat, i < j → j < groups.length → groups[i]? = groups[j]? → times.getD i 0 ≤ times.getD j 0)
    (dt b : Rat) (hdt : 0 < dt) (hm : MostGaps dt times) (hs : Sampled dt b times) (hb : (∀ t ∈ times, 0 ≤ t) ∨ b = 0) :
    ∃ rows, splitDates groups times ov window = some rows ∧ rows.map (fun r => r.1.group) = groups ∧
      (∀ (i j : Nat) ri rj, rows[i]? = some ri → rows[j]? = some rj → ri.1.group = rj.1.group → ri.1.group ≠ 0 →
        ri.1.track = rj.1.track → times[i]? = times[j]? → i = j) ∧
      (∀ (k : Nat) r, rows[k]? = some r → r.1.group ≠ 0 →
        NextInDays times (inGroup (fun k => groups.getD k 0) ov) (window * dt) k r.1.next r.1.ncost) ∧
      (∃ late : Rat, 0 ≤ late ∧ late < dt ∧ (∃ n : Int, b = late + n * dt) ∧ rows.map (·.2) = times.map (fun t => t - late)) := by
  have hsl : (times.map (stepOf dt)).length = groups.length := by rw [List.length_map, hlen]
  have hgetT : ∀ k, k < groups.length → times[k]? = some (times.getD k 0) := by
    intro k hk
    rw [List.getD_eq_getElem?_getD, List.getElem?_eq_getElem (by omega)]; rfl
  obtain ⟨rows, e1, e2, e3, hseg⟩ := split_network_spec groups hne hgs (times.map (stepOf dt)) hsl ov hov window (by
    intro i j hij hj hg
    have h1 := ht i j hij hj hg
    obtain ⟨si, gi, ei⟩ := get_step hdt hs hb (hgetT i (by omega))
    obtain ⟨sj, gj, ej⟩ := get_step hdt hs hb (hgetT j hj)
    rw [List.getD_eq_getElem?_getD, List.getD_eq_getElem?_getD, gi, gj]
    show si ≤ sj
    by_contra hc
    have := (lt_iff hdt b sj si ⌊b / dt⌋).2 (by omega)
    rw [← ei, ← ej] at this
    linarith)
  refine ⟨rows.map (fun r => (r, r.time * dt)), ?_, ?_, ?_, ?_, ?_⟩
  · unfold splitDates
    rw [median_most hm]
    simp only [Option.bind_eq_bind, Option.bind_some]
    rw [e1]; rfl
  · rw [List.map_map]; exact e2
  · intro i j ri rj hi hj h1 h2 h3 h4
    rw [List.getElem?_map] at hi hj
    obtain ⟨x, hx, rfl⟩ := Option.map_eq_some_iff.1 hi
    obtain ⟨y, hy, rfl⟩ := Option.map_eq_some_iff.1 hj
    have gx : groups[i]? = some x.group := by rw [← e2, List.getElem?_map, hx]; rfl
    have gy : groups[j]? = some y.group := by rw [← e2, List.getElem?_map, hy]; rfl
    have li := (List.getElem?_eq_some_iff.1 gx).1
    have lj := (List.getElem?_eq_some_iff.1 gy).1
    refine hseg.unique i j (by omega) (by omega) ?_ ?_ ?_ ?_
    · simp only [List.getD_eq_getElem?_getD, gx, gy]; exact h1
    · simp only [List.getD_eq_getElem?_getD, gx]; exact h2
    · simp only [cols, hx, hy]; exact h3
    · rw [List.getElem?_map, List.getElem?_map, h4]
  · intro k r hk h0
    rw [List.getElem?_map] at hk
    obtain ⟨x, hx, rfl⟩ := Option.map_eq_some_iff.1 hk
    have gx : groups[k]? = some x.group := by rw [← e2, List.getElem?_map, hx]; rfl
    have lk := (List.getElem?_eq_some_iff.1 gx).1
    obtain ⟨q, hq, hst⟩ := hseg.forward k (by omega) (by simp only [List.getD_eq_getElem?_getD, gx]; exact h0)
    have hst' : Stored q x.next x.ncost := by
      have : (cols rows).next k = x.next ∧ (cols rows).ncost k = x.ncost := by simp [cols, hx]
      rw [← this.1, ← this.2]; exact hst
    exact next_days hdt hs hb hq hst'
  · refine ⟨b - ⌊b / dt⌋ * dt, ?_, ?_, ⟨⌊b / dt⌋, by ring⟩, ?_⟩
    · have := Int.floor_le (b / dt)
      rw [le_div_iff₀ hdt] at this
      linarith
    · have := Int.lt_floor_add_one (b / dt)
      rw [div_lt_iff₀ hdt] at this
      linarith
    · rw [List.map_map]
      show rows.map (fun r => (r.time : Rat) * dt) = _
      have : rows.map (fun r => (r.time : Rat) * dt) = (rows.map (·.time)).map (fun s : Int => (s : Rat) * dt) := by
        rw [List.map_map]; rfl
      rw [this, e3, List.map_map]
      apply List.map_congr_left
      intro t htm
      obtain ⟨n, rfl⟩ := hs t htm
      show ((stepOf dt (b + n * dt) : Int) : Rat) * dt = _
      rw [stepOf_sampled hdt (hb.imp (fun h => h _ htm) id)]
      push_cast; ring

/-- Dates which are multiples of the step are kept. -/
theorem split_dates_kept (groups : List Nat) (hne : groups ≠ []) (hgs : groups.Pairwise (· ≤ ·)) (times : List Rat)
    (hlen : times.length = groups.length) (ov : Nat → Nat → Rat) (hov : ∀ i j, 0 ≤ ov i j) (window : Int)
    (ht : ∀ i j : Nat, i < j → j < groups.length → groups[i]? = groups[j]? → times.getD i 0 ≤ times.getD j 0)
    (dt : Rat) (hdt : 0 < dt) (hm : MostGaps dt times) (hs : Sampled dt 0 times) :
    ∃ rows, splitDates groups times ov window = some rows ∧ rows.map (·.2) = times := by
  obtain ⟨rows, h1, -, -, -, late, l1, l2, ⟨n, hn⟩, h3⟩ :=
    split_dates_partial groups hne hgs times hlen ov hov window ht dt 0 hdt hm hs (Or.inr rfl)
  refine ⟨rows, h1, ?_⟩
  have : late = 0 := by
    have e : late = ((-n : Int) : Rat) * dt := by push_cast; linarith
    have a1 : ((-n : Int) : Rat) < 1 := by
      by_contra h
      have : 1 * dt ≤ ((-n : Int) : Rat) * dt := mul_le_mul_of_nonneg_right (not_lt.1 h) hdt.le
      linarith
    have a2 : (-1 : Rat) < ((-n : Int) : Rat) := by
      by_contra h
      have : ((-n : Int) : Rat) * dt ≤ -1 * dt := mul_le_mul_of_nonneg_right (not_lt.1 h) hdt.le
      linarith
    have b1 : -n < 1 := by exact_mod_cast a1
    have b2 : -1 < -n := by exact_mod_cast a2
    obtain rfl : n = 0 := by omega
    rw [e]; simp
  rw [h3, this]
  simp

/-! ### Refutation: what the dates become -/

/-- Everything overlaps. -/
def full (_ _ : Nat) : Rat := 1

/-- A network sampled every 5 days from day 3: the dates of the result are 3 days early. -/
theorem dates_early_wrong : (splitDates [1, 1, 1] [3, 8, 13] full 1).map (List.map (·.2)) = some [0, 5, 10] := by
  decide +kernel

/-- `window` is documented as a number of days; with a step of 5 days, `window = 2` links observations at 10 days. -/
theorem window_days_wrong : (splitDates [1, 1, 2, 2, 2] [0, 10, 0, 5, 10] full 2).map (List.map (fun r => (r.1.next, r.2))) =
    some [(1, 0), (-1, 10), (3, 0), (4, 5), (-1, 10)] := by
  decide +kernel

/-- Dates around 1950 at noon are regular, but two of them are on the same step: the observation of the second date is not linked
with the one of the third date, which begins another segment. -/
theorem around_1950_wrong : (splitDates [1, 1, 1, 1] [-3 / 2, -1 / 2, 1 / 2, 3 / 2] full 1).map
    (List.map (fun r => (r.1.time, r.1.next, r.1.track))) = some [(-1, 1, 1), (0, 3, 1), (0, 3, 2), (1, -1, 2)] := by
  decide +kernel

/-- With one more date in a daily dataset, two dates are on the same step. -/
theorem irregular_wrong : (splitDates [1, 1, 1, 1, 1, 1] [0, 1, 2, 5 / 2, 3, 4] full 1).map
    (List.map (fun r => (r.1.time, r.1.next, r.1.track))) =
    some [(0, 1, 1), (1, 2, 1), (2, 4, 1), (2, 4, 2), (3, 5, 2), (4, -1, 2)] := by
  decide +kernel

/-- The hypotheses hold for two networks with a missing date. -/
example : ([1, 1, 1, 2, 2, 2] : List Nat).Pairwise (· ≤ ·) ∧ MostGaps 5 [3, 8, 23, 3, 8, 13] ∧ Sampled 5 3 [3, 8, 23, 3, 8, 13] ∧
    (splitDates [1, 1, 1, 2, 2, 2] [3, 8, 23, 3, 8, 13] full 1).map (List.map (fun r => (r.1.track, r.1.next, r.2))) =
      some [(1, 1, 0), (1, -1, 5), (2, -1, 20), (1, 4, 0), (1, 5, 5), (1, -1, 10)] := by
  refine ⟨by decide, ⟨[3, 8, 13, 23], by decide +kernel, by intro t; simp; tauto, by decide +kernel⟩, ?_, by decide +kernel⟩
  intro t ht
  simp only [List.mem_cons, List.not_mem_nil, or_false] at ht
  rcases ht with rfl | rfl | rfl | rfl | rfl | rfl
  exacts [⟨0, by norm_num⟩, ⟨1, by norm_num⟩, ⟨4, by norm_num⟩, ⟨0, by norm_num⟩, ⟨1, by norm_num⟩, ⟨2, by norm_num⟩]

end Verif.Segmentation
