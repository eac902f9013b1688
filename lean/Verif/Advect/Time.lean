import Verif.Advect.Props
import Mathlib.Tactic.Linarith
import Mathlib.Data.List.Pairwise

/-!
# C51, C52: advection in a collection of grids and filaments

Model of `GridCollection.advect`, `GridCollection.filament`, `GridDataset.filament` of /repo/src/py_eddy_tracker/dataset/grid.py.
-/

namespace Verif.Advect

variable {L : Type}

/-- State of the loop of `GridCollection.advect`: the two grids with their times in seconds, the grids which the generator has still
to give, the current time. -/
structure Clock (L : Type) where
  d0 : Rat × L
  d1 : Rat × L
  rest : List (Rat × L)
  t : Rat

/-- Times in seconds (grid.py:2564-2565). -/
def seconds (d : Rat × L) : Rat × L := (d.1 * 86400, d.2)

/-- `get_next_time_step` and `get_previous_time_step` (grid.py:2597-2613). -/
def generator (backward : Bool) (ds : List (Rat × L)) (tInit : Rat) : List (Rat × L) :=
  if backward then ds.reverse.filter (fun d => !decide (d.1 > tInit)) else ds.filter (fun d => !decide (d.1 < tInit))

/-- The start (grid.py:2552-2566); `none` when there are less than two grids. -/
def start (backward : Bool) (ds : List (Rat × L)) (tInit : Rat) : Option (Clock L) :=
  match (generator backward ds tInit).map seconds with
  | d0 :: d1 :: rest => some ⟨d0, d1, rest, tInit * 86400⟩
  | _ => none

/-- The change of grids (grid.py:2574-2578); `none` when there is no grid left (the code raises). -/
def shift (backward : Bool) (c : Clock L) : Option (Clock L) :=
  if (backward && decide (c.t ≤ c.d1.1)) || (!backward && decide (c.t ≥ c.d1.1)) then
    match c.rest with
    | [] => none
    | d :: r => some ⟨c.d1, d, r, c.t⟩
  else some c

/-- The clock of the turn `n` of the loop (grid.py:2572-2595). -/
def turn (backward : Bool) (dt : Rat) : Nat → Clock L → Option (Clock L)
  | 0, c => shift backward c
  | n + 1, c => (shift backward c).bind (fun c => turn backward dt n { c with t := c.t + dt })

/-- `dt` (grid.py:2555, 2559). -/
def dtOf (backward : Bool) (nbStep : Nat) (step : Rat) : Rat := if backward then -((nbStep : Rat) * step) else (nbStep : Rat) * step

/-- `t_step` (grid.py:2556, 2560). -/
def stepOf (backward : Bool) (step : Rat) : Rat := if backward then -step else step

/-- `w` (grid.py:2579). -/
def weightsAt (backward : Bool) (nbStep : Nat) (step : Rat) (c : Clock L) : List Rat :=
  (List.range nbStep).map (fun k : Nat => 1 - (c.t + (k : Rat) * stepOf backward step - c.d0.1) / (c.d1.1 - c.d0.1))

/-- `half_w` (grid.py:2580). -/
def halfAt (backward : Bool) (step : Rat) (c : Clock L) : Rat := stepOf backward step / 2 / (c.d1.1 - c.d0.1)

/-- The positions after the first `n` turns (grid.py:2572-2595), RK4 or not. -/
def run (a : Axes) (backward rk4 : Bool) (nbStep : Nat) (step : Rat) (c : Clock Layer) (ps : List Particle) : Nat → Option (List Particle)
  | 0 => some ps
  | n + 1 =>
    (run a backward rk4 nbStep step c ps n).bind fun ps =>
    (turn backward (dtOf backward nbStep step) n c).map fun c =>
      if rk4 then advectTRk4 a c.d0.2 c.d1.2 (weightsAt backward nbStep step c) (halfAt backward step c) ps
      else advectT a c.d0.2 c.d1.2 (weightsAt backward nbStep step c) ps

/-! ### C51 -/

/-- Sign of the time. -/
def sgn (backward : Bool) : Rat := if backward then -1 else 1

theorem sgn_sq (b : Bool) : sgn b * sgn b = 1 := by cases b <;> simp [sgn]

theorem dtOf_eq (b : Bool) (n : Nat) (s : Rat) : dtOf b n s = sgn b * (n * s) := by cases b <;> simp [dtOf, sgn]

theorem stepOf_eq (b : Bool) (s : Rat) : stepOf b s = sgn b * s := by cases b <;> simp [stepOf, sgn]

theorem shift_cond (b : Bool) (t t1 : Rat) :
    ((b && decide (t ≤ t1)) || (!b && decide (t ≥ t1))) = true ↔ sgn b * t1 ≤ sgn b * t := by
  cases b <;> simp [sgn]

/-- Specification of a turn: the two grids are grids of the collection, without any other grid between them, and the whole turn is
between their times. -/
structure Bracket (ds : List (Rat × L)) (lo hi : Rat) (c : Clock L) : Prop where
  mem0 : ∃ d ∈ ds, c.d0 = seconds d
  mem1 : ∃ d ∈ ds, c.d1 = seconds d
  consecutive : ∀ d ∈ ds, ¬ (min c.d0.1 c.d1.1 < d.1 * 86400 ∧ d.1 * 86400 < max c.d0.1 c.d1.1)
  distinct : c.d0.1 ≠ c.d1.1
  lo : min c.d0.1 c.d1.1 ≤ lo
  hi : hi ≤ max c.d0.1 c.d1.1

/-- State of the clock before the turn `n`: `s` are the numbers of turns of the grids which follow. -/
structure At (b : Bool) (D T : Rat) (pre : List (Rat × L)) (n : Nat) (c : Clock L) (S : List (Rat × L)) : Prop where
  all : pre ++ c.d0 :: c.d1 :: c.rest = S
  t_eq : c.t = T + sgn b * (n * D)
  le0 : sgn b * c.d0.1 ≤ sgn b * c.t
  le1 : sgn b * c.t ≤ sgn b * c.d1.1

theorem shift_at {b : Bool} {D T : Rat} (hD : 0 < D) {S : List (Rat × L)} (hS : S.Pairwise (fun d e => sgn b * d.1 < sgn b * e.1))
    (hm : ∀ d ∈ S, ∃ m : Nat, d.1 = T + sgn b * (m * D)) {pre : List (Rat × L)} {n : Nat} {c : Clock L} (h : At b D T pre n c S) :
    (∀ c', shift b c = some c' → ∃ pre', At b D T pre' n c' S ∧ sgn b * c'.t + D ≤ sgn b * c'.d1.1 ∧ c'.t = c.t) ∧
    (shift b c = none → ∀ d ∈ S, sgn b * d.1 ≤ sgn b * c.t) := by
  obtain ⟨hall, ht, h0, h1⟩ := h
  have mul : ∀ d ∈ S, ∃ m : Nat, sgn b * d.1 = sgn b * T + m * D := by
    intro d hd
    obtain ⟨m, e⟩ := hm d hd
    refine ⟨m, ?_⟩
    rw [e, mul_add, ← mul_assoc, sgn_sq, one_mul]
  have tm : sgn b * c.t = sgn b * T + n * D := by rw [ht, mul_add, ← mul_assoc, sgn_sq, one_mul]
  have gap : ∀ d ∈ S, sgn b * c.t < sgn b * d.1 → sgn b * c.t + D ≤ sgn b * d.1 := by
    intro d hd hlt
    obtain ⟨m, e⟩ := mul d hd
    rw [e, tm] at hlt
    rw [e, tm]
    have hnm : (n : Rat) < m := by
      by_contra hge
      have := mul_le_mul_of_nonneg_right (not_lt.1 hge) hD.le
      linarith
    have hnm' : n + 1 ≤ m := by exact_mod_cast hnm
    have hnm2 : (n : Rat) + 1 ≤ m := by exact_mod_cast hnm'
    have := mul_le_mul_of_nonneg_right hnm2 hD.le
    linarith
  have hd1 : c.d1 ∈ S := by rw [← hall]; simp
  unfold shift
  by_cases hc : sgn b * c.d1.1 ≤ sgn b * c.t
  · rw [if_pos ((shift_cond b c.t c.d1.1).2 hc)]
    rcases hr : c.rest with _ | ⟨d, r⟩
    · refine ⟨fun c' h' => (nomatch h'), fun _ d hd => ?_⟩
      rw [← hall, hr] at hd hS
      rcases List.mem_append.1 hd with hd | hd
      · have := (List.pairwise_append.1 hS).2.2 d hd c.d1 (by simp)
        linarith
      · simp only [List.mem_cons, List.not_mem_nil, or_false] at hd
        rcases hd with rfl | rfl
        · exact h0
        · exact hc
    · refine ⟨fun c' h' => ?_, fun h' => by cases h'⟩
      simp only [Option.some.injEq] at h'
      subst h'
      have hmem : d ∈ S := by rw [← hall, hr]; simp
      have hlt : sgn b * c.d1.1 < sgn b * d.1 := by
        rw [← hall, hr] at hS
        have := (List.pairwise_append.1 hS).2.1
        rw [List.pairwise_cons, List.pairwise_cons] at this
        exact this.2.1 d (by simp)
      have hlt' : sgn b * c.t < sgn b * d.1 := by linarith
      refine ⟨pre ++ [c.d0], ⟨by rw [← hall, hr]; simp, ht, hc, hlt'.le⟩, gap d hmem hlt', rfl⟩
  · rw [if_neg (fun h' => hc ((shift_cond b c.t c.d1.1).1 h'))]
    refine ⟨fun c' h' => ?_, fun h' => by cases h'⟩
    simp only [Option.some.injEq] at h'
    subst h'
    exact ⟨pre, ⟨hall, ht, h0, h1⟩, gap _ hd1 (not_le.1 hc), rfl⟩

theorem turn_at {b : Bool} {D T : Rat} (hD : 0 < D) {S : List (Rat × L)} (hS : S.Pairwise (fun d e => sgn b * d.1 < sgn b * e.1))
    (hm : ∀ d ∈ S, ∃ m : Nat, d.1 = T + sgn b * (m * D)) : ∀ (k : Nat) {pre : List (Rat × L)} {n : Nat} {c : Clock L}, At b D T pre n c S →
    (∀ c', turn b (sgn b * D) k c = some c' → ∃ pre', At b D T pre' (n + k) c' S ∧ sgn b * c'.t + D ≤ sgn b * c'.d1.1) ∧
    (turn b (sgn b * D) k c = none → ∀ d ∈ S, sgn b * d.1 < sgn b * T + (n + k + 1 : Nat) * D)
  | 0, pre, n, c, h => by
    obtain ⟨s1, s2⟩ := shift_at hD hS hm h
    rw [turn]
    refine ⟨fun c' hc' => ?_, fun hn d hd => ?_⟩
    · obtain ⟨p', a1, a2, _⟩ := s1 c' hc'
      exact ⟨p', a1, a2⟩
    · have := s2 hn d hd
      rw [h.t_eq, mul_add, ← mul_assoc (sgn b) (sgn b), sgn_sq, one_mul] at this
      push_cast
      linarith
  | k + 1, pre, n, c, h => by
    obtain ⟨s1, s2⟩ := shift_at hD hS hm h
    rw [turn]
    cases hs : shift b c with
    | none =>
      refine ⟨fun c' hc' => (nomatch hc'), fun _ d hd => ?_⟩
      have := s2 hs d hd
      rw [h.t_eq, mul_add, ← mul_assoc (sgn b) (sgn b), sgn_sq, one_mul] at this
      have hk : (0 : Rat) ≤ (k + 1 : Nat) * D := by positivity
      push_cast at hk ⊢
      linarith
    | some c1 =>
      rw [Option.bind_some]
      obtain ⟨p', a1, a2, _⟩ := s1 c1 hs
      have hat : At b D T p' (n + 1) { c1 with t := c1.t + sgn b * D } S := by
        refine ⟨a1.all, ?_, ?_, ?_⟩
        · rw [a1.t_eq]; push_cast; ring
        · simp only [mul_add, ← mul_assoc, sgn_sq, one_mul]
          linarith [a1.le0]
        · simp only [mul_add, ← mul_assoc, sgn_sq, one_mul]
          exact a2
      obtain ⟨b1, b2⟩ := turn_at hD hS hm k hat
      rw [show n + (k + 1) = n + 1 + k by omega]
      exact ⟨b1, b2⟩

/-- What `GridCollection.advect` needs: grids in order of time, a start on the time of a grid, and times of grids at whole numbers of
turns from the start. -/
structure Aligned (ds : List (Rat × L)) (tInit : Rat) (nbStep : Nat) (step : Rat) : Prop where
  nb_pos : 0 < nbStep
  step_pos : 0 < step
  sorted : ds.Pairwise (fun d e => d.1 < e.1)
  on_grid : ∃ d ∈ ds, d.1 = tInit
  whole : ∀ d ∈ ds, ∃ m : Int, (d.1 - tInit) * 86400 = m * (nbStep * step)

theorem generator_spec (b : Bool) (ds : List (Rat × L)) (tInit : Rat) (hs : ds.Pairwise (fun d e => d.1 < e.1)) :
    (generator b ds tInit).Pairwise (fun d e => sgn b * d.1 < sgn b * e.1) ∧
    ∀ d, d ∈ generator b ds tInit ↔ d ∈ ds ∧ sgn b * tInit ≤ sgn b * d.1 := by
  cases b with
  | false =>
    unfold generator
    simp only [Bool.false_eq_true, if_false, sgn, one_mul]
    refine ⟨hs.filter _, fun d => ?_⟩
    simp
  | true =>
    unfold generator
    simp only [if_true, sgn, neg_mul, one_mul, neg_lt_neg_iff, neg_le_neg_iff]
    refine ⟨(List.pairwise_reverse.2 hs).filter _, fun d => ?_⟩
    simp

theorem sgn_cases (b : Bool) : sgn b = 1 ∨ sgn b = -1 := by cases b <;> simp [sgn]

/-- **C51**, forward and backward: when the start is the time of a grid and the turns fill the intervals between the grids, each turn
is between two consecutive grids; the loop stops exactly when no grid is left after the end of the turn. Missing: the other starts and
lengths of turns (`start_between_wrong`, `long_turn_wrong`). -/
theorem turn_partial {b : Bool} {ds : List (Rat × L)} {tInit : Rat} {nbStep : Nat} {step : Rat} (h : Aligned ds tInit nbStep step)
    {c : Clock L} (hstart : start b ds tInit = some c) (n : Nat) :
    (∀ c', turn b (dtOf b nbStep step) n c = some c' → c'.t = tInit * 86400 + n * dtOf b nbStep step ∧
      Bracket ds (min c'.t (c'.t + dtOf b nbStep step)) (max c'.t (c'.t + dtOf b nbStep step)) c' ∧
      (c'.d0.1 < c'.d1.1 ↔ b = false)) ∧
    (turn b (dtOf b nbStep step) n c = none ↔
      ∀ d ∈ ds, sgn b * (d.1 * 86400) < sgn b * (tInit * 86400) + (n + 1 : Nat) * (nbStep * step)) := by
  obtain ⟨g1, g2⟩ := generator_spec b ds tInit h.sorted
  have hnb : (0 : Rat) < nbStep := by exact_mod_cast h.nb_pos
  have hD : (0 : Rat) < nbStep * step := mul_pos hnb h.step_pos
  rw [dtOf_eq]
  generalize hDdef : (nbStep : Rat) * step = D at *
  -- the selected grids in seconds
  have hS : ((generator b ds tInit).map seconds).Pairwise (fun d e => sgn b * d.1 < sgn b * e.1) := by
    rw [List.pairwise_map]
    refine g1.imp fun {d e} hlt => ?_
    unfold seconds
    simp only [← mul_assoc]
    linarith
  have hm : ∀ d ∈ (generator b ds tInit).map seconds, ∃ m : Nat, d.1 = tInit * 86400 + sgn b * (m * D) := by
    intro d hd
    obtain ⟨e, he, rfl⟩ := List.mem_map.1 hd
    obtain ⟨he1, he2⟩ := (g2 e).1 he
    obtain ⟨m, hm⟩ := h.whole e he1
    rw [hDdef] at hm
    have hmn : sgn b * (m * D) = ((sgn b * (e.1 - tInit))) * 86400 := by rw [← hm]; ring
    unfold seconds
    simp only
    rcases sgn_cases b with hb | hb
    · rw [hb, one_mul, one_mul] at hmn
      have h0 : (0 : Rat) ≤ m := by
        by_contra hneg
        have := mul_neg_of_neg_of_pos (not_le.1 hneg) hD
        rw [hb] at he2
        linarith
      obtain ⟨k, hk⟩ := Int.eq_ofNat_of_zero_le (by exact_mod_cast h0 : 0 ≤ m)
      refine ⟨k, ?_⟩
      rw [hk] at hm
      push_cast at hm
      rw [hb]
      linarith
    · rw [hb] at hmn he2
      have h0 : (0 : Rat) ≤ -m := by
        by_contra hneg
        have := mul_neg_of_neg_of_pos (not_le.1 hneg) hD
        linarith
      obtain ⟨k, hk⟩ := Int.eq_ofNat_of_zero_le (by exact_mod_cast h0 : 0 ≤ -m)
      refine ⟨k, ?_⟩
      have hk' : m = -(k : Int) := by omega
      rw [hk'] at hm
      push_cast at hm
      rw [hb]
      linarith
  -- the start is the first of them
  have hat : At b D (tInit * 86400) [] 0 c ((generator b ds tInit).map seconds) := by
    unfold start at hstart
    rcases hg : (generator b ds tInit).map seconds with _ | ⟨d0, _ | ⟨d1, rest⟩⟩
    · rw [hg] at hstart; cases hstart
    · rw [hg] at hstart; cases hstart
    · rw [hg] at hstart hS hm
      simp only [Option.some.injEq] at hstart
      subst hstart
      obtain ⟨d, hd, hdt⟩ := h.on_grid
      have hdm : seconds d ∈ d0 :: d1 :: rest := by
        rw [← hg]
        exact List.mem_map.2 ⟨d, (g2 d).2 ⟨hd, by rw [hdt]⟩, rfl⟩
      have hd0 : sgn b * d0.1 ≤ sgn b * (tInit * 86400) := by
        have hsd : (seconds d).1 = tInit * 86400 := by unfold seconds; simp only; rw [hdt]
        rcases List.mem_cons.1 hdm with e | e
        · rw [← e, hsd]
        · have := (List.pairwise_cons.1 hS).1 _ e
          rw [hsd] at this
          exact this.le
      refine ⟨rfl, by simp, hd0, ?_⟩
      obtain ⟨m, e⟩ := hm d1 (by simp)
      simp only
      rw [e, mul_add, ← mul_assoc (sgn b) (sgn b), sgn_sq, one_mul]
      have : (0 : Rat) ≤ m * D := by positivity
      linarith
  obtain ⟨t1, t2⟩ := turn_at hD hS hm n hat
  rw [Nat.zero_add] at t1 t2
  refine ⟨fun c' hc' => ?_, ⟨fun hn => ?_, fun hall => ?_⟩⟩
  · obtain ⟨pre, a, hle⟩ := t1 c' hc'
    have hlt : sgn b * c'.d0.1 < sgn b * c'.d1.1 := by linarith [a.le0]
    have mem : ∀ d ∈ (generator b ds tInit).map seconds, ∃ e ∈ ds, d = seconds e := by
      intro d hd
      obtain ⟨e, he, rfl⟩ := List.mem_map.1 hd
      exact ⟨e, ((g2 e).1 he).1, rfl⟩
    have hcons : ∀ d ∈ ds, ¬ (sgn b * c'.d0.1 < sgn b * (d.1 * 86400) ∧ sgn b * (d.1 * 86400) < sgn b * c'.d1.1) := by
      rintro d hd ⟨q1, q2⟩
      have hge : sgn b * (tInit * 86400) ≤ sgn b * c'.d0.1 := by
        obtain ⟨m, e⟩ := hm c'.d0 (by rw [← a.all]; simp)
        rw [e, mul_add, ← mul_assoc (sgn b) (sgn b), sgn_sq, one_mul]
        have : (0 : Rat) ≤ m * D := by positivity
        linarith
      have hdg : d ∈ generator b ds tInit := (g2 d).2 ⟨hd, by
        have e1 : sgn b * (tInit * 86400) = sgn b * tInit * 86400 := by ring
        have e2 : sgn b * (d.1 * 86400) = sgn b * d.1 * 86400 := by ring
        linarith⟩
      have hdm : seconds d ∈ (generator b ds tInit).map seconds := List.mem_map.2 ⟨d, hdg, rfl⟩
      rw [← a.all] at hdm
      rw [← a.all] at hS
      obtain ⟨p1, p2, p3⟩ := List.pairwise_append.1 hS
      rw [List.pairwise_cons, List.pairwise_cons] at p2
      rcases List.mem_append.1 hdm with hdm | hdm
      · have := p3 _ hdm c'.d0 (by simp)
        unfold seconds at this
        simp only at this
        linarith
      · simp only [List.mem_cons] at hdm
        rcases hdm with e | e | e
        · rw [← e] at q1; unfold seconds at q1; simp only at q1; linarith
        · rw [← e] at q2; unfold seconds at q2; simp only at q2; linarith
        · have := p2.2.1 _ e
          unfold seconds at this
          simp only at this
          linarith
    have hb0 : ∃ d ∈ ds, c'.d0 = seconds d := mem _ (by rw [← a.all]; simp)
    have hb1 : ∃ d ∈ ds, c'.d1 = seconds d := mem _ (by rw [← a.all]; simp)
    refine ⟨by rw [a.t_eq]; ring, ?_⟩
    have hle0 := a.le0
    cases b with
    | false =>
      simp only [sgn, Bool.false_eq_true, if_false, one_mul] at *
      refine ⟨⟨hb0, hb1, ?_, hlt.ne, ?_, ?_⟩, ?_⟩
      · rw [min_eq_left hlt.le, max_eq_right hlt.le]; exact hcons
      · rw [min_eq_left hlt.le, min_eq_left (by linarith)]; exact hle0
      · rw [max_eq_right hlt.le, max_eq_right (by linarith)]; exact hle
      · simp [hlt]
    | true =>
      simp only [sgn, if_true, neg_mul, one_mul, neg_lt_neg_iff, neg_le_neg_iff] at *
      refine ⟨⟨hb0, hb1, ?_, hlt.ne', ?_, ?_⟩, ?_⟩
      · rw [min_eq_right hlt.le, max_eq_left hlt.le]
        exact fun d hd hh => hcons d hd ⟨hh.2, hh.1⟩
      · rw [min_eq_right hlt.le, min_eq_right (by linarith)]; linarith
      · rw [max_eq_left hlt.le, max_eq_left (by linarith)]; exact hle0
      · simp [hlt.le]
  · intro d hd
    by_cases hge : sgn b * tInit ≤ sgn b * d.1
    · have := t2 hn (seconds d) (List.mem_map.2 ⟨d, (g2 d).2 ⟨hd, hge⟩, rfl⟩)
      unfold seconds at this
      exact this
    · have : (0 : Rat) ≤ (n + 1 : Nat) * D := by positivity
      have e1 : sgn b * (tInit * 86400) = sgn b * tInit * 86400 := by ring
      have e2 : sgn b * (d.1 * 86400) = sgn b * d.1 * 86400 := by ring
      linarith [not_le.1 hge]
  · cases ht : turn b (sgn b * D) n c with
    | none => rfl
    | some c' =>
      obtain ⟨pre, a, hle⟩ := t1 c' ht
      obtain ⟨e, he, hee⟩ := List.mem_map.1 (show c'.d1 ∈ (generator b ds tInit).map seconds by rw [← a.all]; simp)
      have := hall e ((g2 e).1 he).1
      rw [← hee] at hle
      unfold seconds at hle
      simp only at hle
      rw [a.t_eq, mul_add, ← mul_assoc (sgn b) (sgn b), sgn_sq, one_mul] at hle
      push_cast at this
      linarith

/-- The weights of a turn between the times of two grids are the ones of the linear interpolation in time, all between 0 and 1, also
those of the stages of RK4 in the middle and at the end of a step. -/
theorem weights_between {b : Bool} {nbStep : Nat} {step : Rat} {c : Clock L} (hstep : 0 < step)
    (hdir : c.d0.1 < c.d1.1 ↔ b = false) (hne : c.d0.1 ≠ c.d1.1)
    (hlo : min c.d0.1 c.d1.1 ≤ min c.t (c.t + dtOf b nbStep step)) (hhi : max c.t (c.t + dtOf b nbStep step) ≤ max c.d0.1 c.d1.1) :
    (weightsAt b nbStep step c).length = nbStep ∧
    ∀ (k : Nat) (w : Rat), (weightsAt b nbStep step c)[k]? = some w → ∀ (i : Nat), i ≤ 2 →
      0 ≤ w - i * halfAt b step c ∧ w - i * halfAt b step c ≤ 1 ∧
      (w - i * halfAt b step c) * c.d0.1 + (1 - (w - i * halfAt b step c)) * c.d1.1 =
        c.t + stepOf b step * (k + i / 2) := by
  refine ⟨by simp [weightsAt], fun k w hw i hi => ?_⟩
  unfold weightsAt at hw
  have hk : k < nbStep := by
    by_contra hge
    rw [List.getElem?_map, List.getElem?_eq_none (by rw [List.length_range]; omega)] at hw
    cases hw
  rw [List.getElem?_map, List.getElem?_range hk] at hw
  simp only [Option.map_some, Option.some.injEq] at hw
  have hw' : w - i * halfAt b step c = 1 - (c.t + stepOf b step * (k + i / 2) - c.d0.1) / (c.d1.1 - c.d0.1) := by
    rw [← hw]
    unfold halfAt
    have : c.d1.1 - c.d0.1 ≠ 0 := sub_ne_zero.2 (Ne.symm hne)
    field_simp
    ring
  have hsub : c.d1.1 - c.d0.1 ≠ 0 := sub_ne_zero.2 (Ne.symm hne)
  have hformula : (w - i * halfAt b step c) * c.d0.1 + (1 - (w - i * halfAt b step c)) * c.d1.1 = c.t + stepOf b step * (k + i / 2) := by
    rw [hw']
    field_simp
    ring
  have hki : (0 : Rat) ≤ (k : Rat) + i / 2 ∧ (k : Rat) + i / 2 ≤ nbStep := by
    refine ⟨by positivity, ?_⟩
    have h1 : (k : Rat) + 1 ≤ nbStep := by exact_mod_cast hk
    have h2 : (i : Rat) ≤ 2 := by exact_mod_cast hi
    linarith
  have hs1 : 0 ≤ step * ((k : Rat) + i / 2) := mul_nonneg hstep.le hki.1
  have hs2 : step * ((k : Rat) + i / 2) ≤ nbStep * step := by
    have := mul_le_mul_of_nonneg_left hki.2 hstep.le
    linarith
  refine ⟨?_, ?_, hformula⟩
  · rw [hw']
    cases b with
    | false =>
      have hlt := hdir.2 rfl
      rw [min_eq_left hlt.le] at hlo
      rw [max_eq_right hlt.le] at hhi
      have := le_trans (le_max_right _ _) hhi
      simp only [dtOf, Bool.false_eq_true, if_false] at this
      rw [sub_nonneg, div_le_one (by linarith)]
      simp only [stepOf, Bool.false_eq_true, if_false]
      linarith
    | true =>
      have hlt : c.d1.1 < c.d0.1 := by
        rcases lt_or_gt_of_ne hne with h' | h'
        · exact absurd (hdir.1 h') (by simp)
        · exact h'
      rw [min_eq_right hlt.le] at hlo
      have := le_trans hlo (min_le_right _ _)
      simp only [dtOf, if_true] at this
      rw [sub_nonneg, div_le_one_of_neg (by linarith)]
      simp only [stepOf, if_true]
      linarith
  · rw [hw']
    cases b with
    | false =>
      have hlt := hdir.2 rfl
      rw [min_eq_left hlt.le] at hlo
      have := le_trans hlo (min_le_left _ _)
      simp only [stepOf, Bool.false_eq_true, if_false]
      have : 0 ≤ (c.t + step * (k + i / 2) - c.d0.1) / (c.d1.1 - c.d0.1) := div_nonneg (by linarith) (by linarith)
      linarith
    | true =>
      have hlt : c.d1.1 < c.d0.1 := by
        rcases lt_or_gt_of_ne hne with h' | h'
        · exact absurd (hdir.1 h') (by simp)
        · exact h'
      rw [max_eq_left hlt.le] at hhi
      have := le_trans (le_max_left _ _) hhi
      simp only [stepOf, if_true]
      have : 0 ≤ (c.t + -step * (k + i / 2) - c.d0.1) / (c.d1.1 - c.d0.1) := div_nonneg_of_nonpos (by linarith) (by linarith)
      linarith

/-- **C51** as stated: all weights used by an aligned run are between 0 and 1. -/
theorem weights_partial {b : Bool} {ds : List (Rat × L)} {tInit : Rat} {nbStep : Nat} {step : Rat} (h : Aligned ds tInit nbStep step)
    {c : Clock L} (hstart : start b ds tInit = some c) {n : Nat} {c' : Clock L} (hturn : turn b (dtOf b nbStep step) n c = some c') :
    ∀ w ∈ weightsAt b nbStep step c', 0 ≤ w ∧ w ≤ 1 ∧ 0 ≤ w - halfAt b step c' ∧ w - halfAt b step c' ≤ 1 ∧
      0 ≤ w - halfAt b step c' - halfAt b step c' ∧ w - halfAt b step c' - halfAt b step c' ≤ 1 := by
  intro w hw
  obtain ⟨k, hk⟩ := List.mem_iff_getElem?.1 hw
  obtain ⟨_, hb, hdir⟩ := (turn_partial h hstart n).1 c' hturn
  obtain ⟨_, hall⟩ := weights_between (nbStep := nbStep) h.step_pos hdir hb.distinct hb.lo hb.hi
  have h0 := hall k w hk 0 (by omega)
  have h1 := hall k w hk 1 (by omega)
  have h2 := hall k w hk 2 (by omega)
  simp only [Nat.cast_zero, zero_mul, sub_zero, Nat.cast_one, one_mul, Nat.cast_ofNat] at h0 h1 h2
  refine ⟨h0.1, h0.2.1, h1.1, h1.2.1, by linarith [h2.1], by linarith [h2.2.1]⟩

/-- A start between two grids: the first two grids used are after the start, the weights are beyond 1 (extrapolation). -/
theorem start_between_wrong : (start false [((0 : Rat), ()), (1, ()), (2, ())] (1 / 2)).map
    (fun c => (c.d0.1, c.d1.1, weightsAt false 1 43200 c)) = some (86400, 172800, [3 / 2]) := by decide +kernel

/-- A turn longer than the interval between the grids: negative weights. -/
theorem long_turn_wrong : ((start false [((0 : Rat), ()), (1, ()), (2, ())] 0).bind (turn false (dtOf false 2 86400) 0)).map
    (fun c => weightsAt false 2 86400 c) = some [1, 0] ∧
    ((start false [((0 : Rat), ()), (1, ()), (2, ()), (3, ()), (4, ())] 0).bind (turn false (dtOf false 2 86400) 2)).map
    (fun c => (c.d0.1, c.d1.1, weightsAt false 2 86400 c)) = some (172800, 259200, [-1, -2]) := by decide +kernel

example : Aligned [((0 : Rat), ()), (1, ()), (3, ())] 0 144 600 := by
  refine ⟨by norm_num, by norm_num, by decide +kernel, ⟨(0, ()), by simp, rfl⟩, ?_⟩
  intro d hd
  simp only [List.mem_cons, List.not_mem_nil, or_false] at hd
  rcases hd with rfl | rfl | rfl
  · exact ⟨0, by norm_num⟩
  · exact ⟨1, by norm_num⟩
  · exact ⟨3, by norm_num⟩

example : ((start true [((0 : Rat), ()), (1, ()), (3, ())] 3).bind (turn true (dtOf true 2 43200) 2)).map
    (fun c => (c.d0.1, c.d1.1, weightsAt true 2 43200 c)) = some (86400, 0, [1, 1 / 2]) := by decide +kernel

/-! ### C44 for collections -/

/-- **C44** for the whole run in a collection, on circular grids: particles moved together are moved as each one alone. -/
theorem run_alone {a : Axes} (hcirc : a.nbX ≠ 0) (b rk4 : Bool) (nbStep : Nat) (step : Rat) (c : Clock Layer) : ∀ (n : Nat) (ps : List Particle),
    (ps ≠ [] → run a b rk4 nbStep step c ps n = (ps.mapM (fun p => run a b rk4 nbStep step c [p] n)).map List.flatten)
  | 0, ps => by
    intro _
    have : ∀ l : List Particle, l.mapM (fun p => run a b rk4 nbStep step c [p] 0) = some (l.map (fun p => [p])) := by
      intro l
      induction l with
      | nil => rfl
      | cons p l ih => rw [List.mapM_cons, ih]; rfl
    rw [this, run]
    have hf : ∀ l : List Particle, (l.map (fun p => [p])).flatten = l := by
      intro l
      induction l with
      | nil => rfl
      | cons p l ih => rw [List.map_cons, List.flatten_cons, ih]; rfl
    rw [Option.map_some, hf]
  | n + 1, ps => by
    intro hne
    have ih := run_alone hcirc b rk4 nbStep step c n ps hne
    cases ht : turn b (dtOf b nbStep step) n c with
    | none =>
      have hrun : ∀ qs, run a b rk4 nbStep step c qs (n + 1) = none := by
        intro qs
        rw [run, ht]
        cases run a b rk4 nbStep step c qs n <;> rfl
      rw [hrun]
      cases ps with
      | nil => exact absurd rfl hne
      | cons p l => rw [List.mapM_cons, hrun]; rfl
    | some c' =>
      -- one turn, particle by particle
      obtain ⟨φ, hφ⟩ : ∃ φ : Particle → Particle, ∀ qs, (if rk4 then
          advectTRk4 a c'.d0.2 c'.d1.2 (weightsAt b nbStep step c') (halfAt b step c') qs
          else advectT a c'.d0.2 c'.d1.2 (weightsAt b nbStep step c') qs) = qs.map φ := by
        cases rk4 with
        | true => exact ⟨_, fun qs => advectTRk4_eq _ _ _ _ _ _ (fun p _ => clear_circular hcirc (by decide) p)⟩
        | false => exact ⟨_, fun qs => advectT_eq _ _ _ _ _ (fun p _ => clear_circular hcirc (by decide) p)⟩
      have hrun : ∀ qs, run a b rk4 nbStep step c qs (n + 1) = (run a b rk4 nbStep step c qs n).map (List.map φ) := by
        intro qs
        rw [run, ht]
        cases run a b rk4 nbStep step c qs n with
        | none => rfl
        | some rs => simp only [Option.bind_some, Option.map_some, hφ]
      rw [hrun, ih]
      have hm : ∀ l : List Particle, (l.mapM (fun p => run a b rk4 nbStep step c [p] (n + 1))) =
          (l.mapM (fun p => run a b rk4 nbStep step c [p] n)).map (List.map (List.map φ)) := by
        intro l
        induction l with
        | nil => rfl
        | cons p l ihl =>
          rw [List.mapM_cons, List.mapM_cons, ihl, hrun]
          cases run a b rk4 nbStep step c [p] n with
          | none => rfl
          | some r =>
            cases l.mapM (fun p => run a b rk4 nbStep step c [p] n) with
            | none => rfl
            | some rs => rfl
      rw [hm]
      cases ps.mapM (fun p => run a b rk4 nbStep step c [p] n) with
      | none => rfl
      | some rs => simp [List.map_flatten]

end Verif.Advect
