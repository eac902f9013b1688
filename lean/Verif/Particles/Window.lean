import Verif.Particles.Props
import Verif.Advect.Time

/-!
# C150: the grids used by the coherence of segments

Model of the collection of grids of `segment_coherence_forward` and `segment_coherence_backward` (src/py_eddy_tracker/observations/network.py),
with `GridCollection.from_netcdf_list` and `GridCollection.shift_files` (src/py_eddy_tracker/dataset/grid.py). `file` gives what the grid of
`date_function(day)` holds; the options of reading are the same for all the grids.
-/

namespace Verif.Particles

open Verif.Advect (Clock seconds turn start dtOf weightsAt sgn)

variable {L : Type}

/-- `from_netcdf_list` (grid.py:2360-2373) with one file by date. -/
def fromList (file : Int → L) (l : List Int) : List (Rat × L) := l.map (fun (t : Int) => ((t : Rat), file t))

/-- `shift_files` (grid.py:2382-2391). -/
def shiftFiles (ds : List (Rat × L)) (t : Rat) (d : L) : List (Rat × L) := ds.drop 1 ++ [(t, d)]

/-- The loop of the dates (network.py:1766-1777, 1841-1853): the dates with the collection given to `particle_candidate`; `lag` is what is
added to the date to get the date of the file added. -/
def windows (file : Int → L) (lag : Int) : Bool → List (Rat × L) → List Int → List (Int × List (Rat × L))
  | _, _, [] => []
  | true, ds, t :: l => (t, ds) :: windows file lag false ds l
  | false, ds, t :: l =>
    let ds := shiftFiles ds ((t + lag : Int) : Rat) (file (t + lag))
    (t, ds) :: windows file lag false ds l

/-- Collections of `segment_coherence_forward` (network.py:1828-1853). -/
def windowsForward (file : Int → L) (n : Nat) (lo hi : Int) : List (Int × List (Rat × L)) :=
  windows file n true (fromList file (dates lo (min (lo + n + 1) (hi + 1)))) (dates lo (hi - n + 1))

/-- Collections of `segment_coherence_backward` (network.py:1756-1777). -/
def windowsBackward (file : Int → L) (n : Nat) (lo hi : Int) : List (Int × List (Rat × L)) :=
  windows file 0 true (fromList file (dates lo (min (lo + n + 1) (hi + 1)))) (dates (lo + n) (hi + 1))

/-- `advect` of groups.py:70-90: the clock of the day `k` of the advection. -/
def dayClock (backward : Bool) (ds : List (Rat × L)) (t : Int) (k : Nat) : Option (Clock L) :=
  (start backward ds t).bind (turn backward (dtOf backward 6 (86400 / 6)) k)

/-! ### Specification -/

/-- The daily grids from the day `a`, `n + 1` of them. -/
def daily (file : Int → L) (a : Int) (n : Nat) : List (Rat × L) := (List.range (n + 1)).map (fun (k : Nat) => (((a + k : Int) : Rat), file (a + k)))

/-! ### Proofs -/

theorem dates_eq_nil {a b : Int} (h : b ≤ a) : dates a b = [] := by
  unfold dates
  rw [show (b - a).toNat = 0 by omega]
  rfl

theorem dates_cons {a b : Int} (h : a < b) : dates a b = a :: dates (a + 1) b := by
  unfold dates
  rw [show (b - a).toNat = (b - (a + 1)).toNat + 1 by omega, List.range_succ_eq_map]
  simp only [List.map_cons, Nat.cast_zero, add_zero, List.map_map, List.cons.injEq, true_and]
  refine List.map_congr_left fun k _ => ?_
  simp only [Function.comp_apply, Nat.succ_eq_add_one, Nat.cast_add, Nat.cast_one]
  omega

theorem shift_daily (file : Int → L) (a : Int) (n : Nat) :
    shiftFiles (daily file a n) ((a + 1 + n : Int) : Rat) (file (a + 1 + n)) = daily file (a + 1) n := by
  unfold shiftFiles daily
  conv_lhs => rw [List.range_succ_eq_map]
  rw [List.range_succ]
  simp only [List.map_cons, List.map_map, List.drop_succ_cons, List.drop_zero, List.map_append, List.map_nil]
  congr 1
  refine List.map_congr_left fun k _ => ?_
  simp only [Function.comp_apply, Nat.succ_eq_add_one, Nat.cast_add, Nat.cast_one]
  rw [show a + ((k : Int) + 1) = a + 1 + k by omega]

theorem windows_next (file : Int → L) (n : Nat) (lag : Int) : ∀ (m : Nat) (t hi : Int), (hi - t).toNat = m →
    windows file lag false (daily file (t - 1 + lag - n) n) (dates t hi) = (dates t hi).map (fun s => (s, daily file (s + lag - n) n))
  | 0, t, hi, hm => by
    rw [dates_eq_nil (by omega)]
    rfl
  | m + 1, t, hi, hm => by
    rw [dates_cons (by omega)]
    simp only [windows, List.map_cons]
    have e := shift_daily file (t - 1 + lag - n) n
    rw [show t - 1 + lag - (n : Int) + 1 + n = t + lag by omega, show t - 1 + lag - (n : Int) + 1 = t + lag - n by omega] at e
    rw [e]
    have ih := windows_next file n lag m (t + 1) hi (by omega)
    rw [show t + 1 - 1 + lag - (n : Int) = t + lag - n by omega] at ih
    rw [ih]

theorem windows_all (file : Int → L) (n : Nat) (lag : Int) (t hi : Int) :
    windows file lag true (daily file (t + lag - n) n) (dates t hi) = (dates t hi).map (fun s => (s, daily file (s + lag - n) n)) := by
  by_cases h : t < hi
  · rw [dates_cons h]
    simp only [windows, List.map_cons]
    have e := windows_next file n lag _ (t + 1) hi rfl
    rw [show t + 1 - 1 + lag - (n : Int) = t + lag - n by omega] at e
    rw [e]
  · rw [dates_eq_nil (by omega)]
    rfl

theorem first_files (file : Int → L) {n : Nat} {lo hi : Int} (h : lo + n ≤ hi) :
    fromList file (dates lo (min (lo + n + 1) (hi + 1))) = daily file lo n := by
  unfold fromList dates daily
  rw [show (min (lo + n + 1) (hi + 1) - lo).toNat = n + 1 by omega, List.map_map]
  rfl

/-- **C150**, forward: for each day with `n` days after it in the period, in order, the collection holds exactly the grids of this day and
of the `n` following days, each one under its date. -/
theorem windows_forward (file : Int → L) (n : Nat) (lo hi : Int) :
    windowsForward file n lo hi = (dates lo (hi - n + 1)).map (fun (t : Int) => (t, daily file t n)) := by
  unfold windowsForward
  by_cases h : lo + n ≤ hi
  · rw [first_files file h]
    have e := windows_all file n (n : Int) lo (hi - n + 1)
    rw [show lo + (n : Int) - n = lo by omega] at e
    rw [e]
    refine List.map_congr_left fun t _ => ?_
    rw [show t + (n : Int) - n = t by omega]
  · rw [dates_eq_nil (show hi - n + 1 ≤ lo by omega)]
    rfl

/-- **C150**, backward: for each day with `n` days before it in the period, in order, the collection holds exactly the grids of the `n`
previous days and of this day. -/
theorem windows_backward (file : Int → L) (n : Nat) (lo hi : Int) :
    windowsBackward file n lo hi = (dates (lo + n) (hi + 1)).map (fun t => (t, daily file (t - n) n)) := by
  unfold windowsBackward
  by_cases h : lo + n ≤ hi
  · rw [first_files file h]
    have e := windows_all file n 0 (lo + n) (hi + 1)
    rw [show lo + (n : Int) + 0 - n = lo by omega] at e
    rw [e]
    refine List.map_congr_left fun t _ => ?_
    rw [show t + 0 - (n : Int) = t - n by omega]
  · rw [dates_eq_nil (show hi + 1 ≤ lo + n by omega)]
    rfl

/-- Direction of the days. -/
def dir (backward : Bool) : Int := if backward then -1 else 1

/-- The grid of the day `k` of the advection. -/
def dayGrid (backward : Bool) (file : Int → L) (t : Int) (k : Nat) : Rat × L :=
  seconds (((t + dir backward * k : Int) : Rat), file (t + dir backward * k))

/-- The clock of the day `k` of the advection among `n` days. -/
def clockOf (backward : Bool) (file : Int → L) (t : Int) (n k : Nat) : Clock L :=
  ⟨dayGrid backward file t k, dayGrid backward file t (k + 1),
    (List.range (n - 1 - k)).map (fun i => dayGrid backward file t (k + 2 + i)), (dayGrid backward file t k).1⟩

theorem dt_day (b : Bool) : dtOf b 6 (86400 / 6) = dir b * 86400 := by
  cases b <;> simp [dtOf, dir] <;> norm_num

theorem shift_same (b : Bool) (file : Int → L) (t : Int) (n k : Nat) : Advect.shift b (clockOf b file t n k) = some (clockOf b file t n k) := by
  unfold Advect.shift
  rw [if_neg]
  cases b <;> simp [clockOf, dayGrid, dir, seconds]

theorem shift_succ (b : Bool) (file : Int → L) (t : Int) {n k : Nat} (h : k + 2 ≤ n) :
    Advect.shift b { clockOf b file t n k with t := (clockOf b file t n k).t + dtOf b 6 (86400 / 6) } = some (clockOf b file t n (k + 1)) := by
  have ht : (clockOf b file t n k).t + dtOf b 6 (86400 / 6) = (dayGrid b file t (k + 1)).1 := by
    rw [dt_day]
    unfold clockOf dayGrid seconds
    push_cast
    ring
  rw [ht]
  unfold Advect.shift
  rw [if_pos (by cases b <;> simp [clockOf])]
  have hr : (clockOf b file t n k).rest = dayGrid b file t (k + 2) :: (clockOf b file t n (k + 1)).rest := by
    unfold clockOf
    simp only
    rw [show n - 1 - k = (n - 1 - (k + 1)) + 1 by omega, List.range_succ_eq_map]
    simp only [List.map_cons, List.map_map, add_zero]
    congr 1
    refine List.map_congr_left fun i _ => ?_
    simp only [Function.comp_apply, Nat.succ_eq_add_one]
    rw [show k + 2 + (i + 1) = k + 1 + 2 + i by omega]
  simp only [hr]
  rfl

theorem turn_days (b : Bool) (file : Int → L) (t : Int) (n : Nat) : ∀ (m k : Nat), k + m < n →
    turn b (dtOf b 6 (86400 / 6)) m (clockOf b file t n k) = some (clockOf b file t n (k + m))
  | 0, k, _ => by rw [turn, shift_same]; rfl
  | m + 1, k, h => by
    rw [turn, shift_same, Option.bind_some]
    have ih := turn_days b file t n m (k + 1) (by omega)
    cases m with
    | zero => rw [turn, shift_succ b file t (by omega)]
    | succ m =>
      rw [turn, shift_succ b file t (by omega)]
      rw [turn, shift_same] at ih
      rw [ih, show k + 1 + (m + 1) = k + (m + 1 + 1) by omega]

theorem generator_daily (b : Bool) (file : Int → L) (t : Int) (n : Nat) :
    (Advect.generator b (daily file (if b then t - n else t) n) t).map seconds = (List.range (n + 1)).map (fun k => dayGrid b file t k) := by
  unfold Advect.generator
  cases b with
  | false =>
    simp only [Bool.false_eq_true, if_false]
    rw [List.filter_eq_self.2]
    · unfold daily
      rw [List.map_map]
      refine List.map_congr_left fun k _ => ?_
      simp [dayGrid, dir]
    · intro d hd
      unfold daily at hd
      obtain ⟨k, _, rfl⟩ := List.mem_map.1 hd
      simp
  | true =>
    simp only [if_true]
    rw [List.filter_eq_self.2]
    · unfold daily
      rw [List.map_reverse, List.map_map]
      refine List.ext_getElem (by simp) fun i h1 h2 => ?_
      have hi : i < n + 1 := by simpa using h2
      simp only [List.getElem_reverse, List.getElem_map, List.getElem_range, List.length_map, List.length_range, Function.comp_apply]
      unfold dayGrid dir
      simp only [if_true]
      rw [show t - (n : Int) + ((n + 1 - 1 - i : Nat) : Int) = t + -1 * i by omega]
    · intro d hd
      rw [List.mem_reverse] at hd
      unfold daily at hd
      obtain ⟨k, hk, rfl⟩ := List.mem_map.1 hd
      rw [List.mem_range] at hk
      have : t - (n : Int) + k ≤ t := by omega
      have : ((t - (n : Int) + k : Int) : Rat) ≤ (t : Rat) := by exact_mod_cast this
      simpa using this

/-- **C150**: the advection of `n` days from `t` in its collection never runs out of grids: its day `k` starts at the time of the grid of
the day `t + k` (forward) or `t - k` (backward) and is interpolated between the grids of this day and of the following one, with the six
weights of the linear interpolation. -/
theorem days_spec (b : Bool) (file : Int → L) (t : Int) {n k : Nat} (hk : k < n) :
    ∃ c, dayClock b (daily file (if b then t - n else t) n) t k = some c ∧
      c.d0 = seconds (((t + dir b * k : Int) : Rat), file (t + dir b * k)) ∧
      c.d1 = seconds (((t + dir b * (k + 1) : Int) : Rat), file (t + dir b * (k + 1))) ∧
      c.t = ((t + dir b * k : Int) : Rat) * 86400 ∧
      weightsAt b 6 (86400 / 6) c = [1, 5 / 6, 4 / 6, 3 / 6, 2 / 6, 1 / 6] := by
  refine ⟨clockOf b file t n k, ?_, rfl, ?_, rfl, ?_⟩
  · unfold dayClock start
    rw [generator_daily]
    obtain ⟨n, rfl⟩ : ∃ m, n = m + 1 := ⟨n - 1, by omega⟩
    rw [List.range_succ_eq_map, List.range_succ_eq_map]
    simp only [List.map_cons, List.map_map, Option.bind_some]
    have e := turn_days b file t (n + 1) k 0 (by omega)
    rw [Nat.zero_add] at e
    rw [← e]
    congr 1
    unfold clockOf
    have e0 : (dayGrid b file t 0).1 = (t : Rat) * 86400 := by simp [dayGrid, seconds]
    rw [e0]
    simp only [Nat.zero_add, Nat.succ_eq_add_one, Clock.mk.injEq, true_and, and_true]
    rw [show n + 1 - 1 - 0 = n by omega]
    refine List.map_congr_left fun i _ => ?_
    simp only [Function.comp_apply, Nat.succ_eq_add_one]
    rw [show i + 1 + 1 = 2 + i by omega]
  · unfold clockOf dayGrid
    push_cast
    rfl
  · unfold weightsAt clockOf dayGrid seconds
    rw [show List.range 6 = [0, 1, 2, 3, 4, 5] from rfl]
    cases b <;> simp [dir, Advect.stepOf] <;> ring_nf <;> simp

/-- **C150** for the whole analysis: the collection of each date gives each day of its advection. -/
theorem forward_days {file : Int → L} {n : Nat} {lo hi t : Int} {ds : List (Rat × L)} (h : (t, ds) ∈ windowsForward file n lo hi) :
    lo ≤ t ∧ t + n ≤ hi ∧ ∀ k : Nat, k < n → ∃ c, dayClock false ds t k = some c ∧
      c.d0 = seconds (((t + k : Int) : Rat), file (t + k)) ∧ c.d1 = seconds (((t + (k + 1) : Int) : Rat), file (t + (k + 1))) := by
  rw [windows_forward, List.mem_map] at h
  obtain ⟨s, hs, e⟩ := h
  rw [mem_dates] at hs
  simp only [Prod.mk.injEq] at e
  obtain ⟨rfl, rfl⟩ := e
  refine ⟨hs.1, by omega, fun k hk => ?_⟩
  obtain ⟨c, h1, h2, h3, _⟩ := days_spec false file s hk
  simp only [Bool.false_eq_true, if_false, dir, one_mul] at h1 h2 h3
  exact ⟨c, h1, h2, h3⟩

theorem backward_days {file : Int → L} {n : Nat} {lo hi t : Int} {ds : List (Rat × L)} (h : (t, ds) ∈ windowsBackward file n lo hi) :
    lo ≤ t - n ∧ t ≤ hi ∧ ∀ k : Nat, k < n → ∃ c, dayClock true ds t k = some c ∧
      c.d0 = seconds (((t - k : Int) : Rat), file (t - k)) ∧ c.d1 = seconds (((t - (k + 1) : Int) : Rat), file (t - (k + 1))) := by
  rw [windows_backward, List.mem_map] at h
  obtain ⟨s, hs, e⟩ := h
  rw [mem_dates] at hs
  simp only [Prod.mk.injEq] at e
  obtain ⟨rfl, rfl⟩ := e
  refine ⟨by omega, by omega, fun k hk => ?_⟩
  obtain ⟨c, h1, h2, h3, _⟩ := days_spec true file s hk
  simp only [if_true, dir, neg_mul, one_mul] at h1 h2 h3
  exact ⟨c, h1, h2, h3⟩

/-- All the dates with enough days around are treated, once, in order. -/
theorem treated_dates (file : Int → L) (n : Nat) (lo hi : Int) :
    (windowsForward file n lo hi).map Prod.fst = dates lo (hi - n + 1) ∧
    (windowsBackward file n lo hi).map Prod.fst = dates (lo + n) (hi + 1) := by
  rw [windows_forward, windows_backward, List.map_map, List.map_map]
  exact ⟨List.map_id' _, List.map_id' _⟩

example : windowsForward (fun t => t) 2 10 14 = [(10, [(10, 10), (11, 11), (12, 12)]), (11, [(11, 11), (12, 12), (13, 13)]), (12, [(12, 12), (13, 13), (14, 14)])] := by
  decide +kernel

example : windowsBackward (fun t => t) 2 10 13 = [(12, [(10, 10), (11, 11), (12, 12)]), (13, [(11, 11), (12, 12), (13, 13)])] := by decide +kernel

example : (2, daily (fun t : Int => t) 2 1) ∈ windowsForward (fun t => t) 1 2 3 := by decide +kernel

/-! ### `shift_files` alone -/

/-- Several calls of `shift_files`. -/
def shifts (ds : List (Rat × L)) (l : List (Rat × L)) : List (Rat × L) := l.foldl (fun ds d => shiftFiles ds d.1 d.2) ds

/-- A collection which is not empty keeps its size: it holds the last grids given, in order. -/
theorem shifts_spec (l : List (Rat × L)) : ∀ (ds : List (Rat × L)), ds ≠ [] →
    shifts ds l = (ds ++ l).drop l.length ∧ (shifts ds l).length = ds.length := by
  induction l with
  | nil => intro ds _; simp [shifts]
  | cons d l ih =>
    intro ds hne
    have hs : shifts ds (d :: l) = shifts (shiftFiles ds d.1 d.2) l := rfl
    obtain ⟨h1, h2⟩ := ih (shiftFiles ds d.1 d.2) (by simp [shiftFiles])
    rw [hs, h1]
    cases ds with
    | nil => exact absurd rfl hne
    | cons e ds =>
      constructor
      · simp [shiftFiles]
      · rw [← h1, h2]; simp [shiftFiles]

/-- When the grids are in order of time and the new ones are later, only older grids are removed: each grid removed is before each grid kept. -/
theorem shifts_oldest {ds l : List (Rat × L)} (hne : ds ≠ []) (hs : (ds ++ l).Pairwise (fun a b => a.1 < b.1)) :
    (shifts ds l).Pairwise (fun a b => a.1 < b.1) ∧ (∀ d ∈ shifts ds l, d ∈ ds ++ l) ∧
    ∀ d ∈ ds ++ l, d ∉ shifts ds l → ∀ e ∈ shifts ds l, d.1 < e.1 := by
  rw [(shifts_spec l ds hne).1]
  refine ⟨hs.sublist (List.drop_sublist _ _), fun d hd => List.mem_of_mem_drop hd, fun d hd hnd e he => ?_⟩
  rw [← List.take_append_drop l.length (ds ++ l)] at hd hs
  rw [List.mem_append] at hd
  rcases hd with hd | hd
  · exact (List.pairwise_append.1 hs).2.2 d hd e he
  · exact absurd hd hnd

/-- "Remove the oldest" needs grids in order of time: the first of the list is removed. -/
theorem shift_unsorted_wrong : shiftFiles [((2 : Rat), ()), (1, ())] 3 () = [(1, ()), (3, ())] := by decide +kernel

/-- An empty collection grows. -/
theorem shift_empty (t : Rat) (d : L) : shiftFiles [] t d = [(t, d)] := rfl

example : shifts [((0 : Rat), 'a'), (1, 'b')] [(2, 'c'), (3, 'd'), (4, 'e')] = [(3, 'd'), (4, 'e')] := by decide +kernel

end Verif.Particles
