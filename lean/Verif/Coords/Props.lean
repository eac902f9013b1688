import Verif.Coords.Model
import Verif.Pixels.Props
import Verif.Poly.Indexs
import Mathlib.Tactic.IntervalCases

/-!
# C109, C110, C111, C112: coordinates of a grid
-/

namespace Verif.Coords

/-! ### Specification -/

/-- An axis with a constant step: at least two values, value `k` is `a + k * s`. -/
structure Regular (l : List Rat) (a s : Rat) : Prop where
  two : 2 ≤ l.length
  pos : 0 < s
  val : ∀ k : Nat, k < l.length → l[k]? = some (a + k * s)

/-- The pixel `k` of the axis holds the position `x`. -/
def Holds (bounds : List Rat) (k : Nat) (x : Rat) : Prop :=
  ∃ u v : Rat, bounds[k]? = some u ∧ bounds[k + 1]? = some v ∧ u ≤ x ∧ x < v

/-! ### Lemmas -/

theorem get_last {l : List Rat} {n : Nat} (h : l.length = n + 1) : Py.get l (-1) = l[n]? := by
  unfold Py.get Py.idx
  rw [if_neg (by omega), if_pos (by omega)]
  simp only [Option.bind_some]
  congr 1
  omega

theorem get_last2 {l : List Rat} {n : Nat} (h : l.length = n + 2) : Py.get l (-2) = l[n]? := by
  unfold Py.get Py.idx
  rw [if_neg (by omega), if_pos (by omega)]
  simp only [Option.bind_some]
  congr 1
  omega

theorem diffs_length (l : List Rat) : (diffs l).length = l.length - 1 := by
  unfold diffs
  simp

theorem diffs_get {l : List Rat} {k : Nat} {u v : Rat} (hu : l[k]? = some u) (hv : l[k + 1]? = some v) : (diffs l)[k]? = some (v - u) := by
  unfold diffs
  rw [List.getElem?_zipWith, List.getElem?_tail, hv, hu]

/-- The bounds in terms of the centres: half of the gap to the next centre is taken off; the last gap serves twice. -/
theorem bounds_spec {c : List Rat} {n : Nat} (hn : c.length = n + 2) {f : Nat → Rat} (hf : ∀ k, k < n + 2 → c[k]? = some (f k)) :
    ∃ b, cToBounds c = some b ∧ b.length = n + 3 ∧ (∀ k, k ≤ n → b[k]? = some (f k - (f (k + 1) - f k) / 2)) ∧
      b[n + 1]? = some (f (n + 1) - (f (n + 1) - f n) / 2) ∧ b[n + 2]? = some (f (n + 1) + (f (n + 1) - f n) / 2) := by
  obtain ⟨l, hl⟩ : ∃ l, l = c ++ [2 * f (n + 1) - f n] := ⟨_, rfl⟩
  have hll : l.length = n + 3 := by simp [hl, hn]
  have g1 : ∀ k, k < n + 2 → l[k]? = some (f k) := fun k hk => by
    rw [hl, List.getElem?_append_left (by omega), hf k hk]
  have g2 : l[n + 2]? = some (2 * f (n + 1) - f n) := by
    rw [hl, List.getElem?_append_right (by omega)]
    simp [hn]
  have d1 : ∀ k, k ≤ n → (diffs l)[k]? = some (f (k + 1) - f k) := fun k hk => diffs_get (g1 k (by omega)) (g1 (k + 1) (by omega))
  have d2 : (diffs l)[n + 1]? = some (f (n + 1) - f n) := by
    rw [diffs_get (g1 (n + 1) (by omega)) g2]
    congr 1
    ring
  have dl : (diffs l).length = n + 2 := by rw [diffs_length, hll]; rfl
  refine ⟨List.zipWith (fun b h => b - h / 2) l (diffs l) ++ [2 * f (n + 1) - f n - (f (n + 1) - f n) / 2], ?_, ?_, ?_, ?_, ?_⟩
  · unfold cToBounds
    rw [get_last (n := n + 1) hn, hf (n + 1) (by omega), get_last2 hn, hf n (by omega)]
    simp only [Option.bind_eq_bind, Option.bind_some, ← hl]
    rw [get_last (n := n + 2) hll, g2, get_last (n := n + 1) dl, d2]
    rfl
  · simp [hll, dl]
  · intro k hk
    rw [List.getElem?_append_left (by simp [hll, dl]; omega), List.getElem?_zipWith, g1 k (by omega), d1 k hk]
  · rw [List.getElem?_append_left (by simp [hll, dl]), List.getElem?_zipWith, g1 (n + 1) (by omega), d2]
  · rw [List.getElem?_append_right (by simp [hll, dl])]
    simp only [List.length_zipWith, hll, dl]
    simp only [Nat.min_def]
    norm_num
    ring

theorem bounds_short {c : List Rat} (h : c.length < 2) : cToBounds c = none := by
  match c, h with
  | [], _ => rfl
  | [x], _ => rfl

/-! ### C109: bounds and centres -/

/-- Constant step: the bounds are in the middle of the centres, half a step outside at both ends. -/
theorem bounds_regular_partial {c : List Rat} {a s : Rat} (h : Regular c a s) :
    ∃ b, cToBounds c = some b ∧ b.length = c.length + 1 ∧ Regular b (a - s / 2) s := by
  obtain ⟨n, hn⟩ : ∃ n, c.length = n + 2 := ⟨c.length - 2, by have := h.two; omega⟩
  obtain ⟨b, h1, h2, h3, h4, h5⟩ := bounds_spec hn (f := fun k => a + k * s) (fun k hk => h.val k (by omega))
  refine ⟨b, h1, by omega, by omega, h.pos, fun k hk => ?_⟩
  rcases Nat.lt_or_ge n k with hk' | hk'
  · rcases (by omega : k = n + 1 ∨ k = n + 2) with rfl | rfl
    · rw [h4]; congr 1; push_cast; ring
    · rw [h5]; congr 1; push_cast; ring
  · rw [h3 k hk']; congr 1; push_cast; ring

/-- Each centre is the middle of its pixel. -/
theorem centre_middle {c b : List Rat} {a s : Rat} (h : Regular c a s) (hb : cToBounds c = some b) {k : Nat} (hk : k < c.length) :
    ∃ x u v, c[k]? = some x ∧ b[k]? = some u ∧ b[k + 1]? = some v ∧ x = (u + v) / 2 ∧ v - u = s := by
  obtain ⟨b', h1, h2, h3⟩ := bounds_regular_partial h
  rw [hb] at h1
  obtain rfl : b = b' := by simpa using h1
  refine ⟨_, _, _, h.val k hk, h3.val k (by omega), h3.val (k + 1) (by omega), ?_, ?_⟩ <;> push_cast <;> ring

/-- The pixels cover the axis without overlap. -/
theorem pixels_partition {b : List Rat} {a s : Rat} (h : Regular b a s) {x : Rat} (h0 : a ≤ x) (h1 : x < a + ((b.length : Rat) - 1) * s) :
    ∃! k, Holds b k x := by
  have hs := h.pos
  have two := h.two
  obtain ⟨k, hk⟩ : ∃ k : Nat, (k : Int) = ⌊(x - a) / s⌋ :=
    ⟨⌊(x - a) / s⌋.toNat, Int.toNat_of_nonneg (Int.floor_nonneg.2 (div_nonneg (by linarith) hs.le))⟩
  have e1 := Int.floor_le ((x - a) / s)
  have e2 := Int.lt_floor_add_one ((x - a) / s)
  rw [← hk, le_div_iff₀ hs] at e1
  rw [← hk, div_lt_iff₀ hs] at e2
  push_cast at e1 e2
  have hkl : k + 1 < b.length := by
    by_contra hc
    have : (b.length : Rat) ≤ k + 1 := by exact_mod_cast not_lt.1 hc
    nlinarith
  refine ⟨k, ⟨_, _, h.val k (by omega), h.val (k + 1) hkl, by linarith, by push_cast; linarith⟩, ?_⟩
  rintro j ⟨u, v, hu, hv, h3, h4⟩
  have hj : j + 1 < b.length := by
    by_contra hc
    rw [List.getElem?_eq_none (by omega)] at hv
    exact absurd hv (by simp)
  rw [h.val j (by omega)] at hu
  rw [h.val (j + 1) hj] at hv
  simp only [Option.some.injEq] at hu hv
  subst hu hv
  push_cast at h4
  have l1 : (j : Rat) < k + 1 := by
    by_contra hc
    nlinarith [not_lt.1 hc]
  have l2 : (k : Rat) < j + 1 := by
    by_contra hc
    nlinarith [not_lt.1 hc]
  have l1' : j < k + 1 := by exact_mod_cast l1
  have l2' : k < j + 1 := by exact_mod_cast l2
  omega

/-- Any axis: the centre `k` is inside its pixel exactly when the gap after the next centre is at most the double of the gap before. -/
theorem centre_inside_iff {c b : List Rat} {n : Nat} (hn : c.length = n + 2) {f : Nat → Rat} (hf : ∀ k, k < n + 2 → c[k]? = some (f k))
    (hb : cToBounds c = some b) {k : Nat} (hk : k + 1 ≤ n) (hinc : f k < f (k + 1)) :
    (∃ u v, b[k]? = some u ∧ b[k + 1]? = some v ∧ u ≤ f k ∧ f k ≤ v) ↔ f (k + 2) - f (k + 1) ≤ 2 * (f (k + 1) - f k) := by
  obtain ⟨b', h1, h2, h3, h4, h5⟩ := bounds_spec hn hf
  rw [hb] at h1
  obtain rfl : b = b' := by simpa using h1
  rw [h3 k (by omega), h3 (k + 1) hk]
  constructor
  · rintro ⟨u, v, hu, hv, h6, h7⟩
    simp only [Option.some.injEq] at hu hv
    subst hu hv
    linarith
  · intro h
    exact ⟨_, _, rfl, rfl, by linarith, by linarith⟩

/-- The step is the length divided by the number of gaps, for any axis. -/
theorem diffs_sum : ∀ (l : List Rat) (x : Rat), (diffs (x :: l)).sum = (x :: l).getLastD 0 - x
  | [], x => by simp [diffs]
  | y :: l, x => by
    have ih := diffs_sum l y
    unfold diffs at ih ⊢
    simp only [List.tail_cons, List.zipWith_cons_cons, List.sum_cons] at ih ⊢
    rw [ih]
    simp only [List.getLastD_eq_getLast?, List.getLast?_cons_cons]
    ring

theorem regular_head {l : List Rat} {a s : Rat} (h : Regular l a s) : l.headD 0 = a := by
  have := h.val 0 (by have := h.two; omega)
  rw [List.headD_eq_head?_getD, List.head?_eq_getElem?, this]
  simp

theorem regular_last {l : List Rat} {a s : Rat} (h : Regular l a s) : l.getLastD 0 = a + ((l.length : Rat) - 1) * s := by
  have h2 := h.two
  have hn := h.val (l.length - 1) (by omega)
  rw [List.getLastD_eq_getLast?, List.getLast?_eq_getElem?, hn, Option.getD_some, Nat.cast_sub (by omega), Nat.cast_one]

theorem step_regular {l : List Rat} {a s : Rat} (h : Regular l a s) : (diffs l).sum / ((diffs l).length : Rat) = s := by
  have h2 := h.two
  have h3 := regular_last h
  have h4 := regular_head h
  match l, h2 with
  | x :: y :: l, _ =>
    rw [diffs_sum, h3]
    simp only [List.headD_cons] at h4
    rw [h4, diffs_length]
    simp only [List.length_cons, Nat.add_sub_cancel]
    have : ((l.length : Rat) + 1) ≠ 0 := by positivity
    push_cast
    field_simp
    ring

theorem centres_regular {b : List Rat} {a s : Rat} (h : Regular b a s) :
    ∃ c, centresOf b = some c ∧ c.length = b.length ∧ Regular c (a + s / 2) s := by
  obtain ⟨n, hn⟩ : ∃ n, b.length = n + 2 := ⟨b.length - 2, by have := h.two; omega⟩
  have d1 : ∀ k, k ≤ n → ((diffs b).map (· / 2))[k]? = some (s / 2) := fun k hk => by
    rw [List.getElem?_map, diffs_get (h.val k (by omega)) (h.val (k + 1) (by omega))]
    simp only [Option.map_some]
    congr 1
    push_cast
    ring
  have dl : ((diffs b).map (· / 2)).length = n + 1 := by rw [List.length_map, diffs_length, hn]; rfl
  refine ⟨List.zipWith (· + ·) b ((diffs b).map (· / 2)) ++ [a + (n + 1 : Nat) * s + s / 2], ?_, ?_, ?_, h.pos, ?_⟩
  · unfold centresOf
    simp only
    rw [get_last (n := n + 1) hn, h.val (n + 1) (by omega), get_last (n := n) dl, d1 n le_rfl]
    rfl
  · rw [List.length_append, List.length_zipWith, dl, hn]
    simp
  · rw [List.length_append, List.length_zipWith, dl, hn]
    simp
  · intro k hk
    rw [List.length_append, List.length_zipWith, dl, hn] at hk
    simp only [List.length_singleton] at hk
    rcases Nat.lt_or_ge n k with hk' | hk'
    · obtain rfl : k = n + 1 := by omega
      rw [List.getElem?_append_right (by rw [List.length_zipWith, dl, hn]; omega), List.length_zipWith, dl, hn]
      simp only [Nat.min_def]
      norm_num
      ring
    · rw [List.getElem?_append_left (by rw [List.length_zipWith, dl, hn]; omega), List.getElem?_zipWith, d1 k hk', h.val k (by omega)]
      simp only [Option.some.injEq]
      ring

theorem diffs_regular {l : List Rat} {a s : Rat} (h : Regular l a s) : ∀ d ∈ diffs l, d = s := by
  intro d hd
  obtain ⟨k, hk⟩ := List.mem_iff_getElem?.1 hd
  have hkl : k < l.length - 1 := by
    have := List.getElem?_eq_some_iff.1 hk
    obtain ⟨h1, _⟩ := this
    rw [diffs_length] at h1
    exact h1
  rw [diffs_get (h.val k (by omega)) (h.val (k + 1) (by omega))] at hk
  simp only [Option.some.injEq] at hk
  rw [← hk]
  push_cast
  ring

/-- The description by the centres and the description by the corners: steps and centres; the regular grid is accepted. -/
theorem setup_regular {centered : Bool} {v : List Rat} {a s : Rat} (h : Regular v a s) :
    ∃ ax, setupRegular centered v = some (ax, s) ∧ ax.centres.length = v.length ∧
      Regular ax.centres (if centered then a else a + s / 2) s ∧ Regular ax.bounds (if centered then a - s / 2 else a) s ∧
      ax.bounds.length = if centered then v.length + 1 else v.length := by
  have ok : ∀ {l : List Rat} {a' : Rat}, Regular l a' s → ((diffs l).any (fun d => decide (d < 0))) = false := by
    intro l a' hl
    rw [List.any_eq_false]
    intro d hd
    rw [diffs_regular hl d hd]
    simpa using hl.pos.le
  cases centered
  · obtain ⟨c, h1, h2, h3⟩ := centres_regular h
    refine ⟨⟨c, v⟩, ?_, h2, by simpa using h3, by simpa using h, by simp⟩
    simp only [setupRegular, setup, h1, Bool.false_eq_true, if_false, Option.map_some, Option.bind_some, ok h, step_regular h3]
  · obtain ⟨b, h1, h2, h3⟩ := bounds_regular_partial h
    refine ⟨⟨v, b⟩, ?_, rfl, by simpa using h, by simpa using h3, by simpa using h2⟩
    simp only [setupRegular, setup, h1, if_true, Bool.false_eq_true, if_false, Option.map_some, Option.bind_some, ok h3, step_regular h]

/-- What `bounds` gives. -/
theorem extent_regular {ax : Axis} {a s : Rat} (h : Regular ax.bounds a s) :
    extent ax = (a, a + ((ax.bounds.length : Rat) - 1) * s) := by
  have h2 := h.two
  have mem0 : a ∈ ax.bounds := by
    have := h.val 0 (by omega)
    simp only [Nat.cast_zero, zero_mul, add_zero] at this
    exact List.mem_of_getElem? this
  have mem1 : a + ((ax.bounds.length : Rat) - 1) * s ∈ ax.bounds := by
    have := h.val (ax.bounds.length - 1) (by omega)
    rw [Nat.cast_sub (by omega), Nat.cast_one] at this
    exact List.mem_of_getElem? this
  have range : ∀ x ∈ ax.bounds, a ≤ x ∧ x ≤ a + ((ax.bounds.length : Rat) - 1) * s := by
    intro x hx
    obtain ⟨k, hk⟩ := List.mem_iff_getElem?.1 hx
    have hkl : k < ax.bounds.length := (List.getElem?_eq_some_iff.1 hk).1
    rw [h.val k hkl] at hk
    simp only [Option.some.injEq] at hk
    have : (k : Rat) ≤ (ax.bounds.length : Rat) - 1 := by
      have : (k : Rat) + 1 ≤ ax.bounds.length := by exact_mod_cast hkl
      linarith
    have hs := h.pos
    constructor
    · have : 0 ≤ (k : Rat) * s := by positivity
      linarith
    · nlinarith
  unfold extent
  have ne : ax.bounds ≠ [] := by rintro e; rw [e] at h2; simp at h2
  refine Prod.ext ?_ ?_
  · apply le_antisymm ((Poly.minR_spec ne).2 _ mem0) ((range _ (Poly.minR_spec ne).1).1)
  · apply le_antisymm ((range _ (Poly.maxR_spec ne).1).2) ((Poly.maxR_spec ne).2 _ mem1)

/-- Irregular axis: accepted though one pixel is empty, and two centres out of three are not in their pixels. -/
theorem bounds_irregular_wrong :
    (setupRegular true [0, 1, 4]).map (fun r => (r.1.bounds, r.2)) = some ([-1 / 2, -1 / 2, 5 / 2, 11 / 2], 2) ∧
      (∀ b, cToBounds [0, 1, 4] = some b → ¬ Holds b 0 0) := by
  constructor
  · decide +kernel
  · intro b hb
    have : cToBounds [0, 1, 4] = some [-1 / 2, -1 / 2, 5 / 2, 11 / 2] := by decide +kernel
    rw [this] at hb
    obtain rfl := Option.some.inj hb
    rintro ⟨u, v, hu, hv, h1, h2⟩
    simp at hu hv
    subst hu hv
    norm_num at h2

/-- Two longitudes by their centres. -/
example : Regular [10, 30, 50] 10 20 := ⟨by decide, by norm_num, fun k hk => by
  have : k < 3 := hk
  interval_cases k <;> norm_num⟩

example : (setupRegular true [10, 30, 50]).map (fun r => (r.1.bounds, r.2)) = some ([0, 20, 40, 60], 20) := by decide +kernel

/-! ### C110: circular grids -/

/-- Circular: the bounds are at a whole number of turns, up to `0.0001`. -/
theorem circular_sound {ax : Axis} (h : isCircular ax = true) :
    ∃ k : Int, |(ax.bounds.getLastD 0 - ax.bounds.headD 0) - 360 * k| < 1 / 10000 := by
  unfold isCircular at h
  rw [decide_eq_true_eq] at h
  obtain ⟨_, _, k, hk⟩ := Py.fmod_spec (ax.bounds.headD 0) (show (0 : Rat) < 360 by norm_num)
  obtain ⟨_, _, m, hm⟩ := Py.fmod_spec (ax.bounds.getLastD 0) (show (0 : Rat) < 360 by norm_num)
  refine ⟨k - m, ?_⟩
  rw [hk, hm] at h
  rw [abs_sub_comm] at h
  have : ax.bounds.getLastD 0 - ax.bounds.headD 0 - 360 * ((k - m : Int) : Rat) = ax.bounds.getLastD 0 + m * 360 - (ax.bounds.headD 0 + k * 360) := by
    push_cast; ring
  rwa [this]

/-- A global grid described by its centres is circular. -/
theorem circular_global_partial {v : List Rat} {a s : Rat} (h : Regular v a s) (hg : (v.length : Rat) * s = 360) :
    ∃ ax, setupRegular true v = some (ax, s) ∧ isCircular ax = true := by
  obtain ⟨ax, h1, _, _, h4, h5⟩ := setup_regular (centered := true) h
  refine ⟨ax, h1, ?_⟩
  unfold isCircular
  simp only [if_true] at h4 h5
  rw [regular_head h4, regular_last h4, h5, decide_eq_true_eq]
  obtain ⟨f1, f2, k, hk⟩ := Py.fmod_spec (a - s / 2) (show (0 : Rat) < 360 by norm_num)
  have : Py.fmod (a - s / 2 + (((v.length + 1 : Nat) : Rat) - 1) * s) 360 = Py.fmod (a - s / 2) 360 := by
    apply Poly.fmod_unique f1 f2 (k := k - 1)
    rw [hk]
    push_cast
    linear_combination -hg
  rw [this]
  norm_num

/-- No global grid described by its corners is circular: the last bound is missing. -/
theorem circular_corner_wrong {v : List Rat} {a s : Rat} (h : Regular v a s) (hg : (v.length : Rat) * s = 360) (hs : 1 / 10000 ≤ s) :
    ∃ ax, setupRegular false v = some (ax, s) ∧ isCircular ax = false := by
  obtain ⟨ax, h1, _, _, h4, h5⟩ := setup_regular (centered := false) h
  refine ⟨ax, h1, ?_⟩
  rw [Bool.eq_false_iff]
  intro hc
  obtain ⟨k, hk⟩ := circular_sound hc
  simp only [Bool.false_eq_true, if_false] at h4 h5
  rw [regular_head h4, regular_last h4, h5] at hk
  have two : (2 : Rat) ≤ v.length := by exact_mod_cast h.two
  have s180 : s ≤ 180 := by nlinarith [h.pos]
  have e : a + ((v.length : Rat) - 1) * s - a - 360 * k = 360 * (1 - k : Int) - s := by
    push_cast
    linear_combination hg
  rw [e, abs_lt] at hk
  rcases le_or_gt (1 - k) 0 with h0 | h0
  · have : ((1 - k : Int) : Rat) ≤ 0 := by exact_mod_cast h0
    linarith [hk.1]
  · have : (1 : Rat) ≤ ((1 - k : Int) : Rat) := by exact_mod_cast h0
    linarith [hk.2]

/-- The full statement: the answer does not depend on the first longitude. -/
def CircularTurn : Prop := ∀ (v : List Rat) (t : Rat),
  (setupRegular true (v.map (· + t))).map (fun r => isCircular r.1) = (setupRegular true v).map (fun r => isCircular r.1)

/-- Four pixels of `89.99999` degrees: circular from 10, not from `44.999995`, where the first bound is 0 and the last `359.99996`. -/
theorem circular_turn_wrong : ¬ CircularTurn := by
  intro h
  have := h [10, 10 + 8999999 / 100000, 10 + 2 * (8999999 / 100000), 10 + 3 * (8999999 / 100000)] (8999999 / 200000 - 10)
  revert this
  decide +kernel

example : Regular [0, 90, 180, 270] 0 90 ∧ (([0, 90, 180, 270] : List Rat).length : Rat) * 90 = 360 := ⟨⟨by decide, by norm_num, fun k hk => by
  have : k < 4 := hk
  interval_cases k <;> norm_num⟩, by norm_num⟩

/-! ### C111: column of a longitude -/

/-- The column found is the one of the bound the nearest of the longitude. -/
theorem column_nearest {ax : Axis} {a s : Rat} (h : Regular ax.bounds a s) (x : Rat) :
    ∃ t : Int, |a + column ax s x * s - (x + 360 * t)| ≤ s / 2 ∧ a ≤ x + 360 * t ∧ x + 360 * t < a + 360 := by
  have hs := h.pos
  unfold column
  rw [regular_head h]
  obtain ⟨f1, f2, k, hk⟩ := Py.fmod_spec (x - a) (show (0 : Rat) < 360 by norm_num)
  refine ⟨k, ?_, by linarith, by linarith⟩
  obtain ⟨r1, r2⟩ := Pixels.rint_bounds (Py.fmod (x - a) 360 / s)
  generalize Amplitude.rint (Py.fmod (x - a) 360 / s) = r at *
  have e : x + 360 * k = a + (Py.fmod (x - a) 360 / s) * s := by
    rw [div_mul_cancel₀ _ hs.ne', hk]; ring
  rw [e, abs_le]
  constructor <;> nlinarith

/-- First half of the pixel: its column. Second half: the next one. -/
theorem column_half_partial {ax : Axis} {a s : Rat} (h : Regular ax.bounds a s) {x : Rat} {k : Nat} (hk : Holds ax.bounds k x) (hx : x < a + 360) :
    (x < a + k * s + s / 2 → column ax s x = k) ∧ (a + k * s + s / 2 < x → column ax s x = k + 1) := by
  have hs := h.pos
  obtain ⟨u, v, hu, hv, h3, h4⟩ := hk
  have hj : k + 1 < ax.bounds.length := by
    by_contra hc
    rw [List.getElem?_eq_none (by omega)] at hv
    exact absurd hv (by simp)
  rw [h.val k (by omega)] at hu
  rw [h.val (k + 1) hj] at hv
  simp only [Option.some.injEq] at hu hv
  subst hu hv
  push_cast at h4
  have hk0 : 0 ≤ (k : Rat) * s := by positivity
  have e : Py.fmod (x - a) 360 = x - a := Poly.fmod_unique (by linarith) (by linarith) (k := 0) (by push_cast; ring)
  unfold column
  rw [regular_head h, e]
  obtain ⟨r1, r2⟩ := Pixels.rint_bounds ((x - a) / s)
  have lo : (k : Rat) ≤ (x - a) / s := by rw [le_div_iff₀ hs]; linarith
  have hi : (x - a) / s < k + 1 := by rw [div_lt_iff₀ hs]; linarith
  constructor
  · intro hl
    have : (x - a) / s < k + 1 / 2 := by rw [div_lt_iff₀ hs]; linarith
    have a1 : ((Amplitude.rint ((x - a) / s) : Int) : Rat) < ((k + 1 : Int) : Rat) := by push_cast; linarith
    have a2 : ((k - 1 : Int) : Rat) < ((Amplitude.rint ((x - a) / s) : Int) : Rat) := by push_cast; linarith
    have a1' := Int.cast_lt.1 a1
    have a2' := Int.cast_lt.1 a2
    omega
  · intro hl
    have : (k : Rat) + 1 / 2 < (x - a) / s := by rw [lt_div_iff₀ hs]; linarith
    have a1 : ((Amplitude.rint ((x - a) / s) : Int) : Rat) < ((k + 2 : Int) : Rat) := by push_cast; linarith
    have a2 : ((k : Int) : Rat) < ((Amplitude.rint ((x - a) / s) : Int) : Rat) := by push_cast; linarith
    have a1' := Int.cast_lt.1 a1
    have a2' := Int.cast_lt.1 a2
    omega

/-- The full statement: the column of a longitude is the one of the pixel which holds it. -/
def ColumnHolds : Prop := ∀ (ax : Axis) (a s x : Rat) (k : Nat), Regular ax.bounds a s → Holds ax.bounds k x → x < a + 360 → column ax s x = k

/-- Pixels of one degree from `-0.5`: the longitude `1.2` is in the pixel 1, the column is 2. -/
theorem column_wrong : ¬ ColumnHolds := by
  intro h
  have reg : Regular [-1 / 2, 1 / 2, 3 / 2, 5 / 2] (-1 / 2) 1 := ⟨by decide, by norm_num, fun k hk => by
    have : k < 4 := hk
    interval_cases k <;> norm_num⟩
  have := h ⟨[0, 1, 2], [-1 / 2, 1 / 2, 3 / 2, 5 / 2]⟩ (-1 / 2) 1 (12 / 10) 1 reg ⟨1 / 2, 3 / 2, rfl, rfl, by norm_num, by norm_num⟩ (by norm_num)
  have h2 := (column_half_partial (ax := ⟨[0, 1, 2], [-1 / 2, 1 / 2, 3 / 2, 5 / 2]⟩) (x := 12 / 10) (k := 1) reg ⟨1 / 2, 3 / 2, rfl, rfl, by norm_num, by norm_num⟩ (by norm_num)).2
    (by norm_num)
  rw [this] at h2
  norm_num at h2

/-! ### C112: drawing from a reference -/

/-- The order of the drawing. -/
def byKey (a b : Rat × Nat) : Prop := a.1 ≤ b.1

instance : DecidableRel byKey := fun a b => inferInstanceAs (Decidable (a.1 ≤ b.1))

instance : Std.Total byKey := ⟨fun a b => le_total a.1 b.1⟩

instance : IsTrans (Rat × Nat) byKey := ⟨fun _ _ _ h1 h2 => le_trans (α := Rat) h1 h2⟩

/-- A global grid: the columns are drawn once each, in order, from the first centre at or after the reference; the pixel of each column
is drawn at its place, up to whole turns. -/
theorem drawn_global {c : List Rat} {a s : Rat} (h : Regular c a s) (hg : (c.length : Rat) * s = 360) (ref : Rat) :
    ∃ (f : Rat) (b : List Rat) (cols : List Nat), drawn ref c = some (b, cols) ∧ ref ≤ f ∧ f < ref + s ∧ b.length = c.length + 1 ∧
      Regular b (f - s / 2) s ∧ cols.Perm (List.range c.length) ∧
      ∀ k : Nat, k < c.length → ∃ (i : Nat) (t : Int), cols[k]? = some i ∧ c[i]? = some (f + k * s + 360 * t) := by
  have hs := h.pos
  have two := h.two
  obtain ⟨n, hn⟩ : ∃ n, n = c.length := ⟨_, rfl⟩
  rw [← hn] at hg two ⊢
  have n0 : (0 : Int) < n := by omega
  obtain ⟨q, hq⟩ : ∃ q, q = ⌊(a - ref) / s⌋ := ⟨_, rfl⟩
  have q1 := Int.floor_le ((a - ref) / s)
  have q2 := Int.lt_floor_add_one ((a - ref) / s)
  rw [← hq, le_div_iff₀ hs] at q1
  rw [← hq, div_lt_iff₀ hs] at q2
  obtain ⟨f, hf⟩ : ∃ f, f = a - q * s := ⟨_, rfl⟩
  have f1 : ref ≤ f := by rw [hf]; linarith
  have f2 : f < ref + s := by rw [hf]; linarith
  obtain ⟨σ, hσ⟩ : ∃ σ : Nat → Nat, ∀ i, (σ i : Int) = (q + i) % n :=
    ⟨fun i => ((q + i) % n).toNat, fun i => Int.toNat_of_nonneg (Int.emod_nonneg _ (by omega))⟩
  obtain ⟨τ, hτ⟩ : ∃ τ : Nat → Nat, ∀ k, (τ k : Int) = (k - q) % n :=
    ⟨fun i => ((i - q) % n).toNat, fun i => Int.toNat_of_nonneg (Int.emod_nonneg _ (by omega))⟩
  have σlt : ∀ i, σ i < n := fun i => by have := Int.emod_lt_of_pos (q + i) n0; have := hσ i; omega
  have τlt : ∀ i, τ i < n := fun i => by have := Int.emod_lt_of_pos (i - q) n0; have := hτ i; omega
  have στ : ∀ k, k < n → σ (τ k) = k := fun k hk => by
    have e : (σ (τ k) : Int) = k := by
      rw [hσ, hτ, Int.add_emod_emod, show q + (k - q) = (k : Int) by ring, Int.emod_eq_of_lt (by omega) (by omega)]
    exact_mod_cast e
  have τσ : ∀ k, k < n → τ (σ k) = k := fun k hk => by
    have e : (τ (σ k) : Int) = k := by
      rw [hτ, hσ, Int.emod_sub_emod, show q + k - q = (k : Int) by ring, Int.emod_eq_of_lt (by omega) (by omega)]
    exact_mod_cast e
  have turn : ∀ i : Nat, a + i * s = f + σ i * s + 360 * ((q + i) / n : Int) := fun i => by
    have e := Int.emod_add_mul_ediv (q + i) n
    rw [← hσ i] at e
    have e' : (σ i : Rat) + n * ((q + i) / n : Int) = q + i := by exact_mod_cast e
    rw [hf]
    linear_combination (-s) * e' + (((q + i) / n : Int) : Rat) * hg
  have val : ∀ i : Nat, Py.fmod (a + i * s - ref) 360 + ref = f + σ i * s := fun i => by
    have b1 : (σ i : Rat) + 1 ≤ n := by exact_mod_cast σlt i
    have b0 : 0 ≤ (σ i : Rat) * s := by positivity
    have : Py.fmod (a + i * s - ref) 360 = f + σ i * s - ref :=
      Poly.fmod_unique (by linarith) (by nlinarith) (k := -((q + i) / n)) (by rw [turn i]; push_cast; ring)
    rw [this]; ring
  have lx : c.map (fun v => Py.fmod (v - ref) 360 + ref) = (List.range n).map (fun i => f + σ i * s) := by
    apply List.ext_getElem?
    intro i
    rw [List.getElem?_map, List.getElem?_map]
    rcases Nat.lt_or_ge i n with hi | hi
    · rw [h.val i (by omega), List.getElem?_range hi, Option.map_some, Option.map_some, val i]
    · rw [List.getElem?_eq_none (by omega), List.getElem?_eq_none (by simpa using hi)]
      rfl
  have lz : ((List.range n).map (fun i => f + σ i * s)).zipIdx = (List.range n).map (fun i => (f + σ i * s, i)) := by
    apply List.ext_getElem?
    intro i
    rw [List.getElem?_zipIdx, List.getElem?_map, List.getElem?_map]
    rcases Nat.lt_or_ge i n with hi | hi
    · rw [List.getElem?_range hi]; simp
    · rw [List.getElem?_eq_none (by simpa using hi)]; rfl
  have inj : ∀ k l : Nat, f + (k : Rat) * s = f + l * s → k = l := fun k l e => by
    have : (k : Rat) * s = l * s := by linarith
    exact_mod_cast mul_right_cancel₀ hs.ne' this
  have sorted : ((List.range n).map (fun i => (f + σ i * s, i))).insertionSort (fun a b => a.1 ≤ b.1) =
      (List.range n).map (fun k : Nat => (f + k * s, τ k)) := by
    apply List.Perm.eq_of_pairwise (le := byKey)
    · intro u v _ hu h1 h2
      rename_i hv
      rw [List.mem_insertionSort, List.mem_map] at hv
      rw [List.mem_map] at hu
      obtain ⟨i, hi, rfl⟩ := hv
      obtain ⟨k, hk, rfl⟩ := hu
      have := inj _ _ (le_antisymm h1 h2)
      rw [List.mem_range] at hi
      rw [← this, τσ i hi]
    · exact List.pairwise_insertionSort byKey _
    · rw [List.pairwise_map]
      apply List.Pairwise.imp _ List.pairwise_lt_range
      intro k l hkl
      have : (k : Rat) ≤ l := by exact_mod_cast hkl.le
      unfold byKey
      simp only
      nlinarith
    · refine (List.perm_insertionSort _ _).trans ?_
      rw [List.perm_ext_iff_of_nodup]
      · rintro ⟨v, i⟩
        simp only [List.mem_map, List.mem_range, Prod.mk.injEq]
        constructor
        · rintro ⟨i, hi, rfl, rfl⟩
          exact ⟨σ i, σlt i, rfl, τσ i hi⟩
        · rintro ⟨k, hk, rfl, rfl⟩
          exact ⟨τ k, τlt k, by rw [στ k hk], rfl⟩
      · apply List.Nodup.map _ List.nodup_range
        intro i j e
        simpa using (Prod.mk.inj e).2
      · apply List.Nodup.map _ List.nodup_range
        intro i j e
        exact inj _ _ (Prod.mk.inj e).1
  have reg : Regular ((List.range n).map (fun k : Nat => f + k * s)) f s := ⟨by simpa using two, hs, fun k hk => by
    rw [List.getElem?_map, List.getElem?_range (by simpa using hk)]
    rfl⟩
  obtain ⟨b, b1, b2, b3⟩ := bounds_regular_partial reg
  rw [List.length_map, List.length_range] at b2
  refine ⟨f, b, (List.range n).map τ, ?_, f1, f2, b2, b3, ?_, ?_⟩
  · unfold drawn
    simp only [lx, lz, sorted, List.map_map]
    rw [show (Prod.fst ∘ fun k : Nat => (f + (k : Rat) * s, τ k)) = fun k : Nat => f + (k : Rat) * s from rfl, b1]
    rfl
  · rw [List.perm_ext_iff_of_nodup]
    · intro i
      simp only [List.mem_map, List.mem_range]
      constructor
      · rintro ⟨k, _, rfl⟩
        exact τlt k
      · intro hi
        exact ⟨σ i, σlt i, τσ i hi⟩
    · rw [List.nodup_map_iff_inj_on List.nodup_range]
      intro i hi j hj e
      rw [List.mem_range] at hi hj
      rw [← στ i hi, ← στ j hj, e]
    · exact List.nodup_range
  · intro k hk
    refine ⟨τ k, (q + τ k) / n, ?_, ?_⟩
    · rw [List.getElem?_map, List.getElem?_range hk]
      rfl
    · rw [h.val (τ k) (by have := τlt k; omega), turn (τ k), στ k hk]

/-- Four columns from 100. -/
example : drawn 100 [0, 90, 180, 270] = some ([135, 225, 315, 405, 495], [2, 3, 0, 1]) := by decide +kernel

/-- A regional grid drawn from a reference inside it: the bounds are not in order, the pixels
near the hole cover it. -/
theorem drawn_regional_wrong : drawn 0 [-10, 0, 10] = some ([-5, -160, 180, 520], [1, 2, 0]) := by decide +kernel

end Verif.Coords
