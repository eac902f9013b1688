import Verif.Stencil.Model
import Mathlib.Algebra.Polynomial.Derivative
import Mathlib.Algebra.Polynomial.Eval.Degree
import Mathlib.Tactic.Ring
import Mathlib.Tactic.FieldSimp
import Mathlib.Tactic.LinearCombination
import Mathlib.Algebra.Order.Ring.Rat

/-!
# C46, C47: finite differences
-/

namespace Verif.Stencil

/-- The cell at the offset `k` of the column `i`, if it is in the domain. -/
def pos (nb : Nat) (circular : Bool) (i : Nat) (k : Int) : Option Nat :=
  if circular then some (((i : Int) + k) % (nb : Int)).toNat
  else if 0 ≤ (i : Int) + k ∧ (i : Int) + k < nb then some ((i : Int) + k).toNat else none

/-- The content of the buffer at the column `i`: the nine cells around, those outside of the domain are not masked and hold old values. -/
theorem bufAt_spec {nb : Nat} (h4 : 4 ≤ nb) (circular : Bool) (a : Line) (junk : Int → Rat) : ∀ (i : Nat), i < nb → ∀ k : Int, -4 ≤ k → k ≤ 4 →
    bufAt nb circular a junk i k =
      match pos nb circular i k with
      | some c => a c
      | none => if (i : Int) + k < 0 then (junk (i + k + 1), false) else ((a (nb - 1)).1, false)
  | 0, _, k, hk1, hk2 => by
    rw [bufAt, roll]
    by_cases hk : k = 4
    · subst hk
      rw [if_pos rfl]
      by_cases hnb : 0 + 4 ≥ nb
      · have : nb = 4 := by omega
        subst this
        rw [if_pos (by omega)]
        cases circular with
        | true => simp [pos]
        | false => simp [pos, init]
      · rw [if_neg hnb]
        cases circular with
        | true =>
          simp only [pos, if_true, Nat.cast_zero, zero_add]
          rw [Int.emod_eq_of_lt (by omega) (by omega)]; rfl
        | false =>
          simp only [pos, Bool.false_eq_true, if_false, Nat.cast_zero, zero_add]
          rw [if_pos (by omega)]; rfl
    · rw [if_neg hk]
      unfold init
      by_cases hneg : k + 1 ≤ 0
      · rw [if_pos hneg]
        cases circular with
        | true =>
          simp only [pos, if_true, Nat.cast_zero, zero_add]
          congr 2
          rw [show (nb : Int) + (k + 1) - 1 = k + nb by ring, ← Int.add_emod_right (a := k) (b := (nb : Int)),
            Int.emod_eq_of_lt (by omega) (by omega)]
        | false =>
          simp only [pos, Bool.false_eq_true, if_false, Nat.cast_zero, zero_add]
          rw [if_neg (by omega)]
          simp only
          rw [if_pos (by omega)]
      · rw [if_neg hneg]
        cases circular with
        | true =>
          simp only [pos, if_true, Nat.cast_zero, zero_add]
          rw [Int.emod_eq_of_lt (by omega) (by omega), show k + 1 - 1 = k by ring]
        | false =>
          simp only [pos, Bool.false_eq_true, if_false, Nat.cast_zero, zero_add]
          rw [if_pos (by omega), show k + 1 - 1 = k by ring]
  | i + 1, hi, k, hk1, hk2 => by
    have ih := bufAt_spec h4 circular a junk i (by omega)
    rw [bufAt, roll]
    by_cases hk : k = 4
    · subst hk
      rw [if_pos rfl]
      by_cases hnb : i + 1 + 4 ≥ nb
      · rw [if_pos hnb]
        cases circular with
        | true =>
          simp only [pos, if_true]
          congr 1
        | false =>
          have h := ih 4 (by omega) (by omega)
          simp only [Bool.false_eq_true, if_false]
          rw [h]
          simp only [pos, Bool.false_eq_true, if_false]
          rw [if_neg (show ¬ (0 ≤ ((i + 1 : Nat) : Int) + 4 ∧ ((i + 1 : Nat) : Int) + 4 < nb) by push_cast; omega)]
          simp only
          rw [if_neg (show ¬ ((i + 1 : Nat) : Int) + 4 < 0 by omega)]
          by_cases hin : (i : Int) + 4 < nb
          · rw [if_pos ⟨by omega, hin⟩]
            simp only
            rw [show ((i : Int) + 4).toNat = nb - 1 by omega]
          · rw [if_neg (by omega)]
            simp only
            rw [if_neg (by omega)]
      · rw [if_neg hnb]
        cases circular with
        | true =>
          simp only [pos, if_true]
          rw [Int.emod_eq_of_lt (by omega) (by push_cast; omega)]
          rw [show (((i + 1 : Nat) : Int) + 4).toNat = i + 1 + 4 by omega]
        | false =>
          simp only [pos, Bool.false_eq_true, if_false]
          rw [if_pos (by push_cast; omega)]
          rw [show (((i + 1 : Nat) : Int) + 4).toNat = i + 1 + 4 by omega]
    · rw [if_neg hk, ih (k + 1) (by omega) (by omega)]
      have e : (i : Int) + (k + 1) = ((i + 1 : Nat) : Int) + k := by push_cast; ring
      unfold pos
      rw [e]

/-! ### C47 -/

/-- Half width in use: 1, 2, 3, and 4 for all other values. -/
def width (halfwidth : Int) : Nat := if halfwidth = 1 then 1 else if halfwidth = 2 then 2 else if halfwidth = 3 then 3 else 4

/-- The stencil of the column `i` is in the domain. -/
def Inside (nb : Nat) (circular : Bool) (halfwidth : Int) (i : Nat) : Prop :=
  circular = true ∨ (width halfwidth ≤ i ∧ i + width halfwidth < nb)

/-- The cell at the offset `k` is masked. -/
def Masked (nb : Nat) (circular : Bool) (a : Line) (i : Nat) (k : Int) : Prop := ∃ c, pos nb circular i k = some c ∧ (a c).2 = true

/-- The value of a cell depends only on the buffer values which are not masked, when the two neighbours are not both masked. -/
theorem cell_congr {b b' : Buffer} {halfwidth : Int} {d : Rat} {m : Nat} (hm : m = width halfwidth)
    (hmask : ∀ k : Int, -4 ≤ k → k ≤ 4 → (b k).2 = (b' k).2)
    (hval : ∀ k : Int, -m ≤ k → k ≤ m → (b k).2 = false → (b k).1 = (b' k).1)
    (hone : ¬ ((b 1).2 = true ∧ (b (-1)).2 = true)) : cell b halfwidth d = cell b' halfwidth d := by
  have e0 := hmask 0 (by omega) (by omega)
  have e1 := hmask 1 (by omega) (by omega)
  have e2 := hmask 2 (by omega) (by omega)
  have e3 := hmask 3 (by omega) (by omega)
  have e4 := hmask 4 (by omega) (by omega)
  have f1 := hmask (-1) (by omega) (by omega)
  have f2 := hmask (-2) (by omega) (by omega)
  have f3 := hmask (-3) (by omega) (by omega)
  have f4 := hmask (-4) (by omega) (by omega)
  have hm1 : 1 ≤ m := by rw [hm]; unfold width; split <;> [omega; (split <;> [omega; (split <;> omega)])]
  have v0 := hval 0 (by omega) (by omega)
  have v1 := hval 1 (by omega) (by omega)
  have w1 := hval (-1) (by omega) (by omega)
  unfold cell
  simp only
  rw [← e0, ← e1, ← e2, ← e3, ← e4, ← f1, ← f2, ← f3, ← f4]
  by_cases h0 : (b 0).2 = true
  · rw [if_pos h0, if_pos h0]
  · rw [if_neg h0, if_neg h0]
    have h0' : (b 0).2 = false := by simpa using h0
    by_cases h1 : (b 1).2 = true
    · have h1' : (b (-1)).2 = false := by
        by_contra hc
        exact hone ⟨h1, by simpa using hc⟩
      rw [h1, h1', v0 h0', w1 h1']
      simp
    · have h1f : (b 1).2 = false := by simpa using h1
      by_cases h2 : (b (-1)).2 = true
      · rw [h1f, h2, v0 h0', v1 h1f]
        simp
      · have h2f : (b (-1)).2 = false := by simpa using h2
        rw [h1f, h2f, v1 h1f, w1 h2f]
        by_cases hw1 : halfwidth = 1
        · simp [hw1]
        · have hm2 : 2 ≤ m := by rw [hm]; unfold width; rw [if_neg hw1]; split <;> [omega; (split <;> omega)]
          have v2 := hval 2 (by omega) (by omega)
          have w2 := hval (-2) (by omega) (by omega)
          by_cases h22 : (b 2).2 = true ∨ (b (-2)).2 = true
          · have : ((b 2).2 || (b (-2)).2 || decide (halfwidth = 1)) = true := by
              rcases h22 with h | h <;> simp [h]
            simp [this]
          · push Not at h22
            have h2a : (b 2).2 = false := by simpa using h22.1
            have h2b : (b (-2)).2 = false := by simpa using h22.2
            rw [h2a, h2b, v2 h2a, w2 h2b]
            by_cases hw2 : halfwidth = 2
            · simp [hw2]
            · have hm3 : 3 ≤ m := by rw [hm]; unfold width; rw [if_neg hw1, if_neg hw2]; split <;> omega
              have v3 := hval 3 (by omega) (by omega)
              have w3 := hval (-3) (by omega) (by omega)
              by_cases h33 : (b 3).2 = true ∨ (b (-3)).2 = true
              · have : ((b 3).2 || (b (-3)).2 || decide (halfwidth = 2)) = true := by
                  rcases h33 with h | h <;> simp [h]
                simp [this, hw1]
              · push Not at h33
                have h3a : (b 3).2 = false := by simpa using h33.1
                have h3b : (b (-3)).2 = false := by simpa using h33.2
                rw [h3a, h3b, v3 h3a, w3 h3b]
                by_cases hw3 : halfwidth = 3
                · simp [hw3]
                · have hm4 : 4 ≤ m := by rw [hm]; unfold width; rw [if_neg hw1, if_neg hw2, if_neg hw3]
                  have v4 := hval 4 (by omega) (by omega)
                  have w4 := hval (-4) (by omega) (by omega)
                  by_cases h44 : (b 4).2 = true ∨ (b (-4)).2 = true
                  · have : ((b 4).2 || (b (-4)).2 || decide (halfwidth = 3)) = true := by
                      rcases h44 with h | h <;> simp [h]
                    simp [this, hw1, hw2]
                  · push Not at h44
                    have h4a : (b 4).2 = false := by simpa using h44.1
                    have h4b : (b (-4)).2 = false := by simpa using h44.2
                    rw [h4a, h4b, v4 h4a, w4 h4b, v0 h0']

/-- **C47**: two fields with the same mask which agree on all cells which are not masked have the same result at each column whose
stencil is in the domain and whose two neighbours are not both masked, whatever the variables hold before. Missing: the borders of
grids which are not circular (`border_uses_old_values`) and cells between two masked cells (`both_masked_used`). -/
theorem stencil_masked_partial {nb : Nat} (h4 : 4 ≤ nb) {circular : Bool} {a a' : Line} {junk junk' : Int → Rat} {halfwidth : Int} {d : Rat}
    (hmask : ∀ c, c < nb → (a c).2 = (a' c).2) (hval : ∀ c, c < nb → (a c).2 = false → a c = a' c) {i : Nat} (hi : i < nb)
    (hin : Inside nb circular halfwidth i) (hone : ¬ (Masked nb circular a i 1 ∧ Masked nb circular a i (-1))) :
    line nb circular a junk halfwidth d i = line nb circular a' junk' halfwidth d i := by
  have hlt : ∀ k c, pos nb circular i k = some c → c < nb := by
    intro k c hc
    unfold pos at hc
    split at hc
    · rw [Option.some.injEq] at hc
      have h1 := Int.emod_nonneg ((i : Int) + k) (show (nb : Int) ≠ 0 by omega)
      have h2 := Int.emod_lt_of_pos ((i : Int) + k) (show (0 : Int) < nb by omega)
      omega
    · split at hc
      · rw [Option.some.injEq] at hc; omega
      · cases hc
  have hsome : ∀ k : Int, -(width halfwidth : Int) ≤ k → k ≤ width halfwidth → ∃ c, pos nb circular i k = some c := by
    intro k h1 h2
    unfold pos
    rcases hin with rfl | ⟨g1, g2⟩
    · exact ⟨_, rfl⟩
    · cases circular with
      | true => exact ⟨_, rfl⟩
      | false => rw [if_neg (by simp), if_pos (by omega)]; exact ⟨_, rfl⟩
  have hw : 1 ≤ width halfwidth ∧ width halfwidth ≤ 4 := by
    unfold width; split <;> [omega; (split <;> [omega; (split <;> omega)])]
  unfold line
  apply cell_congr (m := width halfwidth) rfl
  · intro k h1 h2
    rw [bufAt_spec h4 circular a junk i hi k h1 h2, bufAt_spec h4 circular a' junk' i hi k h1 h2]
    cases hp : pos nb circular i k with
    | none => simp only; split <;> rfl
    | some c => exact hmask c (hlt k c hp)
  · intro k h1 h2 hb
    obtain ⟨c, hp⟩ := hsome k h1 h2
    rw [bufAt_spec h4 circular a junk i hi k (by omega) (by omega), hp] at hb ⊢
    rw [bufAt_spec h4 circular a' junk' i hi k (by omega) (by omega), hp]
    simp only at hb ⊢
    rw [hval c (hlt k c hp) hb]
  · rintro ⟨m1, m2⟩
    apply hone
    obtain ⟨c1, hp1⟩ := hsome 1 (by omega) (by omega)
    obtain ⟨c2, hp2⟩ := hsome (-1) (by omega) (by omega)
    rw [bufAt_spec h4 circular a junk i hi _ (by omega) (by omega), hp1] at m1
    rw [bufAt_spec h4 circular a junk i hi _ (by omega) (by omega), hp2] at m2
    exact ⟨⟨c1, hp1, m1⟩, ⟨c2, hp2, m2⟩⟩

/-- An output cell is masked exactly when its own cell is masked. -/
theorem line_masked_iff {nb : Nat} (h4 : 4 ≤ nb) (circular : Bool) (a : Line) (junk : Int → Rat) (halfwidth : Int) (d : Rat) {i : Nat}
    (hi : i < nb) : line nb circular a junk halfwidth d i = none ↔ (a i).2 = true := by
  have h0 : bufAt nb circular a junk i 0 = a i := by
    rw [bufAt_spec h4 circular a junk i hi 0 (by omega) (by omega)]
    cases circular with
    | true => simp only [pos, if_true, add_zero]; rw [Int.emod_eq_of_lt (by omega) (by omega)]; rfl
    | false => simp only [pos, Bool.false_eq_true, if_false, add_zero]; rw [if_pos (by omega)]; rfl
  unfold line cell
  simp only [h0]
  by_cases hm : (a i).2 = true
  · simp [hm]
  · rw [if_neg hm]
    simp only [hm, Bool.false_eq_true, iff_false]
    repeat' split
    all_goals simp

/-- The first column of a grid which is not circular is computed with what the variables held before. -/
theorem border_uses_old_values (r : Rat) :
    line 9 false (fun _ => (0, false)) (fun _ => r) 1 2 0 = some (-r) := by
  have e : ∀ k : Int, -4 ≤ k → k ≤ 4 → _ := bufAt_spec (nb := 9) (by omega) false (fun _ => (0, false)) (fun _ => r) 0 (by omega)
  unfold line cell
  simp only [e 0 (by omega) (by omega), e 1 (by omega) (by omega), e (-1) (by omega) (by omega), e 2 (by omega) (by omega),
    e (-2) (by omega) (by omega)]
  simp [pos]

/-- The last column of a grid which is not circular is computed as if the field were constant beyond the border: half of the slope. -/
theorem last_column_wrong : line 9 false (fun c => ((c : Rat), false)) (fun _ => 0) 1 1 8 = some (1 / 2) := by decide +kernel

/-- Between two masked cells the masked values are used, and the result is not masked. -/
theorem both_masked_used (r : Rat) :
    line 9 true (fun c => if c = 3 then (r, true) else if c = 5 then (0, true) else (0, false)) (fun _ => 0) 4 840 4 = some (-672 * r) := by
  have e : ∀ k : Int, -4 ≤ k → k ≤ 4 → _ := bufAt_spec (nb := 9) (by omega) true
    (fun c => if c = 3 then (r, true) else if c = 5 then (0, true) else (0, false)) (fun _ => 0) 4 (by omega)
  unfold line cell
  simp only [e 0 (by omega) (by omega), e 1 (by omega) (by omega), e (-1) (by omega) (by omega), e 2 (by omega) (by omega),
    e (-2) (by omega) (by omega), e 3 (by omega) (by omega), e (-3) (by omega) (by omega), e 4 (by omega) (by omega),
    e (-4) (by omega) (by omega)]
  simp [pos]

/-! ### C46 -/

open Polynomial in
/-- Values of a polynomial of degree at most 8 and of its derivative. -/
theorem eval_nine (p : ℚ[X]) (h : p.natDegree < 9) (x : ℚ) :
    p.eval x = p.coeff 0 + p.coeff 1 * x + p.coeff 2 * x ^ 2 + p.coeff 3 * x ^ 3 + p.coeff 4 * x ^ 4 + p.coeff 5 * x ^ 5 +
      p.coeff 6 * x ^ 6 + p.coeff 7 * x ^ 7 + p.coeff 8 * x ^ 8 ∧
    p.derivative.eval x = p.coeff 1 + 2 * p.coeff 2 * x + 3 * p.coeff 3 * x ^ 2 + 4 * p.coeff 4 * x ^ 3 + 5 * p.coeff 5 * x ^ 4 +
      6 * p.coeff 6 * x ^ 5 + 7 * p.coeff 7 * x ^ 6 + 8 * p.coeff 8 * x ^ 7 := by
  constructor
  · rw [eval_eq_sum_range' h]
    simp only [Finset.sum_range_succ, Finset.sum_range_zero]
    ring
  · rw [eval_eq_sum_range' (lt_of_le_of_lt (natDegree_derivative_le p) (show p.natDegree - 1 < 8 by omega))]
    simp only [Finset.sum_range_succ, Finset.sum_range_zero, coeff_derivative]
    push_cast
    ring

/-- Number of neighbours on both sides which are used: the largest `e` of at most the half width such that the offsets 1 to `e` and
-1 to `-e` are not masked. -/
structure Uses (b : Buffer) (halfwidth : Int) (e : Nat) : Prop where
  one : 1 ≤ e
  le : e ≤ width halfwidth
  clear : ∀ k : Int, -e ≤ k → k ≤ e → (b k).2 = false
  next : e < width halfwidth → (b (e + 1)).2 = true ∨ (b (-(e + 1))).2 = true

open Polynomial in
/-- The value of a cell is exact on polynomials of degree at most twice the number of neighbours used. -/
theorem cell_exact {b : Buffer} {halfwidth : Int} {e : Nat} (h : Uses b halfwidth e) (d : Rat) (p : ℚ[X]) (x s : Rat)
    (hdeg : p.natDegree ≤ 2 * e) (hval : ∀ k : Int, -e ≤ k → k ≤ e → (b k).1 = p.eval (x + k * s)) :
    cell b halfwidth d = some (p.derivative.eval x * s * d) := by
  obtain ⟨h1, h2, h3, h4⟩ := h
  have hw : width halfwidth ≤ 4 := by unfold width; split <;> [omega; (split <;> [omega; (split <;> omega)])]
  have m0 := h3 0 (by omega) (by omega)
  have m1 := h3 1 (by omega) (by omega)
  have n1 := h3 (-1) (by omega) (by omega)
  have v1 := hval 1 (by omega) (by omega)
  have u1 := hval (-1) (by omega) (by omega)
  have hp := eval_nine p (by omega)
  unfold cell
  simp only
  rw [m0, m1, n1]
  simp only [Bool.false_eq_true, if_false, Bool.xor_false]
  have hzero : ∀ k, p.natDegree < k → p.coeff k = 0 := fun k hk => coeff_eq_zero_of_natDegree_lt hk
  rcases (show e = 1 ∨ e = 2 ∨ e = 3 ∨ e = 4 by omega) with rfl | rfl | rfl | rfl
  · have hc : ((b 2).2 || (b (-2)).2 || decide (halfwidth = 1)) = true := by
      by_cases hw1 : halfwidth = 1
      · simp [hw1]
      · have : 1 < width halfwidth := by unfold width; rw [if_neg hw1]; split <;> [omega; (split <;> omega)]
        have := h4 this
        rcases this with h | h <;> norm_num at h <;> simp [h]
    rw [if_pos hc, v1, u1, (hp _).1, (hp _).1, (hp _).2]
    rw [hzero 3 (by omega), hzero 4 (by omega), hzero 5 (by omega), hzero 6 (by omega), hzero 7 (by omega), hzero 8 (by omega)]
    congr 1
    push_cast
    ring
  · have m2 := h3 2 (by norm_num) (by norm_num)
    have n2 := h3 (-2) (by norm_num) (by norm_num)
    have v2 := hval 2 (by norm_num) (by norm_num)
    have u2 := hval (-2) (by norm_num) (by norm_num)
    have hw1 : halfwidth ≠ 1 := by
      rintro rfl
      norm_num [width] at h2
    have hc : ((b 3).2 || (b (-3)).2 || decide (halfwidth = 2)) = true := by
      by_cases hw2 : halfwidth = 2
      · simp [hw2]
      · have : 2 < width halfwidth := by unfold width; rw [if_neg hw1, if_neg hw2]; split <;> omega
        have := h4 this
        rcases this with h | h <;> norm_num at h <;> simp [h]
    rw [if_neg (by simp [m2, n2, hw1]), if_pos hc, v1, u1, v2, u2, (hp _).1, (hp _).1, (hp _).1, (hp _).1, (hp _).2]
    rw [hzero 5 (by omega), hzero 6 (by omega), hzero 7 (by omega), hzero 8 (by omega)]
    congr 1
    push_cast
    ring
  · have m2 := h3 2 (by norm_num) (by norm_num)
    have n2 := h3 (-2) (by norm_num) (by norm_num)
    have v2 := hval 2 (by norm_num) (by norm_num)
    have u2 := hval (-2) (by norm_num) (by norm_num)
    have m3 := h3 3 (by norm_num) (by norm_num)
    have n3 := h3 (-3) (by norm_num) (by norm_num)
    have v3 := hval 3 (by norm_num) (by norm_num)
    have u3 := hval (-3) (by norm_num) (by norm_num)
    have hw1 : halfwidth ≠ 1 := by
      rintro rfl
      norm_num [width] at h2
    have hw2 : halfwidth ≠ 2 := by
      rintro rfl
      norm_num [width] at h2
    have hc : ((b 4).2 || (b (-4)).2 || decide (halfwidth = 3)) = true := by
      by_cases hw3 : halfwidth = 3
      · simp [hw3]
      · have : 3 < width halfwidth := by unfold width; rw [if_neg hw1, if_neg hw2, if_neg hw3]; omega
        have := h4 this
        rcases this with h | h <;> norm_num at h <;> simp [h]
    rw [if_neg (by simp [m2, n2, hw1]), if_neg (by simp [m3, n3, hw2]), if_pos hc, v1, u1, v2, u2, v3, u3, (hp _).1, (hp _).1, (hp _).1,
      (hp _).1, (hp _).1, (hp _).1, (hp _).2]
    rw [hzero 7 (by omega), hzero 8 (by omega)]
    congr 1
    push_cast
    ring
  · have m2 := h3 2 (by norm_num) (by norm_num)
    have n2 := h3 (-2) (by norm_num) (by norm_num)
    have v2 := hval 2 (by norm_num) (by norm_num)
    have u2 := hval (-2) (by norm_num) (by norm_num)
    have m3 := h3 3 (by norm_num) (by norm_num)
    have n3 := h3 (-3) (by norm_num) (by norm_num)
    have v3 := hval 3 (by norm_num) (by norm_num)
    have u3 := hval (-3) (by norm_num) (by norm_num)
    have m4 := h3 4 (by norm_num) (by norm_num)
    have n4 := h3 (-4) (by norm_num) (by norm_num)
    have v4 := hval 4 (by norm_num) (by norm_num)
    have u4 := hval (-4) (by norm_num) (by norm_num)
    have hw1 : halfwidth ≠ 1 := by
      rintro rfl
      norm_num [width] at h2
    have hw2 : halfwidth ≠ 2 := by
      rintro rfl
      norm_num [width] at h2
    have hw3 : halfwidth ≠ 3 := by
      rintro rfl
      norm_num [width] at h2
    rw [if_neg (by simp [m2, n2, hw1]), if_neg (by simp [m3, n3, hw2]), if_neg (by simp [m4, n4, hw3]), v1, u1, v2, u2, v3, u3, v4, u4,
      (hp _).1, (hp _).1, (hp _).1, (hp _).1, (hp _).1, (hp _).1, (hp _).1, (hp _).1, (hp _).2]
    congr 1
    push_cast
    ring

open Polynomial in
/-- **C46**: at a column with a whole stencil inside of a grid (not across the bound), without masked cell in it, the result is the
exact derivative (times the step in degrees and the factor `d`) of each polynomial of degree at most twice the half width. -/
theorem stencil_exact {nb : Nat} (h4 : 4 ≤ nb) (circular : Bool) {a : Line} (junk : Int → Rat) (halfwidth : Int) (d x0 s : Rat) (p : ℚ[X])
    (hdeg : p.natDegree ≤ 2 * width halfwidth) {i : Nat} (hlo : width halfwidth ≤ i) (hhi : i + width halfwidth < nb)
    (hval : ∀ c : Nat, i - width halfwidth ≤ c → c ≤ i + width halfwidth → a c = (p.eval (x0 + c * s), false)) :
    line nb circular a junk halfwidth d i = some (p.derivative.eval (x0 + i * s) * s * d) := by
  have hw : 1 ≤ width halfwidth ∧ width halfwidth ≤ 4 := by
    unfold width; split <;> [omega; (split <;> [omega; (split <;> omega)])]
  have hb : ∀ k : Int, -(width halfwidth : Int) ≤ k → k ≤ width halfwidth →
      bufAt nb circular a junk i k = (p.eval (x0 + i * s + k * s), false) := by
    intro k h1 h2
    rw [bufAt_spec h4 circular a junk i (by omega) k (by omega) (by omega)]
    have hp : pos nb circular i k = some ((i : Int) + k).toNat := by
      unfold pos
      cases circular with
      | true => rw [if_pos rfl, Int.emod_eq_of_lt (by omega) (by omega)]
      | false => rw [if_neg (by simp), if_pos (by omega)]
    rw [hp]
    simp only
    rw [hval _ (by omega) (by omega)]
    have hc : ((((i : Int) + k).toNat : Nat) : Rat) = (i : Rat) + k := by
      have : ((((i : Int) + k).toNat : Nat) : Int) = (i : Int) + k := Int.toNat_of_nonneg (by omega)
      calc ((((i : Int) + k).toNat : Nat) : Rat) = (((((i : Int) + k).toNat : Nat) : Int) : Rat) := by push_cast; rfl
        _ = (i : Rat) + k := by rw [this]; push_cast; rfl
    rw [hc]
    congr 2
    ring
  unfold line
  apply cell_exact (e := width halfwidth) _ d p _ s hdeg
  · intro k h1 h2
    rw [hb k h1 h2]
  · exact ⟨hw.1, le_refl _, fun k h1 h2 => by rw [hb k h1 h2], fun h => absurd h (lt_irrefl _)⟩

/-- Next to one masked cell the difference on one side is used, exact on affine fields. -/
theorem cell_one_side {b : Buffer} {halfwidth : Int} {d A B x s : Rat} (m0 : (b 0).2 = false) (h0 : (b 0).1 = A * x + B) :
    ((b (-1)).2 = true → (b 1).2 = false → (b 1).1 = A * (x + s) + B → cell b halfwidth d = some (A * s * d)) ∧
    ((b 1).2 = true → (b (-1)).2 = false → (b (-1)).1 = A * (x - s) + B → cell b halfwidth d = some (A * s * d)) := by
  constructor
  · intro m1 m2 h1
    unfold cell
    simp only [m0, m1, m2]
    simp only [Bool.false_eq_true, if_false, Bool.xor_true, Bool.not_false, if_true, h0, h1]
    congr 1; ring
  · intro m1 m2 h1
    unfold cell
    simp only [m0, m1, m2]
    simp only [Bool.false_eq_true, if_false, Bool.xor_false, if_true, h0, h1]
    congr 1; ring

/-- The vertical stencil is the horizontal one of the transposed field without circularity. -/
theorem stencil_vertical (nx ny : Nat) (circular : Bool) (a : Nat → Nat → Rat × Bool) (junk : Nat → Int → Rat) (halfwidth : Int) (d : Nat → Rat)
    (i j : Nat) : stencil nx ny circular a junk true halfwidth d i j = stencil ny nx false (fun p q => a q p) junk false halfwidth d j i := by
  simp [stencil]

open Polynomial in
/-- `compute_finite_difference`: exact on polynomials of degree at most 2 inside of the line, nan at less than `s` from the bounds
without wrap. -/
theorem finite_exact {n s : Nat} {wrap : Bool} {h : Nat → Option Rat} {x0 step D : Rat} (p : ℚ[X]) (hdeg : p.natDegree ≤ 2) {i : Nat}
    (hs : 1 ≤ s) (hstep : step ≠ 0) (hlo : s ≤ i) (hhi : i + s < n) (h1 : h (i + s) = some (p.eval (x0 + (i + s : Nat) * step)))
    (h2 : h (i - s) = some (p.eval (x0 + (i - s : Nat) * step))) :
    finite n wrap s h (D * (step * 2 * s)) i = some (p.derivative.eval (x0 + i * step) / D) := by
  unfold finite
  rw [if_pos hhi, if_pos hlo, h1, h2]
  simp only
  congr 1
  have hp := eval_nine p (by omega)
  have hz : ∀ k, 2 < k → p.coeff k = 0 := fun k hk => coeff_eq_zero_of_natDegree_lt (by omega)
  rw [(hp _).1, (hp _).1, (hp _).2, hz 3 (by omega), hz 4 (by omega), hz 5 (by omega), hz 6 (by omega), hz 7 (by omega), hz 8 (by omega)]
  have hs' : (s : Rat) ≠ 0 := by
    have : s ≠ 0 := by omega
    exact_mod_cast this
  have hnum : ∀ q r : Rat, q = r * (step * 2 * s) → q / (D * (step * 2 * s)) = r / D := by
    intro q r e
    have hne : step * 2 * s ≠ 0 := by
      refine mul_ne_zero (mul_ne_zero hstep (by norm_num)) hs'
    rw [e, mul_div_mul_right _ _ hne]
  apply hnum
  rw [Nat.cast_sub hlo]
  push_cast
  ring

/-- Without wrap the columns at less than `s` from the bounds are nan; with wrap the line is periodic. -/
theorem finite_border {n s : Nat} {h : Nat → Option Rat} {d : Rat} {i : Nat} (hs : s ≤ n) (hi : i < n) :
    ((i < s ∨ n ≤ i + s) → finite n false s h d i = none) ∧
    finite n true s h d i = (match h ((i + s) % n), h ((i + n - s) % n) with
      | some u, some v => some ((u - v) / d)
      | _, _ => none) := by
  constructor
  · intro hb
    unfold finite
    rcases hb with hb | hb
    · rw [if_neg (show ¬ s ≤ i by omega)]
      simp only [Bool.false_eq_true, if_false]
      split <;> simp_all
    · rw [if_neg (show ¬ i + s < n by omega)]
      simp
  · unfold finite
    have e1 : (if i + s < n then h (i + s) else if true = true then h (i + s - n) else none) = h ((i + s) % n) := by
      split
      · rename_i hlt; rw [Nat.mod_eq_of_lt hlt]
      · rename_i hlt
        rw [if_pos rfl, Nat.mod_eq_sub_mod (by omega)]
        by_cases h2 : i + s - n < n
        · rw [Nat.mod_eq_of_lt h2]
        · omega
    have e2 : (if s ≤ i then h (i - s) else if true = true then h (i + n - s) else none) = h ((i + n - s) % n) := by
      split
      · rename_i hle
        rw [show i + n - s = (i - s) + n by omega, Nat.add_mod_right, Nat.mod_eq_of_lt (by omega)]
      · rename_i hle
        rw [if_pos rfl, Nat.mod_eq_of_lt (by omega)]
    exact congrArg₂ (fun p q : Option Rat => match p, q with
      | some u, some v => some ((u - v) / d)
      | _, _ => none) e1 e2

/-- A field with one masked cell on a circular grid. -/
example : (List.range 9).map (line 9 true (fun c => if c = 4 then (100, true) else ((c : Rat) ^ 2, false)) (fun _ => 0) 1 1) =
    [some (-63 / 2), some 2, some 4, some 5, none, some 11, some 12, some 14, some (-49 / 2)] := by decide +kernel

end Verif.Stencil
