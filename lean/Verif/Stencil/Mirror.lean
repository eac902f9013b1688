import Verif.Stencil.Props

/-!
# C224: derivatives in the mirror and from another meridian

`compute_stencil` and `compute_finite_difference` (src/py_eddy_tracker/dataset/grid.py:2902-3013, 1673-1703) of a field whose columns are taken from the last to
the first, or from another column for a grid which makes the turn of the Earth.
-/

namespace Verif.Stencil

/-! ### Specification -/

/-- The columns from the last one to the first one. -/
def mirror {β : Type} (nb : Nat) (a : Nat → β) : Nat → β := fun c => a (nb - 1 - c)

/-- The columns from the column `s` on. -/
def turned {β : Type} (nb s : Nat) (a : Nat → β) : Nat → β := fun c => a ((c + s) % nb)

/-! ### Proofs -/

/-- A cell depends on the masks of the buffer and on the values at the half width. -/
theorem cell_ext {b b' : Buffer} {halfwidth : Int} {d : Rat} (hmask : ∀ k : Int, -4 ≤ k → k ≤ 4 → (b k).2 = (b' k).2)
    (hval : ∀ k : Int, -(width halfwidth : Int) ≤ k → k ≤ width halfwidth → (b k).1 = (b' k).1) : cell b halfwidth d = cell b' halfwidth d := by
  have hw1 : 1 ≤ width halfwidth := by unfold width; split <;> [omega; (split <;> [omega; (split <;> omega)])]
  have v0 := hval 0 (by omega) (by omega)
  have v1 := hval 1 (by omega) (by omega)
  have w1 := hval (-1) (by omega) (by omega)
  unfold cell
  simp only
  rw [hmask 0 (by omega) (by omega), hmask 1 (by omega) (by omega), hmask 2 (by omega) (by omega), hmask 3 (by omega) (by omega), hmask 4 (by omega) (by omega),
    hmask (-1) (by omega) (by omega), hmask (-2) (by omega) (by omega), hmask (-3) (by omega) (by omega), hmask (-4) (by omega) (by omega), v0, v1, w1]
  by_cases h1 : halfwidth = 1
  · simp [h1]
  · have hw2 : 2 ≤ width halfwidth := by unfold width; rw [if_neg h1]; split <;> [omega; (split <;> omega)]
    rw [hval 2 (by omega) (by omega), hval (-2) (by omega) (by omega)]
    by_cases h2 : halfwidth = 2
    · simp [h2]
    · have hw3 : 3 ≤ width halfwidth := by unfold width; rw [if_neg h1, if_neg h2]; split <;> omega
      rw [hval 3 (by omega) (by omega), hval (-3) (by omega) (by omega)]
      by_cases h3 : halfwidth = 3
      · simp [h3]
      · have hw4 : 4 ≤ width halfwidth := by unfold width; rw [if_neg h1, if_neg h2, if_neg h3]
        rw [hval 4 (by omega) (by omega), hval (-4) (by omega) (by omega)]

/-- The cell of the buffer in the mirror. -/
theorem cell_mirror (b : Buffer) (halfwidth : Int) (d : Rat) : cell (fun k => b (-k)) halfwidth d = (cell b halfwidth d).map (fun v => -v) := by
  unfold cell
  simp only [neg_neg, neg_zero, Bool.xor_comm (b (-1)).2 (b 1).2, Bool.or_comm (b (-2)).2 (b 2).2, Bool.or_comm (b (-3)).2 (b 3).2,
    Bool.or_comm (b (-4)).2 (b 4).2]
  by_cases h0 : (b 0).2 = true
  · rw [if_pos h0, if_pos h0]; rfl
  rw [if_neg h0, if_neg h0]
  by_cases hx : Bool.xor (b 1).2 (b (-1)).2 = true
  · rw [if_pos hx, if_pos hx]
    cases h1 : (b 1).2 <;> cases h2 : (b (-1)).2 <;> rw [h1, h2] at hx <;> first | exact absurd hx (by decide) | skip
    · simp only [Bool.false_eq_true, if_false, if_true, Option.map_some, Option.some.injEq]; ring
    · simp only [Bool.false_eq_true, if_false, if_true, Option.map_some, Option.some.injEq]; ring
  rw [if_neg hx, if_neg hx]
  split
  · simp only [Option.map_some, Option.some.injEq]; ring
  split
  · simp only [Option.map_some, Option.some.injEq]; ring
  split
  · simp only [Option.map_some, Option.some.injEq]; ring
  · simp only [Option.map_some, Option.some.injEq]; ring

theorem emod_mirror {nb i : Nat} (hi : i < nb) (k : Int) :
    nb - 1 - ((((nb - 1 - i : Nat) : Int) + k) % (nb : Int)).toNat = (((i : Int) + -k) % (nb : Int)).toNat := by
  have hnb : (0 : Int) < nb := by omega
  have e1 : ((nb - 1 - i : Nat) : Int) + k = (nb : Int) - 1 - i + k := by omega
  have r0 := Int.emod_nonneg ((nb : Int) - 1 - i + k) hnb.ne'
  have r1 := Int.emod_lt_of_pos ((nb : Int) - 1 - i + k) hnb
  have r2 := Int.mul_ediv_add_emod ((nb : Int) - 1 - i + k) nb
  have e2 : ((i : Int) + -k) % (nb : Int) = (nb : Int) - 1 - ((nb : Int) - 1 - i + k) % nb := by
    have : (i : Int) + -k = ((nb : Int) - 1 - ((nb : Int) - 1 - i + k) % nb) + nb * (-(((nb : Int) - 1 - i + k) / nb)) := by
      rw [mul_neg]; linarith
    rw [this, Int.add_mul_emod_self_left, Int.emod_eq_of_lt (by omega) (by omega)]
  rw [e1, e2]
  omega

theorem pos_mirror {nb i : Nat} (hi : i < nb) (circular : Bool) (k : Int) :
    (pos nb circular (nb - 1 - i) k).map (fun c => nb - 1 - c) = pos nb circular i (-k) := by
  cases circular with
  | true => simp only [pos, if_true, Option.map_some, emod_mirror hi k]
  | false =>
    simp only [pos, Bool.false_eq_true, if_false]
    by_cases h : 0 ≤ ((nb - 1 - i : Nat) : Int) + k ∧ ((nb - 1 - i : Nat) : Int) + k < nb
    · rw [if_pos h, if_pos (by omega), Option.map_some, Option.some.injEq]
      omega
    · rw [if_neg h, if_neg (by omega)]
      rfl

/-- **C224** (mirror): where the stencil is in the domain, the derivative of the field in the mirror is the opposite of the derivative at the same place, for all
masks. -/
theorem stencil_mirror {nb : Nat} (h4 : 4 ≤ nb) (circular : Bool) (a : Line) (junk junk' : Int → Rat) (halfwidth : Int) (d : Rat) {i : Nat} (hi : i < nb)
    (hin : Inside nb circular halfwidth i) :
    line nb circular (mirror nb a) junk halfwidth d (nb - 1 - i) = (line nb circular a junk' halfwidth d i).map (fun v => -v) := by
  unfold line
  rw [← cell_mirror]
  have e : ∀ k : Int, -4 ≤ k → k ≤ 4 → (∃ c, pos nb circular i (-k) = some c ∧
      bufAt nb circular (mirror nb a) junk (nb - 1 - i) k = a c ∧ bufAt nb circular a junk' i (-k) = a c) ∨
      (pos nb circular i (-k) = none ∧ (bufAt nb circular (mirror nb a) junk (nb - 1 - i) k).2 = false ∧ (bufAt nb circular a junk' i (-k)).2 = false) := by
    intro k h1 h2
    rw [bufAt_spec h4 circular _ junk (nb - 1 - i) (by omega) k h1 h2, bufAt_spec h4 circular a junk' i hi (-k) (by omega) (by omega), ← pos_mirror hi]
    cases pos nb circular (nb - 1 - i) k with
    | none =>
      right
      refine ⟨rfl, ?_, ?_⟩
      · dsimp only; split <;> rfl
      · dsimp only [Option.map_none]; split <;> rfl
    | some c => exact Or.inl ⟨nb - 1 - c, rfl, rfl, rfl⟩
  refine cell_ext (fun k h1 h2 => ?_) (fun k h1 h2 => ?_)
  · rcases e k h1 h2 with ⟨c, _, g1, g2⟩ | ⟨_, g1, g2⟩
    · rw [g1, g2]
    · rw [g1, g2]
  · have hw4 : width halfwidth ≤ 4 := by unfold width; split <;> [omega; (split <;> [omega; (split <;> omega)])]
    rcases e k (by omega) (by omega) with ⟨c, _, g1, g2⟩ | ⟨g, _, _⟩
    · rw [g1, g2]
    · exfalso
      rcases hin with rfl | ⟨l1, l2⟩
      · simp [pos] at g
      · cases circular with
        | true => simp [pos] at g
        | false =>
          simp only [pos, Bool.false_eq_true, if_false] at g
          rw [if_pos (by omega)] at g
          cases g

/-- **C224** (meridian): on a grid which makes the turn of the Earth, the derivative does not depend on the first column. -/
theorem stencil_turned {nb : Nat} (h4 : 4 ≤ nb) (a : Line) (junk junk' : Int → Rat) (halfwidth : Int) (d : Rat) (s : Nat) {i : Nat} (hi : i < nb) :
    line nb true (turned nb s a) junk halfwidth d i = line nb true a junk' halfwidth d ((i + s) % nb) := by
  have hnb : 0 < nb := by omega
  have e : ∀ k : Int, -4 ≤ k → k ≤ 4 → bufAt nb true (turned nb s a) junk i k = bufAt nb true a junk' ((i + s) % nb) k := by
    intro k h1 h2
    rw [bufAt_spec h4 true _ junk i hi k h1 h2, bufAt_spec h4 true a junk' _ (Nat.mod_lt _ hnb) k h1 h2]
    simp only [pos, if_true, turned]
    congr 1
    have r0 := Int.emod_nonneg ((i : Int) + k) (show (nb : Int) ≠ 0 by omega)
    have r1 := Int.emod_nonneg (((i : Int) + s) % nb + k) (show (nb : Int) ≠ 0 by omega)
    zify
    rw [Int.toNat_of_nonneg r0, Int.toNat_of_nonneg r1]
    rw [Int.emod_add_emod, Int.emod_add_emod]
    congr 1
    ring
  exact cell_ext (fun k h1 h2 => by rw [e k h1 h2]) (fun k h1 h2 => by
    have hw4 : width halfwidth ≤ 4 := by unfold width; split <;> [omega; (split <;> [omega; (split <;> omega)])]
    rw [e k (by omega) (by omega)])

/-- **C224** (mirror): the same for the finite differences, at every column. -/
theorem finite_mirror {n s : Nat} (hs : s ≤ n) (wrap : Bool) (h : Nat → Option Rat) (d : Rat) {i : Nat} (hi : i < n) :
    finite n wrap s (mirror n h) d (n - 1 - i) = (finite n wrap s h d i).map (fun v => -v) := by
  have e1 : (if n - 1 - i + s < n then mirror n h (n - 1 - i + s) else if wrap then mirror n h (n - 1 - i + s - n) else none) =
      (if s ≤ i then h (i - s) else if wrap then h (i + n - s) else none) := by
    simp only [mirror]
    by_cases c : s ≤ i
    · rw [if_pos c, if_pos (by omega), show n - 1 - (n - 1 - i + s) = i - s by omega]
    · rw [if_neg c, if_neg (by omega), show n - 1 - (n - 1 - i + s - n) = i + n - s by omega]
  have e2 : (if s ≤ n - 1 - i then mirror n h (n - 1 - i - s) else if wrap then mirror n h (n - 1 - i + n - s) else none) =
      (if i + s < n then h (i + s) else if wrap then h (i + s - n) else none) := by
    simp only [mirror]
    by_cases c : i + s < n
    · rw [if_pos c, if_pos (by omega), show n - 1 - (n - 1 - i - s) = i + s by omega]
    · rw [if_neg c, if_neg (by omega), show n - 1 - (n - 1 - i + n - s) = i + s - n by omega]
  unfold finite
  simp only [e1, e2]
  generalize (if s ≤ i then h (i - s) else if wrap then h (i + n - s) else none) = u
  generalize (if i + s < n then h (i + s) else if wrap then h (i + s - n) else none) = v
  cases u <;> cases v <;> simp
  rw [← neg_div, neg_sub]

/-- A masked cell among nine ones, on the turn of the Earth. -/
def exLine : Line := fun c => ((c : Rat) ^ 2, decide (c = 4))

example : Inside 9 true 2 3 ∧ line 9 true exLine (fun _ => 0) 2 1 3 = some 5 ∧ line 9 true (mirror 9 exLine) (fun _ => 7) 2 1 5 = some (-5) ∧
    line 9 true (turned 9 2 exLine) (fun _ => 7) 2 1 1 = some 5 ∧ finite 9 false 2 (mirror 9 (fun c => some ((c : Rat) ^ 2))) 4 3 = some (-10) ∧
    finite 9 false 2 (fun c => some ((c : Rat) ^ 2)) 4 5 = some 10 := by
  refine ⟨Or.inl rfl, ?_⟩
  decide +kernel

/-- **C224** (negation): at the borders of a grid which is not circular the derivative in the mirror is another one. -/
theorem border_mirror_wrong : ∃ (a : Line), line 9 false (mirror 9 a) (fun _ => 0) 1 1 8 ≠ (line 9 false a (fun _ => 0) 1 1 0).map (fun v => -v) :=
  ⟨fun c => ((c : Rat) + 1, false), by decide +kernel⟩

end Verif.Stencil
