import Verif.Geos.Mirror

/-!
# C226: velocities of sums of heights

`add_uv` and `compute_stencil` (src/py_eddy_tracker/dataset/grid.py:1844-1906, 2902-3013) of a sum of two fields, such as an anomaly and a mean topography, and of
heights in other units.
-/

namespace Verif.Geos

open Verif.Stencil

/-! ### Specification -/

/-- `α` times the heights of a field and `β` times the heights of another field. -/
def combine (α β : Rat) (p q : Rat × Bool) : Rat × Bool := (α * p.1 + β * q.1, p.2 || q.2)

/-- The same for derivatives. -/
def combineO (α β : Rat) : Option Rat → Option Rat → Option Rat
  | some p, some q => some (α * p + β * q)
  | _, _ => none

/-- The same for velocities. -/
def Val.combine (α β : Rat) : Val → Val → Val
  | .val p, .val q => .val (α * p + β * q)
  | .masked, _ => .masked
  | _, .masked => .masked
  | _, _ => .infinite

/-! ### Proofs -/

theorem cell_combine (α β : Rat) (b b' : Buffer) (halfwidth : Int) (d : Rat) (hmask : ∀ k : Int, -4 ≤ k → k ≤ 4 → (b k).2 = (b' k).2) :
    cell (fun k => combine α β (b k) (b' k)) halfwidth d = combineO α β (cell b halfwidth d) (cell b' halfwidth d) := by
  unfold cell
  simp only [combine, ← hmask 0 (by omega) (by omega), ← hmask 1 (by omega) (by omega), ← hmask 2 (by omega) (by omega), ← hmask 3 (by omega) (by omega),
    ← hmask 4 (by omega) (by omega), ← hmask (-1) (by omega) (by omega), ← hmask (-2) (by omega) (by omega), ← hmask (-3) (by omega) (by omega),
    ← hmask (-4) (by omega) (by omega), Bool.or_self]
  split
  · rfl
  split
  · split <;> (simp only [combineO, Option.some.injEq]; ring)
  split
  · simp only [combineO, Option.some.injEq]; ring
  split
  · simp only [combineO, Option.some.injEq]; ring
  split
  · simp only [combineO, Option.some.injEq]; ring
  · simp only [combineO, Option.some.injEq]; ring

/-- **C226** (derivatives): on fields with the same mask the derivative is linear, wherever the stencil is in the domain. -/
theorem line_combine {nb : Nat} (h4 : 4 ≤ nb) (circular : Bool) (α β : Rat) (a a' : Line) (junk junk' junk'' : Int → Rat) (halfwidth : Int) (d : Rat) {i : Nat}
    (hi : i < nb) (hin : Inside nb circular halfwidth i) (hmask : ∀ c < nb, (a c).2 = (a' c).2) :
    line nb circular (fun c => combine α β (a c) (a' c)) junk'' halfwidth d i =
      combineO α β (line nb circular a junk halfwidth d i) (line nb circular a' junk' halfwidth d i) := by
  have hpos : ∀ (k : Int) (c : Nat), pos nb circular i k = some c → c < nb := by
    intro k c hc
    unfold pos at hc
    split at hc
    · have := Int.emod_lt_of_pos ((i : Int) + k) (show (0 : Int) < nb by omega)
      have := Int.emod_nonneg ((i : Int) + k) (show (nb : Int) ≠ 0 by omega)
      simp only [Option.some.injEq] at hc
      omega
    · split at hc
      · simp only [Option.some.injEq] at hc
        omega
      · cases hc
  have hm : ∀ k : Int, -4 ≤ k → k ≤ 4 → (bufAt nb circular a junk i k).2 = (bufAt nb circular a' junk' i k).2 := by
    intro k h1 h2
    rw [bufAt_spec h4 circular a junk i hi k h1 h2, bufAt_spec h4 circular a' junk' i hi k h1 h2]
    cases hp : pos nb circular i k with
    | none => dsimp only; split <;> rfl
    | some c => exact hmask c (hpos k c hp)
  unfold line
  rw [← cell_combine α β _ _ halfwidth d hm]
  refine cell_ext (fun k h1 h2 => ?_) (fun k h1 h2 => ?_)
  · simp only [combine]
    rw [bufAt_spec h4 circular a junk i hi k h1 h2, bufAt_spec h4 circular a' junk' i hi k h1 h2, bufAt_spec h4 circular _ junk'' i hi k h1 h2]
    cases pos nb circular i k with
    | none => dsimp only; split <;> rfl
    | some c => rfl
  · have hw4 : width halfwidth ≤ 4 := by unfold width; split <;> [omega; (split <;> [omega; (split <;> omega)])]
    simp only [combine]
    rw [bufAt_spec h4 circular a junk i hi k (by omega) (by omega), bufAt_spec h4 circular a' junk' i hi k (by omega) (by omega),
      bufAt_spec h4 circular _ junk'' i hi k (by omega) (by omega)]
    cases hp : pos nb circular i k with
    | some c => rfl
    | none =>
      exfalso
      rcases hin with rfl | ⟨l1, l2⟩
      · simp [pos] at hp
      · cases circular with
        | true => simp [pos] at hp
        | false =>
          simp only [pos, Bool.false_eq_true, if_false] at hp
          rw [if_pos (by omega)] at hp
          cases hp

theorem scaled_combine (g : Geometry) (j : Nat) (s α β : Rat) (o o' : Option Rat) :
    scaled g j s (combineO α β o o') = Val.combine α β (scaled g j s o) (scaled g j s o') := by
  cases o with
  | none => cases o' <;> rfl
  | some p =>
    cases o' with
    | none => simp only [combineO, scaled]; split <;> rfl
    | some q =>
      simp only [combineO, scaled]
      split
      · rfl
      · simp only [Val.combine, Val.val.injEq]; ring

/-- **C226**: the velocities of the sum of two fields of the same mask are the sums of their velocities, and the velocities of heights in another unit are in that
unit. -/
theorem add_uv_combine {nx ny : Nat} (hx : 4 ≤ nx) (hy : 4 ≤ ny) (circular : Bool) (α β : Rat) (a a' : Nat → Nat → Rat × Bool)
    (jv ju jv' ju' jv'' ju'' : Nat → Int → Rat) (hw : Int) (g : Geometry) {i j : Nat} (hi : i < nx) (hj : j < ny) (hin : Inside nx circular (clamp hw) i)
    (hjn : Inside ny false (clamp hw) j) (hmask : ∀ c < nx, ∀ r < ny, (a c r).2 = (a' c r).2) :
    addUV nx ny circular (fun c r => combine α β (a c r) (a' c r)) jv'' ju'' hw g i j =
      (Val.combine α β (addUV nx ny circular a jv ju hw g i j).1 (addUV nx ny circular a' jv' ju' hw g i j).1,
       Val.combine α β (addUV nx ny circular a jv ju hw g i j).2 (addUV nx ny circular a' jv' ju' hw g i j).2) := by
  have e1 := line_combine hy false α β (fun k => a i k) (fun k => a' i k) (ju i) (ju' i) (ju'' i) (clamp hw) (perLat g) hj hjn (fun r hr => hmask i hi r hr)
  have e2 := line_combine hx circular α β (fun k => a k j) (fun k => a' k j) (jv j) (jv' j) (jv'' j) (clamp hw) (perLon g j) hi hin (fun c hc => hmask c hc j hj)
  simp only [addUV, stencil, if_true, Bool.false_eq_true, if_false]
  rw [e1, e2, scaled_combine, scaled_combine]

/-- The hypothesis on the masks is needed: near a cell which is masked in one of the fields only, the derivative of the sum is taken on one side, and the sum of the
derivatives is not. -/
theorem combine_masks_needed : ∃ a a' : Line, line 9 false (fun c => combine 1 1 (a c) (a' c)) (fun _ => 0) 1 1 4 ≠
    combineO 1 1 (line 9 false a (fun _ => 0) 1 1 4) (line 9 false a' (fun _ => 0) 1 1 4) :=
  ⟨fun c => ((c : Rat) ^ 2, false), fun c => (0, decide (c = 5)), by decide +kernel⟩

/-- **C226** (refuted at the borders): for every difference between the former values of the calls, the derivative of the sum at the first column of a grid which is
not circular is wrong by as much. `stencil_linear` (C212) holds there because it combines the former values too. -/
theorem border_combine_wrong (r : Rat) (hr : r ≠ 0) : ∃ a a' : Line, (∀ c, (a c).2 = (a' c).2) ∧
    line 9 false (fun c => combine 1 1 (a c) (a' c)) (fun _ => r) 1 2 0 ≠
      combineO 1 1 (line 9 false a (fun _ => 0) 1 2 0) (line 9 false a' (fun _ => 0) 1 2 0) := by
  refine ⟨fun _ => (0, false), fun _ => (0, false), fun _ => rfl, ?_⟩
  have e : (fun _ : Nat => combine 1 1 ((0 : Rat), false) (0, false)) = fun _ => (0, false) := by simp [combine]
  rw [e, border_uses_old_values, border_uses_old_values]
  simpa [combineO] using hr

/-- Another field with the mask of the first one. -/
def sumHeights : Nat → Nat → Rat × Bool := fun i j => ((i : Rat) * j, decide (i = 4 ∧ j = 2))

example : (∀ c < 5, ∀ r < 5, (mirrorHeights c r).2 = (sumHeights c r).2) ∧
    addUV 5 5 true (fun c r => combine 100 1 (mirrorHeights c r) (sumHeights c r)) (fun _ _ => 7) (fun _ _ => 8) 1 mirrorGeometry 3 2 =
      (Val.val (-(303 * perLat mirrorGeometry * (gravity / coriolis mirrorGeometry 2))),
       Val.val (502 * perLon mirrorGeometry 2 * (gravity / coriolis mirrorGeometry 2))) := by
  refine ⟨fun c _ r _ => rfl, ?_⟩
  decide +kernel

end Verif.Geos
