import Mathlib.Data.List.Basic
import Mathlib.Tactic.Linarith

/-!
# C52: the buffer of filaments

Model of the arrays of `filament` (/repo/src/py_eddy_tracker/dataset/grid.py:2065-2105 and 2437-2511); a position `none` is nan. The two
coordinates are moved together, `f4` rounding is not modelled. The advection is a parameter (see `Verif.Advect.run`).
-/

namespace Verif.Advect

variable {α : Type}

/-- `f[1:] = f[:-1]` (grid.py:2097; numpy copies the overlapping source first). -/
def shiftRight (f : List (Option α)) : List (Option α) := f.take 1 ++ f.dropLast

/-- `f[start::step] = vals`. -/
def setEvery (start step : Nat) (vals : Nat → Option α) (f : List (Option α)) : List (Option α) :=
  f.mapIdx (fun i v => if start ≤ i ∧ (i - start) % step = 0 then vals ((i - start) / step) else v)

/-- State of the generator: positions of the particles, buffer. -/
structure Fil (α : Type) where
  x : List (Option α)
  f : List (Option α)

/-- The beginning (grid.py:2085-2093). -/
def filInit (size : Nat) (x : List (Option α)) : Fil α :=
  ⟨x, setEvery 0 (size + 1) (fun p => x.getD p none) (List.replicate (x.length * (size + 1)) none)⟩

/-- One output (grid.py:2096-2105). -/
def filStep (size : Nat) (move : List (Option α) → List (Option α)) (s : Fil α) : Fil α :=
  let f := setEvery size (size + 1) (fun _ => none) (shiftRight s.f)
  ⟨move s.x, setEvery 0 (size + 1) (fun p => (move s.x).getD p none) f⟩

/-- The state after `n` outputs; `move n` is the advection of the output `n`. -/
def filament (size : Nat) (move : Nat → List (Option α) → List (Option α)) (x : List (Option α)) : Nat → Fil α
  | 0 => filInit size x
  | n + 1 => filStep size (move n) (filament size move x n)

/-! ### Specification -/

/-- Positions after `n` outputs. -/
def positions (move : Nat → List (Option α) → List (Option α)) (x : List (Option α)) : Nat → List (Option α)
  | 0 => x
  | n + 1 => move n (positions move x n)

theorem setEvery_length (start step : Nat) (vals : Nat → Option α) (f : List (Option α)) :
    (setEvery start step vals f).length = f.length := by simp [setEvery]

theorem setEvery_get (start step : Nat) (vals : Nat → Option α) (f : List (Option α)) (i : Nat) (h : i < f.length) :
    (setEvery start step vals f)[i]? = some (if start ≤ i ∧ (i - start) % step = 0 then vals ((i - start) / step) else f[i]) := by
  unfold setEvery
  rw [List.getElem?_mapIdx, List.getElem?_eq_getElem h]
  rfl

theorem shiftRight_length (f : List (Option α)) : (shiftRight f).length = f.length := by
  unfold shiftRight
  rw [List.length_append, List.length_take, List.length_dropLast]
  omega

theorem shiftRight_succ (f : List (Option α)) (i : Nat) (h : i + 1 < f.length) : (shiftRight f)[i + 1]? = f[i]? := by
  unfold shiftRight
  rw [List.getElem?_append_right (by rw [List.length_take]; omega), List.length_take, List.getElem?_dropLast]
  rw [if_pos (by omega)]
  congr 1
  omega

/-- **C52**: after `n` outputs the buffer holds, for each particle, `size` slots followed by a nan; the slot `k` is the position `k`
outputs ago, nan when there were less outputs. -/
theorem filament_spec {size : Nat} (hsize : 1 ≤ size) (move : Nat → List (Option α) → List (Option α)) (x : List (Option α))
    (hmove : ∀ n l, (move n l).length = l.length) : ∀ n : Nat,
    (filament size move x n).x = positions move x n ∧ (filament size move x n).f.length = x.length * (size + 1) ∧
    ∀ p k : Nat, p < x.length → k ≤ size → (filament size move x n).f[p * (size + 1) + k]? =
      some (if k < size ∧ k ≤ n then (positions move x (n - k)).getD p none else none)
  | 0 => by
    refine ⟨rfl, by rw [filament, filInit, setEvery_length, List.length_replicate], fun p k hp hk => ?_⟩
    have hlt : p * (size + 1) + k < x.length * (size + 1) := by
      have := Nat.mul_le_mul_right (size + 1) (show p + 1 ≤ x.length by omega)
      rw [Nat.add_mul] at this
      omega
    rw [filament, filInit, setEvery_get _ _ _ _ _ (by rw [List.length_replicate]; exact hlt)]
    congr 1
    have hmod : (p * (size + 1) + k - 0) % (size + 1) = k := by
      rw [Nat.sub_zero, Nat.mul_comm, Nat.mul_add_mod, Nat.mod_eq_of_lt (by omega)]
    have hdiv : (p * (size + 1) + k - 0) / (size + 1) = p := by
      rw [Nat.sub_zero, Nat.mul_comm, Nat.mul_add_div (by omega), Nat.div_eq_of_lt (by omega)]; rfl
    rw [hmod, hdiv]
    by_cases h0 : k = 0
    · subst h0
      rw [if_pos (by simp), if_pos (by omega)]
      rfl
    · rw [if_neg (by omega), if_neg (by omega)]
      simp
  | n + 1 => by
    obtain ⟨h1, h2, h3⟩ := filament_spec hsize move x hmove n
    refine ⟨?_, ?_, fun p k hp hk => ?_⟩
    · rw [filament, filStep, positions, h1]
    · rw [filament, filStep]
      simp only
      rw [setEvery_length, setEvery_length, shiftRight_length, h2]
    · have hlt : p * (size + 1) + k < x.length * (size + 1) := by
        have := Nat.mul_le_mul_right (size + 1) (show p + 1 ≤ x.length by omega)
        rw [Nat.add_mul] at this
        omega
      have hmod : (p * (size + 1) + k - 0) % (size + 1) = k := by
        rw [Nat.sub_zero, Nat.mul_comm, Nat.mul_add_mod, Nat.mod_eq_of_lt (by omega)]
      have hdiv : (p * (size + 1) + k - 0) / (size + 1) = p := by
        rw [Nat.sub_zero, Nat.mul_comm, Nat.mul_add_div (by omega), Nat.div_eq_of_lt (by omega)]; rfl
      have hlen : ((setEvery size (size + 1) (fun _ => none) (shiftRight (filament size move x n).f))).length =
          x.length * (size + 1) := by rw [setEvery_length, shiftRight_length, h2]
      rw [filament, filStep]
      simp only
      rw [setEvery_get _ _ _ _ _ (by rw [hlen]; exact hlt)]
      congr 1
      rw [hmod, hdiv]
      by_cases h0 : k = 0
      · subst h0
        rw [if_pos (by simp), if_pos (by omega), h1]
        rfl
      · rw [if_neg (by omega)]
        have hget := setEvery_get size (size + 1) (fun _ => none) (shiftRight (filament size move x n).f) (p * (size + 1) + k)
          (by rw [shiftRight_length, h2]; exact hlt)
        rw [List.getElem?_eq_getElem (by rw [hlen]; exact hlt), Option.some.injEq] at hget
        rw [hget]
        by_cases hks : k = size
        · have hm : (p * (size + 1) + k - size) % (size + 1) = 0 := by
            rw [hks, Nat.add_sub_cancel, Nat.mul_mod_left]
          rw [if_pos ⟨by omega, hm⟩, if_neg (by omega)]
        · have hm : ¬ (size ≤ p * (size + 1) + k ∧ (p * (size + 1) + k - size) % (size + 1) = 0) := by
            rintro ⟨a1, a2⟩
            obtain ⟨q, hq⟩ := Nat.dvd_of_mod_eq_zero a2
            have e : p * (size + 1) + k = (size + 1) * q + size := by omega
            have := congrArg (· % (size + 1)) e
            simp only [Nat.mul_add_mod] at this
            rw [Nat.mul_comm p, Nat.mul_add_mod, Nat.mod_eq_of_lt (by omega), Nat.mod_eq_of_lt (by omega)] at this
            exact hks this
          rw [if_neg hm]
          obtain ⟨k', rfl⟩ : ∃ k', k = k' + 1 := ⟨k - 1, by omega⟩
          have hs := shiftRight_succ (filament size move x n).f (p * (size + 1) + k') (by rw [h2]; omega)
          rw [List.getElem?_eq_getElem (by rw [shiftRight_length, h2]; omega), h3 p k' hp (by omega), Option.some.injEq] at hs
          refine Eq.trans hs ?_
          by_cases hkn : k' ≤ n
          · rw [if_pos ⟨by omega, hkn⟩, if_pos ⟨by omega, by omega⟩, show n + 1 - (k' + 1) = n - k' by omega]
          · rw [if_neg (by omega), if_neg (by omega)]

/-- A size of 0: the buffer holds the current positions without separation. -/
theorem filament_zero (move : Nat → List (Option α) → List (Option α)) (x : List (Option α)) (hmove : ∀ n l, (move n l).length = l.length) :
    ∀ n : Nat, (filament 0 move x n).x = positions move x n ∧ (filament 0 move x n).f.length = x.length ∧
      (positions move x n).length = x.length ∧ (filament 0 move x n).f = positions move x n
  | 0 => by
    refine ⟨rfl, by rw [filament, filInit, setEvery_length]; simp, rfl, ?_⟩
    apply List.ext_getElem?
    intro i
    by_cases h : i < x.length
    · rw [filament, filInit, setEvery_get _ _ _ _ _ (by simpa using h)]
      simp [positions, List.getD_eq_getElem?_getD, List.getElem?_eq_getElem h, Nat.mod_one]
    · rw [List.getElem?_eq_none (by rw [filament, filInit, setEvery_length]; simp; omega),
        List.getElem?_eq_none (by rw [positions]; omega)]
  | n + 1 => by
    obtain ⟨h1, h2, h3, h4⟩ := filament_zero move x hmove n
    have hl : (positions move x (n + 1)).length = x.length := by rw [positions, hmove, h3]
    have hf : (filament 0 move x (n + 1)).f.length = x.length := by
      rw [filament, filStep]; simp only; rw [setEvery_length, setEvery_length, shiftRight_length, h2]
    refine ⟨by rw [filament, filStep, positions, h1], hf, hl, ?_⟩
    apply List.ext_getElem?
    intro i
    by_cases h : i < x.length
    · rw [filament, filStep]
      simp only
      rw [setEvery_get _ _ _ _ _ (by rw [setEvery_length, shiftRight_length, h2]; exact h), h1,
        List.getElem?_eq_getElem (by rw [hl]; exact h)]
      change some _ = some _
      rw [show move n (positions move x n) = positions move x (n + 1) from rfl]
      simp [List.getD_eq_getElem?_getD, List.getElem?_eq_getElem (show i < (positions move x (n + 1)).length by rw [hl]; exact h),
        Nat.mod_one]
    · rw [List.getElem?_eq_none (by rw [hf]; omega), List.getElem?_eq_none (by rw [hl]; omega)]

example : (filament 3 (fun n l => l.map (Option.map (· + n + 1))) [some 0, some 10] 2).f =
    [some 3, some 1, some 0, none, some 13, some 11, some 10, none] := by decide

end Verif.Advect
