import Verif.Stats.Props
import Mathlib.Tactic.Ring
import Mathlib.Tactic.FieldSimp

/-!
# C223: the resampled profile in other units and in the other direction

`raw_resample` (src/py_eddy_tracker/dataset/grid.py:78-84), which gives the profiles of speed of the eddies the same size.
-/

namespace Verif.Stats

/-! ### Units -/

theorem interp1_affine (a b : Rat) (pts : List (Rat × Rat)) (x : Rat) :
    interp1 (pts.map (fun p => (p.1, a * p.2 + b))) x = (interp1 pts x).map (fun v => a * v + b) := by
  unfold interp1
  have hc : (pts.map (fun p : Rat × Rat => (p.1, a * p.2 + b))).countP (fun p => decide (p.1 ≤ x)) = pts.countP (fun p => decide (p.1 ≤ x)) := by
    rw [List.countP_map]; rfl
  simp only [hc, List.getElem?_map, List.head?_map]
  cases pts.countP (fun p => decide (p.1 ≤ x)) with
  | zero => cases pts.head? <;> rfl
  | succ k =>
    cases h1 : pts[k]? with
    | none => simp [h1]
    | some p =>
      cases h2 : pts[k + 1]? with
      | none => simp [h1, h2]
      | some q =>
        simp only [h1, h2, Option.map_some]
        split
        · rfl
        · congr 1
          rw [show a * q.2 + b - (a * p.2 + b) = a * (q.2 - p.2) by ring, mul_div_assoc]
          ring

/-- **C223** (units): a profile in other units, or of the other sign, is resampled to the resampled profile in the new units. -/
theorem resample_units (a b : Rat) (datas : List Rat) (size : Nat) :
    rawResample (datas.map (fun v => a * v + b)) size = (rawResample datas size).map (List.map (fun v => a * v + b)) := by
  unfold rawResample
  simp only [List.length_map]
  split
  · rfl
  · have e : (datas.map (fun v => a * v + b)).zipIdx.map (fun d => ((d.2 : Rat) * ((size : Rat) - 1) / ((datas.length : Rat) - 1), d.1)) =
        (datas.zipIdx.map (fun d => ((d.2 : Rat) * ((size : Rat) - 1) / ((datas.length : Rat) - 1), d.1))).map (fun p => (p.1, a * p.2 + b)) := by
      rw [List.zipIdx_map, List.map_map, List.map_map]
      rfl
    rw [e]
    generalize datas.zipIdx.map (fun d => ((d.2 : Rat) * ((size : Rat) - 1) / ((datas.length : Rat) - 1), d.1)) = pts
    induction List.range size with
    | nil => rfl
    | cons k l ih =>
      rw [List.mapM_cons, List.mapM_cons, ih, interp1_affine]
      cases interp1 pts k with
      | none => rfl
      | some v => cases List.mapM (fun (k : Nat) => interp1 pts k) l <;> rfl

/-! ### Direction -/

/-- `v` is the value at the abscissa `p` of the line which joins the values. -/
def OnProfile (datas : List Rat) (p v : Rat) : Prop :=
  ∃ (j : Nat) (w a b : Rat), (j : Rat) + w = p ∧ 0 ≤ w ∧ w < 1 ∧ datas[j]? = some a ∧ (datas[j + 1]? = some b ∨ (w = 0 ∧ j + 1 = datas.length)) ∧
    v = a + w * (b - a)

theorem onProfile_unique {datas : List Rat} {p v v' : Rat} (h : OnProfile datas p v) (h' : OnProfile datas p v') : v = v' := by
  obtain ⟨j, w, a, b, h1, h2, h3, h4, h5, rfl⟩ := h
  obtain ⟨j', w', a', b', h1', h2', h3', h4', h5', rfl⟩ := h'
  have l1 : j < j' + 1 := by
    have : (j : Rat) < ((j' + 1 : Nat) : Rat) := by push_cast; linarith
    exact_mod_cast this
  have l2 : j' < j + 1 := by
    have : (j' : Rat) < ((j + 1 : Nat) : Rat) := by push_cast; linarith
    exact_mod_cast this
  obtain rfl : j = j' := by omega
  obtain rfl : w = w' := by linarith
  rw [h4, Option.some.injEq] at h4'
  subst h4'
  rcases h5 with h5 | ⟨h5, _⟩
  · rcases h5' with h5' | ⟨h5', _⟩
    · rw [h5, Option.some.injEq] at h5'
      rw [h5']
    · rw [h5']; ring
  · rw [h5]; ring

theorem onProfile_reverse {datas : List Rat} {p v : Rat} (h : OnProfile datas p v) : OnProfile datas.reverse ((datas.length : Rat) - 1 - p) v := by
  obtain ⟨j, w, a, b, h1, h2, h3, h4, h5, rfl⟩ := h
  have hj : j < datas.length := (List.getElem?_eq_some_iff.1 h4).1
  by_cases hw : w = 0
  · subst hw
    refine ⟨datas.length - 1 - j, 0, a, (datas.reverse[datas.length - 1 - j + 1]?).getD 0, ?_, le_refl _, one_pos, ?_, ?_, by ring⟩
    · rw [Nat.cast_sub (by omega), Nat.cast_sub (by omega), ← h1]
      push_cast
      ring
    · rw [List.getElem?_reverse (by omega), show datas.length - 1 - (datas.length - 1 - j) = j by omega, h4]
    · by_cases hl : datas.length - 1 - j + 1 < datas.length
      · left
        rw [List.getElem?_eq_getElem (by simpa using hl)]
        rfl
      · right
        exact ⟨rfl, by rw [List.length_reverse]; omega⟩
  · rcases h5 with h5 | ⟨h5, _⟩
    · have hj1 : j + 1 < datas.length := (List.getElem?_eq_some_iff.1 h5).1
      refine ⟨datas.length - 1 - (j + 1), 1 - w, b, a, ?_, by linarith, ?_, ?_, Or.inl ?_, by ring⟩
      · rw [Nat.cast_sub (by omega), Nat.cast_sub (by omega), ← h1]
        push_cast
        ring
      · have : 0 < w := lt_of_le_of_ne h2 (Ne.symm hw)
        linarith
      · rw [List.getElem?_reverse (by omega), show datas.length - 1 - (datas.length - 1 - (j + 1)) = j + 1 by omega, h5]
      · rw [List.getElem?_reverse (by omega), show datas.length - 1 - (datas.length - 1 - (j + 1) + 1) = j by omega, h4]
    · exact absurd h5 hw

/-- **C223** (direction): a profile from the outside to the centre is resampled to the reversed resampled profile. -/
theorem resample_reversed {datas : List Rat} {size : Nat} (hn : 2 ≤ datas.length) (hs : 2 ≤ size) :
    rawResample datas.reverse size = (rawResample datas size).map List.reverse := by
  obtain ⟨out, e, hl, h⟩ := raw_resample_spec hn hs
  obtain ⟨out', e', hl', h'⟩ := raw_resample_spec (datas := datas.reverse) (by simpa using hn) hs
  rw [e, e', Option.map_some]
  congr 1
  have s0 : (size : Rat) - 1 ≠ 0 := by
    have : (2 : Rat) ≤ size := by exact_mod_cast hs
    intro h0
    linarith
  refine List.ext_getElem? (fun k => ?_)
  by_cases hk : k < size
  · obtain ⟨j, w, a, b, h1, h2, h3, h4, h5, h6⟩ := h' k hk
    obtain ⟨i, u, c, d, g1, g2, g3, g4, g5, g6⟩ := h (size - 1 - k) (by omega)
    rw [List.getElem?_reverse (by omega), hl, h6, g6]
    congr 1
    have p1 : OnProfile datas.reverse (k * ((datas.length : Rat) - 1) / ((size : Rat) - 1)) (a + w * (b - a)) :=
      ⟨j, w, a, b, by rw [h1, List.length_reverse], h2, h3, h4, h5, rfl⟩
    have p2 := onProfile_reverse (⟨i, u, c, d, g1, g2, g3, g4, g5, rfl⟩ :
      OnProfile datas (((size - 1 - k : Nat) : Rat) * ((datas.length : Rat) - 1) / ((size : Rat) - 1)) (c + u * (d - c)))
    refine onProfile_unique p1 ?_
    convert p2 using 1
    rw [Nat.cast_sub (by omega), Nat.cast_sub (by omega)]
    push_cast
    field_simp
    ring
  · rw [List.getElem?_eq_none (by omega), List.getElem?_eq_none (by rw [List.length_reverse]; omega)]

/-- In cm/s and of the other sign; from the outside. -/
example : 2 ≤ [(0 : Rat), 10, 40].length ∧ rawResample [0, 10, 40] 5 = some [0, 5, 10, 25, 40] ∧
    rawResample ([0, 10, 40].map (fun v => -100 * v + 1)) 5 = some [1, -499, -999, -2499, -3999] ∧ rawResample [40, 10, 0] 5 = some [40, 25, 10, 5, 0] := by
  decide +kernel

end Verif.Stats
