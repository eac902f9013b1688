import Verif.Missing.Props

/-!
# C210: virtual observations inserted then removed, in other units

`insert_virtual` (src/py_eddy_tracker/observations/groups.py:305-328, get_missing_indices 15-67), on the model of C28.
-/

namespace Verif.Missing

/-! ### Specification -/

/-- The same row with times in another unit and from another date, and the other field in another unit and from another reference. -/
def inUnits (c t0 a b : Rat) (r : Row) : Row := { r with time := c * r.time + t0, val := a * r.val + b }

/-! ### Removal -/

/-- A row from the flag, the number of track, the time and the other field. -/
def mkRow (q : Bool × Nat × Rat × Rat) : Row := { track := q.2.1, time := q.2.2.1, val := q.2.2.2, virt := q.1 }

/-- The new rows, in closed form. -/
theorem rebuild_eq (gs : List Nat) (rows : List Row) (h : gs.length = rows.length) (hlast : gs.getLast? = some 0 ∨ gs = []) :
    rebuild (expandMask gs) (expand ⟨0, 0, 0, false⟩ gs rows) =
      ((expandMask gs).zip ((expand 0 gs (rows.map (·.track))).zip ((linear gs (rows.map (·.time))).zip (linear gs (rows.map (·.val)))))).map
        mkRow := by
  unfold rebuild
  simp only [expand_map]
  rw [fillField_eq gs _ (by simpa using h) hlast, fillField_eq gs _ (by simpa using h) hlast]
  have e : (expand (0 : Nat) gs (rows.map (·.track))) = (expand (⟨0, 0, 0, false⟩ : Row) gs rows).map (·.track) := by rw [expand_map]
  rw [e, List.zip_map_left, List.zip_map_right, List.map_map]
  rfl

theorem virtual_only {β : Type} (F : Bool × β → Row) (hF : ∀ q, (F q).virt = q.1) (g : Nat) (l : List β) :
    (((List.replicate g true).zip l).map F).filter (fun r => !r.virt) = [] := by
  rw [List.filter_eq_nil_iff]
  intro r hr
  obtain ⟨q, hq, rfl⟩ := List.mem_map.1 hr
  rw [hF, List.eq_of_mem_replicate (List.of_mem_zip hq).1]
  simp

theorem kept_rows : ∀ (gs : List Nat) (rows : List Row), gs.length = rows.length →
    (((expandMask gs).zip ((expand 0 gs (rows.map (·.track))).zip ((linear gs (rows.map (·.time))).zip (linear gs (rows.map (·.val)))))).map
        mkRow).filter (fun r => !r.virt) =
      rows.map (fun r => { r with virt := false })
  | [], [], _ => rfl
  | g :: gs, [r], h => by
    obtain rfl : gs = [] := by simpa using h
    simp only [List.map_cons, List.map_nil, expandMask, expand, linear, List.append_nil, List.zip_cons_cons, List.filter_cons]
    rw [virtual_only mkRow (fun _ => rfl)]
    rfl
  | g :: gs, r :: r' :: rows, h => by
    have ih := kept_rows gs (r' :: rows) (by simpa using h)
    simp only [List.map_cons] at ih
    simp only [List.map_cons, expandMask, expand, linear, List.zip_cons_cons, List.filter_cons]
    rw [List.zip_append (by simp), List.zip_append (by simp), List.zip_append (by simp), List.map_append, List.filter_append,
      virtual_only mkRow (fun _ => rfl), List.nil_append, ih]
    rfl

/-- **C210** the rows which are not virtual are the rows given, in their order, whatever the gaps. -/
theorem insert_remove (flag : Bool) (untrack : Nat) (rows : List Row) (dt : Rat) (hdt : 0 < dt)
    (hmed : Smooth.median (diffs (rows.map (·.time))) = some dt) : ∃ out, insertVirtual flag untrack rows = some out ∧
      out.filter (fun r => !r.virt) = rows.map (fun r => { r with virt := false }) := by
  refine ⟨_, insertVirtual_eq flag untrack rows dt hdt hmed, ?_⟩
  rw [rebuild_eq _ rows (by rw [gaps_length, List.length_map]) (gaps_last dt flag untrack _)]
  exact kept_rows _ rows (by rw [gaps_length, List.length_map])

/-- **C210** a dataset without virtual observation is given back by the removal of the virtual ones. -/
theorem insert_remove_real (flag : Bool) (untrack : Nat) (rows : List Row) (dt : Rat) (hdt : 0 < dt)
    (hmed : Smooth.median (diffs (rows.map (·.time))) = some dt) (hv : ∀ r ∈ rows, r.virt = false) : ∃ out, insertVirtual flag untrack rows = some out ∧
      out.filter (fun r => !r.virt) = rows := by
  obtain ⟨out, e, h⟩ := insert_remove flag untrack rows dt hdt hmed
  refine ⟨out, e, ?_⟩
  rw [h]
  conv_rhs => rw [← List.map_id rows]
  refine List.map_congr_left (fun r hr => ?_)
  have := hv r hr
  cases r
  simp only at this
  subst this
  rfl

/-! ### Units -/

theorem median_mul {c : Rat} (hc : 0 < c) (l : List Rat) : Smooth.median (l.map (c * ·)) = (Smooth.median l).map (c * ·) := by
  have hs : (l.map (c * ·)).insertionSort (· ≤ ·) = (l.insertionSort (· ≤ ·)).map (c * ·) :=
    (List.map_insertionSort (r := (· ≤ ·)) (s := (· ≤ ·)) (fun a => c * a) l (fun a _ b _ => (mul_le_mul_iff_right₀ hc).symm)).symm
  unfold Smooth.median
  simp only [hs, List.length_map, List.getElem?_map]
  split
  · rfl
  · cases (l.insertionSort (· ≤ ·))[l.length / 2 - 1]? <;> cases (l.insertionSort (· ≤ ·))[l.length / 2]? <;> simp
    ring

theorem diffs_affine (c t0 : Rat) : ∀ l : List Rat, diffs (l.map (fun t => c * t + t0)) = (diffs l).map (c * ·)
  | [] => rfl
  | [_] => rfl
  | a :: b :: l => by
    have ih := diffs_affine c t0 (b :: l)
    simp only [List.map_cons] at ih
    simp only [List.map_cons, diffs, ih]
    congr 1
    ring

theorem step_affine {c : Rat} (hc : 0 < c) (t0 dt : Rat) (flag : Bool) (untrack : Nat) (r0 r1 : Nat × Rat) :
    nbrStep (c * dt) flag untrack (r0.1, c * r0.2 + t0) (r1.1, c * r1.2 + t0) = nbrStep dt flag untrack r0 r1 := by
  unfold nbrStep
  simp only
  rw [show c * r1.2 + t0 - (c * r0.2 + t0) = c * (r1.2 - r0.2) by ring, mul_div_mul_left _ _ hc.ne']
  simp only [mul_lt_mul_iff_right₀ hc]

theorem gaps_affine {c : Rat} (hc : 0 < c) (t0 dt : Rat) (flag : Bool) (untrack : Nat) (rows : List (Nat × Rat)) :
    gaps (c * dt) flag untrack (rows.map (fun r => (r.1, c * r.2 + t0))) = gaps dt flag untrack rows := by
  unfold gaps
  congr 1
  induction rows with
  | nil => rfl
  | cons r0 rows ih =>
    cases rows with
    | nil => rfl
    | cons r1 rows =>
      simp only [List.map_cons] at ih
      simp only [List.map_cons, nbrSteps, step_affine hc, ih]

theorem linear_affine (a b : Rat) : ∀ (gs : List Nat) (l : List Rat), linear gs (l.map (fun v => a * v + b)) = (linear gs l).map (fun v => a * v + b)
  | [], l => by cases l <;> rfl
  | g :: gs, [] => rfl
  | g :: gs, [x] => by simp [linear]
  | g :: gs, x :: y :: l => by
    have ih := linear_affine a b gs (y :: l)
    simp only [List.map_cons] at ih
    simp only [List.map_cons, linear, List.map_append, List.map_map, ih]
    congr 2
    refine List.map_congr_left (fun r _ => ?_)
    simp only [Function.comp]
    ring

/-- **C210** the insertion does not depend on the units: times in another unit or from another date, fields in another unit or from another reference give
the same rows in these units. -/
theorem insert_units (flag : Bool) (untrack : Nat) (rows : List Row) (dt : Rat) (hdt : 0 < dt)
    (hmed : Smooth.median (diffs (rows.map (·.time))) = some dt) {c : Rat} (hc : 0 < c) (t0 a b : Rat) :
    insertVirtual flag untrack (rows.map (inUnits c t0 a b)) = (insertVirtual flag untrack rows).map (fun out => out.map (inUnits c t0 a b)) := by
  have ht : (rows.map (inUnits c t0 a b)).map (·.time) = (rows.map (·.time)).map (fun t => c * t + t0) := by
    rw [List.map_map, List.map_map]; rfl
  have hv : (rows.map (inUnits c t0 a b)).map (·.val) = (rows.map (·.val)).map (fun t => a * t + b) := by
    rw [List.map_map, List.map_map]; rfl
  have hk : (rows.map (inUnits c t0 a b)).map (·.track) = rows.map (·.track) := by
    rw [List.map_map]; rfl
  have hp : (rows.map (inUnits c t0 a b)).map (fun r => (r.track, r.time)) = (rows.map (fun r => (r.track, r.time))).map (fun r => (r.1, c * r.2 + t0)) := by
    rw [List.map_map, List.map_map]; rfl
  have hmed' : Smooth.median (diffs ((rows.map (inUnits c t0 a b)).map (·.time))) = some (c * dt) := by
    rw [ht, diffs_affine, median_mul hc, hmed]; rfl
  rw [insertVirtual_eq flag untrack _ (c * dt) (mul_pos hc hdt) hmed', insertVirtual_eq flag untrack rows dt hdt hmed, hp, gaps_affine hc]
  have hl := gaps_length dt flag untrack (rows.map (fun r => (r.track, r.time)))
  rw [List.length_map] at hl
  have hg := gaps_last dt flag untrack (rows.map (fun r => (r.track, r.time)))
  generalize gaps dt flag untrack (rows.map (fun r => (r.track, r.time))) = gs at hl hg ⊢
  rw [rebuild_eq gs _ (by rw [hl, List.length_map]) hg, rebuild_eq gs rows hl hg, ht, hv, hk, linear_affine, linear_affine, Option.map_some,
    List.map_map]
  congr 1
  rw [List.zip_map, List.zip_map_right, List.zip_map_right, List.map_map]
  rfl

/-- A track with a hole of two days, in days then in hours since another date, amplitudes in metres then in centimetres. -/
example : insertVirtual false 0 [⟨1, 0, 1, false⟩, ⟨1, 1, 1, false⟩, ⟨1, 4, 4, false⟩, ⟨1, 5, 4, false⟩] =
      some [⟨1, 0, 1, false⟩, ⟨1, 1, 1, false⟩, ⟨0, 2, 2, true⟩, ⟨0, 3, 3, true⟩, ⟨1, 4, 4, false⟩, ⟨1, 5, 4, false⟩] ∧
    insertVirtual false 0 ([⟨1, 0, 1, false⟩, ⟨1, 1, 1, false⟩, ⟨1, 4, 4, false⟩, ⟨1, 5, 4, false⟩].map (inUnits 24 12 100 0)) =
      some [⟨1, 12, 100, false⟩, ⟨1, 36, 100, false⟩, ⟨0, 60, 200, true⟩, ⟨0, 84, 300, true⟩, ⟨1, 108, 400, false⟩, ⟨1, 132, 400, false⟩] := by
  decide +kernel

end Verif.Missing
