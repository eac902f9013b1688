import Verif.Tracks.Props

/-!
# The mask given to `extract_with_mask` (C185, `src/py_eddy_tracker/observations/tracking.py:465-514`)

Line 492 (`mask *= ...`) writes in the array of the caller. The answer is the one of `extractWithMask` (C23); here the mask after
the call is kept too, for callers which use it again.
-/

namespace Verif.Tracks

variable {α : Type}

/-- The options of a call. -/
structure MaskCall where
  fullPath : Bool
  removeIncomplete : Bool
  rejectVirtual : Bool

/-- `extract_with_mask` (tracking.py:465-514): the answer, and the array of the caller after the call (line 492). -/
def extractInPlace (data : List (Nat × α)) (virt mask : List Bool) (c : MaskCall) : Option (List (Nat × α)) × List Bool :=
  (extractWithMask data virt mask c.fullPath c.removeIncomplete c.rejectVirtual,
    if c.fullPath then if c.rejectVirtual then List.zipWith (fun m v => m && !v) mask virt else mask else mask)

/-- Successive calls with the same array. -/
def maskCalls (data : List (Nat × α)) (virt : List Bool) : List Bool → List MaskCall → List (Option (List (Nat × α)))
  | _, [] => []
  | mask, c :: cs => (extractInPlace data virt mask c).1 :: maskCalls data virt (extractInPlace data virt mask c).2 cs

/-! ### Specification -/

/-- Full statement: each call gives what it would give with the mask of the first one. -/
def MaskReusable : Prop := ∀ (data : List (Nat × Nat)) (virt mask : List Bool) (cs : List MaskCall), virt.length = data.length →
  mask.length = data.length →
  maskCalls data virt mask cs = cs.map (fun c => extractWithMask data virt mask c.fullPath c.removeIncomplete c.rejectVirtual)

/-! ### Proofs -/

theorem reject_twice : ∀ mask virt : List Bool,
    List.zipWith (fun m v => m && !v) (List.zipWith (fun m v => m && !v) mask virt) virt = List.zipWith (fun m v => m && !v) mask virt
  | [], _ => by simp
  | _ :: _, [] => by simp
  | m :: mask, v :: virt => by
    rw [List.zipWith_cons_cons, List.zipWith_cons_cons, reject_twice mask virt]
    cases m <;> cases v <;> rfl

/-- The array of the caller after the call: the selected virtual observations are no more selected with the two options, nothing
else changes. -/
theorem mask_after {data : List (Nat × α)} {virt mask : List Bool} (c : MaskCall) (hl : virt.length = mask.length) (i : Nat) :
    (extractInPlace data virt mask c).2.length = mask.length ∧
    ((extractInPlace data virt mask c).2[i]? = some true ↔
      mask[i]? = some true ∧ (c.fullPath = true → c.rejectVirtual = true → virt[i]? = some false)) := by
  unfold extractInPlace
  simp only
  by_cases hc : c.fullPath = true ∧ c.rejectVirtual = true
  · rw [if_pos hc.1, if_pos hc.2, List.length_zipWith, hl, min_self]
    refine ⟨rfl, ?_⟩
    rw [List.getElem?_zipWith]
    by_cases hi : i < mask.length
    · rw [List.getElem?_eq_getElem hi, List.getElem?_eq_getElem (show i < virt.length by omega)]
      simp [hc.1, hc.2]
    · rw [List.getElem?_eq_none (by omega : mask.length ≤ i), List.getElem?_eq_none (by omega : virt.length ≤ i)]
      simp
  · have e : (if c.fullPath then if c.rejectVirtual then List.zipWith (fun m v => m && !v) mask virt else mask else mask) = mask := by
      split
      · split
        · rename_i h1 h2
          exact absurd ⟨h1, h2⟩ hc
        · rfl
      · rfl
    rw [e]
    refine ⟨rfl, ?_⟩
    constructor
    · exact fun h => ⟨h, fun h1 h2 => absurd ⟨h1, h2⟩ hc⟩
    · exact fun h => h.1

theorem extract_rejected (data : List (Nat × α)) (virt mask : List Bool) (ri : Bool) :
    extractWithMask data virt (List.zipWith (fun m v => m && !v) mask virt) true ri true = extractWithMask data virt mask true ri true := by
  unfold extractWithMask
  simp only [if_true, reject_twice]

/-- **C185**: the calls give what they would give with a new mask when none of them, or all of them, have the two options
`full_path` and `reject_virtual`. Missing: mixed calls. -/
theorem mask_reuse_partial (data : List (Nat × α)) (virt mask : List Bool) (cs : List MaskCall)
    (h : (∀ c ∈ cs, ¬ (c.fullPath = true ∧ c.rejectVirtual = true)) ∨ (∀ c ∈ cs, c.fullPath = true ∧ c.rejectVirtual = true)) :
    maskCalls data virt mask cs = cs.map (fun c => extractWithMask data virt mask c.fullPath c.removeIncomplete c.rejectVirtual) := by
  rcases h with h | h
  · induction cs with
    | nil => rfl
    | cons c cs ih =>
      have hc := h c List.mem_cons_self
      have e : (extractInPlace data virt mask c).2 = mask := by
        unfold extractInPlace
        simp only
        split
        · split
          · rename_i h1 h2
            exact absurd ⟨h1, h2⟩ hc
          · rfl
        · rfl
      rw [maskCalls, e, ih (fun c hc => h c (List.mem_cons_of_mem _ hc))]
      rfl
  · induction cs generalizing mask with
    | nil => rfl
    | cons c cs ih =>
      obtain ⟨h1, h2⟩ := h c List.mem_cons_self
      have e : (extractInPlace data virt mask c).2 = List.zipWith (fun m v => m && !v) mask virt := by
        unfold extractInPlace
        simp only
        rw [if_pos h1, if_pos h2]
      rw [maskCalls, e, ih _ (fun c hc => h c (List.mem_cons_of_mem _ hc)), List.map_cons]
      congr 1
      apply List.map_congr_left
      intro c' hc'
      obtain ⟨h1', h2'⟩ := h c' (List.mem_cons_of_mem _ hc')
      rw [h1', h2']
      exact extract_rejected data virt mask _

/-- After a call with the two options, the same mask selects no more the virtual observations. -/
theorem mask_reuse_wrong : ¬ MaskReusable := by
  intro h
  have := h [(0, 10), (0, 11), (1, 12)] [false, true, false] [false, true, true] [⟨true, false, true⟩, ⟨false, false, false⟩] rfl rfl
  revert this
  decide

/-- Two calls with the two options, on tracks with a virtual observation. -/
example : maskCalls [(0, 10), (0, 11), (1, 12)] [false, true, false] [false, true, true] [⟨true, false, true⟩, ⟨true, true, true⟩] =
    [some [(1, 12)], some [(1, 12)]] := by decide

end Verif.Tracks
