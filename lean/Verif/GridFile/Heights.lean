import Mathlib.Data.List.Basic

/-!
# Velocities from heights and the memory of the grids (C184, `src/py_eddy_tracker/dataset/grid.py:2026-2033`, with `grid`
(519-566) and `add_uv` (1844-1906))

A field is a parameter `F`, `vel` gives the two velocities of a field of heights (C127). The file gives fields by name. What is
computed after line 2033 (degrees, mask) is in `Collect`.
-/

namespace Verif.GridFile

/-- A grid: the file and the fields in memory (`self.vars`). -/
structure Mem (F : Type) where
  file : String → Option F
  vars : String → Option F

namespace Mem

variable {F : Type}

/-- `self.vars[name] = f`. -/
def put (m : Mem F) (name : String) (f : F) : Mem F := { m with vars := fun n => if n = name then some f else m.vars n }

/-- `self.vars.pop(name, None)`. -/
def pop (m : Mem F) (name : String) : Mem F := { m with vars := fun n => if n = name then none else m.vars n }

/-- `grid(name)` (grid.py:519-566): the field in memory, else the one of the file, which is then kept in memory. -/
def grid (m : Mem F) (name : String) : Option (F × Mem F) :=
  match m.vars name with
  | some f => some (f, m)
  | none => (m.file name).map (fun f => (f, m.put name f))

/-- `add_uv(h)` (grid.py:1844-1906). -/
def addUv (vel : F → F × F) (m : Mem F) (h : String) : Option (Mem F) :=
  (m.grid h).map (fun r => (r.2.put "v" (vel r.1).2).put "u" (vel r.1).1)

/-- `uv_for_advection(h_name=h)` (grid.py:2026-2033): the velocities and the grid after the call. -/
def uvFromHeights (vel : F → F × F) (m : Mem F) (h : String) : Option ((F × F) × Mem F) := do
  let m1 ← match m.vars "u" with
    | some _ => some m
    | none => (addUv vel m h).map (fun m => m.pop h)
  let (u, m2) ← m1.grid "u"
  let (v, m3) ← m2.grid "v"
  some ((u, v), m3)

/-- Successive calls. -/
def calls (vel : F → F × F) : Mem F → List String → Option (List (F × F) × Mem F)
  | m, [] => some ([], m)
  | m, h :: hs => do
    let (r, m1) ← uvFromHeights vel m h
    let (rs, m2) ← calls vel m1 hs
    some (r :: rs, m2)

/-! ### Specification -/

/-- What a user reads under a name. -/
def value (m : Mem F) (name : String) : Option F := (m.grid name).map Prod.fst

/-- Full statement: the velocities are the ones of the heights asked, as a user reads them before the call, and the call changes
nothing of what is read, except the two velocities. -/
def FromHeights (F : Type) : Prop := ∀ (vel : F → F × F) (m : Mem F) (h : String) (f : F), h ≠ "u" → h ≠ "v" → m.value h = some f →
  ∃ m', uvFromHeights vel m h = some (vel f, m') ∧ ∀ n, n ≠ "u" → n ≠ "v" → m'.value n = m.value n

/-! ### Proofs -/

theorem value_eq (m : Mem F) (name : String) : m.value name = match m.vars name with | some f => some f | none => m.file name := by
  unfold value grid
  cases m.vars name with
  | some f => rfl
  | none => cases m.file name <;> rfl

theorem grid_of_value {m : Mem F} {name : String} {f : F} (h : m.value name = some f) :
    ∃ m', m.grid name = some (f, m') ∧ m'.file = m.file ∧ (∀ n, n ≠ name → m'.vars n = m.vars n) ∧ m'.vars name = some f := by
  unfold value grid at h
  unfold grid
  cases hv : m.vars name with
  | some g =>
    rw [hv] at h
    simp only [Option.map_some, Option.some.injEq] at h
    subst h
    exact ⟨m, rfl, rfl, fun _ _ => rfl, hv⟩
  | none =>
    rw [hv] at h
    cases hf : m.file name with
    | none => rw [hf] at h; simp at h
    | some g =>
      rw [hf] at h
      simp only [Option.map_some, Option.some.injEq] at h
      subst h
      exact ⟨m.put name g, rfl, rfl, fun n hn => by simp [put, hn], by simp [put]⟩

theorem grid_of_vars {m : Mem F} {name : String} {f : F} (h : m.vars name = some f) : m.grid name = some (f, m) := by
  unfold grid
  rw [h]

/-- The first call, with no field `u` in memory: the velocities are the ones of the heights as they are read before the call. Then
the velocities are in memory and the heights are not; nothing else is changed in memory. -/
theorem first_call (vel : F → F × F) (m : Mem F) (h : String) (f : F) (hu : h ≠ "u") (hv : h ≠ "v") (hm : m.vars "u" = none)
    (hf : m.value h = some f) :
    ∃ m', uvFromHeights vel m h = some (vel f, m') ∧ m'.file = m.file ∧ m'.vars "u" = some (vel f).1 ∧ m'.vars "v" = some (vel f).2 ∧
      m'.vars h = none ∧ ∀ n, n ≠ "u" → n ≠ "v" → n ≠ h → m'.vars n = m.vars n := by
  obtain ⟨m1, h1, h2, h3, h4⟩ := grid_of_value hf
  let m2 := ((m1.put "v" (vel f).2).put "u" (vel f).1).pop h
  have e1 : m2.vars "u" = some (vel f).1 := by simp [m2, pop, put, hu.symm]
  have e2 : m2.vars "v" = some (vel f).2 := by simp [m2, pop, put, hv.symm]
  refine ⟨m2, ?_, h2, e1, e2, by simp [m2, pop], ?_⟩
  · unfold uvFromHeights addUv
    rw [hm, h1]
    simp only [Option.map_some]
    show (do
      let (u, m2') ← m2.grid "u"
      let (v, m3) ← m2'.grid "v"
      some ((u, v), m3) : Option ((F × F) × Mem F)) = _
    rw [grid_of_vars e1]
    show (do
      let (v, m3) ← m2.grid "v"
      some (((vel f).1, v), m3) : Option ((F × F) × Mem F)) = _
    rw [grid_of_vars e2]
    rfl
  · intro n hnu hnv hnh
    simp only [m2, pop, put, hnu, hnv, hnh, if_false]
    exact h3 n hnh

/-- **C184**: with no velocity in memory and heights which were not changed since they were read, the velocities are the ones of
the heights, and what is read of the other fields and of the heights does not change. Missing: velocities already in memory, heights
changed in memory. -/
theorem from_heights_partial (vel : F → F × F) (m : Mem F) (h : String) (f : F) (hu : h ≠ "u") (hv : h ≠ "v") (hm : m.vars "u" = none)
    (hf : m.file h = some f) (hc : m.vars h = none ∨ m.vars h = some f) :
    ∃ m', uvFromHeights vel m h = some (vel f, m') ∧ ∀ n, n ≠ "u" → n ≠ "v" → m'.value n = m.value n := by
  have hval : m.value h = some f := by
    rw [value_eq]
    rcases hc with hc | hc
    · rw [hc]; exact hf
    · rw [hc]
  obtain ⟨m', h1, h2, h3, h4, h5, h6⟩ := first_call vel m h f hu hv hm hval
  refine ⟨m', h1, ?_⟩
  intro n hnu hnv
  by_cases hn : n = h
  · subst hn
    rw [hval, value_eq, h5, h2]
    exact hf
  · rw [value_eq, value_eq, h6 n hnu hnv hn, h2]

/-- With velocities in memory, the call gives them, whatever the heights asked, even heights which do not exist. -/
theorem kept_velocities (vel : F → F × F) (m : Mem F) (h : String) {u v : F} (hu : m.vars "u" = some u) (hv : m.vars "v" = some v) :
    uvFromHeights vel m h = some ((u, v), m) := by
  unfold uvFromHeights
  rw [hu]
  show (do
    let (u, m2') ← m.grid "u"
    let (v, m3) ← m2'.grid "v"
    some ((u, v), m3) : Option ((F × F) × Mem F)) = _
  rw [grid_of_vars hu]
  show (do
    let (v', m3) ← m.grid "v"
    some ((u, v'), m3) : Option ((F × F) × Mem F)) = _
  rw [grid_of_vars hv]
  rfl

theorem calls_kept (vel : F → F × F) {m : Mem F} {u v : F} (hu : m.vars "u" = some u) (hv : m.vars "v" = some v) :
    ∀ hs : List String, calls vel m hs = some (hs.map (fun _ => (u, v)), m)
  | [] => rfl
  | h :: hs => by
    rw [calls, kept_velocities vel m h hu hv]
    show (do
      let (rs, m2) ← calls vel m hs
      some ((u, v) :: rs, m2) : Option (List (F × F) × Mem F)) = _
    rw [calls_kept vel hu hv hs]
    rfl

/-- All the calls on a grid give the velocities of the heights of the first one. -/
theorem all_calls (vel : F → F × F) (m : Mem F) (h : String) (f : F) (hs : List String) (hu : h ≠ "u") (hv : h ≠ "v")
    (hm : m.vars "u" = none) (hf : m.value h = some f) :
    ∃ m', calls vel m (h :: hs) = some ((h :: hs).map (fun _ => vel f), m') := by
  obtain ⟨m1, h1, _, h3, h4, _⟩ := first_call vel m h f hu hv hm hf
  refine ⟨m1, ?_⟩
  rw [calls, h1]
  show (do
    let (rs, m2) ← calls vel m1 hs
    some (vel f :: rs, m2) : Option (List (F × F) × Mem F)) = _
  rw [calls_kept vel h3 h4 hs]
  rfl

/-- Heights changed in memory (a filter) are lost by the call: the next reader gets those of the file. -/
theorem changed_lost (vel : F → F × F) (m : Mem F) (h : String) (f : F) (hu : h ≠ "u") (hv : h ≠ "v") (hm : m.vars "u" = none)
    (hf : m.vars h = some f) : ∃ m', uvFromHeights vel m h = some (vel f, m') ∧ m'.value h = m.file h := by
  obtain ⟨m', h1, h2, _, _, h5, _⟩ := first_call vel m h f hu hv hm (by rw [value_eq, hf])
  exact ⟨m', h1, by rw [value_eq, h5, h2]⟩

/-- Two fields of heights of a file: the second call gives the velocities of the first field. -/
theorem second_field_wrong : ¬ FromHeights Int := by
  intro h
  let m : Mem Int := ⟨fun n => if n = "adt" then some 1 else if n = "sla" then some 2 else none,
    fun n => if n = "u" then some 1 else if n = "v" then some (-1) else none⟩
  obtain ⟨m', h1, _⟩ := h (fun f => (f, -f)) m "sla" 2 (by decide) (by decide) (by decide)
  rw [kept_velocities (u := 1) (v := -1) _ m "sla" rfl rfl] at h1
  simp at h1

/-- Filtered heights: the velocities are right, the filtered heights are then read as they are in the file. -/
theorem filtered_wrong : ∃ (m m' : Mem Int), m.vars "u" = none ∧ m.value "adt" = some 7 ∧
    uvFromHeights (fun f => (f, -f)) m "adt" = some ((7, -7), m') ∧ m'.value "adt" = some 1 := by
  let m : Mem Int := ⟨fun n => if n = "adt" then some 1 else none, fun n => if n = "adt" then some 7 else none⟩
  obtain ⟨m', h1, h2⟩ := changed_lost (fun f => (f, -f)) m "adt" 7 (by decide) (by decide) (by decide) (by decide)
  exact ⟨m, m', by decide, by decide, h1, by rw [h2]; decide⟩

/-- Three calls on a new grid with two fields of heights. -/
example : (calls (fun f : Int => (f, -f)) ⟨fun n => if n = "adt" then some 1 else if n = "sla" then some 2 else none, fun _ => none⟩
    ["adt", "sla", "ssh"]).map Prod.fst = some [(1, -1), (1, -1), (1, -1)] := by decide

end Mem

end Verif.GridFile
