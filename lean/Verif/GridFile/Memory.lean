import Verif.GridFile.Props

/-!
# C149: the memory of a collection of grids

Model of the datasets loaded and cleaned by `GridCollection` (/repo/src/py_eddy_tracker/dataset/grid.py). The arrays given by `grid` are
values: an array changed in place by its reader is not modelled.
-/

namespace Verif.GridFile

/-- A dataset of a collection; `loaded` is `dimensions is not None`. -/
structure Data where
  h : Handler
  loaded : Bool

/-- `GridDataset.__init__` with its option `unset` (grid.py:269-309). -/
def newData (f : File) (xDim yDim : String) (indexs : Indexs) (nanMask unset : Bool) : Data :=
  ⟨if unset then { openFile f xDim yDim indexs nanMask with descr := fun _ => none } else openFile f xDim yDim indexs nanMask, !unset⟩

/-- `populate` (grid.py:311-314). -/
def populate (d : Data) : Data := if d.loaded then d else ⟨openFile d.h.file d.h.xDim d.h.yDim d.h.indexs d.h.nanMask, true⟩

/-- `clean` (grid.py:316-327). -/
def clean (d : Data) : Data := ⟨{ d.h with vars := fun _ => none, descr := fun _ => none }, false⟩

/-- `grid` (grid.py:519-566) on a dataset which may be not loaded: `list(self.x_dim)` raises on `None`. `none` is an exception. -/
def gridOf (d : Data) (v : String) : Option Arr × Data :=
  if d.loaded then
    match grid d.h v (fun _ => none) with
    | some (a, h) => (some a, ⟨h, true⟩)
    | none => (none, d)
  else (d.h.vars v, d)

/-- The datasets of a collection with their times. -/
abbrev Coll := List (Rat × Data)

/-- `are_loaded` (grid.py:2374-2376), its sum. -/
def nbLoaded (c : Coll) : Nat := (c.filter (fun d => d.2.loaded)).length

/-- `reset_grids` (grid.py:2513-2518). -/
def resetGrids (N : Option Int) (c : Coll) : Coll :=
  match N with
  | none => c
  | some N => if (nbLoaded c : Int) > N then c.map (fun d => if d.2.loaded then (d.1, clean d.2) else d) else c

/-- `c[t].grid(v)` with `__getitem__` (grid.py:2430-2435): the answer (`none` is an exception) and the collection after it. -/
def readAt (t : Rat) (v : String) : Coll → Option Arr × Coll
  | [] => (none, [])
  | (s, d) :: l =>
    if s = t then
      let p := gridOf (populate d) v
      (p.1, (s, p.2) :: l)
    else
      let p := readAt t v l
      (p.1, (s, d) :: p.2)

/-- The first `k` datasets given by `get_next_time_step` (grid.py:2597-2603). -/
def visit (t : Rat) : Nat → Coll → Coll
  | 0, c => c
  | _, [] => []
  | k + 1, (s, d) :: l => if s < t then (s, d) :: visit t (k + 1) l else (s, populate d) :: visit t k l

/-- The first `k` datasets given by `get_previous_time_step` on the reversed collection (grid.py:2605-2613). -/
def visitBack (t : Rat) : Nat → Coll → Coll
  | 0, c => c
  | _, [] => []
  | k + 1, (s, d) :: l => if s > t then (s, d) :: visitBack t (k + 1) l else (s, populate d) :: visitBack t k l

/-- What a user does with a collection: read a variable at a time, free the memory, go through the times. -/
inductive Op
  | read (t : Rat) (v : String)
  | reset (N : Option Int)
  | next (t : Rat) (k : Nat)
  | previous (t : Rat) (k : Nat)

/-- One operation: its answer when it is a reading, and the collection. -/
def step (c : Coll) : Op → List (Option Arr) × Coll
  | .read t v => ([(readAt t v c).1], (readAt t v c).2)
  | .reset N => ([], resetGrids N c)
  | .next t k => ([], visit t k c)
  | .previous t k => ([], (visitBack t k c.reverse).reverse)

/-- Several operations: all the answers, and the collection. -/
def runOps : List Op → Coll → List (Option Arr) × Coll
  | [], c => ([], c)
  | o :: l, c => ((step c o).1 ++ (runOps l (step c o).2).1, (runOps l (step c o).2).2)

/-! ### Specification -/

/-- Where a grid comes from. -/
structure Source where
  file : File
  xDim : String
  yDim : String
  indexs : Indexs
  nanMask : Bool

/-- What a new reading of the file gives. -/
def Source.value (s : Source) (v : String) : Option Arr := (grid (openFile s.file s.xDim s.yDim s.indexs s.nanMask) v (fun _ => none)).map Prod.fst

/-- The answer expected from a reading: the value in the first file of this time. -/
def expected (srcs : List (Rat × Source)) (t : Rat) (v : String) : Option Arr := (srcs.find? (fun s => decide (s.1 = t))).bind (fun s => s.2.value v)

/-- The answers expected from some operations. -/
def answers (srcs : List (Rat × Source)) : List Op → List (Option Arr)
  | [] => []
  | .read t v :: l => expected srcs t v :: answers srcs l
  | _ :: l => answers srcs l

/-- A dataset which holds only what its file gives. -/
structure Sound (s : Source) (d : Data) : Prop where
  file : d.h.file = s.file
  xDim : d.h.xDim = s.xDim
  yDim : d.h.yDim = s.yDim
  indexs : d.h.indexs = s.indexs
  nanMask : d.h.nanMask = s.nanMask
  vars : ∀ v a, d.h.vars v = some a → s.value v = some a

/-! ### Proofs -/

theorem populate_sound {s : Source} {d : Data} (h : Sound s d) : Sound s (populate d) ∧ (populate d).loaded = true := by
  unfold populate
  by_cases hl : d.loaded = true
  · rw [if_pos hl]; exact ⟨h, hl⟩
  · rw [if_neg hl]
    exact ⟨⟨h.file, h.xDim, h.yDim, h.indexs, h.nanMask, fun v a hv => by simp [openFile] at hv⟩, rfl⟩

theorem clean_sound {s : Source} {d : Data} (h : Sound s d) : Sound s (clean d) :=
  ⟨h.file, h.xDim, h.yDim, h.indexs, h.nanMask, fun v a hv => by simp [clean] at hv⟩

theorem grid_same (f : File) (x y : String) (i : Indexs) (n : Bool) (vs vs' : String → Option Arr) (ds ds' : String → Option Descr) {v : String}
    (h : vs v = none) (h' : vs' v = none) :
    (grid ⟨f, x, y, i, n, vs, ds⟩ v (fun _ => none)).map Prod.fst = (grid ⟨f, x, y, i, n, vs', ds'⟩ v (fun _ => none)).map Prod.fst := by
  unfold grid
  simp only [h, h']
  cases f.vars v with
  | none => rfl
  | some w =>
    simp only
    by_cases hd : x ∈ w.dims ∧ y ∈ w.dims
    · rw [if_pos hd, if_pos hd]; rfl
    · rw [if_neg hd, if_neg hd]

/-- The value read depends on the source only when the variable is not in memory. -/
theorem grid_source {h : Handler} {v : String} (hv : h.vars v = none) :
    (grid h v (fun _ => none)).map Prod.fst = (Source.mk h.file h.xDim h.yDim h.indexs h.nanMask).value v :=
  grid_same _ _ _ _ _ _ _ _ _ hv rfl

theorem grid_keeps {h h' : Handler} {v : String} {a : Arr} (hg : grid h v (fun _ => none) = some (a, h')) :
    h'.file = h.file ∧ h'.xDim = h.xDim ∧ h'.yDim = h.yDim ∧ h'.indexs = h.indexs ∧ h'.nanMask = h.nanMask ∧
      ∀ u b, h'.vars u = some b → h.vars u = some b ∨ (u = v ∧ b = a) := by
  unfold grid at hg
  cases hv : h.vars v with
  | some a' =>
    rw [hv] at hg
    simp only [Option.some.injEq, Prod.mk.injEq] at hg
    obtain ⟨_, rfl⟩ := hg
    exact ⟨rfl, rfl, rfl, rfl, rfl, fun u b hb => Or.inl hb⟩
  | none =>
    rw [hv] at hg
    simp only at hg
    cases hw : h.file.vars v with
    | none => rw [hw] at hg; cases hg
    | some w =>
      rw [hw] at hg
      simp only at hg
      split at hg
      · simp only [Option.some.injEq, Prod.mk.injEq] at hg
        obtain ⟨ha, rfl⟩ := hg
        refine ⟨rfl, rfl, rfl, rfl, rfl, fun u b hb => ?_⟩
        simp only at hb
        by_cases hu : u = v
        · rw [if_pos hu, ha] at hb
          simp only [Option.some.injEq] at hb
          exact Or.inr ⟨hu, hb.symm⟩
        · rw [if_neg hu] at hb
          exact Or.inl hb
      · cases hg

theorem gridOf_sound {s : Source} {d : Data} (h : Sound s d) (hl : d.loaded = true) (v : String) :
    (gridOf d v).1 = s.value v ∧ Sound s (gridOf d v).2 := by
  have key : (grid d.h v (fun _ => none)).map Prod.fst = s.value v := by
    cases hv : d.h.vars v with
    | some a =>
      rw [h.vars v a hv]
      unfold grid
      rw [hv]
      rfl
    | none =>
      rw [grid_source hv, h.file, h.xDim, h.yDim, h.indexs, h.nanMask]
  unfold gridOf
  rw [if_pos hl]
  cases hg : grid d.h v (fun _ => none) with
  | none =>
    rw [hg] at key
    exact ⟨key, h⟩
  | some p =>
    obtain ⟨a, h'⟩ := p
    rw [hg] at key
    obtain ⟨k1, k2, k3, k4, k5, k6⟩ := grid_keeps hg
    refine ⟨key, ⟨k1.trans h.file, k2.trans h.xDim, k3.trans h.yDim, k4.trans h.indexs, k5.trans h.nanMask, fun u b hb => ?_⟩⟩
    rcases k6 u b hb with hb | ⟨rfl, rfl⟩
    · exact h.vars u b hb
    · exact key.symm

/-- A collection of sound datasets. -/
def AllSound (srcs : List (Rat × Source)) (c : Coll) : Prop := List.Forall₂ (fun s d => s.1 = d.1 ∧ Sound s.2 d.2) srcs c

theorem readAt_sound {srcs : List (Rat × Source)} {c : Coll} (h : AllSound srcs c) (t : Rat) (v : String) :
    (readAt t v c).1 = expected srcs t v ∧ AllSound srcs (readAt t v c).2 := by
  unfold AllSound at h ⊢
  induction h with
  | nil => exact ⟨rfl, .nil⟩
  | @cons s d srcs c hd hc ih =>
    obtain ⟨e, hs⟩ := hd
    obtain ⟨sl, sd⟩ := s
    obtain ⟨dl, dd⟩ := d
    simp only at e hs
    subst e
    unfold readAt expected
    rw [List.find?_cons]
    by_cases ht : sl = t
    · rw [if_pos ht]
      simp only [ht, decide_true, Option.bind_some]
      obtain ⟨p1, p2⟩ := populate_sound hs
      obtain ⟨g1, g2⟩ := gridOf_sound p1 p2 v
      exact ⟨g1, .cons ⟨rfl, g2⟩ hc⟩
    · rw [if_neg ht]
      simp only [ht, decide_false]
      exact ⟨ih.1, .cons ⟨rfl, hs⟩ ih.2⟩

theorem reset_sound {srcs : List (Rat × Source)} {c : Coll} (h : AllSound srcs c) (N : Option Int) : AllSound srcs (resetGrids N c) := by
  unfold resetGrids
  cases N with
  | none => exact h
  | some N =>
    simp only
    split
    · unfold AllSound at h ⊢
      rw [List.forall₂_map_right_iff]
      refine h.imp fun s d hd => ?_
      split
      · exact ⟨hd.1, clean_sound hd.2⟩
      · exact hd
    · exact h

theorem visit_sound {srcs : List (Rat × Source)} {c : Coll} (h : AllSound srcs c) (t : Rat) (k : Nat) : AllSound srcs (visit t k c) := by
  unfold AllSound at h ⊢
  induction h generalizing k with
  | nil => cases k <;> exact .nil
  | @cons s d srcs c hd hc ih =>
    cases k with
    | zero => exact .cons hd hc
    | succ k =>
      obtain ⟨dl, dd⟩ := d
      unfold visit
      split
      · exact .cons hd (ih (k + 1))
      · exact .cons ⟨hd.1, (populate_sound hd.2).1⟩ (ih k)

theorem visitBack_sound {srcs : List (Rat × Source)} {c : Coll} (h : AllSound srcs c) (t : Rat) (k : Nat) : AllSound srcs (visitBack t k c) := by
  unfold AllSound at h ⊢
  induction h generalizing k with
  | nil => cases k <;> exact .nil
  | @cons s d srcs c hd hc ih =>
    cases k with
    | zero => exact .cons hd hc
    | succ k =>
      obtain ⟨dl, dd⟩ := d
      unfold visitBack
      split
      · exact .cons hd (ih (k + 1))
      · exact .cons ⟨hd.1, (populate_sound hd.2).1⟩ (ih k)

theorem step_sound {srcs : List (Rat × Source)} {c : Coll} (h : AllSound srcs c) (o : Op) :
    (step c o).1 = answers srcs [o] ∧ AllSound srcs (step c o).2 := by
  cases o with
  | read t v =>
    obtain ⟨h1, h2⟩ := readAt_sound h t v
    exact ⟨by simp [step, answers, h1], h2⟩
  | reset N => exact ⟨rfl, reset_sound h N⟩
  | next t k => exact ⟨rfl, visit_sound h t k⟩
  | previous t k =>
    refine ⟨rfl, ?_⟩
    have := visitBack_sound (show AllSound srcs.reverse c.reverse from List.rel_reverse h) t k
    have h2 := List.rel_reverse this
    rw [List.reverse_reverse] at h2
    exact h2

theorem answers_cons (srcs : List (Rat × Source)) (o : Op) (l : List Op) : answers srcs (o :: l) = answers srcs [o] ++ answers srcs l := by
  cases o <;> rfl

theorem runOps_sound {srcs : List (Rat × Source)} : ∀ (ops : List Op) {c : Coll}, AllSound srcs c →
    (runOps ops c).1 = answers srcs ops ∧ AllSound srcs (runOps ops c).2
  | [], c, h => ⟨rfl, h⟩
  | o :: ops, c, h => by
    obtain ⟨h1, h2⟩ := step_sound h o
    obtain ⟨h3, h4⟩ := runOps_sound ops h2
    rw [runOps, answers_cons, h1, h3]
    exact ⟨rfl, h4⟩

/-- `from_netcdf_list` and `from_netcdf_cube` without `heigth` (grid.py:2347-2373). -/
def fromFiles (unset : Bool) (srcs : List (Rat × Source)) : Coll :=
  srcs.map (fun s => (s.1, newData s.2.file s.2.xDim s.2.yDim s.2.indexs s.2.nanMask unset))

theorem fromFiles_sound (unset : Bool) (srcs : List (Rat × Source)) : AllSound srcs (fromFiles unset srcs) := by
  unfold AllSound fromFiles
  rw [List.forall₂_map_right_iff]
  refine List.forall₂_same.2 fun s _ => ⟨rfl, ?_⟩
  unfold newData
  cases unset <;> exact ⟨rfl, rfl, rfl, rfl, rfl, fun v a hv => by simp [openFile] at hv⟩

/-- **C149** for the variables of the files: whatever the files loaded or not at the beginning and whatever the sequence of readings, of runs
through the times and of calls of `reset_grids`, each reading gives what the file of this time gives. Missing: the variables computed or
changed in memory (`reset_direct`, `memory_wrong`). -/
theorem memory_partial (unset : Bool) (srcs : List (Rat × Source)) (ops : List Op) :
    (runOps ops (fromFiles unset srcs)).1 = answers srcs ops := (runOps_sound ops (fromFiles_sound unset srcs)).1

theorem nbLoaded_clean (c : Coll) : nbLoaded (c.map (fun d => if d.2.loaded then (d.1, clean d.2) else d)) = 0 := by
  unfold nbLoaded
  rw [List.length_eq_zero_iff, List.filter_eq_nil_iff]
  intro d hd
  obtain ⟨e, _, rfl⟩ := List.mem_map.1 hd
  by_cases hl : e.2.loaded = true
  · rw [if_pos hl]; simp [clean]
  · rw [if_neg hl]; exact hl

/-- After `reset_grids(N)` at most `N` datasets are loaded: all of them are freed when there were more. -/
theorem reset_count (N : Int) (c : Coll) :
    nbLoaded (resetGrids (some N) c) = (if (nbLoaded c : Int) > N then 0 else nbLoaded c) ∧
    (0 ≤ N → (nbLoaded (resetGrids (some N) c) : Int) ≤ N) ∧ resetGrids none c = c := by
  have h1 : nbLoaded (resetGrids (some N) c) = (if (nbLoaded c : Int) > N then 0 else nbLoaded c) := by
    unfold resetGrids
    simp only
    split
    · exact nbLoaded_clean c
    · rfl
  refine ⟨h1, fun hN => ?_, rfl⟩
  rw [h1]
  split
  · exact_mod_cast hN
  · omega

/-- The source of a dataset. -/
def Data.source (d : Data) : Source := ⟨d.h.file, d.h.xDim, d.h.yDim, d.h.indexs, d.h.nanMask⟩

/-- After a reset which frees the memory, a loaded dataset gives what its file gives, whatever was computed or changed in it. -/
theorem reset_direct (d : Data) (v : String) : (gridOf (populate (clean d)) v).1 = d.source.value v := by
  have h : Sound d.source (clean d) := ⟨rfl, rfl, rfl, rfl, rfl, fun v a hv => by simp [clean] at hv⟩
  obtain ⟨p1, p2⟩ := populate_sound h
  exact (gridOf_sound p1 p2 v).1

/-- What the user may expect: `reset_grids` frees the memory without any other effect. -/
def Unobservable : Prop := ∀ (c : Coll) (N : Option Int) (t : Rat) (v : String), (readAt t v (resetGrids N c)).1 = (readAt t v c).1

/-- A file with one variable. -/
def exHeights : File := ⟨fun _ => 2, fun v => if v = "h" then some ⟨["x", "y"], fun p => .val (p.headD 0)⟩ else none⟩

/-- A collection of one grid with a velocity computed by `add_uv` (`heigth` of `from_netcdf_list`). -/
def exComputed : Coll := [(0, ⟨addGrid (openFile exHeights "x" "y" (fun _ => none) false) "u" ⟨[2, 2], fun _ => .val 1⟩, true⟩)]

/-- The velocities computed at the creation of the collection are lost by `reset_grids`: a `KeyError` follows. -/
theorem memory_wrong : ¬ Unobservable := by
  intro h
  have h1 := h exComputed (some 0) 0 "u"
  have h2 : (readAt 0 "u" exComputed).1.isSome = true := rfl
  have h3 : (readAt 0 "u" (resetGrids (some 0) exComputed)).1 = none := by
    unfold exComputed resetGrids nbLoaded readAt
    simp [clean, populate, addGrid, openFile, gridOf, grid, exHeights]
  rw [h3] at h1
  rw [← h1] at h2
  cases h2

/-- `__iter__` (grid.py:2417-2419) gives the datasets as they are: `for d in c: d.grid(v)`. -/
def iterRead (c : Coll) (v : String) : List (Option Arr) := c.map (fun d => (gridOf d.2 v).1)

/-- After a reset the datasets given by the iteration are not loaded: reading them raises, though their files have the variable. -/
theorem iter_wrong : ((iterRead (fromFiles false [(0, ⟨exHeights, "x", "y", fun _ => none, false⟩)]) "h").map Option.isSome,
    (iterRead (resetGrids (some 0) (fromFiles false [(0, ⟨exHeights, "x", "y", fun _ => none, false⟩)])) "h").map Option.isSome) =
    ([true], [false]) := by decide +kernel

example : ((answers [(0, ⟨exHeights, "x", "y", fun _ => none, false⟩), (1, ⟨exHeights, "y", "x", fun _ => none, false⟩)]
    [.read 1 "h", .reset (some 0), .next 0 1, .read 1 "h", .previous 1 2, .read 0 "k"]).map (fun a => a.map (fun a => (a.shape, a.data [0, 1])))) =
    [some ([2, 2], .val 1), some ([2, 2], .val 1), none] := by decide +kernel

end Verif.GridFile
