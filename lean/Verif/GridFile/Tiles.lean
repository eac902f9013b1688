import Verif.GridFile.Props

/-!
# C146: tiles of a variable

`grid_tiles` (src/py_eddy_tracker/dataset/grid.py:568-597): a part of a variable read in the file, without the cache.
-/

namespace Verif.GridFile

/-- `grid_tiles` (grid.py:568-597); slices inside of the dimensions, coordinates of one dimension. -/
def gridTiles (h : Handler) (v : String) (sx nx sy ny : Nat) : Option Arr :=
  match h.file.vars v with
  | none => none
  | some w =>
    if h.xDim ∈ w.dims ∧ h.yDim ∈ w.dims then
      let sl := w.dims.map (fun d => if d = h.xDim then Sl.range sx nx else if d = h.yDim then Sl.range sy ny else Sl.one 0)
      some (if w.dims.idxOf h.yDim < w.dims.idxOf h.xDim then (indexed w sl).T else indexed w sl)
    else none

/-- The handler as it was opened, without index and mask of nan, and the indexes of the slices. -/
def bare (h : Handler) : Handler := { h with indexs := fun _ => none, nanMask := false, vars := fun _ => none }

@[inherit_doc bare]
def slices (h : Handler) (sx nx sy ny : Nat) : Indexs := fun d => if d = h.xDim then some (.range sx nx) else if d = h.yDim then some (.range sy ny) else none

theorem tiles_eq (h : Handler) (v : String) (sx nx sy ny : Nat) :
    gridTiles h v sx nx sy ny = (grid (bare h) v (slices h sx nx sy ny)).map (·.1) := by
  have hp : ∀ w : FVar, w.dims.map (fun d => if d = h.xDim then Sl.range sx nx else if d = h.yDim then Sl.range sy ny else Sl.one 0) =
      w.dims.map (pick (bare h) (slices h sx nx sy ny)) := by
    intro w
    apply List.map_congr_left
    intro d _
    rw [pick_eq]
    unfold slices
    by_cases h1 : d = h.xDim
    · rw [if_pos h1, if_pos h1]; rfl
    · rw [if_neg h1, if_neg h1]
      by_cases h2 : d = h.yDim
      · rw [if_pos h2, if_pos h2]; rfl
      · rw [if_neg h2, if_neg h2]
        show Sl.one 0 = if d = h.xDim ∨ d = h.yDim then Sl.range 0 (h.file.size d) else Sl.one 0
        rw [if_neg (not_or.2 ⟨h1, h2⟩)]
  have hv : (bare h).vars v = none := rfl
  have hf : (bare h).file = h.file := rfl
  have hx : (bare h).xDim = h.xDim := rfl
  have hy : (bare h).yDim = h.yDim := rfl
  have hm : (bare h).nanMask = false := rfl
  unfold gridTiles grid
  rw [hv, hf]
  cases h.file.vars v with
  | none => rfl
  | some w =>
    simp only [hx, hy, hm, hp]
    split
    · rw [Option.map_some]
      by_cases ht : w.dims.idxOf h.yDim < w.dims.idxOf h.xDim <;> simp [ht]
    · rfl

/-- **C146**: a tile has the longitudes as first axis and the latitudes as second one, whatever the order of the dimensions in the file, and holds the
cells of the slices at the first position of the other dimensions. -/
theorem tiles_spec {h : Handler} {v : String} {w : FVar} {sx nx sy ny : Nat} (hw : h.file.vars v = some w) (hn : w.dims.Nodup) (hxy : h.xDim ≠ h.yDim)
    (hx : h.xDim ∈ w.dims) (hy : h.yDim ∈ w.dims) :
    ∃ a, gridTiles h v sx nx sy ny = some a ∧ a.shape = [nx, ny] ∧
      ∀ i j : Nat, a.data [i, j] = w.data (w.dims.map (fun d => if d = h.xDim then sx + i else if d = h.yDim then sy + j else 0)) := by
  obtain ⟨a, h', e, hs, hd, _⟩ := grid_fresh (h := bare h) (v := v) (ix := slices h sx nx sy ny) (w := w) (sx := sx) (nx := nx) (sy := sy) (ny := ny)
    (fixed := fun _ => 0) rfl hw hn hxy hx hy
    ⟨Or.inl (by simp [slices, bare]), Or.inl (by simp [slices, bare, Ne.symm hxy]), fun d _ h1 h2 => Or.inr ⟨by simp [slices, bare] at h1 h2 ⊢; simp [h1, h2], rfl⟩⟩
  refine ⟨a, by rw [tiles_eq, e]; rfl, hs, fun i j => ?_⟩
  exact (hd i j).trans rfl

/-- **C146**: a tile is the part of the variable given by `grid`, when the handler reads the first position of the other dimensions and does not mask
nan, and the variable was not changed. Missing: `tiles_index_wrong`, `tiles_changed_wrong`. -/
theorem tiles_grid_partial {h h' : Handler} {v : String} {w : FVar} {sx nx sy ny : Nat} {a : Arr} (hw : h.file.vars v = some w) (hn : w.dims.Nodup)
    (hxy : h.xDim ≠ h.yDim) (hx : h.xDim ∈ w.dims) (hy : h.yDim ∈ w.dims) (hc : h.vars v = none) (hm : h.nanMask = false)
    (hix : h.indexs h.xDim = none ∧ h.indexs h.yDim = none)
    (hio : ∀ d ∈ w.dims, d ≠ h.xDim → d ≠ h.yDim → h.indexs d = none ∨ h.indexs d = some (.one 0))
    (hg : grid h v (fun _ => none) = some (a, h')) :
    ∃ b, gridTiles h v sx nx sy ny = some b ∧ ∀ i j : Nat, b.data [i, j] = a.data [sx + i, sy + j] := by
  obtain ⟨b, e, _, hd⟩ := tiles_spec (sx := sx) (nx := nx) (sy := sy) (ny := ny) hw hn hxy hx hy
  obtain ⟨a', h'', e', _, hd', _⟩ := grid_fresh (h := h) (v := v) (ix := fun _ => none) (w := w) (sx := 0) (nx := h.file.size h.xDim) (sy := 0)
    (ny := h.file.size h.yDim) (fixed := fun _ => 0) hc hw hn hxy hx hy
    ⟨Or.inr ⟨by simp [hix.1], rfl, rfl⟩, Or.inr ⟨by simp [hix.2], rfl, rfl⟩, fun d hd h1 h2 => by
      rcases hio d hd h1 h2 with e | e
      · exact Or.inr ⟨by simp [e], rfl⟩
      · exact Or.inl (by simp [e])⟩
  have : a = a' := by
    have := hg.symm.trans e'
    exact (Prod.mk.inj (Option.some.inj this)).1
  subst this
  refine ⟨b, e, fun i j => ?_⟩
  rw [hd, hd']
  simp [fileCell, hm]

/-- The handler of the second date. -/
def exSecond : Handler := openFile exFile "lon" "lat" (fun d => if d = "time" then some (.one 1) else none) false

/-- The tile is read by both at the first date. -/
theorem tiles_index_wrong : ∃ a b, (grid exSecond "sla" (fun _ => none)).map (fun p => p.1.data [3, 2]) = some a ∧
    (gridTiles exSecond "sla" 2 2 1 2).map (fun t => t.data [1, 1]) = some b ∧ a = .val 123 ∧ b = .val 23 := by
  refine ⟨.val 123, .val 23, ?_, ?_, rfl, rfl⟩ <;> decide +kernel

/-- A tile never depends on what was computed on the variable: after a filter it is still the one of the file. -/
theorem tiles_changed_wrong (h : Handler) (v : String) (a : Arr) (sx nx sy ny : Nat) :
    gridTiles (addGrid h v a) v sx nx sy ny = gridTiles h v sx nx sy ny ∧ grid (addGrid h v a) v (fun _ => none) = some (a, addGrid h v a) := by
  refine ⟨rfl, ?_⟩
  unfold grid addGrid
  simp

example : (gridTiles exHandler "sla" 2 2 1 2).map (fun t => (t.shape, t.data [0, 0], t.data [1, 0])) = some ([2, 2], .val 12, .val 13) := by decide +kernel

end Verif.GridFile
