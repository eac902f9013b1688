import Verif.GridFile.Props

/-!
# C130: a grid which is written and read again
-/

namespace Verif.GridFile

/-- The handler knows the variable and the order of its dimensions in the file. -/
structure Ready (h : Handler) (v : String) : Prop where
  known : ∃ d a, h.descr v = some d ∧ h.vars v = some a ∧ d.transpose = decide (d.dims.idxOf h.yDim < d.dims.idxOf h.xDim)

/-- Each description is the one of the file: no transposition before the reading. -/
structure Clean (h : Handler) : Prop where
  fresh : ∀ v w, h.vars v = none → h.file.vars v = some w → h.descr v = some ⟨w.dims, false⟩

theorem openFile_clean (f : File) (x y : String) (ix : Indexs) (nm : Bool) : Clean (openFile f x y ix nm) :=
  ⟨fun v w _ hw => by
    have : f.vars v = some w := hw
    simp [openFile, this]⟩

theorem grid_names {h h' : Handler} {v : String} {ix : Indexs} {a : Arr} (hg : grid h v ix = some (a, h')) :
    h'.xDim = h.xDim ∧ h'.yDim = h.yDim ∧ h'.indexs = h.indexs ∧ h'.nanMask = h.nanMask := by
  unfold grid at hg
  split at hg
  · cases hg
    exact ⟨rfl, rfl, rfl, rfl⟩
  · split at hg
    · cases hg
    · split at hg
      · simp only [Option.some.injEq, Prod.mk.injEq] at hg
        obtain ⟨_, e2⟩ := hg
        subst e2
        exact ⟨rfl, rfl, rfl, rfl⟩
      · cases hg

/-- After the reading of a variable the handler is ready to write it; the other variables stay ready. -/
theorem grid_ready {h h' : Handler} {v : String} {ix : Indexs} {a : Arr} (hc : Clean h) (hg : grid h v ix = some (a, h')) :
    Clean h' ∧ (h.vars v = none → Ready h' v) ∧ ∀ u, Ready h u → Ready h' u := by
  obtain ⟨n1, n2, _, _⟩ := grid_names hg
  have ho := grid_other hg
  unfold grid at hg
  split at hg
  · rename_i b hb
    cases hg
    exact ⟨hc, fun e => (by rw [hb] at e; cases e), fun _ hu => hu⟩
  · rename_i hnone
    split at hg
    · cases hg
    · rename_i w hw
      split at hg
      · simp only [Option.some.injEq, Prod.mk.injEq] at hg
        obtain ⟨_, e2⟩ := hg
        have hd := hc.fresh v w hnone hw
        have hdescr : ∀ u, u ≠ v → h'.descr u = h.descr u := by
          intro u hu
          rw [← e2]
          simp only
          split
          · simp [hu]
          · rfl
        refine ⟨⟨fun u w' hu hw' => ?_⟩, fun _ => ⟨?_⟩, fun u hu => ?_⟩
        · have huv : u ≠ v := by
            rintro rfl
            rw [ho.2.2] at hu
            cases hu
          rw [ho.1 u huv] at hu
          rw [ho.2.1] at hw'
          rw [hdescr u huv]
          exact hc.fresh u w' hu hw'
        · refine ⟨⟨w.dims, decide (w.dims.idxOf h.yDim < w.dims.idxOf h.xDim)⟩, a, ?_, ho.2.2, ?_⟩
          · rw [← e2]
            by_cases ht : w.dims.idxOf h.yDim < w.dims.idxOf h.xDim
            · simp [ht, hd]
            · simp [ht, hd]
          · rw [n1, n2]
        · by_cases huv : u = v
          · subst huv
            obtain ⟨_, b, _, e, _⟩ := hu.known
            rw [hnone] at e
            cases e
          · obtain ⟨d, b, k1, k2, k3⟩ := hu.known
            exact ⟨d, b, by rw [hdescr u huv]; exact k1, by rw [ho.1 u huv]; exact k2, by rw [n1, n2]; exact k3⟩
      · cases hg

/-- The filters (and each replacement of a known variable) keep the handler ready. -/
theorem addGrid_ready {h : Handler} {v u : String} {a : Arr} (hv : Ready h v) (hu : Ready h u) : Ready (addGrid h v a) u := by
  obtain ⟨d, b, k1, k2, k3⟩ := hu.known
  by_cases e : u = v
  · subst e
    exact ⟨d, a, k1, by simp [addGrid], k3⟩
  · exact ⟨d, b, k1, by simp [addGrid, e, k2], k3⟩

/-- The copy of a variable which was read before is ready and has the same values. -/
theorem copy_ready {h : Handler} {vin vout : String} (hr : Ready h vin) (hne : vin ≠ vout) :
    ∃ h' a, copy h vin vout = some h' ∧ Ready h' vout ∧ h.vars vin = some a ∧ h'.vars vout = some a ∧ h'.vars vin = some a := by
  obtain ⟨d, a, k1, k2, k3⟩ := hr.known
  unfold copy
  rw [k1]
  simp only
  have e : grid { h with descr := fun u => if u = vout then some d else h.descr u } vin (fun _ => none) =
      some (a, { h with descr := fun u => if u = vout then some d else h.descr u }) := by
    unfold grid
    simp only [k2]
  rw [e]
  exact ⟨_, a, rfl, ⟨d, a, by simp, by simp, k3⟩, k2, by simp, by simp [hne, k2]⟩

/-- The index of a dimension. -/
def fixedOf (ix : Indexs) (e : String) : Nat := match ix e with
  | some (.one k) => k
  | _ => 0

/-- **C130**: a variable which is ready, with the coordinates as last dimensions, is found again in the written file: the same shape and the
same cells (nan become masked with `nan_masking`), in a variable with the same dimensions. -/
theorem write_read_partial {h h2 : Handler} {names : List String} {f : File} {v : String} {a b : Arr} {lead : List String} {d : Descr} {ix : Indexs} {nm : Bool}
    (hwr : write h names = some f) (hv : v ∈ names) (hr : Ready h v) (ha : h.vars v = some a) (hd : h.descr v = some d)
    (hdims : d.dims = lead ++ [h.xDim, h.yDim] ∨ d.dims = lead ++ [h.yDim, h.xDim]) (hn : d.dims.Nodup) (h2d : a.shape.length = 2)
    (hix : ∀ e, ix e = none ∨ (e ≠ h.xDim ∧ e ≠ h.yDim ∧ ∃ k, ix e = some (.one k)))
    (hread : grid (openFile f h.xDim h.yDim (fun _ => none) nm) v ix = some (b, h2)) :
    (∃ w, f.vars v = some w ∧ w.dims = d.dims) ∧ b.shape = a.shape ∧
      ∀ i j : Nat, b.data [i, j] = if nm then maskNan (a.data [i, j]) else a.data [i, j] := by
  obtain ⟨d', a', k1, k2, k3⟩ := hr.known
  rw [hd] at k1
  rw [ha] at k2
  cases k1
  cases k2
  have hxy : h.xDim ≠ h.yDim := by
    intro e
    rcases hdims with q | q <;> rw [q, e] at hn <;> simp [List.nodup_append] at hn
  unfold write at hwr
  split at hwr
  rotate_left
  · cases hwr
  rename_i hall
  cases hwr
  have hsome := List.all_eq_true.1 hall v hv
  have hwv : ∃ w, writeVar h v = some (some w) ∧ fits h.file d (stored d a) = true ∧ w.dims = d.dims ∧
      w.data = fun p => (stored d a).data (p.drop (p.length - (stored d a).shape.length)) := by
    unfold writeVar at hsome ⊢
    rw [hd, ha] at hsome ⊢
    simp only at hsome ⊢
    split at hsome
    · rename_i hf
      rw [if_pos hf]
      exact ⟨_, rfl, hf, rfl, rfl⟩
    · cases hsome
  obtain ⟨w, hw, hfit, wd, wdata⟩ := hwv
  have hfv : (if v ∈ names then (writeVar h v).join else none) = some w := by
    rw [if_pos hv, hw]
    rfl
  have hslen : (stored d a).shape.length = 2 := by
    unfold stored
    split
    · simp [Arr.T, h2d]
    · exact h2d
  have hl : d.dims.length = lead.length + 2 := by rcases hdims with q | q <;> rw [q] <;> simp
  unfold fits at hfit
  rw [decide_eq_true_eq, hslen, hl] at hfit
  have hshape : a.shape = [h.file.size h.xDim, h.file.size h.yDim] := by
    have h1 := hfit.1
    rcases hdims with q | q
    · have hnt : d.transpose = false := by
        rw [k3, decide_eq_false_iff_not, q]
        have nx : h.xDim ∉ lead := fun m => by rw [q] at hn; simp [List.nodup_append] at hn; exact (hn.2.2 _ m).1 rfl
        have ny : h.yDim ∉ lead := fun m => by rw [q] at hn; simp [List.nodup_append] at hn; exact (hn.2.2 _ m).2 rfl
        rw [List.idxOf_append_of_notMem nx, List.idxOf_append_of_notMem ny, List.idxOf_cons_self, List.idxOf_cons_ne _ hxy, List.idxOf_cons_self]
        omega
      rw [q] at h1
      unfold stored at h1
      rw [hnt] at h1
      simpa using h1
    · have hnt : d.transpose = true := by
        rw [k3, decide_eq_true_eq, q]
        have nx : h.xDim ∉ lead := fun m => by rw [q] at hn; simp [List.nodup_append] at hn; exact (hn.2.2 _ m).2 rfl
        have ny : h.yDim ∉ lead := fun m => by rw [q] at hn; simp [List.nodup_append] at hn; exact (hn.2.2 _ m).1 rfl
        rw [List.idxOf_append_of_notMem nx, List.idxOf_append_of_notMem ny, List.idxOf_cons_self, List.idxOf_cons_ne _ hxy.symm, List.idxOf_cons_self]
        omega
      rw [q] at h1
      unfold stored at h1
      rw [hnt] at h1
      simp only [if_true, Arr.T] at h1
      simp only [List.map_append, List.map_cons, List.map_nil] at h1
      rw [show lead.length + 2 - 2 = (lead.map h.file.size).length by simp, List.drop_left] at h1
      have := congrArg List.reverse h1
      simpa using this
  refine ⟨⟨w, hfv, wd⟩, ?_⟩
  obtain ⟨b', h2', e1, e2, e3, _⟩ := grid_fresh (h := openFile ⟨h.file.size, fun v => if v ∈ names then (writeVar h v).join else none⟩ h.xDim h.yDim
      (fun _ => none) nm) (v := v) (ix := ix) (w := w) (sx := 0) (nx := h.file.size h.xDim) (sy := 0) (ny := h.file.size h.yDim)
    (fixed := fixedOf ix) rfl hfv (by rw [wd]; exact hn) hxy (by rw [wd]; rcases hdims with q | q <;> rw [q] <;> simp [openFile])
    (by rw [wd]; rcases hdims with q | q <;> rw [q] <;> simp [openFile])
    ⟨Or.inr ⟨by
        rcases hix h.xDim with e | ⟨e, _⟩
        · simp [openFile, e]
        · exact absurd rfl e, rfl, rfl⟩, Or.inr ⟨by
        rcases hix h.yDim with e | ⟨_, e, _⟩
        · simp [openFile, e]
        · exact absurd rfl e, rfl, rfl⟩, fun e _ _ _ => by
        rcases hix e with q | ⟨_, _, k, q⟩
        · exact Or.inr ⟨by simp [openFile, q], by simp [fixedOf, q]⟩
        · exact Or.inl (by simp [fixedOf, q])⟩
  rw [e1] at hread
  simp only [Option.some.injEq, Prod.mk.injEq] at hread
  obtain ⟨rfl, _⟩ := hread
  refine ⟨by rw [e2, hshape], fun i j => ?_⟩
  rw [e3]
  unfold fileCell
  have : w.data (w.dims.map (fun e => if e = h.xDim then 0 + i else if e = h.yDim then 0 + j else fixedOf ix e)) = a.data [i, j] := by
    rw [wdata, wd]
    simp only
    rw [List.length_map, hslen, hl]
    generalize hg : (fun e => if e = h.xDim then 0 + i else if e = h.yDim then 0 + j else fixedOf ix e) = g
    have gx : g h.xDim = i := by rw [← hg]; simp
    have gy : g h.yDim = j := by rw [← hg]; simp [hxy.symm]
    rcases hdims with q | q
    · have hnt : d.transpose = false := by
        rw [k3, decide_eq_false_iff_not, q]
        have nx : h.xDim ∉ lead := fun m => by rw [q] at hn; simp [List.nodup_append] at hn; exact (hn.2.2 _ m).1 rfl
        have ny : h.yDim ∉ lead := fun m => by rw [q] at hn; simp [List.nodup_append] at hn; exact (hn.2.2 _ m).2 rfl
        rw [List.idxOf_append_of_notMem nx, List.idxOf_append_of_notMem ny, List.idxOf_cons_self, List.idxOf_cons_ne _ hxy, List.idxOf_cons_self]
        omega
      rw [q, List.map_append, show lead.length + 2 - 2 = (lead.map g).length by simp, List.drop_left]
      simp [stored, hnt, gx, gy]
    · have hnt : d.transpose = true := by
        rw [k3, decide_eq_true_eq, q]
        have nx : h.xDim ∉ lead := fun m => by rw [q] at hn; simp [List.nodup_append] at hn; exact (hn.2.2 _ m).2 rfl
        have ny : h.yDim ∉ lead := fun m => by rw [q] at hn; simp [List.nodup_append] at hn; exact (hn.2.2 _ m).1 rfl
        rw [List.idxOf_append_of_notMem nx, List.idxOf_append_of_notMem ny, List.idxOf_cons_self, List.idxOf_cons_ne _ hxy.symm, List.idxOf_cons_self]
        omega
      rw [q, List.map_append, show lead.length + 2 - 2 = (lead.map g).length by simp, List.drop_left]
      simp [stored, hnt, gx, gy, Arr.T]
  cases nm with
  | true => exact congrArg maskNan this
  | false => exact this

/-- Each variable of the handler should be in the written file. -/
def AllWritten : Prop := ∀ (h : Handler) (names : List String) (f : File) (v : String) (a : Arr), write h names = some f → v ∈ names → h.vars v = some a →
  ∃ w, f.vars v = some w

/-- A variable added by `add_grid` under a new name is lost: it has no description. -/
theorem all_written_wrong : ¬ AllWritten := by
  intro hA
  obtain ⟨w, hw⟩ := hA (addGrid exHandler "new" ⟨[4, 3], fun _ => .val 1⟩) ["new"] _ "new" ⟨[4, 3], fun _ => .val 1⟩ rfl (by simp) (by simp [addGrid])
  have e : writeVar (addGrid exHandler "new" ⟨[4, 3], fun _ => .val 1⟩) "new" = some none := by
    simp [writeVar, addGrid, exHandler, openFile, exFile]
  simp [e] at hw

/-- A copy should have the values of the original one after writing and reading. -/
def CopyWritten : Prop := ∀ (h h' : Handler) (vin vout : String) (names : List String) (f : File) (a b : Arr) (h2 : Handler), Clean h →
  copy h vin vout = some h' → write h' names = some f → vout ∈ names → h'.vars vin = some a →
  grid (openFile f h.xDim h.yDim (fun _ => none) false) vout (fun _ => none) = some (b, h2) → ∀ i j : Nat, b.data [i, j] = a.data [i, j]

/-- A square field, written as (lat, lon). -/
def squareFile : File := ⟨fun _ => 2, fun v => if v = "sla" then some ⟨["lat", "lon"], fun p => .val (10 * p.getD 0 0 + p.getD 1 0)⟩ else none⟩

/-- The copy of a variable which is not yet read is written with its axes exchanged: the description is copied before the reading. -/
theorem copy_written_wrong : ¬ CopyWritten := by
  intro hC
  have := hC (openFile squareFile "lon" "lat" (fun _ => none) false) _ "sla" "new" ["new"] _ _ _ _ (openFile_clean _ _ _ _ _) rfl rfl (by simp) rfl rfl 0 1
  revert this
  decide +kernel

/-- The file (time, lat, lon) read at the second date, filtered, written and read again. -/
example : ∃ a h1 hi f b h2, grid exHandler "sla" (fun d => if d = "time" then some (.one 1) else none) = some (a, h1) ∧
    highFilter (fun a => ⟨a.shape, fun _ => .val 5⟩) h1 "sla" = some hi ∧ write hi ["sla"] = some f ∧
    grid (openFile f "lon" "lat" (fun _ => none) true) "sla" (fun _ => none) = some (b, h2) ∧ b.data [3, 2] = .val 118 ∧ b.shape = [4, 3] := by
  refine ⟨_, _, _, _, _, _, rfl, rfl, rfl, rfl, ?_, ?_⟩ <;> decide +kernel

/-- Its hypotheses hold there. -/
example : ∃ a h1, grid exHandler "sla" (fun d => if d = "time" then some (.one 1) else none) = some (a, h1) ∧ Ready h1 "sla" ∧
    ∃ f, write h1 ["sla"] = some f := by
  refine ⟨_, _, rfl, ?_, _, rfl⟩
  exact (grid_ready (h := exHandler) (v := "sla") (ix := fun d => if d = "time" then some (.one 1) else none) (openFile_clean _ _ _ _ _) rfl).2.1 rfl

end Verif.GridFile
