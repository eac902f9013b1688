import Verif.GridFile.Model
import Mathlib.Data.List.Nodup
import Mathlib.Data.List.Perm.Basic
import Mathlib.Tactic.Ring

/-!
# C128: the variables of a grid are read with the right axes
-/

namespace Verif.GridFile

/-- Is the dimension kept by its index? -/
def kept (pick : String → Sl) (d : String) : Bool := match pick d with
  | .one _ => false
  | .range _ _ => true

/-- Position of a dimension: the index, or the start of the slice and the position in it. -/
def posOf (pick : String → Sl) (c : String → Nat) (d : String) : Nat := match pick d with
  | .one n => n
  | .range s _ => s + c d

theorem place_spec (pick : String → Sl) (c : String → Nat) : ∀ dims : List String,
    place (dims.map pick) ((dims.filter (kept pick)).map c) = dims.map (posOf pick c)
  | [] => rfl
  | d :: dims => by
    rw [List.map_cons, List.map_cons, List.filter_cons]
    cases hp : pick d with
    | one n =>
      have hk : kept pick d = false := by simp [kept, hp]
      rw [hk, place]
      simp only [Bool.false_eq_true, if_false]
      rw [place_spec pick c dims, posOf, hp]
    | range s nb =>
      have hk : kept pick d = true := by simp [kept, hp]
      rw [hk, if_pos rfl, List.map_cons, place, List.headD_cons, List.tail_cons, place_spec pick c dims]
      simp [posOf, hp]

/-- Number of values of a dimension which is kept. -/
def nbOf (pick : String → Sl) (d : String) : Nat := match pick d with
  | .one _ => 0
  | .range _ nb => nb

theorem shape_spec (pick : String → Sl) : ∀ dims : List String, shapeOf (dims.map pick) = (dims.filter (kept pick)).map (nbOf pick)
  | [] => rfl
  | d :: dims => by
    rw [List.map_cons, List.filter_cons]
    unfold shapeOf
    cases hp : pick d with
    | one n =>
      have hk : kept pick d = false := by simp [kept, hp]
      rw [hk]
      simp only [List.filterMap_cons, Bool.false_eq_true, if_false]
      exact shape_spec pick dims
    | range s nb =>
      have hk : kept pick d = true := by simp [kept, hp]
      rw [hk]
      simp only [List.filterMap_cons, if_true, List.map_cons, nbOf, hp, List.cons.injEq, true_and]
      exact shape_spec pick dims

/-- The two kept dimensions are in the order of the file. -/
theorem filter_two {p : String → Bool} {x y : String} (hxy : x ≠ y) : ∀ {dims : List String}, dims.Nodup → x ∈ dims → y ∈ dims →
    (∀ d ∈ dims, p d = true ↔ d = x ∨ d = y) →
    dims.filter p = if dims.idxOf y < dims.idxOf x then [y, x] else [x, y] := by
  have one : ∀ {z : String} {dims : List String}, dims.Nodup → z ∈ dims → (∀ d ∈ dims, p d = true ↔ d = z) → dims.filter p = [z] := by
    intro z dims hn hz h
    have e : dims.filter p = dims.filter (fun d => d == z) := by
      apply List.filter_congr
      intro d hd
      rw [Bool.eq_iff_iff, h d hd]
      simp
    rw [e, List.filter_beq, List.count_eq_one_of_mem hn hz]
    rfl
  intro dims
  induction dims with
  | nil => intro _ hx; cases hx
  | cons d dims ih =>
    intro hn hx hy h
    rw [List.nodup_cons] at hn
    rw [List.filter_cons]
    by_cases hdx : d = x
    · subst hdx
      rw [if_pos ((h d (by simp)).2 (Or.inl rfl)), List.idxOf_cons_self]
      simp only [Nat.not_lt_zero, if_false, List.cons.injEq, true_and]
      apply one hn.2 ((List.mem_cons.1 hy).resolve_left (fun e => hxy e.symm))
      intro e he
      rw [h e (by simp [he])]
      exact ⟨fun hh => hh.resolve_left (fun e2 => hn.1 (e2 ▸ he)), Or.inr⟩
    · by_cases hdy : d = y
      · subst hdy
        rw [if_pos ((h d (by simp)).2 (Or.inr rfl)), List.idxOf_cons_self, List.idxOf_cons_ne _ hdx]
        simp only [Nat.zero_lt_succ, if_true, List.cons.injEq, true_and]
        apply one hn.2 ((List.mem_cons.1 hx).resolve_left (fun e => hxy e))
        intro e he
        rw [h e (by simp [he])]
        exact ⟨fun hh => hh.resolve_right (fun e2 => hn.1 (e2 ▸ he)), Or.inl⟩
      · rw [if_neg (fun hp => by rcases (h d (by simp)).1 hp with e | e <;> contradiction), List.idxOf_cons_ne _ hdx, List.idxOf_cons_ne _ hdy,
          ih hn.2 ((List.mem_cons.1 hx).resolve_left (fun e => hdx e.symm)) ((List.mem_cons.1 hy).resolve_left (fun e => hdy e.symm))
            (fun e he => h e (by simp [he]))]
        simp

/-- The asked indexes: the coordinates are whole or sliced, each other dimension has one index. -/
structure Asked (h : Handler) (ix : Indexs) (sx nx sy ny : Nat) (fixed : String → Nat) (dims : List String) : Prop where
  x : (ix h.xDim).or (h.indexs h.xDim) = some (.range sx nx) ∨ ((ix h.xDim).or (h.indexs h.xDim) = none ∧ sx = 0 ∧ nx = h.file.size h.xDim)
  y : (ix h.yDim).or (h.indexs h.yDim) = some (.range sy ny) ∨ ((ix h.yDim).or (h.indexs h.yDim) = none ∧ sy = 0 ∧ ny = h.file.size h.yDim)
  other : ∀ d ∈ dims, d ≠ h.xDim → d ≠ h.yDim →
    (ix d).or (h.indexs d) = some (.one (fixed d)) ∨ ((ix d).or (h.indexs d) = none ∧ fixed d = 0)

/-- What the file holds at the column `i` and the line `j`, whatever the order of the dimensions. -/
def fileCell (h : Handler) (w : FVar) (sx sy : Nat) (fixed : String → Nat) (i j : Nat) : Cell :=
  let c := w.data (w.dims.map (fun d => if d = h.xDim then sx + i else if d = h.yDim then sy + j else fixed d))
  if h.nanMask then maskNan c else c

theorem pick_eq (h : Handler) (ix : Indexs) (d : String) :
    pick h ix d = ((ix d).or (h.indexs d)).getD (if d = h.xDim ∨ d = h.yDim then .range 0 (h.file.size d) else .one 0) := by
  unfold pick
  cases ix d <;> simp

/-- **C128** for a variable which was not read before: the array has the longitudes as first axis and the latitudes as second one, whatever
the order of the dimensions in the file, at the asked indexes (those of the call, else those of the handler, else the whole axis or the
first position). -/
theorem grid_fresh {h : Handler} {v : String} {ix : Indexs} {w : FVar} {sx nx sy ny : Nat} {fixed : String → Nat}
    (hc : h.vars v = none) (hw : h.file.vars v = some w) (hn : w.dims.Nodup) (hxy : h.xDim ≠ h.yDim) (hx : h.xDim ∈ w.dims) (hy : h.yDim ∈ w.dims)
    (ha : Asked h ix sx nx sy ny fixed w.dims) :
    ∃ a h', grid h v ix = some (a, h') ∧ a.shape = [nx, ny] ∧ (∀ i j : Nat, a.data [i, j] = fileCell h w sx sy fixed i j) ∧
      h'.vars v = some a ∧ (∀ u, u ≠ v → h'.vars u = h.vars u) ∧ h'.file = h.file := by
  have px : pick h ix h.xDim = .range sx nx := by
    rw [pick_eq]
    rcases ha.x with e | ⟨e, rfl, rfl⟩ <;> rw [e] <;> simp
  have py : pick h ix h.yDim = .range sy ny := by
    rw [pick_eq]
    rcases ha.y with e | ⟨e, rfl, rfl⟩ <;> rw [e] <;> simp
  have po : ∀ d ∈ w.dims, d ≠ h.xDim → d ≠ h.yDim → pick h ix d = .one (fixed d) := by
    intro d hd h1 h2
    rw [pick_eq]
    rcases ha.other d hd h1 h2 with e | ⟨e, e0⟩ <;> rw [e]
    · rfl
    · simp [h1, h2, e0]
  have hk : ∀ d ∈ w.dims, kept (pick h ix) d = true ↔ d = h.xDim ∨ d = h.yDim := by
    intro d hd
    by_cases h1 : d = h.xDim
    · subst h1; simp [kept, px]
    · by_cases h2 : d = h.yDim
      · subst h2; simp [kept, py]
      · simp [kept, po d hd h1 h2, h1, h2]
  have hf := filter_two hxy hn hx hy hk
  have hshape := shape_spec (pick h ix) w.dims
  have hplace : ∀ i j : Nat, place (w.dims.map (pick h ix)) (if w.dims.idxOf h.yDim < w.dims.idxOf h.xDim then [j, i] else [i, j]) =
      w.dims.map (fun d => if d = h.xDim then sx + i else if d = h.yDim then sy + j else fixed d) := by
    intro i j
    have := place_spec (pick h ix) (fun d => if d = h.xDim then i else j) w.dims
    rw [hf] at this
    have e : (if w.dims.idxOf h.yDim < w.dims.idxOf h.xDim then [j, i] else [i, j]) =
        (if w.dims.idxOf h.yDim < w.dims.idxOf h.xDim then [h.yDim, h.xDim] else [h.xDim, h.yDim]).map (fun d => if d = h.xDim then i else j) := by
      split <;> simp [hxy.symm]
    rw [e, this]
    apply List.map_congr_left
    intro d hd
    by_cases h1 : d = h.xDim
    · subst h1; simp [posOf, px]
    · by_cases h2 : d = h.yDim
      · subst h2; simp [posOf, py, h1]
      · simp [posOf, po d hd h1 h2, h1, h2]
  unfold grid
  rw [hc, hw]
  simp only [hx, hy, and_self, if_true]
  refine ⟨_, _, rfl, ?_, ?_, ?_, ?_, rfl⟩
  · rw [hf] at hshape
    by_cases ht : w.dims.idxOf h.yDim < w.dims.idxOf h.xDim
    · simp only [ht, decide_true, if_true]
      rw [if_pos ht] at hshape
      have : (indexed w (w.dims.map (pick h ix))).T.shape = [nx, ny] := by
        simp only [Arr.T, indexed, hshape]
        simp [nbOf, px, py]
      split <;> exact this
    · simp only [ht, decide_false, Bool.false_eq_true, if_false]
      rw [if_neg ht] at hshape
      have : (indexed w (w.dims.map (pick h ix))).shape = [nx, ny] := by
        simp only [indexed, hshape]
        simp [nbOf, px, py]
      split <;> exact this
  · intro i j
    have hp := hplace i j
    unfold fileCell
    by_cases ht : w.dims.idxOf h.yDim < w.dims.idxOf h.xDim
    · rw [if_pos ht] at hp
      simp only [ht, decide_true, if_true]
      have : (indexed w (w.dims.map (pick h ix))).T.data [i, j] =
          w.data (w.dims.map (fun d => if d = h.xDim then sx + i else if d = h.yDim then sy + j else fixed d)) := by
        simp only [Arr.T, indexed, List.reverse_cons, List.reverse_nil, List.nil_append, List.cons_append]
        rw [hp]
      split
      · simp only [this]
      · exact this
    · rw [if_neg ht] at hp
      simp only [ht, decide_false, Bool.false_eq_true, if_false]
      have : (indexed w (w.dims.map (pick h ix))).data [i, j] =
          w.data (w.dims.map (fun d => if d = h.xDim then sx + i else if d = h.yDim then sy + j else fixed d)) := by
        simp only [indexed]
        rw [hp]
      split
      · simp only [this]
      · exact this
  · simp
  · intro u hu
    simp [hu]

/-- A variable which is known is given as it is and nothing changes: after any call of `grid` on `v`, the next calls on `v` give the same array. -/
theorem grid_cached {h h' : Handler} {v : String} {ix ix' : Indexs} {a : Arr} (hg : grid h v ix = some (a, h')) :
    grid h' v ix' = some (a, h') := by
  have : h'.vars v = some a := by
    unfold grid at hg
    split at hg
    · rename_i b hb
      cases hg
      exact hb
    · split at hg
      · cases hg
      · split at hg
        · simp only [Option.some.injEq, Prod.mk.injEq] at hg
          obtain ⟨e1, e2⟩ := hg
          subst e1 e2
          simp
        · cases hg
  unfold grid
  rw [this]

/-- `grid` changes no other variable. -/
theorem grid_other {h h' : Handler} {v : String} {ix : Indexs} {a : Arr} (hg : grid h v ix = some (a, h')) :
    (∀ u, u ≠ v → h'.vars u = h.vars u) ∧ h'.file = h.file ∧ h'.vars v = some a := by
  have hv := grid_cached (ix' := ix) hg
  unfold grid at hg
  split at hg
  · rename_i b hb
    cases hg
    exact ⟨fun _ _ => rfl, rfl, hb⟩
  · split at hg
    · cases hg
    · split at hg
      · simp only [Option.some.injEq, Prod.mk.injEq] at hg
        obtain ⟨e1, e2⟩ := hg
        subst e1 e2
        exact ⟨fun u hu => by simp [hu], rfl, by simp⟩
      · cases hg

/-- What the documentation says: "array asked, reduced by the indexes", for each call. -/
def Reduced : Prop := ∀ (h h' : Handler) (v : String) (ix ix' : Indexs) (a b : Arr) (h'' : Handler) (w : FVar) (sx nx sy ny : Nat) (fixed : String → Nat),
  h.vars v = none → h.file.vars v = some w → w.dims.Nodup → h.xDim ≠ h.yDim → h.xDim ∈ w.dims → h.yDim ∈ w.dims →
  grid h v ix = some (a, h') → Asked h' ix' sx nx sy ny fixed w.dims → grid h' v ix' = some (b, h'') →
  ∀ i j : Nat, b.data [i, j] = fileCell h w sx sy fixed i j

/-- Heights at two dates, written as (time, lat, lon): the value tells the date, the latitude and the longitude. -/
def exFile : File := ⟨fun d => if d = "time" then 2 else if d = "lat" then 3 else 4,
  fun v => if v = "sla" then some ⟨["time", "lat", "lon"], fun p => .val (100 * p.getD 0 0 + 10 * p.getD 1 0 + p.getD 2 0)⟩ else none⟩

def exHandler : Handler := openFile exFile "lon" "lat" (fun _ => none) false

/-- The second call, for the second date, gives the first date. -/
theorem reduced_wrong : ¬ Reduced := by
  intro hR
  have nd : (["time", "lat", "lon"] : List String).Nodup := by decide
  have ne : ("lon" : String) ≠ "lat" := by decide
  have a0 : Asked exHandler (fun _ => none) 0 4 0 3 (fun _ => 0) ["time", "lat", "lon"] :=
    ⟨Or.inr ⟨rfl, rfl, by decide⟩, Or.inr ⟨rfl, rfl, by decide⟩, fun d _ _ _ => Or.inr ⟨rfl, rfl⟩⟩
  obtain ⟨a, h', hg, _, hd, _, _, _⟩ := grid_fresh (h := exHandler) (v := "sla") (ix := fun _ => none)
    (w := ⟨["time", "lat", "lon"], fun p => .val (100 * p.getD 0 0 + 10 * p.getD 1 0 + p.getD 2 0)⟩) rfl (by rfl) nd ne (by decide) (by decide) a0
  have hg2 := grid_cached (ix' := fun d => if d = "time" then some (.one 1) else none) hg
  have hx : h'.xDim = "lon" ∧ h'.yDim = "lat" ∧ h'.indexs = (fun _ => none) ∧ h'.file = exFile := by
    unfold grid at hg
    simp only [exHandler, openFile, exFile] at hg
    simp at hg
    obtain ⟨_, e⟩ := hg
    subst e
    exact ⟨rfl, rfl, rfl, rfl⟩
  obtain ⟨x1, x2, x3, x4⟩ := hx
  have a1 : Asked h' (fun d => if d = "time" then some (.one 1) else none) 0 4 0 3 (fun d => if d = "time" then 1 else 0) ["time", "lat", "lon"] := by
    refine ⟨Or.inr ?_, Or.inr ?_, ?_⟩
    · rw [x1, x3, x4]; exact ⟨by decide, rfl, by decide⟩
    · rw [x2, x3, x4]; exact ⟨by decide, rfl, by decide⟩
    · intro d _ _ _
      rw [x3]
      by_cases e : d = "time" <;> simp [e]
  have := hR exHandler h' "sla" _ _ a a h' _ 0 4 0 3 _ rfl (by rfl) nd ne (by decide) (by decide) hg a1 hg2 0 0
  rw [hd 0 0] at this
  revert this
  decide +kernel

/-- The transposed field of the second date, when it is asked at first. -/
example : ∃ a h', grid exHandler "sla" (fun d => if d = "time" then some (.one 1) else none) = some (a, h') ∧ a.shape = [4, 3] ∧
    a.data [3, 2] = .val 123 := by
  obtain ⟨a, h', hg, hs, hd, _⟩ := grid_fresh (h := exHandler) (v := "sla") (ix := fun d => if d = "time" then some (.one 1) else none)
    (w := ⟨["time", "lat", "lon"], fun p => .val (100 * p.getD 0 0 + 10 * p.getD 1 0 + p.getD 2 0)⟩) (sx := 0) (nx := 4) (sy := 0) (ny := 3)
    (fixed := fun d => if d = "time" then 1 else 0) rfl (by rfl) (by decide) (by decide) (by decide) (by decide)
    ⟨Or.inr ⟨by decide, rfl, by decide⟩, Or.inr ⟨by decide, rfl, by decide⟩, fun d _ _ _ => by
      by_cases e : d = "time"
      · subst e; exact Or.inl (by decide)
      · exact Or.inr ⟨by simp [e, exHandler, openFile], by simp [e]⟩⟩
  refine ⟨a, h', hg, hs, ?_⟩
  rw [hd]
  decide +kernel

/-! ### Filters -/

/-- **C129**: `high_filter` and `low_filter` of one field: at a cell where the field and its low part are valid the low filter gives this
low part and the high filter the rest; their sum is the field. A cell is masked in both exactly when it is masked in the field or in the
low part. -/
theorem high_low_spec {low : Arr → Arr} {h hi lo : Handler} {v : String} {a : Arr} {h0 : Handler} (hg : grid h v (fun _ => none) = some (a, h0))
    (hh : highFilter low h v = some hi) (hl : lowFilter low h v = some lo) :
    ∃ ah al, hi.vars v = some ah ∧ lo.vars v = some al ∧ ah.shape = a.shape ∧ al.shape = a.shape ∧ ∀ p : List Nat,
      (∀ x y : Rat, a.data p = .val x → (low a).data p = .val y → ah.data p = .val (x - y) ∧ al.data p = .val y) ∧
      (ah.data p = .masked ↔ a.data p = .masked ∨ (low a).data p = .masked) ∧
      (al.data p = .masked ↔ a.data p = .masked ∨ (low a).data p = .masked) := by
  unfold highFilter at hh
  unfold lowFilter at hl
  rw [hg] at hh hl
  simp only [Option.map_some, Option.some.injEq] at hh hl
  subst hh hl
  refine ⟨a.sub (low a), a.sub (a.sub (low a)), by simp [addGrid], by simp [addGrid], rfl, rfl, fun p => ⟨?_, ?_, ?_⟩⟩
  · intro x y hx hy
    simp only [Arr.sub, hx, hy, Cell.sub, true_and]
    congr 1
    ring
  · simp only [Arr.sub]
    rcases a.data p <;> rcases (low a).data p <;> simp [Cell.sub]
  · simp only [Arr.sub]
    rcases a.data p <;> rcases (low a).data p <;> simp [Cell.sub]

/-- The other variables are not changed by the filters. -/
theorem filters_other {low low' : Arr → Arr} {h h' : Handler} {v : String}
    (hh : highFilter low h v = some h' ∨ lowFilter low h v = some h' ∨ besselLow low h v = some h' ∨ bandFilter low low' h v = some h') :
    ∀ u, u ≠ v → h'.vars u = h.vars u := by
  have key : ∀ {h h' : Handler} {f : Arr → Arr}, (grid h v (fun _ => none)).map (fun p => addGrid p.2 v (f p.1)) = some h' →
      ∀ u, u ≠ v → h'.vars u = h.vars u := by
    intro h h' f e u hu
    obtain ⟨⟨a, h0⟩, e1, rfl⟩ := Option.map_eq_some_iff.1 e
    simp only [addGrid, hu, if_false]
    exact (grid_other e1).1 u hu
  rcases hh with e | e | e | e
  · exact key (f := fun a => a.sub (low a)) e
  · exact key (f := fun a => a.sub (a.sub (low a))) e
  · exact key (f := low) e
  · obtain ⟨h1, e1, e2⟩ := Option.bind_eq_some_iff.1 e
    intro u hu
    rw [key (f := fun a => a.sub (low' a)) e2 u hu, key (f := low) e1 u hu]

/-- The band is what the first filter keeps and the second one removes. -/
theorem band_spec {lowInf lowSup : Arr → Arr} {h h' : Handler} {v : String} {a : Arr} {h0 : Handler} (hg : grid h v (fun _ => none) = some (a, h0))
    (hb : bandFilter lowInf lowSup h v = some h') :
    ∃ b, h'.vars v = some b ∧ ∀ p x y, (lowInf a).data p = .val x → (lowSup (lowInf a)).data p = .val y → b.data p = .val (x - y) := by
  unfold bandFilter besselLow at hb
  rw [hg] at hb
  simp only [Option.map_some, Option.bind_some, highFilter] at hb
  have e : grid (addGrid h0 v (lowInf a)) v (fun _ => none) = some (lowInf a, addGrid h0 v (lowInf a)) := by
    unfold grid
    simp [addGrid]
  rw [e] at hb
  simp only [Option.map_some, Option.some.injEq] at hb
  subst hb
  exact ⟨(lowInf a).sub (lowSup (lowInf a)), by simp [addGrid], fun p x y hx hy => by simp [Arr.sub, hx, hy, Cell.sub]⟩

/-- The filters work on a variable not yet read. -/
example : ∃ hi lo ah al, highFilter (fun a => ⟨a.shape, fun _ => .val 5⟩) exHandler "sla" = some hi ∧
    lowFilter (fun a => ⟨a.shape, fun _ => .val 5⟩) exHandler "sla" = some lo ∧ hi.vars "sla" = some ah ∧ lo.vars "sla" = some al ∧
    ah.data [1, 1] = .val 6 ∧ al.data [1, 1] = .val 5 := by
  refine ⟨_, _, _, _, rfl, rfl, rfl, rfl, ?_, ?_⟩ <;> decide +kernel

end Verif.GridFile
