import Verif.Tracks.Props

/-!
# C197, C198: putting tracked datasets together

`TrackEddiesObservations.concatenate` (src/py_eddy_tracker/observations/tracking.py:316-327) in several steps, and
`EddiesObservations.merge` (src/py_eddy_tracker/observations/observation.py:547-562).
-/

namespace Verif.Tracks

variable {α : Type}

/-! ### Model -/

/-- The dataset given by `concatenate` (tracking.py:316-327): the blocks one after the other. -/
def concatAll (ds : List (List (Nat × α))) : Option (List (Nat × α)) := (concatenate ds).map List.flatten

/-- `merge` (observation.py:547-562) of datasets which have both the field `track`: `eddies.track[nb_obs_self - 1]` is read in the new
dataset, where the tracks of `other` are already written; `none` is the `IndexError` of two empty datasets. -/
def mergeTracks (self_ other : List (Nat × α)) : Option (List (Nat × α)) := do
  let last ← Py.get ((self_ ++ other).map Prod.fst) ((self_.length : Int) - 1)
  some (self_ ++ other.map (fun o => (o.1 + (last + 1), o.2)))

/-! ### Specification -/

/-- `out` is the rows of `a` then those of `b`, with one shift of the numbers of tracks for each. -/
def Apart (a b out : List (Nat × α)) : Prop := ∃ s t, out = a.map (fun o => (o.1 + s, o.2)) ++ b.map (fun o => (o.1 + t, o.2)) ∧
  ∀ x ∈ a, ∀ y ∈ b, x.1 + s ≠ y.1 + t

/-- Full statement of C198. -/
def MergeApart : Prop := ∀ a b : List (Nat × Nat), ∃ out, mergeTracks a b = some out ∧ Apart a b out

/-! ### Proofs -/

/-- One more than the greatest number. -/
def top (d : List (Nat × α)) : Nat := (d.map Prod.fst).foldr (fun t m => max (t + 1) m) 0

theorem foldl_max (l : List Nat) (a : Nat) : l.foldl max a + 1 = max (a + 1) (l.foldr (fun t m => max (t + 1) m) 0) := by
  induction l generalizing a with
  | nil => simp
  | cons b l ih =>
    rw [List.foldl_cons, ih, List.foldr_cons]
    omega

theorem sizeOf_top {d : List (Nat × α)} (h : d ≠ []) : sizeOf (d.map Prod.fst) = some (top d) := by
  cases d with
  | nil => exact absurd rfl h
  | cons a d =>
    show some _ = some _
    rw [foldl_max]
    rfl

theorem top_append (a b : List (Nat × α)) : top (a ++ b) = max (top a) (top b) := by
  induction a with
  | nil => simp [top]
  | cons x a ih =>
    unfold top at ih ⊢
    simp only [List.cons_append, List.map_cons, List.foldr_cons, ih]
    omega

/-- The numbers of a dataset moved. -/
def moved (s : Nat) (d : List (Nat × α)) : List (Nat × α) := d.map (fun o => (o.1 + s, o.2))

theorem top_moved {d : List (Nat × α)} (h : d ≠ []) (s : Nat) : top (moved s d) = top d + s := by
  induction d with
  | nil => exact absurd rfl h
  | cons x d ih =>
    by_cases hd : d = []
    · subst hd
      simp [top, moved]
      omega
    · have := ih hd
      unfold top moved at this ⊢
      simp only [List.map_cons, List.foldr_cons, this]
      omega

/-- The blocks, each moved by the sizes of those before. -/
def lay : Nat → List (List (Nat × α)) → List (Nat × α)
  | _, [] => []
  | last, d :: ds => moved last d ++ lay (top d + last) ds

/-- The sum of the sizes. -/
def total : List (List (Nat × α)) → Nat
  | [] => 0
  | d :: ds => top d + total ds

theorem loop_lay : ∀ (ds : List (List (Nat × α))) (last : Nat), (∀ d ∈ ds, d ≠ []) → (concatLoop last ds).map List.flatten = some (lay last ds)
  | [], _, _ => rfl
  | d :: ds, last, h => by
    have hd := h d (by simp)
    have hne : moved last d ≠ [] := by simpa [moved] using hd
    have ih := loop_lay ds (top d + last) (fun x hx => h x (by simp [hx]))
    obtain ⟨rest, hr, e⟩ := Option.map_eq_some_iff.1 ih
    have : concatLoop last (d :: ds) = some (moved last d :: rest) := by
      show (sizeOf ((moved last d).map Prod.fst)).bind (fun s => (concatLoop s ds).bind (fun rest => some (moved last d :: rest))) = _
      rw [sizeOf_top hne, top_moved hd, Option.bind_some, hr]
      rfl
    rw [this, Option.map_some, List.flatten_cons, e]
    rfl

theorem moved_moved (s t : Nat) (d : List (Nat × α)) : moved s (moved t d) = moved (t + s) d := by
  unfold moved
  rw [List.map_map]
  congr 1
  funext o
  simp only [Function.comp]
  rw [Nat.add_assoc]

theorem lay_moved : ∀ (ds : List (List (Nat × α))) (last s : Nat), moved s (lay last ds) = lay (last + s) ds
  | [], _, _ => rfl
  | d :: ds, last, s => by
    have ih := lay_moved ds (top d + last) s
    have e : moved s (moved last d ++ lay (top d + last) ds) = moved s (moved last d) ++ moved s (lay (top d + last) ds) := List.map_append
    show moved s (moved last d ++ lay (top d + last) ds) = moved (last + s) d ++ lay (top d + (last + s)) ds
    rw [e, moved_moved, ih, Nat.add_assoc]

theorem lay_append : ∀ (ds es : List (List (Nat × α))) (last : Nat), lay last (ds ++ es) = lay last ds ++ lay (total ds + last) es
  | [], es, last => by simp [lay, total]
  | d :: ds, es, last => by
    show moved last d ++ lay (top d + last) (ds ++ es) = (moved last d ++ lay (top d + last) ds) ++ lay (top d + total ds + last) es
    rw [lay_append ds es, List.append_assoc]
    congr 3
    omega

theorem top_lay : ∀ (ds : List (List (Nat × α))) (last : Nat), (∀ d ∈ ds, d ≠ []) → ds ≠ [] → top (lay last ds) = total ds + last
  | [], _, _, h => absurd rfl h
  | [d], last, h, _ => by
    show top (moved last d ++ []) = top d + 0 + last
    rw [List.append_nil, top_moved (h d (by simp)), Nat.add_zero]
  | d :: d' :: ds, last, h, _ => by
    have ih := top_lay (d' :: ds) (top d + last) (fun x hx => h x (by simp [List.mem_cons.1 hx])) (by simp)
    show top (moved last d ++ lay (top d + last) (d' :: ds)) = top d + total (d' :: ds) + last
    rw [top_append, ih, top_moved (h d (by simp))]
    omega

theorem concatAll_lay {ds : List (List (Nat × α))} (h : ∀ d ∈ ds, d ≠ []) : concatAll ds = some (lay 0 ds) := loop_lay ds 0 h

/-- **C197**: datasets which are put together by groups, then the groups together, give the same dataset as all of them at once. Datasets
without observation raise (C26). -/
theorem concat_steps (groups : List (List (List (Nat × α)))) (h : ∀ g ∈ groups, g ≠ [] ∧ ∀ d ∈ g, d ≠ []) :
    ∃ parts out, groups.mapM concatAll = some parts ∧ concatAll parts = some out ∧ concatAll groups.flatten = some out := by
  have hm : ∀ gs : List (List (List (Nat × α))), (∀ g ∈ gs, g ≠ [] ∧ ∀ d ∈ g, d ≠ []) → gs.mapM concatAll = some (gs.map (lay 0)) := by
    intro gs
    induction gs with
    | nil => intro _; rfl
    | cons g gs ih =>
      intro hg
      rw [List.mapM_cons, concatAll_lay (hg g (by simp)).2, ih (fun x hx => hg x (by simp [hx]))]
      rfl
  have hl : ∀ (gs : List (List (List (Nat × α)))) (last : Nat), (∀ g ∈ gs, g ≠ [] ∧ ∀ d ∈ g, d ≠ []) →
      lay last (gs.map (lay 0)) = lay last gs.flatten := by
    intro gs
    induction gs with
    | nil => intro _ _; rfl
    | cons g gs ih =>
      intro last hg
      have hg1 := hg g (by simp)
      rw [List.flatten_cons, lay_append, ← ih _ (fun x hx => hg x (by simp [hx]))]
      show moved last (lay 0 g) ++ lay (top (lay 0 g) + last) (gs.map (lay 0)) = _
      rw [lay_moved, top_lay g 0 hg1.2 hg1.1, Nat.zero_add, Nat.add_zero]
  have hne : ∀ d ∈ groups.map (lay 0), d ≠ [] := by
    intro d hd
    obtain ⟨g, hg, rfl⟩ := List.mem_map.1 hd
    obtain ⟨h1, h2⟩ := h g hg
    cases g with
    | nil => exact absurd rfl h1
    | cons d ds =>
      have := h2 d (by simp)
      intro e
      have := (List.append_eq_nil_iff.1 (show moved 0 d ++ lay (top d + 0) ds = [] from e)).1
      simp [moved] at this
      exact absurd this (h2 d (by simp))
  refine ⟨groups.map (lay 0), lay 0 groups.flatten, hm groups h, ?_, concatAll_lay ?_⟩
  · rw [concatAll_lay hne, hl groups 0 h]
  · intro d hd
    obtain ⟨g, hg, hdg⟩ := List.mem_flatten.1 hd
    exact (h g hg).2 d hdg

/-- Three files, two of them first. -/
example : (concatAll [[(0, 'a'), (2, 'b')], [(1, 'c')]]).bind (fun p => concatAll [p, [(0, 'd')]]) =
      some [(0, 'a'), (2, 'b'), (4, 'c'), (5, 'd')] ∧
    concatAll [[(0, 'a'), (2, 'b')], [(1, 'c')], [(0, 'd')]] = some [(0, 'a'), (2, 'b'), (4, 'c'), (5, 'd')] := by decide

/-! ### `merge` -/

/-- **C198**, when the last observation of the first dataset has the greatest number of track (in particular in the order of tracks): the rows
are kept, the tracks of the two datasets are apart. Missing: other orders, see `merge_wrong`, and an empty first dataset, see `merge_empty`. -/
theorem merge_partial {a : List (Nat × α)} {o : Nat × α} (h : ∀ x ∈ a ++ [o], x.1 ≤ o.1) (b : List (Nat × α)) :
    ∃ out, mergeTracks (a ++ [o]) b = some out ∧ Apart (a ++ [o]) b out := by
  have hg : Py.get (((a ++ [o]) ++ b).map Prod.fst) (((a ++ [o]).length : Int) - 1) = some o.1 := by
    have e : (((a ++ [o]).length : Int) - 1) = (a.length : Int) := by simp
    rw [e, Py.get_natCast]
    simp
  refine ⟨_, by unfold mergeTracks; rw [hg]; rfl, 0, o.1 + 1, ?_, ?_⟩
  · simp
  · intro x hx y _
    have := h x hx
    omega

/-- The order of tracks is enough. -/
theorem sorted_last {a : List (Nat × α)} {o : Nat × α} (h : (a ++ [o]).Pairwise (fun x y => x.1 ≤ y.1)) : ∀ x ∈ a ++ [o], x.1 ≤ o.1 := by
  intro x hx
  rcases List.mem_append.1 hx with hx | hx
  · exact (List.pairwise_append.1 h).2.2 x hx o (by simp)
  · rw [List.mem_singleton.1 hx]

/-- Two datasets, the first one in order of time: the track 5 of the first one and the track 4 of the other one become the same. -/
theorem merge_wrong : ¬ MergeApart := by
  intro h
  obtain ⟨out, e, s, t, h1, h2⟩ := h [(5, 0), (0, 1)] [(4, 2)]
  have e' : mergeTracks [(5, 0), (0, 1)] [(4, 2)] = some [(5, 0), (0, 1), (5, 2)] := by decide
  rw [e'] at e
  cases e
  simp only [List.map_cons, List.map_nil, List.cons_append, List.nil_append, List.cons.injEq, Prod.mk.injEq] at h1
  have := h2 (5, 0) (by simp) (4, 2) (by simp)
  omega

/-- A first dataset without observation: the last track of the other one is read, the numbers are moved for nothing. -/
theorem merge_empty (b : List (Nat × α)) (o : Nat × α) : mergeTracks [] (b ++ [o]) = some (moved (o.1 + 1) (b ++ [o])) ∧
    mergeTracks ([] : List (Nat × α)) [] = none := by
  constructor
  · have hg : Py.get ((([] : List (Nat × α)) ++ (b ++ [o])).map Prod.fst) ((([] : List (Nat × α)).length : Int) - 1) = some o.1 := by
      unfold Py.get
      simp [Py.idx]
    unfold mergeTracks
    rw [hg]
    rfl
  · rfl

example : mergeTracks [(0, 'a'), (0, 'b'), (2, 'c')] [(0, 'd'), (1, 'e')] = some [(0, 'a'), (0, 'b'), (2, 'c'), (3, 'd'), (4, 'e')] := by decide

end Verif.Tracks
