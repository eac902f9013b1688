import Verif.Match.Props
import Verif.Tracks.Lemmas

/-!
# C75: trajectories close to another dataset
-/

namespace Verif.Match

open Verif.Poly

/-- A group of rows: slice or list. -/
abbrev Rows := (Nat × Nat) ⊕ List Nat

/-- The couples of rows (self, other) matched in the groups. -/
def Couple (m : List Nat → List Nat → List (Nat × Nat)) (g : Rows × Rows) : List (Nat × Nat) :=
  (m (rowsOf g.1) (rowsOf g.2)).map (fun p => ((rowsOf g.1).getD p.1 0, (rowsOf g.2).getD p.2 0))

/-- The couples given by `match` are positions in the two groups. -/
def Within (m : List Nat → List Nat → List (Nat × Nat)) : Prop := ∀ r s, ∀ p ∈ m r s, p.1 < r.length ∧ p.2 < s.length

/-- `re_reference_index` gives the rows of the dataset. -/
theorem reReference_spec (index : List Nat) (g : Rows) (h : ∀ k ∈ index, k < (rowsOf g).length) :
    reReference index (g.elim (fun s => .inl s.1) .inr) = some (index.map (fun k => (rowsOf g).getD k 0)) := by
  cases g with
  | inl s =>
    simp only [Sum.elim_inl, reReference, Option.some.injEq]
    apply List.map_congr_left
    intro k hk
    have := h k hk
    simp only [rowsOf, List.length_range'] at this
    rw [rowsOf, List.getD_eq_getElem?_getD, List.getElem?_range' this]
    simp only [Option.getD_some]
    omega
  | inr rows =>
    simp only [Sum.elim_inr, reReference]
    apply Tracks.mapM_some_map
    intro k hk
    have := h k hk
    simp only [rowsOf] at this ⊢
    rw [List.getD_eq_getElem?_getD, List.getElem?_eq_getElem this]
    rfl

theorem closeRows_spec {m : List Nat → List Nat → List (Nat × Nat)} (hm : Within m) : ∀ groups : List (Rows × Rows),
    closeRows m groups = some ((groups.flatMap (Couple m)).map (·.2))
  | [] => rfl
  | (a, b) :: l => by
    rw [closeRows, reReference_spec _ _ (by
      intro k hk
      obtain ⟨p, hp, rfl⟩ := List.mem_map.1 hk
      exact (hm _ _ p hp).2), closeRows_spec hm l]
    simp only [Option.bind_eq_bind, Option.bind_some, List.flatMap_cons, List.map_append, Option.some.injEq]
    congr 1
    unfold Couple
    rw [List.map_map, List.map_map]
    rfl

/-- **C75**: when there is a common date, `close_tracks` keeps exactly the trajectories of the other dataset which take part in at least
`nb_obs_min` couples (and at least one) given by `match` at the same dates. Missing: `match` gives by default couples without overlap, see
`close_tracks_wrong`; no common date, see `close_tracks_raises`. -/
theorem close_tracks_partial {m : List Nat → List Nat → List (Nat × Nat)} (hm : Within m) (groups : List (Rows × Rows)) (hne : groups ≠ [])
    (track : List Nat) (hr : ∀ g ∈ groups, ∀ r ∈ rowsOf g.2, r < track.length) (nbMin : Nat) :
    ∃ out, closeTracks m groups track nbMin = some out ∧ out.Pairwise (· < ·) ∧ ∀ t, t ∈ out ↔
      max 1 nbMin ≤ ((groups.flatMap (Couple m)).filter (fun p => decide (track[p.2]? = some t))).length := by
  obtain ⟨g0, l, rfl⟩ := List.exists_cons_of_ne_nil hne
  have hrow : ∀ p ∈ (g0 :: l).flatMap (Couple m), p.2 < track.length := by
    intro p hp
    obtain ⟨g, hg, hp⟩ := List.mem_flatMap.1 hp
    obtain ⟨q, hq, rfl⟩ := List.mem_map.1 hp
    apply hr g hg
    simp only
    rw [List.getD_eq_getElem?_getD, List.getElem?_eq_getElem (hm _ _ q hq).2]
    exact List.getElem_mem _
  have hmap : ((((g0 :: l).flatMap (Couple m)).map (·.2)).mapM (fun k => track[k]?)) =
      some ((((g0 :: l).flatMap (Couple m)).map (·.2)).map (fun k => track.getD k 0)) := by
    apply Tracks.mapM_some_map
    intro k hk
    obtain ⟨p, hp, rfl⟩ := List.mem_map.1 hk
    rw [List.getD_eq_getElem?_getD, List.getElem?_eq_getElem (hrow p hp)]
    rfl
  have hcount : ∀ t, ((((g0 :: l).flatMap (Couple m)).map (·.2)).map (fun k => track.getD k 0)).count t =
      (((g0 :: l).flatMap (Couple m)).filter (fun p => decide (track[p.2]? = some t))).length := by
    intro t
    rw [List.map_map, List.count_eq_countP, List.countP_map, List.countP_eq_length_filter]
    congr 1
    apply List.filter_congr
    intro p hp
    have := hrow p hp
    simp only [Function.comp, List.getD_eq_getElem?_getD, List.getElem?_eq_getElem this, Option.getD_some, Option.some.injEq]
    rw [Bool.eq_iff_iff]
    simp
  have hrun : closeTracks m (g0 :: l) track nbMin = some ((Py.unique ((((g0 :: l).flatMap (Couple m)).map (·.2)).map (fun k => track.getD k 0))).filter
      (fun t => decide (nbMin ≤ ((((g0 :: l).flatMap (Couple m)).map (·.2)).map (fun k => track.getD k 0)).count t))) := by
    unfold closeTracks
    rw [closeRows_spec hm]
    simp only [List.head?_cons, Option.bind_eq_bind, Option.bind_some, hmap]
  refine ⟨_, hrun, (Py.unique_sorted _).filter _, fun t => ?_⟩
  rw [List.mem_filter, Py.mem_unique, decide_eq_true_eq, hcount, ← List.count_pos_iff, hcount]
  omega

/-- Without common date (but with periods which overlap) the function raises. -/
theorem close_tracks_raises (m : List Nat → List Nat → List (Nat × Nat)) (track : List Nat) (nbMin : Nat) : closeTracks m [] track nbMin = none := rfl

/-- The couples of `match` with the contours of the rows. -/
def matchRows (g : Areas) (o : Options) (cmin : Rat) (c0 c1 : Nat → List Pt) (r s : List Nat) : List (Nat × Nat) :=
  (matchOverlap g o cmin (r.map c0) (s.map c1)).map (fun p => (p.1, p.2.1))

theorem matchRows_within (g : Areas) (o : Options) (cmin : Rat) (c0 c1 : Nat → List Pt) : Within (matchRows g o cmin c0 c1) := by
  intro r s p hp
  obtain ⟨q, hq, rfl⟩ := List.mem_map.1 hp
  obtain ⟨⟨i, j⟩, hm, rfl⟩ := List.mem_map.1 (List.mem_of_mem_filter hq)
  obtain ⟨a, b, ha, hb, _⟩ := (mem_couples _ _ _ _ _).1 hm
  have h1 := (List.getElem?_eq_some_iff.1 ha).1
  have h2 := (List.getElem?_eq_some_iff.1 hb).1
  rw [List.length_map] at h1 h2
  exact ⟨h1, h2⟩

/-- With the default `cmin` of `match`, a trajectory whose contours never intersect those of the dataset is kept. -/
theorem close_tracks_wrong (g : Areas) (h : g.inter [(0, 0), (2, 0), (0, 2)] [(2, 2), (2, 1), (1, 2)] = 0) :
    closeTracks (matchRows g {} 0 (fun _ => [(0, 0), (2, 0), (0, 2)]) (fun _ => [(2, 2), (2, 1), (1, 2)]))
      [(.inl (0, 1), .inl (0, 1))] [7] 1 = some [7] := by
  have h1 : matchRows g {} 0 (fun _ => [(0, 0), (2, 0), (0, 2)]) (fun _ => [(2, 2), (2, 1), (1, 2)]) [0] [0] = [(0, 0)] := by
    unfold matchRows
    simp only [List.map_cons, List.map_nil]
    rw [match_default g h]
    rfl
  have h2 : closeRows (matchRows g {} 0 (fun _ => [(0, 0), (2, 0), (0, 2)]) (fun _ => [(2, 2), (2, 1), (1, 2)]))
      [(.inl (0, 1), .inl (0, 1))] = some [0] := by
    rw [closeRows_spec (matchRows_within _ _ _ _ _)]
    show some (([(Sum.inl (0, 1), Sum.inl (0, 1))].flatMap (Couple _)).map (·.2)) = _
    simp only [List.flatMap_cons, List.flatMap_nil, List.append_nil, Couple]
    have : rowsOf (.inl (0, 1)) = [0] := rfl
    rw [this, h1]
    rfl
  unfold closeTracks
  rw [h2]
  rfl

end Verif.Match
