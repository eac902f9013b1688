import Verif.Bins.Props
import Verif.Segments.Lemmas
import Mathlib.Data.List.Induction

/-!
# C148: values computed by segment or by network

Model of `map_segment`, `map_network` and `mean_by_segment` (src/py_eddy_tracker/observations/network.py:922-990) on top of `iter_on`. The result of
the method is a scalar. Track and segment numbers are unsigned.
-/

namespace Verif.Bins

variable {α β : Type}

/-! ### Model -/

/-- `y[i]` for the observations of a group. -/
def pick (y : List α) (obs : List Nat) : List α := obs.filterMap (fun j => y[j]?)

/-- The groups of `iter_on(ids)`, `none` if it raises. -/
def groupsOf (argsort : List Int → List Nat) (ids : List Nat) : Option (List Group) :=
  let r := iterOnDefault argsort true (ids.map (fun (k : Nat) => (k : Rat)))
  if r.ok then some r.items else none

/-- `map_segment(method, y)` and `map_network(method, y)` (network.py:927-934, 962-976): `junk` is what `empty` holds. -/
def mapSame (argsort : List Int → List Nat) (f : List α → β) (ids : List Nat) (y : List α) (junk : Nat → β) : Option (List β) := do
  let gs ← groupsOf argsort ids
  some ((List.range y.length).map (gs.foldl (fun out g => fun k => if k ∈ g.obs then f (pick y g.obs) else out k) junk))

/-- `map_segment(method, y, same=False)` and `map_network(method, y, same=False)` (network.py:935-943, 981-989). -/
def mapList (argsort : List Int → List Nat) (f : List α → β) (ids : List Nat) (y : List α) : Option (List β) := do
  let gs ← groupsOf argsort ids
  some ((gs.filter (fun g => !g.obs.isEmpty)).map (fun g => f (pick y g.obs)))

/-- `map_network(method, y, same=False, return_dict=True)` (network.py:965-966, 978-979): the dictionary as a function. -/
def mapDict (argsort : List Int → List Nat) (f : List α → β) (ids : List Nat) (y : List α) : Option (Rat → Option β) := do
  let gs ← groupsOf argsort ids
  some (gs.foldl (fun d g => fun k => if k = g.lo then some (f (pick y g.obs)) else d k) (fun _ => none))

/-- Mean of an array. -/
def mean (l : List Rat) : Rat := l.sum / l.length

/-- Conversion of a float to an integer type. -/
def cut (q : Rat) : Int := if 0 ≤ q then ⌊q⌋ else ⌈q⌉

/-- `mean_by_segment(y)` (network.py:922-924): the result has the type of `y`, a mean of integers is cut. -/
def meanBySegment (argsort : List Int → List Nat) (integer : Bool) (obs : List Segments.Obs) (y : List Rat) (junk : Nat → Rat) : Option (List Rat) := do
  let sta ← Segments.segTrackArray obs
  mapSame argsort (fun l => if integer then (cut (mean l) : Rat) else mean l) sta y junk

/-! ### Specification -/

/-- The values of a group, in their order. -/
def members (ids : List Nat) (y : List α) (v : Nat) : List α := ((ids.zip y).filter (fun p => p.1 == v)).map (·.2)

/-- The observations of a group. -/
def positions (ids : List Nat) (v : Nat) : List Nat := (List.range ids.length).filter (fun k => decide (ids[k]? = some v))

theorem pick_positions (ids : List Nat) (y : List α) (h : y.length = ids.length) (v : Nat) : pick y (positions ids v) = members ids y v := by
  induction ids using List.reverseRecOn generalizing y with
  | nil => simp [pick, positions, members]
  | append_singleton ids a ih =>
    rcases List.eq_nil_or_concat y with rfl | ⟨y, b, rfl⟩
    · simp at h
    rw [List.concat_eq_append] at h ⊢
    have hl : y.length = ids.length := by simpa using h
    have e1 : positions (ids ++ [a]) v = positions ids v ++ (if a = v then [ids.length] else []) := by
      unfold positions
      rw [List.length_append, List.length_singleton, List.range_succ, List.filter_append]
      congr 1
      · apply List.filter_congr
        intro k hk
        rw [List.getElem?_append_left (List.mem_range.1 hk)]
      · by_cases hav : a = v <;> simp [hav]
    have e2 : members (ids ++ [a]) (y ++ [b]) v = members ids y v ++ (if a = v then [b] else []) := by
      unfold members
      rw [List.zip_append hl.symm, List.filter_append, List.map_append]
      congr 1
      by_cases hav : a = v <;> simp [hav]
    rw [e1, e2, ← ih y hl]
    unfold pick
    rw [List.filterMap_append]
    congr 1
    · apply List.filterMap_congr
      intro k hk
      have := List.mem_range.1 (List.mem_filter.1 hk).1
      rw [List.getElem?_append_left (by omega)]
    · by_cases hav : a = v
      · rw [if_pos hav, if_pos hav]
        simp [← hl]
      · rw [if_neg hav, if_neg hav]; rfl

theorem emit_mem {γ : Type} {f : γ → Option (Option α)} {a : α} : ∀ {l : List γ}, a ∈ (emit f l).items → ∃ p ∈ l, f p = some (some a)
  | [], h => by simp [emit] at h
  | x :: l, h => by
    unfold emit at h
    split at h
    · simp at h
    · obtain ⟨p, hp, e⟩ := emit_mem h
      exact ⟨p, by simp [hp], e⟩
    · rename_i z hz
      rcases List.mem_cons.1 h with rfl | h
      · exact ⟨x, by simp, hz⟩
      · obtain ⟨p, hp, e⟩ := emit_mem h
        exact ⟨p, by simp [hp], e⟩

theorem foldl_min_head : ∀ (l : List Rat) (a : Rat), (∀ b ∈ l, a ≤ b) → l.foldl min a = a
  | [], _, _ => rfl
  | b :: l, a, h => by
    rw [List.foldl_cons, min_eq_left (h b (by simp))]
    exact foldl_min_head l a (fun c hc => h c (by simp [hc]))

/-- The groups of sorted numbers: one for each number, in increasing order, with its observations in their order. -/
theorem groups_spec (argsort : List Int → List Nat) {ids : List Nat} (hne : ids ≠ []) (hs : ids.Pairwise (· ≤ ·)) :
    ∃ gs, groupsOf argsort ids = some gs ∧ gs.Pairwise (fun g h => g.lo < h.lo) ∧
      (∀ g ∈ gs, ∃ v ∈ ids, g.lo = v ∧ g.obs = positions ids v) ∧ ∀ v ∈ ids, ∃ g ∈ gs, g.lo = v := by
  let x := ids.map (fun (k : Nat) => (k : Rat))
  have hx : x.Pairwise (· ≤ ·) := by
    rw [List.pairwise_map]
    exact hs.imp (fun h => by exact_mod_cast h)
  obtain ⟨a, l, rfl⟩ := List.exists_cons_of_ne_nil hne
  let xl := l.map (fun (k : Nat) => (k : Rat))
  have hmin : xl.foldl min (a : Rat) = a := by
    apply foldl_min_head
    intro b hb
    obtain ⟨c, hc, rfl⟩ := List.mem_map.1 hb
    have := (List.pairwise_cons.1 hs).1 c hc
    exact_mod_cast this
  have hmax := le_foldl_max xl (a : Rat)
  let bins := arange (a : Rat) (xl.foldl max (a : Rat) + 2)
  have hdef : iterOnDefault argsort true x = iterOn argsort true x bins := by
    show iterOn argsort true x (arange (xl.foldl min (a : Rat)) (xl.foldl max (a : Rat) + 2)) = _
    rw [hmin]
  have hsp := arange_spec (a := (a : Rat)) (b := xl.foldl max (a : Rat) + 2) (by linarith [hmax.1])
  have hso := arange_sorted (a : Rat) (xl.foldl max (a : Rat) + 2)
  have hin : ∀ v ∈ x, ∀ lo hi, bins.head? = some lo → bins.getLast? = some hi → lo ≤ v ∧ v < hi := by
    intro v hv lo hi hlo hhi
    rw [hsp.2.1] at hlo
    cases hlo
    have h3 := hsp.2.2 hi hhi
    rcases List.mem_cons.1 hv with rfl | hv
    · exact ⟨le_refl _, by linarith [hmax.1]⟩
    · refine ⟨?_, by linarith [hmax.2 v hv]⟩
      obtain ⟨c, hc, rfl⟩ := List.mem_map.1 hv
      have := (List.pairwise_cons.1 hs).1 c hc
      exact_mod_cast this
  have hcor : Correct x bins (iterOn argsort true x bins) := iter_on_monotone_partial hso hsp.1 (by simp [x]) hx hin
  have hb : ∀ (k : Nat) b, bins[k]? = some b → b = ((a + k : Nat) : Rat) := by
    intro k b hk
    simp only [bins, arange, List.getElem?_map] at hk
    obtain ⟨k', hk', e⟩ := Option.map_eq_some_iff.1 hk
    have : k' = k := by
      obtain ⟨h1, h2⟩ := List.getElem?_eq_some_iff.1 hk'
      simpa using h2.symm
    subst this
    rw [← e]; push_cast; ring
  have hget : ∀ (j : Nat) v, x[j]? = some v ↔ ∃ c : Nat, (a :: l)[j]? = some c ∧ (c : Rat) = v := by
    intro j v
    show ((a :: l).map (fun (k : Nat) => (k : Rat)))[j]? = some v ↔ _
    rw [List.getElem?_map, Option.map_eq_some_iff]
  refine ⟨(iterOn argsort true x bins).items, ?_, hcor.ordered, ?_, ?_⟩
  · unfold groupsOf
    show (if (iterOnDefault argsort true x).ok then some (iterOnDefault argsort true x).items else none) = _
    rw [hdef, if_pos hcor.ok]
  · intro g hg
    obtain ⟨k, b0, b1⟩ := hcor.bounds g hg
    have e0 := hb k _ b0
    have e1 := hb (k + 1) _ b1
    have hmem : ∀ j, j ∈ g.obs ↔ (a :: l)[j]? = some (a + k) := by
      intro j
      rw [hcor.mem g hg j]
      constructor
      · rintro ⟨v, hv, h1, h2⟩
        obtain ⟨c, hc, rfl⟩ := (hget j v).1 hv
        rw [e0] at h1
        rw [e1] at h2
        have h1' : a + k ≤ c := by exact_mod_cast h1
        have h2' : c < a + (k + 1) := by exact_mod_cast h2
        rw [hc, show c = a + k by omega]
      · intro hj
        refine ⟨((a + k : Nat) : Rat), (hget j _).2 ⟨_, hj, rfl⟩, by rw [e0], ?_⟩
        rw [e1]
        push_cast; linarith
    obtain ⟨j, hj⟩ := List.exists_mem_of_ne_nil _ (hcor.nonempty g hg)
    refine ⟨a + k, List.mem_of_getElem? ((hmem j).1 hj), e0, ?_⟩
    have hsub : g.obs.Sublist (List.range x.length) := by
      have hg' := hg
      unfold iterOn at hg'
      rw [decreases_of_sorted hx] at hg'
      simp only [Bool.false_eq_true, if_false] at hg'
      split at hg'
      · simp at hg'
      · rename_i sl i _
        obtain ⟨p, _, hp⟩ := emit_mem hg'
        unfold bodyMonotone at hp
        simp only [Option.bind_eq_bind, Option.bind_eq_some_iff, Option.some.injEq] at hp
        obtain ⟨_, _, _, _, _, _, rfl⟩ := hp
        exact slice_sublist _ _
    have s1 : g.obs.Pairwise (· < ·) := List.pairwise_lt_range.sublist hsub
    have s2 : (positions (a :: l) (a + k)).Pairwise (· < ·) := List.pairwise_lt_range.sublist List.filter_sublist
    refine List.Perm.eq_of_pairwise (le := (· < ·)) (fun x y _ _ h1 h2 => absurd h1 (by omega)) s1 s2 ?_
    refine (List.perm_ext_iff_of_nodup (s1.imp (fun h => by omega)) (s2.imp (fun h => by omega))).2 ?_
    intro j
    rw [hmem]
    unfold positions
    rw [List.mem_filter, List.mem_range, decide_eq_true_eq]
    constructor
    · intro h; exact ⟨(List.getElem?_eq_some_iff.1 h).1, h⟩
    · exact fun h => h.2
  · intro v hv
    obtain ⟨j, hj⟩ := List.getElem?_of_mem hv
    have hav : a ≤ v := by
      rcases List.mem_cons.1 hv with rfl | h
      · exact le_refl _
      · exact (List.pairwise_cons.1 hs).1 v h
    have hxv : (v : Rat) ≤ xl.foldl max (a : Rat) := by
      rcases List.mem_cons.1 hv with rfl | h
      · exact hmax.1
      · exact hmax.2 _ (List.mem_map.2 ⟨v, h, rfl⟩)
    have hlen : v - a + 1 < bins.length := by
      simp only [bins, arange, List.length_map, List.length_range]
      have h0 : ((v - a + 2 : Nat) : Rat) = (v : Rat) - a + 2 := by push_cast [Nat.cast_sub hav]; ring
      have h1 : ((v - a + 2 : Nat) : Rat) ≤ xl.foldl max (a : Rat) + 2 - a := by rw [h0]; linarith
      have h2 : ((v - a + 2 : Nat) : Rat) ≤ (⌈xl.foldl max (a : Rat) + 2 - a⌉ : Int) := le_trans h1 (Int.le_ceil _)
      have h3 : ((v - a + 2 : Nat) : Int) ≤ ⌈xl.foldl max (a : Rat) + 2 - a⌉ := by exact_mod_cast h2
      omega
    have b0 := List.getElem?_eq_getElem (show v - a < bins.length by omega)
    have b1 := List.getElem?_eq_getElem hlen
    have e0 := hb _ _ b0
    have e1 := hb _ _ b1
    rw [show a + (v - a) = v by omega] at e0
    rw [show a + (v - a + 1) = v + 1 by omega] at e1
    obtain ⟨g, hg, g1, _⟩ := hcor.covered (v - a) _ _ j b0 b1 ⟨(v : Rat), (hget j _).2 ⟨v, hj, rfl⟩, by rw [e0], by rw [e1]; push_cast; linarith⟩
    exact ⟨g, hg, by rw [g1, e0]⟩

/-- **C148** (`same=True`): when the numbers are sorted, each observation gets the result of the method on the values of its group. -/
theorem map_same_partial (argsort : List Int → List Nat) (f : List α → β) {ids : List Nat} {y : List α} (hne : ids ≠ []) (hs : ids.Pairwise (· ≤ ·))
    (hl : y.length = ids.length) (junk : Nat → β) :
    mapSame argsort f ids y junk = some (ids.map (fun v => f (members ids y v))) := by
  obtain ⟨gs, hgs, hord, hg, hcov⟩ := groups_spec argsort hne hs
  have hrun : mapSame argsort f ids y junk =
      some ((List.range y.length).map (gs.foldl (fun out g => fun k => if k ∈ g.obs then f (pick y g.obs) else out k) junk)) := by
    unfold mapSame
    rw [hgs]; rfl
  have hfold : ∀ (gs : List Group) (out : Nat → β) (k : Nat),
      (∀ g ∈ gs, k ∈ g.obs → gs.foldl (fun out g => fun k => if k ∈ g.obs then f (pick y g.obs) else out k) out k ∈ gs.filterMap (fun g => if k ∈ g.obs then some (f (pick y g.obs)) else none)) ∧
      ((∀ g ∈ gs, k ∉ g.obs) → gs.foldl (fun out g => fun k => if k ∈ g.obs then f (pick y g.obs) else out k) out k = out k) := by
    intro gs
    induction gs with
    | nil => intro out k; exact ⟨by simp, fun _ => rfl⟩
    | cons g gs ih =>
      intro out k
      rw [List.foldl_cons]
      obtain ⟨i1, i2⟩ := ih (fun k => if k ∈ g.obs then f (pick y g.obs) else out k) k
      by_cases hc : ∃ g' ∈ gs, k ∈ g'.obs
      · obtain ⟨g', hg', hk'⟩ := hc
        refine ⟨fun _ _ _ => ?_, fun h => absurd hk' (h g' (by simp [hg']))⟩
        rw [List.filterMap_cons]
        have := i1 g' hg' hk'
        split
        · exact this
        · exact List.mem_cons_of_mem _ this
      · have hno : ∀ g' ∈ gs, k ∉ g'.obs := fun g' h hk => hc ⟨g', h, hk⟩
        rw [i2 hno]
        refine ⟨fun g' hg' hk' => ?_, fun h => by rw [if_neg (h g (by simp))]⟩
        rcases List.mem_cons.1 hg' with rfl | hg'
        · rw [if_pos hk', List.filterMap_cons_some (by rw [if_pos hk'])]
          exact List.mem_cons_self
        · exact absurd hk' (hno g' hg')
  rw [hrun]
  congr 1
  apply List.ext_getElem (by simp [hl])
  intro j h1 h2
  rw [List.getElem_map, List.getElem_map, List.getElem_range]
  have hj : j < ids.length := by simpa using h2
  obtain ⟨g, hgm, hglo⟩ := hcov _ (List.getElem_mem hj)
  have hpos : ∀ g ∈ gs, j ∈ g.obs → f (pick y g.obs) = f (members ids y ids[j]) := by
    intro g hgm hjm
    obtain ⟨v, _, _, e⟩ := hg g hgm
    rw [e] at hjm ⊢
    have := (List.mem_filter.1 hjm).2
    rw [decide_eq_true_eq, List.getElem?_eq_getElem hj] at this
    rw [Option.some.inj this, pick_positions ids y hl]
  have hjg : j ∈ g.obs := by
    obtain ⟨v, hv, e1, e2⟩ := hg g hgm
    have : v = ids[j] := by
      rw [hglo] at e1
      exact_mod_cast e1.symm
    rw [e2]
    exact List.mem_filter.2 ⟨List.mem_range.2 hj, by rw [decide_eq_true_eq, List.getElem?_eq_getElem hj, this]⟩
  have := (hfold gs junk j).1 g hgm hjg
  obtain ⟨g', hg', e⟩ := List.mem_filterMap.1 this
  by_cases hm : j ∈ g'.obs
  · rw [if_pos hm] at e
    rw [← Option.some.inj e]
    exact hpos g' hg' hm
  · rw [if_neg hm] at e
    cases e

/-- **C148** (`same=False`): when the numbers are sorted, one result for each number, in increasing order. -/
theorem map_list_partial (argsort : List Int → List Nat) (f : List α → β) {ids : List Nat} {y : List α} (hne : ids ≠ []) (hs : ids.Pairwise (· ≤ ·))
    (hl : y.length = ids.length) :
    ∃ keys : List Nat, keys.Pairwise (· < ·) ∧ (∀ v, v ∈ keys ↔ v ∈ ids) ∧ mapList argsort f ids y = some (keys.map (fun v => f (members ids y v))) := by
  obtain ⟨gs, hgs, hord, hg, hcov⟩ := groups_spec argsort hne hs
  have hlo : ∀ g ∈ gs, ((g.lo.num.toNat : Nat) : Rat) = g.lo ∧ g.lo.num.toNat ∈ ids ∧ g.obs = positions ids g.lo.num.toNat := by
    intro g hgm
    obtain ⟨v, hv, e1, e2⟩ := hg g hgm
    rw [e1]
    simp [hv, e2]
  refine ⟨gs.map (fun g => g.lo.num.toNat), ?_, fun v => ⟨fun h => ?_, fun h => ?_⟩, ?_⟩
  · rw [List.pairwise_map]
    refine hord.imp_of_mem ?_
    intro g g' h1 h2 h
    rw [← (hlo g h1).1, ← (hlo g' h2).1] at h
    exact_mod_cast h
  · obtain ⟨g, hgm, rfl⟩ := List.mem_map.1 h
    exact (hlo g hgm).2.1
  · obtain ⟨g, hgm, e⟩ := hcov v h
    refine List.mem_map.2 ⟨g, hgm, ?_⟩
    have := (hlo g hgm).1
    rw [e] at this ⊢
    exact_mod_cast this
  · unfold mapList
    rw [hgs]
    simp only [Option.bind_eq_bind, Option.bind_some, List.map_map, Option.some.injEq]
    rw [List.filter_eq_self.2]
    · apply List.map_congr_left
      intro g hgm
      simp only [Function.comp]
      rw [(hlo g hgm).2.2, pick_positions ids y hl]
    · intro g hgm
      obtain ⟨_, h2, h3⟩ := hlo g hgm
      obtain ⟨j, hj⟩ := List.getElem?_of_mem h2
      have : j ∈ g.obs := by
        rw [h3]
        exact List.mem_filter.2 ⟨List.mem_range.2 (List.getElem?_eq_some_iff.1 hj).1, by rw [decide_eq_true_eq, hj]⟩
      cases hgo : g.obs with
      | nil => rw [hgo] at this; simp at this
      | cons _ _ => rfl

/-- **C148** (`return_dict`): when the numbers are sorted, the keys are the numbers, and each one holds the result of the method on its values. -/
theorem map_dict_partial (argsort : List Int → List Nat) (f : List α → β) {ids : List Nat} {y : List α} (hne : ids ≠ []) (hs : ids.Pairwise (· ≤ ·))
    (hl : y.length = ids.length) :
    ∃ d, mapDict argsort f ids y = some d ∧ (∀ v ∈ ids, d (v : Rat) = some (f (members ids y v))) ∧
      ∀ k : Rat, (∀ v ∈ ids, k ≠ v) → d k = none := by
  obtain ⟨gs, hgs, hord, hg, hcov⟩ := groups_spec argsort hne hs
  have hfold : ∀ (gs : List Group) (d : Rat → Option β) (k : Rat), gs.Pairwise (fun g h => g.lo < h.lo) →
      (∀ g ∈ gs, g.lo = k → gs.foldl (fun d g => fun k => if k = g.lo then some (f (pick y g.obs)) else d k) d k = some (f (pick y g.obs))) ∧
      ((∀ g ∈ gs, g.lo ≠ k) → gs.foldl (fun d g => fun k => if k = g.lo then some (f (pick y g.obs)) else d k) d k = d k) := by
    intro gs
    induction gs with
    | nil => intro d k _; exact ⟨by simp, fun _ => rfl⟩
    | cons g gs ih =>
      intro d k hp
      rw [List.pairwise_cons] at hp
      rw [List.foldl_cons]
      obtain ⟨i1, i2⟩ := ih (fun k => if k = g.lo then some (f (pick y g.obs)) else d k) k hp.2
      refine ⟨fun g' hg' e => ?_, fun h => ?_⟩
      · rcases List.mem_cons.1 hg' with rfl | hg'
        · rw [i2 (fun g'' h'' e'' => absurd (hp.1 g'' h'') (by rw [e'', e]; exact lt_irrefl _)), if_pos e.symm]
        · exact i1 g' hg' e
      · rw [i2 (fun g' hg' => h g' (by simp [hg'])), if_neg (fun e => h g (by simp) e.symm)]
  refine ⟨_, by unfold mapDict; rw [hgs]; rfl, fun v hv => ?_, fun k hk => ?_⟩
  · obtain ⟨g, hgm, e⟩ := hcov v hv
    rw [(hfold gs _ v hord).1 g hgm e]
    obtain ⟨w, _, e1, e2⟩ := hg g hgm
    have : w = v := by
      rw [e] at e1
      exact_mod_cast e1.symm
    rw [e2, pick_positions ids y hl, this]
  · rw [(hfold gs _ k hord).2]
    intro g hgm e
    obtain ⟨w, hw, e1, _⟩ := hg g hgm
    exact hk w hw (by rw [← e, e1])

/-- **C148** (`mean_by_segment`): each observation gets the mean of the values of its segment, for a variable of floats; the segment of an observation
is made of the consecutive observations of its network with its number of segment. -/
theorem mean_by_segment_partial (argsort : List Int → List Nat) {obs : List Segments.Obs} {y : List Rat} (hne : obs ≠ []) (hl : y.length = obs.length)
    (junk : Nat → Rat) :
    ∃ sta, Segments.segTrackArray obs = some sta ∧ meanBySegment argsort false obs y junk = some (sta.map (fun s => mean (members sta y s))) := by
  obtain ⟨sta, hsta, hnum⟩ := Segments.segTrackArray_spec obs hne
  refine ⟨sta, hsta, ?_⟩
  unfold meanBySegment
  rw [hsta]
  simp only [Option.bind_eq_bind, Option.bind_some, Bool.false_eq_true, if_false]
  rw [map_same_partial argsort _ (by intro h; rw [h] at hnum; exact hne (List.length_eq_zero_iff.1 hnum.len.symm)) ?_ (by rw [hl, hnum.len])]
  · rw [List.pairwise_iff_getElem]
    intro i j hi hj hij
    exact hnum.mono i j _ _ (by omega) (List.getElem?_eq_getElem hi) (List.getElem?_eq_getElem hj)

/-! ### Where the code disagrees -/

/-- The mean of the integers 1 and 2 is 1. -/
theorem mean_integer_wrong : meanBySegment stableArgsort true [⟨1, 0, -1, 1⟩, ⟨1, 0, 0, -1⟩] [1, 2] (fun _ => 0) = some [1, 1] ∧
    meanBySegment stableArgsort false [⟨1, 0, -1, 1⟩, ⟨1, 0, 0, -1⟩] [1, 2] (fun _ => 0) = some [3 / 2, 3 / 2] := by decide +kernel

/-- Numbers which are not sorted (they are unsigned): the greatest value of the group 0 is 9, observation 1 gets the one of a wrong group, and there
are two results for the number 1. -/
theorem map_unsorted_wrong : mapSame stableArgsort (fun l => l.foldl max 0) [1, 0, 1] [7, 9, 4] (fun _ => 0) = some [9, 9, 4] ∧
    mapList stableArgsort (fun l => l.foldl max 0) [1, 0, 1] [7, 9, 4] = some [9, 4] := by decide +kernel

/-- Sorted numbers with a missing one. -/
example : mapSame stableArgsort List.sum [2, 2, 5] [7, 9, 4] (fun _ => 0) = some [16, 16, 4] ∧
    mapList stableArgsort List.sum [2, 2, 5] [7, 9, 4] = some [16, 4] := by decide +kernel

end Verif.Bins
