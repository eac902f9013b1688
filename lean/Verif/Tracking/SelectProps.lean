import Verif.Tracking.Props

/-!
# C08 (longer_than / shorter_than) and C09 (get_unused_data)
-/

namespace Verif.Tracking

variable {α δ : Type}

/-! ### Filtering tracks and renumbering them -/

/-- Keep the tracks satisfying `p` and rename them by `ρ`. -/
def filterRename (p : Nat → Prop) [DecidablePred p] (ρ : Nat → Nat) (h : List (List Link)) : List (List Link) :=
  h.map (fun c => (c.filter (fun l => decide (p l.id))).map (fun l => l.setId (ρ l.id)))

theorem linkAt_filterRename {p : Nat → Prop} [DecidablePred p] {ρ : Nat → Nat} {h : List (List Link)} {k : Nat} {l : Link} :
    LinkAt (filterRename p ρ h) k l ↔ ∃ l0, LinkAt h k l0 ∧ p l0.id ∧ l = l0.setId (ρ l0.id) := by
  unfold LinkAt filterRename
  rw [← List.map_reverse, List.getElem?_map]
  constructor
  · rintro ⟨c, e, hm⟩
    rw [Option.map_eq_some_iff] at e
    obtain ⟨c0, e, rfl⟩ := e
    obtain ⟨l0, hl0, rfl⟩ := List.mem_map.1 hm
    obtain ⟨h1, h2⟩ := List.mem_filter.1 hl0
    exact ⟨l0, ⟨c0, e, h1⟩, by simpa using h2, rfl⟩
  · rintro ⟨l0, ⟨c0, e, h1⟩, h2, rfl⟩
    exact ⟨_, by rw [e]; rfl, List.mem_map.2 ⟨l0, List.mem_filter.2 ⟨h1, by simpa using h2⟩, rfl⟩⟩

theorem usedAt_filterRename {p : Nat → Prop} [DecidablePred p] {ρ : Nat → Nat} {h : List (List Link)} {k i' : Nat} :
    UsedAt (filterRename p ρ h) k i' ↔ ∃ i, UsedAt h k i ∧ p i ∧ i' = ρ i := by
  unfold UsedAt
  constructor
  · rintro ⟨l, hl, rfl⟩
    obtain ⟨l0, h1, h2, rfl⟩ := linkAt_filterRename.1 hl
    exact ⟨l0.id, ⟨l0, h1, rfl⟩, h2, rfl⟩
  · rintro ⟨i, ⟨l, hl, rfl⟩, h2, rfl⟩
    exact ⟨l.setId (ρ l.id), linkAt_filterRename.2 ⟨l, hl, h2, rfl⟩, rfl⟩

theorem wf_filterRename {nbV : Nat} {p : Nat → Prop} [DecidablePred p] {ρ : Nat → Nat} {h : List (List Link)}
    (hinj : ∀ i j, p i → p j → ρ i = ρ j → i = j) (wf : WF nbV h) : WF nbV (filterRename p ρ h) := by
  have husd : ∀ k i, p i → (UsedAt (filterRename p ρ h) k (ρ i) ↔ UsedAt h k i) := by
    intro k i hp
    rw [usedAt_filterRename]
    constructor
    · rintro ⟨j, h1, h2, e⟩
      rw [hinj i j hp h2 e]; exact h1
    · exact fun h1 => ⟨i, h1, hp, rfl⟩
  refine ⟨?_, ?_, ?_⟩
  · intro c hc
    obtain ⟨c0, hc0, rfl⟩ := List.mem_map.1 hc
    obtain ⟨n1, n2, n3⟩ := wf.nodup c0 hc0
    have sub := List.filter_sublist (p := fun l => decide (p l.id)) (l := c0)
    refine ⟨?_, ?_, ?_⟩
    · unfold ids
      rw [List.map_map]
      have : (c0.filter (fun l => decide (p l.id))).map ((fun l => l.id) ∘ fun l => l.setId (ρ l.id)) =
          ((c0.filter (fun l => decide (p l.id))).map (·.id)).map ρ := by
        rw [List.map_map]; rfl
      rw [this]
      apply List.Nodup.map_on
      · intro a ha b hb e
        obtain ⟨x, hx, rfl⟩ := List.mem_map.1 ha
        obtain ⟨y, hy, rfl⟩ := List.mem_map.1 hb
        exact hinj _ _ (by simpa using (List.mem_filter.1 hx).2) (by simpa using (List.mem_filter.1 hy).2) e
      · exact List.Nodup.sublist (sub.map _) n1
    · rw [List.map_map]
      exact List.Nodup.sublist (sub.map _) n2
    · rw [List.map_map]
      exact List.Nodup.sublist (sub.map _) n3
  · intro k l hl hv
    obtain ⟨l0, h1, h2, rfl⟩ := linkAt_filterRename.1 hl
    obtain ⟨g1, g2, g3, g4, g5⟩ := wf.virt k l0 h1 hv
    exact ⟨g1, g2, g3, (husd _ _ h2).2 g4, fun j hj hj' hu => g5 j hj hj' ((husd _ _ h2).1 hu)⟩
  · intro k l hl hv
    obtain ⟨l0, h1, h2, rfl⟩ := linkAt_filterRename.1 hl
    rcases wf.real k l0 h1 hv with ⟨k', l', e, g1, g2, g3⟩ | ⟨g1, g2⟩
    · refine Or.inl ⟨k', l'.setId (ρ l'.id), e, linkAt_filterRename.2 ⟨l', g1, by rw [g3]; exact h2, rfl⟩, g2, ?_⟩
      simp only [LinkOf.setId, g3]
    · refine Or.inr ⟨fun j hj hu => g1 j hj ((husd _ _ h2).1 hu), fun k' l' e hl' => ?_⟩
      obtain ⟨l0', h1', _, rfl⟩ := linkAt_filterRename.1 hl'
      exact g2 k' l0' e h1'

/-- The counts follow the tracks. -/
theorem nbObs_filterRename {nbV : Nat} {p : Nat → Prop} [DecidablePred p] {ρ : Nat → Nat} {h : List (List Link)}
    (hinj : ∀ i j, p i → p j → ρ i = ρ j → i = j) (wf : WF nbV h) (i : Nat) (hp : p i) :
    nbObsByTracks (decide (0 < nbV)) (filterRename p ρ h) (ρ i) = nbObsByTracks (decide (0 < nbV)) h i := by
  have wf' := wf_filterRename hinj wf
  have husd : ∀ k, (UsedAt (filterRename p ρ h) k (ρ i) ↔ UsedAt h k i) := by
    intro k
    rw [usedAt_filterRename]
    constructor
    · rintro ⟨j, h1, h2, e⟩
      rw [hinj i j hp h2 e]; exact h1
    · exact fun h1 => ⟨i, h1, hp, rfl⟩
  by_cases hu : ∃ k, UsedAt h k i
  · obtain ⟨k, hu⟩ := hu
    obtain ⟨k0, h0⟩ := exists_first hu
    obtain ⟨k1, h1⟩ := exists_last hu
    have e1 := (nbObs_spec wf i).2 k0 k1 h0 h1
    have e2 := (nbObs_spec wf' (ρ i)).2 k0 k1 ⟨(husd _).2 h0.1, fun j hj hu => h0.2 j hj ((husd _).1 hu)⟩
      ⟨(husd _).2 h1.1, fun j hj hu => h1.2 j hj ((husd _).1 hu)⟩
    omega
  · rw [(nbObs_spec wf i).1 (fun k hk => hu ⟨k, hk⟩), (nbObs_spec wf' (ρ i)).1 (fun k hk => hu ⟨k, (husd k).1 hk⟩)]

/-! ### The translation table -/

theorem keepTracks_mem {cid : Nat} {p : Nat → Bool} {i : Nat} : i ∈ keepTracks cid p ↔ i < cid ∧ p i = true := by
  simp [keepTracks]

theorem keepTracks_sorted (cid : Nat) (p : Nat → Bool) : (keepTracks cid p).Pairwise (· < ·) :=
  List.Pairwise.filter _ List.pairwise_lt_range

/-- The table `translate` of `longer_than` / `shorter_than`. -/
def translate (keep : List Nat) : Nat → Nat := scatter (fun _ => 0) (keep.zip (List.range keep.length))

theorem translate_getElem {keep : List Nat} (hnd : keep.Nodup) {j : Nat} (hj : j < keep.length) :
    translate keep keep[j] = j := by
  apply scatter_at
  · rw [List.mem_iff_getElem?]
    exact ⟨j, by rw [List.getElem?_zip_eq_some]; exact ⟨List.getElem?_eq_getElem hj, List.getElem?_range hj⟩⟩
  · intro y hy
    rw [List.mem_iff_getElem?] at hy
    obtain ⟨m, hm⟩ := hy
    rw [List.getElem?_zip_eq_some] at hm
    obtain ⟨h1, h2⟩ := hm
    have e := getElem?_inj_of_nodup hnd h1 (List.getElem?_eq_getElem hj)
    subst e
    rw [List.getElem?_range hj] at h2
    exact (Option.some.inj h2).symm

theorem renumber_eq (keep : List Nat) (h : List (List Link)) :
    renumber keep h = filterRename (· ∈ keep) (translate keep) h := by
  unfold renumber filterRename translate
  with_reducible rfl

theorem translate_lt_iff {keep : List Nat} (hs : keep.Pairwise (· < ·)) {i j : Nat} (hi : i ∈ keep) (hj : j ∈ keep) :
    translate keep i < translate keep j ↔ i < j := by
  have hnd : keep.Nodup := hs.imp (fun h => Nat.ne_of_lt h)
  obtain ⟨a, ha, rfl⟩ := List.mem_iff_getElem.1 hi
  obtain ⟨b, hb, rfl⟩ := List.mem_iff_getElem.1 hj
  rw [translate_getElem hnd ha, translate_getElem hnd hb]
  rw [List.pairwise_iff_getElem] at hs
  constructor
  · exact fun hab => hs a b ha hb hab
  · intro hlt
    by_contra hge
    by_cases e : a = b
    · subst e; omega
    · have := hs b a hb ha (by omega); omega

/-- What a selection of the tracks `kept` must satisfy. -/
structure SelectionOK (nb : Nat → Nat) (h : List (List Link)) (kept : Nat → Prop) (sel : Selection) : Prop where
  /-- there is a renumbering of the kept tracks onto `0, 1, …`, preserving their order -/
  rename : ∃ ρ : Nat → Nat,
    (∀ i j, kept i → kept j → (ρ i < ρ j ↔ i < j)) ∧ (∀ i, kept i → ρ i < sel.currentId) ∧
    (∀ m, m < sel.currentId → ∃ i, kept i ∧ ρ i = m) ∧
    /- every link of a kept track is preserved, with its new identifier, and nothing else -/
    sel.corrs.length = h.length ∧
    (∀ k l, LinkAt sel.corrs k l ↔ ∃ l0, LinkAt h k l0 ∧ kept l0.id ∧ l = { l0 with id := ρ l0.id }) ∧
    /- in the order of the link table -/
    (∀ k : Nat, sel.corrs[k]?.map (fun c => c.map (fun l => (l.inp, l.out))) =
      h[k]?.map (fun c => c.filterMap (fun l => (haveI := Classical.dec (kept l.id); if kept l.id then some (l.inp, l.out) else none)))) ∧
    /- the counts are the old ones -/
    (∀ i, kept i → sel.nb[ρ i]? = some (nb i)) ∧ sel.nb.length = sel.currentId

theorem selection_ok (nb : Nat → Nat) (cid : Nat) (h : List (List Link))
    (p : Nat → Bool) :
    SelectionOK nb h (fun i => i < cid ∧ p i = true)
      ⟨renumber (keepTracks cid p) h, (keepTracks cid p).length, (keepTracks cid p).map nb⟩ := by
  have hs := keepTracks_sorted cid p
  have hnd : (keepTracks cid p).Nodup := hs.imp (fun h => Nat.ne_of_lt h)
  refine ⟨translate (keepTracks cid p), ?_, ?_, ?_, ?_, ?_, ?_, ?_, ?_⟩
  · intro i j hi hj
    exact translate_lt_iff hs (keepTracks_mem.2 hi) (keepTracks_mem.2 hj)
  · intro i hi
    obtain ⟨a, ha, rfl⟩ := List.mem_iff_getElem.1 (keepTracks_mem.2 hi)
    rw [translate_getElem hnd ha]; exact ha
  · intro m hm
    exact ⟨(keepTracks cid p)[m], keepTracks_mem.1 (List.getElem_mem hm), translate_getElem hnd hm⟩
  · simp [renumber]
  · intro k l
    show LinkAt (renumber _ _) k l ↔ _
    rw [renumber_eq, linkAt_filterRename]
    constructor
    · rintro ⟨l0, h1, h2, rfl⟩
      exact ⟨l0, h1, keepTracks_mem.1 h2, rfl⟩
    · rintro ⟨l0, h1, h2, rfl⟩
      exact ⟨l0, h1, keepTracks_mem.2 h2, rfl⟩
  · intro k
    show (renumber _ _)[k]?.map _ = _
    rw [renumber_eq, filterRename, List.getElem?_map, Option.map_map]
    congr 1
    funext c
    simp only [Function.comp]
    induction c with
    | nil => rfl
    | cons l c ih =>
      by_cases hk : l.id ∈ keepTracks cid p
      · rw [List.filter_cons_of_pos (by simpa using hk), List.map_cons, List.map_cons, ih,
          List.filterMap_cons_some (b := (l.inp, l.out)) (by rw [if_pos (keepTracks_mem.1 hk)])]
        rfl
      · rw [List.filter_cons_of_neg (by simpa using hk), ih,
          List.filterMap_cons_none (by rw [if_neg (fun h' => hk (keepTracks_mem.2 h'))])]
  · intro i hi
    obtain ⟨a, ha, rfl⟩ := List.mem_iff_getElem.1 (keepTracks_mem.2 hi)
    rw [translate_getElem hnd ha, List.getElem?_map, List.getElem?_eq_getElem ha]; rfl
  · simp

/-- C08. `longer_than` keeps exactly the tracks with at least `size_min` observations; it answers `False` exactly when there
are none. -/
theorem longer_than_spec (cfg : Cfg α δ) (s : St α δ) (sizeMin : Nat) :
    (longerThan (counts cfg s) s.currentId s.corrs sizeMin = none ↔ ∀ i, i < s.currentId → counts cfg s i < sizeMin) ∧
    ∀ sel, longerThan (counts cfg s) s.currentId s.corrs sizeMin = some sel →
      SelectionOK (counts cfg s) s.corrs (fun i => i < s.currentId ∧ sizeMin ≤ counts cfg s i) sel := by
  have hsel := selection_ok (counts cfg s) s.currentId s.corrs (fun i => decide (sizeMin ≤ counts cfg s i))
  simp only [decide_eq_true_eq] at hsel
  unfold longerThan
  simp only
  constructor
  · rw [ite_eq_left_iff]
    simp only [reduceCtorEq, imp_false, not_not]
    rw [List.isEmpty_iff, List.eq_nil_iff_forall_not_mem]
    constructor
    · intro hn i hi
      by_contra hge
      exact hn i (keepTracks_mem.2 ⟨hi, by simp; omega⟩)
    · intro hn i hm
      obtain ⟨h1, h2⟩ := keepTracks_mem.1 hm
      have := hn i h1
      simp at h2; omega
  · intro sel e
    split at e
    · simp at e
    · obtain rfl := Option.some.inj e
      exact hsel

/-- C08 (partial). When some track is short enough, `shorter_than` keeps exactly the tracks with fewer than `size_max`
observations. Missing: the property also asks that the call succeeds when no track is short enough; the code raises, see
`shorter_than_raises`. -/
theorem shorter_than_spec_partial (cfg : Cfg α δ) (s : St α δ) (sizeMax : Nat) (hex : ∃ i, i < s.currentId ∧ counts cfg s i < sizeMax) :
    ∃ sel, shorterThan (counts cfg s) s.currentId s.corrs sizeMax = some sel ∧
      SelectionOK (counts cfg s) s.corrs (fun i => i < s.currentId ∧ counts cfg s i < sizeMax) sel := by
  have hsel := selection_ok (counts cfg s) s.currentId s.corrs (fun i => decide (counts cfg s i < sizeMax))
  simp only [decide_eq_true_eq] at hsel
  refine ⟨_, ?_, hsel⟩
  unfold shorterThan
  simp only
  rw [if_neg]
  rw [List.isEmpty_iff]
  obtain ⟨i, h1, h2⟩ := hex
  intro e
  have : i ∈ keepTracks s.currentId (fun i => decide (counts cfg s i < sizeMax)) := keepTracks_mem.2 ⟨h1, by simpa using h2⟩
  rw [e] at this
  simp at this

/-- C08, negation. `shorter_than` raises whenever every track has at least `size_max` observations, in particular whenever
there is no track at all. -/
theorem shorter_than_raises (nb : Nat → Nat) (cid : Nat) (h : List (List Link)) (sizeMax : Nat)
    (hall : ∀ i, i < cid → sizeMax ≤ nb i) : shorterThan nb cid h sizeMax = none := by
  unfold shorterThan
  simp only
  rw [if_pos]
  rw [List.isEmpty_iff, List.eq_nil_iff_forall_not_mem]
  intro i hm
  obtain ⟨h1, h2⟩ := keepTracks_mem.1 hm
  have := hall i h1
  simp at h2; omega

/-- A run for which `shorter_than` raises: one track present in the three datasets, `size_max = 3`. -/
example : (track exCfg [[7], [7], [7]]).map (fun s =>
    (shorterThan (counts exCfg s) s.currentId s.corrs 3).isNone && decide (s.currentId = 1)) = some true := by decide +kernel

/-- C08. After a selection the history is consistent again and its own counts are the stored ones, so that the theorems on
`merge` apply to the selected tracks. -/
theorem longer_than_consistent (cfg : Cfg α δ) (ht : OneToOne cfg.tracking) (files : List (List α)) (s : St α δ)
    (hs : track cfg files = some s) (sizeMin : Nat) (sel : Selection)
    (hsel : longerThan (counts cfg s) s.currentId s.corrs sizeMin = some sel) :
    WF cfg.nbVirtual sel.corrs ∧ ∀ m, m < sel.currentId → sel.nb[m]? = some (nbObsByTracks cfg.virtual sel.corrs m) := by
  have inv := inv_of_track ht hs
  unfold longerThan at hsel
  simp only at hsel
  split at hsel
  · simp at hsel
  · obtain rfl := Option.some.inj hsel
    have hs' := keepTracks_sorted s.currentId (fun i => decide (sizeMin ≤ counts cfg s i))
    generalize keepTracks s.currentId (fun i => decide (sizeMin ≤ counts cfg s i)) = keep at hs'
    have hnd : keep.Nodup := hs'.imp (fun h => Nat.ne_of_lt h)
    have hinj : ∀ i j, i ∈ keep → j ∈ keep → translate keep i = translate keep j → i = j := by
      intro i j hi hj e
      have h1 := translate_lt_iff hs' hi hj
      have h2 := translate_lt_iff hs' hj hi
      omega
    refine ⟨by simp only [renumber_eq]; exact wf_filterRename hinj inv.wf, fun m hm => ?_⟩
    simp only at hm
    have e := nbObs_filterRename hinj inv.wf keep[m] (List.getElem_mem hm)
    rw [translate_getElem hnd hm] at e
    simp only [renumber_eq, List.getElem?_map, List.getElem?_eq_getElem hm]
    show some _ = some (nbObsByTracks (decide (0 < cfg.nbVirtual)) _ m)
    rw [e]; rfl

/-- Non-vacuity for C08. -/
example : ((track exCfg exFiles).bind (fun s => longerThan (counts exCfg s) s.currentId s.corrs 3)).map (fun sel =>
    (sel.corrs.reverse.map (fun c => c.map (fun l => [l.inp, l.out, l.id])), sel.nb)) =
    some ([[[0, 2, 0]], [[1, 0, 1]], [[0, 1, 1]], [[2, 0, 0]]], [5, 3]) := by decide +kernel

/-! ### C09 -/

theorem mem_reverseIndex {idx : List Nat} {nb i : Nat} : i ∈ reverseIndex idx nb ↔ i < nb ∧ i ∉ idx := by
  simp [reverseIndex]

theorem linkAt_of_table {h : List (List Link)} {k : Nat} {c : List Link} (hc : h.reverse[k]? = some c) {l : Link} :
    LinkAt h k l ↔ l ∈ c := by
  unfold LinkAt
  rw [hc]
  constructor
  · rintro ⟨c', e, hm⟩
    obtain rfl := Option.some.inj e
    exact hm
  · exact fun hm => ⟨c, rfl, hm⟩

/-- C09. With at least two datasets, `get_unused_data` succeeds and returns for dataset `d` exactly the indices of its
observations which are copied on no row of the merged table. -/
theorem unused_spec (cfg : Cfg α δ) (ht : OneToOne cfg.tracking) (files : List (List α)) (s : St α δ)
    (hs : track cfg files = some s) (h2 : 2 ≤ files.length) :
    ∃ U, unused cfg.virtual (files.map List.length) s.corrs.reverse = some U ∧ U.length = files.length ∧
      ∀ (d : Nat) f u, files[d]? = some f → U[d]? = some u → ∀ j, j ∈ u ↔ j < f.length ∧
        ¬ ∃ r, r < nbObs (counts cfg s) s.currentId ∧ (merged cfg s).rows r = some (d, j) := by
  have inv := inv_of_track ht hs
  have wf := inv.wf
  have hlen := inv.len
  have hlenr : s.corrs.reverse.length = s.corrs.length := List.length_reverse
  -- indices used in one dataset
  have hidx : ∀ d, d < files.length → ∃ u, indexUsed cfg.virtual files.length s.corrs.reverse d = some u ∧
      ∀ j, j ∈ u ↔ ((∃ l, LinkAt s.corrs d l ∧ l.virt = false ∧ l.inp = j) ∨
        (∃ k l, d = k + 1 ∧ LinkAt s.corrs k l ∧ l.out = j)) := by
    intro d hd
    unfold indexUsed
    simp only
    by_cases h0 : d = 0
    · subst h0
      rw [if_pos rfl]
      have hc : s.corrs.reverse[0]? = some (s.corrs.reverse[0]'(by omega)) := List.getElem?_eq_getElem (by omega)
      generalize s.corrs.reverse[0]'(by omega) = c at hc
      refine ⟨c.map (·.inp), by rw [hc]; rfl, fun j => ?_⟩
      rw [List.mem_map]
      constructor
      · rintro ⟨l, hl, e⟩
        have hl' := (linkAt_of_table hc).2 hl
        refine Or.inl ⟨l, hl', ?_, e⟩
        cases hv : l.virt with
        | false => rfl
        | true =>
          have := (wf.virt 0 l hl' hv).2.2.1
          omega
      · rintro (⟨l, hl, _, e⟩ | ⟨k, l, e, _⟩)
        · exact ⟨l, (linkAt_of_table hc).1 hl, e⟩
        · omega
    · rw [if_neg h0]
      have ha : s.corrs.reverse[d - 1]? = some (s.corrs.reverse[d - 1]'(by omega)) := List.getElem?_eq_getElem (by omega)
      generalize s.corrs.reverse[d - 1]'(by omega) = a at ha
      have hout : ∀ j, j ∈ a.map (·.out) ↔ ∃ k l, d = k + 1 ∧ LinkAt s.corrs k l ∧ l.out = j := by
        intro j
        rw [List.mem_map]
        constructor
        · rintro ⟨l, hl, e⟩
          exact ⟨d - 1, l, by omega, (linkAt_of_table ha).2 hl, e⟩
        · rintro ⟨k, l, e, hl, ej⟩
          have : k = d - 1 := by omega
          subst this
          exact ⟨l, (linkAt_of_table ha).1 hl, ej⟩
      by_cases hl : d + 1 = files.length
      · rw [if_pos (by simpa using hl)]
        refine ⟨a.map (·.out), by rw [ha]; rfl, fun j => ?_⟩
        rw [hout]
        constructor
        · exact Or.inr
        · rintro (⟨l, hl', _⟩ | h')
          · have := hl'.lt; omega
          · exact h'
      · rw [if_neg (by simpa using hl)]
        have hb : s.corrs.reverse[d]? = some (s.corrs.reverse[d]'(by omega)) := List.getElem?_eq_getElem (by omega)
        generalize s.corrs.reverse[d]'(by omega) = b at hb
        refine ⟨_, by rw [ha, hb]; rfl, fun j => ?_⟩
        rw [List.mem_append, hout, or_comm]
        apply or_congr_left
        rw [List.mem_map]
        constructor
        · rintro ⟨l, hl, e⟩
          by_cases hv : cfg.virtual = true
          · rw [if_pos hv] at hl
            obtain ⟨h1, h2⟩ := List.mem_filter.1 hl
            exact ⟨l, (linkAt_of_table hb).2 h1, by simpa using h2, e⟩
          · rw [if_neg hv] at hl
            have hl' := (linkAt_of_table hb).2 hl
            refine ⟨l, hl', ?_, e⟩
            cases hv' : l.virt with
            | false => rfl
            | true =>
              obtain ⟨g1, g2, _⟩ := wf.virt _ l hl' hv'
              exfalso
              apply hv
              simp only [Cfg.virtual, decide_eq_true_eq]; omega
        · rintro ⟨l, hl, hv, e⟩
          have hl' := (linkAt_of_table hb).1 hl
          refine ⟨l, ?_, e⟩
          split
          · exact List.mem_filter.2 ⟨hl', by simp [hv]⟩
          · exact hl'
  have hmap : (files.map List.length).length = files.length := List.length_map _
  obtain ⟨U, hU⟩ : ∃ U, unused cfg.virtual (files.map List.length) s.corrs.reverse = some U := by
    unfold unused
    apply mapM_total
    intro ds hds
    have hd : ds.1 < files.length := by
      have := (List.of_mem_zip hds).1
      simpa using this
    obtain ⟨u, hu, _⟩ := hidx ds.1 hd
    exact ⟨reverseIndex u ds.2, by rw [hmap, hu]; rfl⟩
  refine ⟨U, hU, ?_, ?_⟩
  · have := congrArg List.length (mapM_eq_some.1 hU)
    simp at this
    exact this.symm
  · intro d f u hf hu j
    have hd : d < files.length := (List.getElem?_eq_some_iff.1 hf).1
    obtain ⟨w, hw, hwm⟩ := hidx d hd
    have e := mapM_eq_some.1 hU
    have e' := congrArg (fun (l : List (Option (List Nat))) => l[d]?) e
    simp only [List.getElem?_map] at e'
    have hz : ((List.range (files.map List.length).length).zip (files.map List.length))[d]? = some (d, f.length) := by
      rw [List.getElem?_zip_eq_some]
      refine ⟨List.getElem?_range (by simpa using hd), by rw [List.getElem?_map, hf]; rfl⟩
    rw [hz, hu] at e'
    simp only [Option.map_some, hmap, hw, Option.some.injEq] at e'
    rw [← e', mem_reverseIndex, hwm, (merge_each_once cfg ht files s hs d j).1]

/-- With a single dataset there is no link table: `get_unused_data` raises. -/
theorem unused_single_raises (v : Bool) (n : Nat) : unused v [n] [] = none := rfl

/-- Non-vacuity for C09: observation 2 of dataset 1 is used, observation 0 of dataset 3 starts a track. -/
example : (track exCfg [[7, 9], [8, 7], [8]]).bind (fun s => unused exCfg.virtual [2, 2, 1] s.corrs.reverse) =
    some [[1], [], []] := by decide +kernel

end Verif.Tracking
