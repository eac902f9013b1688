import Verif.Segments.Props
import Verif.Select.Props

/-!
# C165: number of segments, number of segments by network, extraction of segments

Model of `nb_segment`, `network_segment_size`, `segment_size` and `extract_segment`
(/repo/src/py_eddy_tracker/observations/network.py). The translation of the links in `extract_with_mask` is the one of property C24.
-/

namespace Verif.Segments

/-- `index_segment_track` (network.py:187-191): `build_index(self.segment_track_array)`. -/
def indexSegmentTrack (obs : List Obs) : Option (List Nat × List Nat × Int) :=
  (segTrackArray obs).bind (fun sta => Index.buildIndex (sta.map (fun (k : Nat) => (k : Int))))

/-- `nb_segment` (network.py:1265-1270). -/
def nbSegment (obs : List Obs) : Option Nat := (indexSegmentTrack obs).map (fun x => x.1.length)

/-- `segment_size` (network.py:193-194). -/
def segmentSize (obs : List Obs) : Option (List Nat) := (indexSegmentTrack obs).map (fun x => List.zipWith (fun a b => b - a) x.1 x.2.1)

/-- `build_index(self.track[self.index_segment_track[0]])` (network.py:209). -/
def networkIndex (obs : List Obs) : Option (List Nat × List Nat × Int) :=
  (indexSegmentTrack obs).bind (fun x => (x.1.mapM (fun i => (obs.map (fun o => (o.track : Int)))[i]?)).bind Index.buildIndex)

/-- `network_segment_size()` (network.py:204-211). -/
def networkSegmentSize (obs : List Obs) : Option (List Nat) :=
  (networkIndex obs).map (fun x => List.zipWith (fun a b => b - a) x.1 x.2.1)

/-- `network_segment_size(id)` (network.py:212-214), for one network; a negative position counts from the end. -/
def networkSegmentSizeOf (obs : List Obs) (id : Int) : Option Nat :=
  (networkIndex obs).bind (fun x => (Py.get x.1 (id - x.2.2)).bind (fun a => (Py.get x.2.1 (id - x.2.2)).map (fun b => b - a)))

/-- `segment_mask` (network.py:1510-1517). -/
def segmentMask (obs : List Obs) (ids : List Int) : Option (List Bool) :=
  (indexSegmentTrack obs).bind (fun x => Select.maskFromIds ids obs.length x.1 x.2.1 x.2.2)

/-- `extract_segment` (network.py:1499-1508): rows kept; an exception without `absolute=True`. -/
def extractSegment (obs : List Obs) (ids : List Int) (absolute : Bool) : Option (List Obs) :=
  if !absolute then none else (segmentMask obs ids).map (Extract.extractMask obs)

/-! ### Specification -/

/-- Network and segment of a row. -/
def Obs.pair (o : Obs) : Nat × Nat := (o.track, o.seg)

/-- A dataset in order: at least a row, networks in increasing order and the rows of a segment next to each other. -/
structure InOrder (obs : List Obs) : Prop where
  ne : obs ≠ []
  networks : (obs.map (·.track)).Pairwise (· ≤ ·)
  grouped : ∀ i j k : Nat, i ≤ j → j ≤ k → ∀ a b c, obs[i]? = some a → obs[j]? = some b → obs[k]? = some c → a.pair = c.pair → b.pair = a.pair

/-- The different segments of a dataset. -/
def segments (obs : List Obs) : List (Nat × Nat) := (obs.map Obs.pair).dedup

/-! ### Proofs -/

/-- The index of the segments: the slices of the numbers from 0. -/
theorem index_segment {obs : List Obs} (hne : obs ≠ []) : ∃ sta first last, segTrackArray obs = some sta ∧ IsNumbering obs sta ∧
    indexSegmentTrack obs = some (first, last, 0) ∧ first.length = last.length ∧
    (∀ (i k : Nat), sta[i]? = some k → k < first.length) ∧
    (∀ (k : Nat), k < first.length → ∃ i, first[k]? = some i ∧ sta[i]? = some k) ∧
    ∀ (k a b : Nat), first[k]? = some a → last[k]? = some b → a < b ∧ b ≤ obs.length ∧ ∀ j : Nat, sta[j]? = some k ↔ a ≤ j ∧ j < b := by
  obtain ⟨sta, e, hn⟩ := segTrackArray_spec obs hne
  have hsne : sta.map (fun (n : Nat) => (n : Int)) ≠ [] := by
    rw [Ne, List.map_eq_nil_iff]
    rintro rfl
    have := hn.zero
    simp at this
  obtain ⟨first, last, i0, eb, hI, hi0, hmax, _⟩ := Index.build_index_spec _ hsne hn.sorted
  have hz : i0 = 0 := by
    obtain ⟨n, hn1, rfl⟩ := List.mem_map.1 hi0
    have := (hI.2.1 0 (List.mem_map.2 ⟨0, List.mem_of_getElem? hn.zero, rfl⟩)).1
    omega
  subst hz
  have hget : ∀ (j k : Nat), (sta.map (fun (n : Nat) => (n : Int)))[j]? = some (0 + (k : Int)) ↔ sta[j]? = some k := by
    intro j k
    rw [List.getElem?_map, Int.zero_add]
    constructor
    · intro h
      obtain ⟨n, h1, h2⟩ := Option.map_eq_some_iff.1 h
      rw [h1]; congr 1; omega
    · intro h; rw [h]; rfl
  have hin : ∀ k : Nat, k < first.length → ∃ j : Nat, sta[j]? = some k := by
    intro k hk
    obtain ⟨n, hn1, hn2⟩ := List.mem_map.1 hmax
    obtain ⟨j, hj⟩ := List.getElem?_of_mem hn1
    obtain ⟨i, _, hi⟩ := hn.attained j n k hj (by omega)
    exact ⟨i, hi⟩
  have hslice : ∀ (k a b : Nat), first[k]? = some a → last[k]? = some b →
      a < b ∧ b ≤ obs.length ∧ ∀ j : Nat, sta[j]? = some k ↔ a ≤ j ∧ j < b := by
    intro k a b ha hb
    obtain ⟨s1, s2, s3⟩ := hI.2.2 k a b ha hb
    have h3 : ∀ j : Nat, sta[j]? = some k ↔ a ≤ j ∧ j < b := fun j => (hget j k).symm.trans (s3 j)
    obtain ⟨j, hj⟩ := hin k (List.getElem?_eq_some_iff.1 ha).1
    have := (h3 j).1 hj
    refine ⟨by omega, ?_, h3⟩
    rw [List.length_map, hn.len] at s2
    exact s2
  refine ⟨sta, first, last, e, hn, ?_, hI.1, ?_, ?_, hslice⟩
  · unfold indexSegmentTrack
    rw [e]
    exact eb
  · intro i k hi
    have := (hI.2.1 (k : Int) (List.mem_map.2 ⟨k, List.mem_of_getElem? hi, rfl⟩)).2
    omega
  · intro k hk
    have e1 := List.getElem?_eq_getElem hk
    have e2 := List.getElem?_eq_getElem (l := last) (i := k) (by rw [← hI.1]; exact hk)
    obtain ⟨h1, _, h3⟩ := hslice k _ _ e1 e2
    exact ⟨_, e1, (h3 _).2 ⟨le_refl _, h1⟩⟩

/-- Rows of the same number are rows of the same segment. -/
theorem pair_of_number {obs : List Obs} {sta : List Nat} (h : segTrackArray obs = some sta) (hne : obs ≠ []) {i j k : Nat} {o o' : Obs}
    (hi : sta[i]? = some k) (hj : sta[j]? = some k) (ho : obs[i]? = some o) (ho' : obs[j]? = some o') : o.pair = o'.pair := by
  obtain ⟨sta', e, _, hs⟩ := Select.unique_segment_spec hne
  obtain rfl : sta = sta' := Option.some.inj (h.symm.trans e)
  have h1 := hs i k o hi ho
  rw [hs j k o' hj ho'] at h1
  exact (Option.some.inj h1).symm

/-- In a dataset in order, rows of the same segment have the same number. -/
theorem number_of_pair {obs : List Obs} {sta : List Nat} (hn : IsNumbering obs sta) (ho : InOrder obs) {i j : Nat} (hij : i ≤ j) {o o' : Obs}
    (hi : obs[i]? = some o) (hj : obs[j]? = some o') (hp : o.pair = o'.pair) : sta[i]? = sta[j]? := by
  have key : ∀ d : Nat, i + d ≤ j → sta[i]? = sta[i + d]? := by
    intro d
    induction d with
    | zero => intro _; rfl
    | succ d ih =>
      intro hd
      rw [ih (by omega)]
      have hl : j < obs.length := (List.getElem?_eq_some_iff.1 hj).1
      have e1 := List.getElem?_eq_getElem (l := obs) (i := i + d) (by omega)
      have e2 := List.getElem?_eq_getElem (l := obs) (i := i + d + 1) (by omega)
      have e3 := List.getElem?_eq_getElem (l := sta) (i := i + d) (by rw [hn.len]; omega)
      have p1 := ho.grouped i (i + d) j (by omega) (by omega) _ _ _ hi e1 hj hp
      have p2 := ho.grouped i (i + d + 1) j (by omega) (by omega) _ _ _ hi e2 hj hp
      have hkey : (obs[i + d + 1]).key = (obs[i + d]).key := by
        have := p2.trans p1.symm
        unfold Obs.pair at this
        unfold Obs.key
        rw [Prod.mk.injEq] at this ⊢
        exact ⟨this.2, this.1⟩
      rw [e3]
      exact ((hn.same_iff (i + d) _ _ _ e3 e1 e2).2 hkey).symm
  obtain ⟨d, rfl⟩ := Nat.exists_eq_add_of_le hij
  exact key d (le_refl _)

/-- The pairs of the first rows of the segments list the different segments once each. -/
theorem firsts_perm {obs : List Obs} (ho : InOrder obs) : ∃ first last, indexSegmentTrack obs = some (first, last, 0) ∧
    ∃ rows : List Obs, first.mapM (fun i => obs[i]?) = some rows ∧ rows.length = first.length ∧ (rows.map Obs.pair).Perm (segments obs) ∧
      (rows.map (·.track)).Pairwise (· ≤ ·) := by
  obtain ⟨sta, first, last, e, hn, hidx, hl, hlt, hfirst, hslice⟩ := index_segment ho.ne
  refine ⟨first, last, hidx, ?_⟩
  have hlen : ∀ i ∈ first, i < obs.length := by
    intro i hi
    obtain ⟨k, hk⟩ := List.getElem?_of_mem hi
    have e2 := List.getElem?_eq_getElem (l := last) (i := k) (by rw [← hl]; exact (List.getElem?_eq_some_iff.1 hk).1)
    have := hslice k _ _ hk e2
    omega
  have hmap : ∀ l : List Nat, (∀ i ∈ l, i < obs.length) → ∃ rows : List Obs, l.mapM (fun i => obs[i]?) = some rows ∧ rows.length = l.length ∧
      ∀ (k i : Nat), l[k]? = some i → rows[k]? = obs[i]? := by
    intro l
    induction l with
    | nil => intro _; exact ⟨[], rfl, rfl, fun k i h => by simp at h⟩
    | cons a l ih =>
      intro h
      obtain ⟨rows, h1, h2, h3⟩ := ih (fun i hi => h i (List.mem_cons_of_mem _ hi))
      have ea := List.getElem?_eq_getElem (h a (by simp))
      refine ⟨obs[a]'(h a (by simp)) :: rows, ?_, by simp [h2], ?_⟩
      · rw [List.mapM_cons, ea, h1]; rfl
      · intro k i hk
        cases k with
        | zero => simp at hk; subst hk; simpa using ea.symm
        | succ k => exact h3 k i (by simpa using hk)
  obtain ⟨rows, hr, hrl, hrg⟩ := hmap first hlen
  -- the row of number `k` is a row of number `k`
  have hrow : ∀ (k : Nat) (o : Obs), rows[k]? = some o → ∃ i : Nat, first[k]? = some i ∧ sta[i]? = some k ∧ obs[i]? = some o := by
    intro k o hk
    obtain ⟨i, h1, h2⟩ := hfirst k (by rw [← hrl]; exact (List.getElem?_eq_some_iff.1 hk).1)
    exact ⟨i, h1, h2, by rw [← hrg k i h1]; exact hk⟩
  refine ⟨rows, hr, hrl, ?_, ?_⟩
  · unfold segments
    rw [List.perm_ext_iff_of_nodup]
    · intro p
      rw [List.mem_dedup, List.mem_map, List.mem_map]
      constructor
      · rintro ⟨o, hmem, rfl⟩
        obtain ⟨k, hk⟩ := List.getElem?_of_mem hmem
        obtain ⟨i, _, _, hi⟩ := hrow k o hk
        exact ⟨o, List.mem_of_getElem? hi, rfl⟩
      · rintro ⟨o, hmem, rfl⟩
        obtain ⟨i, hi⟩ := List.getElem?_of_mem hmem
        have hil : i < sta.length := by rw [hn.len]; exact (List.getElem?_eq_some_iff.1 hi).1
        have hk := List.getElem?_eq_getElem hil
        have hk' : sta[i] < rows.length := by rw [hrl]; exact hlt i _ hk
        obtain ⟨j, _, h2, h3⟩ := hrow sta[i] _ (List.getElem?_eq_getElem hk')
        exact ⟨_, List.getElem_mem hk', pair_of_number e ho.ne h2 hk h3 hi⟩
    · rw [List.Nodup, List.pairwise_map, List.pairwise_iff_getElem]
      intro k k' hk hk' hkk hc
      obtain ⟨i, _, h2, h3⟩ := hrow k _ (List.getElem?_eq_getElem hk)
      obtain ⟨i', _, h2', h3'⟩ := hrow k' _ (List.getElem?_eq_getElem hk')
      have hsame : sta[i]? = sta[i']? := by
        rcases le_total i i' with hle | hle
        · exact number_of_pair hn ho hle h3 h3' hc
        · exact (number_of_pair hn ho hle h3' h3 hc.symm).symm
      rw [h2, h2'] at hsame
      have := Option.some.inj hsame
      omega
    · exact List.nodup_dedup _
  · rw [List.pairwise_map, List.pairwise_iff_getElem]
    intro k k' hk hk' hkk
    obtain ⟨i, _, h2, h3⟩ := hrow k _ (List.getElem?_eq_getElem hk)
    obtain ⟨i', _, h2', h3'⟩ := hrow k' _ (List.getElem?_eq_getElem hk')
    have hii : i < i' := by
      by_contra hc
      have := hn.mono i' i _ _ (by omega) h2' h2
      omega
    have hp := ho.networks
    rw [List.pairwise_map, List.pairwise_iff_getElem] at hp
    obtain ⟨l1, g1⟩ := List.getElem?_eq_some_iff.1 h3
    obtain ⟨l2, g2⟩ := List.getElem?_eq_some_iff.1 h3'
    have := hp i i' l1 l2 hii
    rw [g1, g2] at this
    exact this

/-- **C165** (number of segments): `nb_segment` is the number of different segments of the dataset. -/
theorem nb_segment_spec {obs : List Obs} (ho : InOrder obs) : nbSegment obs = some (segments obs).length := by
  obtain ⟨first, last, e, rows, _, hl, hp, _⟩ := firsts_perm ho
  unfold nbSegment
  rw [e]
  simp only [Option.map_some, Option.some.injEq]
  rw [← hp.length_eq, List.length_map, hl]

/-- **C165** (sizes): `segment_size` gives, in the order of the segments, the number of rows of each of them. -/
theorem segment_size_spec {obs : List Obs} (ho : InOrder obs) : ∃ l, segmentSize obs = some l ∧ l.length = (segments obs).length ∧
    l.sum = obs.length ∧ ∀ (i k : Nat) (o : Obs) sta, segTrackArray obs = some sta → sta[i]? = some k → obs[i]? = some o →
      l[k]? = some ((obs.map Obs.pair).count o.pair) := by
  obtain ⟨sta, first, last, e, hn, hidx, hl, hlt, hfirst, hslice⟩ := index_segment ho.ne
  have hval : ∀ k : Nat, k < first.length → (List.zipWith (fun a b => b - a) first last)[k]? = some (sta.count k) := by
    intro k hk
    have e1 := List.getElem?_eq_getElem hk
    have e2 := List.getElem?_eq_getElem (l := last) (i := k) (by rw [← hl]; exact hk)
    obtain ⟨s1, s2, s3⟩ := hslice k _ _ e1 e2
    rw [List.getElem?_zipWith, e1, e2]
    simp only [Option.some.injEq]
    rw [List.count_eq_length_filter, Select.filter_slice (a := first[k]) (b := last[k]'(by rw [← hl]; exact hk)) _ s1.le]
    · rw [List.length_drop, List.length_take, hn.len]; omega
    · intro j x hx
      rw [beq_iff_eq, ← s3 j, hx]
      simp
  refine ⟨List.zipWith (fun a b => b - a) first last, by unfold segmentSize; rw [hidx]; rfl, ?_, ?_, ?_⟩
  · have h1 := nb_segment_spec ho
    unfold nbSegment at h1
    rw [hidx] at h1
    simp only [Option.map_some, Option.some.injEq] at h1
    rw [List.length_zipWith, ← hl, Nat.min_self, h1]
  · have e1 : List.zipWith (fun a b => b - a) first last = (List.range first.length).map (fun k => sta.count k) := by
      apply List.ext_getElem?
      intro k
      by_cases hk : k < first.length
      · rw [hval k hk, List.getElem?_map, List.getElem?_range hk]; rfl
      · rw [List.getElem?_eq_none (by rw [List.length_zipWith]; omega), List.getElem?_eq_none (by simp; omega)]
    rw [e1, ← hn.len]
    have hsum : ∀ (s : List Nat) (n : Nat), (∀ x ∈ s, x < n) → ((List.range n).map (fun k => s.count k)).sum = s.length := by
      intro s n
      induction s with
      | nil => intro _; simp
      | cons a s ih =>
        intro h
        have ha := h a (by simp)
        have : ((List.range n).map (fun k => (a :: s).count k)) = (List.range n).map (fun k => s.count k + if a = k then 1 else 0) := by
          apply List.map_congr_left
          intro k _
          rw [List.count_cons]
          simp
        rw [this, List.sum_map_add, ih (fun x hx => h x (List.mem_cons_of_mem _ hx))]
        have h2 : ((List.range n).map (fun k => if a = k then 1 else 0)).sum = (List.range n).count a := by
          generalize List.range n = r
          induction r with
          | nil => simp
          | cons x r ih =>
            rw [List.map_cons, List.sum_cons, ih, List.count_cons]
            by_cases hx : a = x
            · subst hx; simp; omega
            · simp [hx, Ne.symm hx]
        rw [h2, List.count_eq_one_of_mem List.nodup_range (List.mem_range.2 ha), List.length_cons]
    refine hsum sta first.length ?_
    intro x hx
    obtain ⟨i, hi⟩ := List.getElem?_of_mem hx
    exact hlt i x hi
  · intro i k o sta' h1 h2 h3
    obtain rfl : sta = sta' := Option.some.inj (e.symm.trans h1)
    rw [hval k (hlt i k h2), Option.some.injEq]
    have : sta.map (fun x => decide (x = k)) = obs.map (fun x => decide (x.pair = o.pair)) := by
      apply List.ext_getElem?
      intro j
      by_cases hj : j < obs.length
      · have e1 := List.getElem?_eq_getElem (l := sta) (i := j) (by rw [hn.len]; exact hj)
        have e2 := List.getElem?_eq_getElem hj
        rw [List.getElem?_map, List.getElem?_map, e1, e2]
        simp only [Option.map_some, Option.some.injEq, decide_eq_decide]
        constructor
        · intro hc
          rw [hc] at e1
          exact pair_of_number e ho.ne e1 h2 e2 h3
        · intro hc
          have : sta[j]? = sta[i]? := by
            rcases le_total j i with hle | hle
            · exact number_of_pair hn ho hle e2 h3 hc
            · exact (number_of_pair hn ho hle h3 e2 hc.symm).symm
          rw [e1, h2] at this
          exact Option.some.inj this
      · rw [List.getElem?_eq_none (by rw [List.length_map, hn.len]; omega), List.getElem?_eq_none (by rw [List.length_map]; omega)]
    have h4 := congrArg (List.count true) this
    rw [List.count_eq_countP, List.countP_map, List.count_eq_countP, List.countP_map] at h4
    rw [List.count_eq_countP, List.count_eq_countP, List.countP_map]
    convert h4 using 2
    · funext x; simp [Function.comp_def, beq_eq_decide]
    · funext x; simp [Function.comp_def, beq_eq_decide]

/-- Number of different segments of a network. -/
def segmentsOf (obs : List Obs) (n : Int) : Nat := ((segments obs).filter (fun p => decide ((p.1 : Int) = n))).length

theorem mapM_track {obs : List Obs} : ∀ {first : List Nat} {rows : List Obs}, first.mapM (fun i => obs[i]?) = some rows →
    first.mapM (fun i => (obs.map (fun o => (o.track : Int)))[i]?) = some (rows.map (fun o => (o.track : Int)))
  | [], rows, h => by
    have : rows = [] := (Option.some.inj h).symm
    subst this
    rfl
  | a :: l, rows, h => by
    rw [List.mapM_cons] at h
    obtain ⟨o, h1, h2⟩ := Option.bind_eq_some_iff.1 h
    obtain ⟨rows', h3, h4⟩ := Option.bind_eq_some_iff.1 h2
    have : rows = o :: rows' := (Option.some.inj h4).symm
    subst this
    rw [List.mapM_cons, mapM_track h3, List.getElem?_map, h1]
    rfl

/-- The index of `network_segment_size`. -/
theorem network_index {obs : List Obs} (ho : InOrder obs) : ∃ (first last : List Nat) (i0 : Int), networkIndex obs = some (first, last, i0) ∧
    first.length = last.length ∧ (∃ o ∈ obs, (o.track : Int) = i0) ∧ (∃ o ∈ obs, (o.track : Int) = i0 + first.length - 1) ∧
    (∀ o ∈ obs, i0 ≤ o.track ∧ (o.track : Int) < i0 + first.length) ∧
    ∀ m a b : Nat, first[m]? = some a → last[m]? = some b → b - a = segmentsOf obs (i0 + m) := by
  obtain ⟨f, l, e, rows, hr, _, hp, hs⟩ := firsts_perm ho
  have hmem : ∀ n : Int, n ∈ rows.map (fun o => (o.track : Int)) ↔ ∃ o ∈ obs, (o.track : Int) = n := by
    intro n
    have h1 : ∀ p, p ∈ rows.map Obs.pair ↔ p ∈ obs.map Obs.pair := fun p => by
      rw [hp.mem_iff]; unfold segments; rw [List.mem_dedup]
    constructor
    · intro h
      obtain ⟨o, h2, h3⟩ := List.mem_map.1 h
      obtain ⟨o', h4, h5⟩ := List.mem_map.1 ((h1 o.pair).1 (List.mem_map.2 ⟨o, h2, rfl⟩))
      refine ⟨o', h4, ?_⟩
      have : o'.track = o.track := congrArg Prod.fst h5
      rw [this]; exact h3
    · rintro ⟨o, h2, h3⟩
      obtain ⟨o', h4, h5⟩ := List.mem_map.1 ((h1 o.pair).2 (List.mem_map.2 ⟨o, h2, rfl⟩))
      refine List.mem_map.2 ⟨o', h4, ?_⟩
      have : o'.track = o.track := congrArg Prod.fst h5
      simp only [this]; exact h3
  have hne : rows.map (fun o => (o.track : Int)) ≠ [] := by
    obtain ⟨o, l', rfl⟩ := List.exists_cons_of_ne_nil ho.ne
    intro hc
    have := (hmem o.track).2 ⟨o, by simp, rfl⟩
    rw [hc] at this
    cases this
  have hso : (rows.map (fun o => (o.track : Int))).Pairwise (· ≤ ·) := by
    rw [List.pairwise_map] at hs ⊢
    exact hs.imp (fun h => by exact_mod_cast h)
  obtain ⟨first, last, i0, eb, hI, hi0, hmax, _⟩ := Index.build_index_spec _ hne hso
  refine ⟨first, last, i0, ?_, hI.1, (hmem _).1 hi0, (hmem _).1 hmax, ?_, ?_⟩
  · unfold networkIndex
    rw [e]
    simp only [Option.bind_some]
    rw [mapM_track hr]
    exact eb
  · intro o h
    exact hI.2.1 _ ((hmem _).2 ⟨o, h, rfl⟩)
  · intro m a b ha hb
    obtain ⟨s1, s2, s3⟩ := hI.2.2 m a b ha hb
    rw [← Select.count_slice s1 s2 s3]
    unfold segmentsOf
    rw [← (hp.filter _).length_eq, List.filter_map, List.length_map, List.count_eq_countP, List.countP_map, List.countP_eq_length_filter]
    congr 1

theorem sum_by_network (i0 : Int) (n : Nat) : ∀ (s : List (Nat × Nat)), (∀ p ∈ s, i0 ≤ (p.1 : Int) ∧ (p.1 : Int) < i0 + n) →
    ((List.range n).map (fun (m : Nat) => (s.filter (fun p => decide ((p.1 : Int) = i0 + m))).length)).sum = s.length
  | [], _ => by simp
  | a :: s, h => by
    have ha := h a (by simp)
    have e : (List.range n).map (fun (m : Nat) => ((a :: s).filter (fun p => decide ((p.1 : Int) = i0 + m))).length) =
        (List.range n).map (fun (m : Nat) => (s.filter (fun p => decide ((p.1 : Int) = i0 + m))).length + if m = ((a.1 : Int) - i0).toNat then 1 else 0) := by
      apply List.map_congr_left
      intro m _
      by_cases hm : (a.1 : Int) = i0 + m
      · rw [List.filter_cons_of_pos (by simpa using hm), if_pos (by omega), List.length_cons]
      · rw [List.filter_cons_of_neg (by simpa using hm), if_neg (by omega), Nat.add_zero]
    rw [e, List.sum_map_add, sum_by_network i0 n s (fun p hp => h p (List.mem_cons_of_mem _ hp))]
    have h2 : ∀ (r : List Nat) (x : Nat), (r.map (fun k => if k = x then 1 else 0)).sum = r.count x := by
      intro r x
      induction r with
      | nil => simp
      | cons y r ih =>
        rw [List.map_cons, List.sum_cons, ih, List.count_cons]
        by_cases hx : y = x
        · subst hx; simp; omega
        · simp [hx]
    rw [h2, List.count_eq_one_of_mem List.nodup_range (List.mem_range.2 (by omega)), List.length_cons]

/-- **C165** (segments by network): `network_segment_size()` gives, for each number from the first to the last network, the number of
different segments of this network; their sum is `nb_segment`. -/
theorem network_segment_size_spec {obs : List Obs} (ho : InOrder obs) : ∃ (i0 : Int) (l : List Nat), networkSegmentSize obs = some l ∧
    (∃ o ∈ obs, (o.track : Int) = i0) ∧ (∃ o ∈ obs, (o.track : Int) = i0 + l.length - 1) ∧
    (∀ o ∈ obs, i0 ≤ o.track ∧ (o.track : Int) < i0 + l.length) ∧ (∀ m : Nat, m < l.length → l[m]? = some (segmentsOf obs (i0 + m))) ∧
    nbSegment obs = some l.sum := by
  obtain ⟨first, last, i0, e, hl, h1, h2, h3, h4⟩ := network_index ho
  have hlen : (List.zipWith (fun a b => b - a) first last).length = first.length := by rw [List.length_zipWith, ← hl, Nat.min_self]
  have hval : ∀ m : Nat, m < first.length →
      (List.zipWith (fun a b => b - a) first last)[m]? = some (segmentsOf obs (i0 + m)) := by
    intro m hm
    have e1 := List.getElem?_eq_getElem hm
    have e2 := List.getElem?_eq_getElem (l := last) (i := m) (by rw [← hl]; exact hm)
    rw [List.getElem?_zipWith, e1, e2]
    simp only [Option.some.injEq]
    exact h4 m _ _ e1 e2
  refine ⟨i0, List.zipWith (fun a b => b - a) first last, by unfold networkSegmentSize; rw [e]; rfl, h1, by rw [hlen]; exact h2,
    by rw [hlen]; exact h3, ?_, ?_⟩
  · intro m hm
    rw [hlen] at hm
    exact hval m hm
  · have e1 : List.zipWith (fun a b => b - a) first last = (List.range first.length).map (fun (m : Nat) => segmentsOf obs (i0 + m)) := by
      apply List.ext_getElem?
      intro m
      by_cases hm : m < first.length
      · rw [hval m hm, List.getElem?_map, List.getElem?_range hm]; rfl
      · rw [List.getElem?_eq_none (by rw [hlen]; omega), List.getElem?_eq_none (by simp; omega)]
    rw [nb_segment_spec ho, e1]
    congr 1
    symm
    refine sum_by_network i0 first.length (segments obs) ?_
    intro p hp
    unfold segments at hp
    rw [List.mem_dedup] at hp
    obtain ⟨o, h5, rfl⟩ := List.mem_map.1 hp
    exact h3 o h5

/-- **C165** (one network): `network_segment_size(id)` is the number of different segments of the network, 0 for a number without row
between the first and the last network. Missing: numbers out of this range (`network_segment_absent_wrong`). -/
theorem network_segment_size_of_partial {obs : List Obs} (ho : InOrder obs) {id : Int} (h1 : ∃ o ∈ obs, (o.track : Int) ≤ id)
    (h2 : ∃ o ∈ obs, id ≤ o.track) : networkSegmentSizeOf obs id = some (segmentsOf obs id) := by
  obtain ⟨first, last, i0, e, hl, _, _, h3, h4⟩ := network_index ho
  obtain ⟨o, ho1, ho2⟩ := h1
  obtain ⟨o', ho3, ho4⟩ := h2
  have b1 := h3 o ho1
  have b2 := h3 o' ho3
  obtain ⟨a, ga, ea⟩ := Select.get_index (l := first) (i := id - i0) (by omega) (by omega)
  obtain ⟨b, gb, eb⟩ := Select.get_index (l := last) (i := id - i0) (by omega) (by omega)
  unfold networkSegmentSizeOf
  rw [e]
  simp only [Option.bind_some, ga, gb, Option.map_some, Option.some.injEq]
  rw [h4 _ a b ea eb]
  congr 1
  omega

/-- **C165** (extraction): `extract_segment(ids, absolute=True)` keeps exactly the rows whose number of `segment_track_array` is in `ids`,
in their order. Missing: without `absolute=True` the code raises (`extract_segment_raises`); numbers out of the range. -/
theorem extract_segment_partial {obs : List Obs} (hne : obs ≠ []) {sta : List Nat} (hs : segTrackArray obs = some sta) {ids : List Nat}
    (hids : ∀ k ∈ ids, k ∈ sta) : extractSegment obs (ids.map (fun (k : Nat) => (k : Int))) true =
      some (((obs.zip sta).filter (fun p => decide (p.2 ∈ ids))).map Prod.fst) := by
  obtain ⟨sta', first, last, e, hn, hidx, hl, hlt, hfirst, hslice⟩ := index_segment hne
  obtain rfl : sta' = sta := Option.some.inj (e.symm.trans hs)
  have key : ∀ (ids : List Nat) (m : Nat → Bool), (∀ k ∈ ids, k ∈ sta') → ∃ m', Select.maskLoop first last 0 (ids.map (fun (k : Nat) => (k : Int))) m = some m' ∧
      ∀ j, m' j = true ↔ m j = true ∨ ∃ k ∈ ids, sta'[j]? = some k := by
    intro ids
    induction ids with
    | nil => intro m _; exact ⟨m, rfl, fun j => by simp⟩
    | cons k ids ih =>
      intro m h
      obtain ⟨i, hi⟩ := List.getElem?_of_mem (h k (by simp))
      have hk := hlt i k hi
      have e1 := List.getElem?_eq_getElem hk
      have e2 := List.getElem?_eq_getElem (l := last) (i := k) (by rw [← hl]; exact hk)
      obtain ⟨_, _, s3⟩ := hslice k _ _ e1 e2
      obtain ⟨m', em, hm'⟩ := ih (Index.sliceSet m first[k] (last[k]'(by rw [← hl]; exact hk)) true) (fun q hq => h q (List.mem_cons_of_mem _ hq))
      refine ⟨m', ?_, ?_⟩
      · rw [List.map_cons, Select.maskLoop, Int.sub_zero, Py.get_natCast, Py.get_natCast, e1, e2]
        exact em
      · intro j
        rw [hm' j]
        unfold Index.sliceSet
        constructor
        · rintro (h1 | ⟨q, hq, h1⟩)
          · split at h1
            · rename_i hin; exact Or.inr ⟨k, by simp, (s3 j).2 hin⟩
            · exact Or.inl h1
          · exact Or.inr ⟨q, by simp [hq], h1⟩
        · rintro (h1 | ⟨q, hq, h1⟩)
          · left; split <;> [rfl; exact h1]
          · rcases List.mem_cons.1 hq with rfl | hq
            · left; rw [if_pos ((s3 j).1 h1)]
            · exact Or.inr ⟨q, hq, h1⟩
  obtain ⟨m, em, hm⟩ := key ids (fun _ => false) hids
  unfold extractSegment segmentMask Select.maskFromIds
  rw [hidx]
  simp only [Bool.not_true, Bool.false_eq_true, if_false, Option.bind_some, em, Option.map_some, Option.some.injEq]
  have hzip : obs = (obs.zip sta').map Prod.fst := by
    rw [List.map_fst_zip]
    rw [hn.len]
  have hmask : (List.range obs.length).map m = (obs.zip sta').map (fun p => decide (p.2 ∈ ids)) := by
    apply List.ext_getElem?
    intro j
    by_cases hj : j < obs.length
    · have e1 := List.getElem?_eq_getElem (l := sta') (i := j) (by rw [hn.len]; exact hj)
      rw [List.getElem?_map, List.getElem?_map, List.getElem?_range hj, List.getElem?_zip_eq_some (z := (obs[j], sta'[j]'(by rw [hn.len]; exact hj))) |>.2 ⟨List.getElem?_eq_getElem hj, e1⟩]
      simp only [Option.map_some, Option.some.injEq]
      rw [Bool.eq_iff_iff, hm j, decide_eq_true_eq, e1]
      simp
    · rw [List.getElem?_eq_none (by simp; omega), List.getElem?_eq_none (by simp; omega)]
  rw [hmask]
  generalize obs.zip sta' = z at hzip ⊢
  rw [hzip]
  clear hzip hmask hm em hids hs
  rw [← Extract.extract_filter]
  generalize z.map (fun p => decide (p.2 ∈ ids)) = mask
  induction z generalizing mask with
  | nil => cases mask <;> rfl
  | cons a z ih => cases mask with
    | nil => rfl
    | cons b mask =>
      cases b
      · exact ih mask
      · exact congrArg (a.1 :: ·) (ih mask)

/-- The default value of `absolute` raises whatever the segments. -/
theorem extract_segment_raises (obs : List Obs) (ids : List Int) : extractSegment obs ids false = none := rfl

/-- An empty dataset raises. -/
theorem nb_segment_empty : nbSegment [] = none := rfl

/-- Rows of a segment which are not next to each other: the segment is counted twice. -/
theorem nb_segment_order_wrong : nbSegment [⟨1, 0, -1, -1⟩, ⟨1, 1, -1, -1⟩, ⟨1, 0, -1, -1⟩] = some 3 ∧
    (segments [⟨1, 0, -1, -1⟩, ⟨1, 1, -1, -1⟩, ⟨1, 0, -1, -1⟩]).length = 2 := by decide

/-- A number before the first network gives the size of another network. -/
theorem network_segment_absent_wrong : networkSegmentSizeOf [⟨5, 0, -1, -1⟩, ⟨6, 0, -1, -1⟩, ⟨6, 1, -1, -1⟩] 4 = some 2 ∧
    segmentsOf [⟨5, 0, -1, -1⟩, ⟨6, 0, -1, -1⟩, ⟨6, 1, -1, -1⟩] 4 = 0 := by decide

/-- Networks 3 (two segments) and 5 (one segment). -/
def countExample : List Obs := [⟨3, 0, -1, 1⟩, ⟨3, 0, 0, -1⟩, ⟨3, 2, -1, -1⟩, ⟨5, 1, -1, -1⟩]

/-- The hypotheses are met. -/
example : InOrder countExample := by
  refine ⟨by decide, by decide, ?_⟩
  intro i j k hij hjk a b c ha hb hc
  have hk : k < 4 := (List.getElem?_eq_some_iff.1 hc).1
  have key : ∀ i j k : Fin 4, i ≤ j → j ≤ k → ∀ a ∈ countExample[i.1]?, ∀ b ∈ countExample[j.1]?, ∀ c ∈ countExample[k.1]?,
      a.pair = c.pair → b.pair = a.pair := by decide
  exact key ⟨i, by omega⟩ ⟨j, by omega⟩ ⟨k, hk⟩ hij hjk a ha b hb c hc

example : nbSegment countExample = some 3 ∧ segmentSize countExample = some [2, 1, 1] ∧ networkSegmentSize countExample = some [2, 0, 1] ∧
    networkSegmentSizeOf countExample 4 = some 0 ∧ extractSegment countExample [2, 0] true =
      some [⟨3, 0, -1, 1⟩, ⟨3, 0, 0, -1⟩, ⟨5, 1, -1, -1⟩] := by decide

end Verif.Segments
