import Verif.Segments.Relatives
import Verif.Links.Props
import Verif.Index.Props

/-!
C170: `find_segments_relative` gives the relatives of an observation of a dataset with several networks.

Model of `NetworkObservations.find_segments_relative` (`/repo/src/py_eddy_tracker/observations/network.py:137-160`), of `network_slice` and
`network` (245-253, 1238-1239); the rows hold their network, their segment and their links.
-/

namespace Verif.Segments

/-! ### Model -/

/-- A row: network and segment, with the links. -/
abbrev NetRow := Links.Row (Nat × Nat)

/-- The fields used by the graph of segments. -/
def NetRow.toObs (r : NetRow) : Obs := ⟨r.data.1, r.data.2, r.prev, r.next⟩

/-- `where(nw.segment == segment)[0][0]`, lines 153 and 159; `none` is `IndexError`. -/
def firstOfSegment (nw : List NetRow) (seg : Nat) : Option Nat := nw.findIdx? (fun r => r.data.2 == seg)

/-- `self.network(id)`, lines 245-253 and 1238-1239, of a dataset whose index was not computed before. -/
def networkRows (rows : List NetRow) (id : Nat) : Option (List NetRow) := do
  let idx ← Index.buildIndex (rows.map (fun r => (r.data.1 : Int)))
  let a ← Py.get idx.1 ((id : Int) - idx.2.2)
  let b ← Py.get idx.2.1 ((id : Int) - idx.2.2)
  Links.extractSlice rows a b

/-- `find_segments_relative`, lines 137-160. -/
def findSegmentsRelative (adj : List (Nat × Nat) → Nat → List Nat) (rows : List NetRow) (obs : Nat) (stopped : Option Nat) (order : Nat) :
    Option (List NetRow) := do
  let r ← rows[obs]?
  let nw ← networkRows rows r.data.1
  let iObs ← firstOfSegment nw r.data.2
  let indices ← match stopped with
    | none => some [(iObs : Int)]
    | some st => do
      let r' ← rows[st]?
      let iSt ← firstOfSegment nw r'.data.2
      some [(iObs : Int), (iSt : Int)]
  let mask ← relatives adj (nw.map NetRow.toObs) indices order
  Links.extractMask nw mask

/-! ### Specification -/

/-- Rows in the order of networks and segments. -/
def SortedRows (rows : List NetRow) : Prop :=
  rows.Pairwise (fun r r' => r.data.1 < r'.data.1 ∨ r.data.1 = r'.data.1 ∧ r.data.2 ≤ r'.data.2)

/-- Links stay in the network. -/
def Inside (rows : List NetRow) : Prop :=
  ∀ r ∈ rows, ∀ p : Nat, r.prev = p ∨ r.next = p → ∃ r', rows[p]? = some r' ∧ r'.data.1 = r.data.1

/-! ### Proof -/

theorem Path.trans {obs : List Obs} {i j l k k' : Nat} (h : Path obs i j k) (h' : Path obs j l k') : Path obs i l (k + k') := by
  induction h' with
  | nil => exact h
  | stay _ hn hk ih => exact Path.stay ih hn hk
  | change _ he ih => exact Path.change ih he

/-- Rows which follow each other in a segment. -/
theorem path_stay {obs : List Obs} {i n : Nat} {κ : Nat × Nat} (h : ∀ q, i ≤ q → q ≤ i + n → ∃ o, obs[q]? = some o ∧ o.key = κ) :
    Path obs i (i + n) 0 ∧ Path obs (i + n) i 0 := by
  induction n with
  | zero => exact ⟨Path.nil, Path.nil⟩
  | succ n ih =>
    obtain ⟨h1, h2⟩ := ih (fun q a b => h q a (by omega))
    obtain ⟨o, eo, ko⟩ := h (i + n) (by omega) (by omega)
    obtain ⟨o', eo', ko'⟩ := h (i + (n + 1)) (by omega) (by omega)
    refine ⟨Path.stay h1 (Or.inl rfl) ⟨o, o', eo, eo', by rw [ko, ko']⟩, ?_⟩
    have := Path.trans (Path.stay (Path.nil (obs := obs) (i := i + (n + 1))) (j' := i + n) (Or.inr rfl) ⟨o', o, eo', eo, by rw [ko, ko']⟩) h2
    exact this

/-- A block of rows with its links renumbered. -/
structure Block (O W : List Obs) (a n : Nat) (t : Nat) : Prop where
  len : W.length = n
  inside : ∀ (q : Nat) o, O[q]? = some o → (o.track = t ↔ a ≤ q ∧ q < a + n)
  get : ∀ k : Nat, k < n → ∃ o w, O[a + k]? = some o ∧ W[k]? = some w ∧ w.key = o.key ∧
    (∀ l : Nat, w.prev = l ↔ o.prev = ((a + l : Nat) : Int)) ∧ (∀ l : Nat, w.next = l ↔ o.next = ((a + l : Nat) : Int))
  closed : ∀ (q : Nat) o, O[q]? = some o → ∀ p : Nat, o.prev = p ∨ o.next = p → ∃ o', O[p]? = some o' ∧ o'.track = o.track

theorem Block.keys {O W : List Obs} {a n t : Nat} (h : Block O W a n t) {k : Nat} {w : Obs} (hw : W[k]? = some w) :
    k < n ∧ ∃ o, O[a + k]? = some o ∧ w.key = o.key := by
  have hk : k < n := by rw [← h.len]; exact (List.getElem?_eq_some_iff.1 hw).1
  obtain ⟨o, w', ho, hw', he, _⟩ := h.get k hk
  rw [hw] at hw'
  cases hw'
  exact ⟨hk, o, ho, he⟩

theorem Block.first {O W : List Obs} {a n t : Nat} (h : Block O W a n t) {k : Nat} (hk : k < n) : First W k ↔ First O (a + k) := by
  obtain ⟨o, w, ho, hw, he, _⟩ := h.get k hk
  have hto := (h.inside _ o ho).2 ⟨by omega, by omega⟩
  constructor
  · rintro ⟨w', hw', hf⟩
    rw [hw] at hw'
    cases hw'
    refine ⟨o, ho, ?_⟩
    intro o' hpos ho'
    by_cases hk0 : k = 0
    · subst hk0
      intro hkey
      have ht' : o'.track = t := by
        have := congrArg Prod.snd hkey
        simp only [Obs.key] at this
        omega
      have := (h.inside _ o' ho').1 ht'
      omega
    · obtain ⟨o2, w2, ho2, hw2, he2, _⟩ := h.get (k - 1) (by omega)
      rw [show a + (k - 1) = a + k - 1 by omega, ho'] at ho2
      cases ho2
      rw [← he, ← he2]
      exact hf w2 (by omega) hw2
  · rintro ⟨o', ho', hf⟩
    rw [ho] at ho'
    cases ho'
    refine ⟨w, hw, ?_⟩
    intro w' hpos hw'
    obtain ⟨_, o2, ho2, he2⟩ := h.keys hw'
    rw [he, he2]
    exact hf o2 (by omega) (by rw [show a + k - 1 = a + (k - 1) by omega]; exact ho2)

theorem Block.last {O W : List Obs} {a n t : Nat} (h : Block O W a n t) {k : Nat} (hk : k < n) : Last W k ↔ Last O (a + k) := by
  obtain ⟨o, w, ho, hw, he, _⟩ := h.get k hk
  have hto := (h.inside _ o ho).2 ⟨by omega, by omega⟩
  constructor
  · rintro ⟨w', hw', hf⟩
    rw [hw] at hw'
    cases hw'
    refine ⟨o, ho, ?_⟩
    intro o' ho'
    by_cases hk0 : k + 1 < n
    · obtain ⟨o2, w2, ho2, hw2, he2, _⟩ := h.get (k + 1) hk0
      rw [show a + (k + 1) = a + k + 1 by omega, ho'] at ho2
      cases ho2
      rw [← he, ← he2]
      exact hf w2 hw2
    · intro hkey
      have ht' : o'.track = t := by
        have := congrArg Prod.snd hkey
        simp only [Obs.key] at this
        omega
      have := (h.inside _ o' ho').1 ht'
      omega
  · rintro ⟨o', ho', hf⟩
    rw [ho] at ho'
    cases ho'
    refine ⟨w, hw, ?_⟩
    intro w' hw'
    obtain ⟨_, o2, ho2, he2⟩ := h.keys hw'
    rw [he, he2]
    exact hf o2 (by rw [show a + k + 1 = a + (k + 1) by omega]; exact ho2)

theorem Block.event {O W : List Obs} {a n t : Nat} (h : Block O W a n t) {k l : Nat} (hk : k < n) :
    Event W k l ↔ Event O (a + k) (a + l) := by
  obtain ⟨o, w, ho, hw, he, hp, hn⟩ := h.get k hk
  unfold Event
  rw [h.first hk, h.last hk]
  constructor
  · rintro (⟨h1, w', hw', e⟩ | ⟨h1, w', hw', e⟩)
    · rw [hw] at hw'; cases hw'
      exact Or.inl ⟨h1, o, ho, (hp l).1 e⟩
    · rw [hw] at hw'; cases hw'
      exact Or.inr ⟨h1, o, ho, (hn l).1 e⟩
  · rintro (⟨h1, w', hw', e⟩ | ⟨h1, w', hw', e⟩)
    · rw [ho] at hw'; cases hw'
      exact Or.inl ⟨h1, w, hw, (hp l).2 e⟩
    · rw [ho] at hw'; cases hw'
      exact Or.inr ⟨h1, w, hw, (hn l).2 e⟩

theorem event_source {O : List Obs} {p q : Nat} (h : Event O p q) : ∃ o, O[p]? = some o ∧ (o.prev = (q : Int) ∨ o.next = (q : Int)) := by
  rcases h with ⟨_, o, ho, e⟩ | ⟨_, o, ho, e⟩
  · exact ⟨o, ho, Or.inl e⟩
  · exact ⟨o, ho, Or.inr e⟩

/-- Events stay in the block. -/
theorem Block.event_inside {O W : List Obs} {a n t : Nat} (h : Block O W a n t) {p q : Nat} (he : Event O p q) :
    (a ≤ p ∧ p < a + n) ↔ (a ≤ q ∧ q < a + n) := by
  obtain ⟨o, ho, hl⟩ := event_source he
  obtain ⟨o', ho', ht⟩ := h.closed p o ho q hl
  rw [← h.inside p o ho, ← h.inside q o' ho', ht]

theorem Block.path {O W : List Obs} {a n t : Nat} (h : Block O W a n t) {i j k : Nat} (hi : i < n) (hp : Path W i j k) :
    j < n ∧ Path O (a + i) (a + j) k := by
  induction hp with
  | nil => exact ⟨hi, Path.nil⟩
  | @stay p q k _ hn hk ih =>
    obtain ⟨w, w', hw, hw', he⟩ := hk
    obtain ⟨h1, o, ho, e⟩ := h.keys hw
    obtain ⟨h2, o', ho', e'⟩ := h.keys hw'
    exact ⟨h2, Path.stay ih.2 (by omega) ⟨o, o', ho, ho', by rw [← e, ← e', he]⟩⟩
  | @change p q k _ he ih =>
    have hq : q < n := by
      rcases he with he | he
      · have := (h.event_inside ((h.event ih.1).1 he)).1 ⟨by omega, by omega⟩
        omega
      · obtain ⟨w, hw, _⟩ := event_source he
        exact (h.keys hw).1
    refine ⟨hq, Path.change ih.2 ?_⟩
    rcases he with he | he
    · exact Or.inl ((h.event ih.1).1 he)
    · exact Or.inr ((h.event hq).1 he)

theorem Block.path_back {O W : List Obs} {a n t : Nat} (h : Block O W a n t) {i q k : Nat} (hi : i < n) (hp : Path O (a + i) q k) :
    ∃ j, j < n ∧ q = a + j ∧ Path W i j k := by
  induction hp with
  | nil => exact ⟨i, hi, rfl, Path.nil⟩
  | @stay p q k _ hn hk ih =>
    obtain ⟨j, hj, rfl, hpath⟩ := ih
    obtain ⟨o, o', ho, ho', he⟩ := hk
    have ht := (h.inside _ o ho).2 ⟨by omega, by omega⟩
    have ht' : o'.track = t := by
      have := congrArg Prod.snd he
      simp only [Obs.key] at this
      omega
    have hq := (h.inside q o' ho').1 ht'
    obtain ⟨j', rfl⟩ : ∃ j', q = a + j' := ⟨q - a, by omega⟩
    obtain ⟨o1, w1, e1, f1, g1, _⟩ := h.get j hj
    obtain ⟨o2, w2, e2, f2, g2, _⟩ := h.get j' (by omega)
    rw [ho] at e1; cases e1
    rw [ho'] at e2; cases e2
    exact ⟨j', by omega, rfl, Path.stay hpath (by omega) ⟨w1, w2, f1, f2, by rw [g1, g2, he]⟩⟩
  | @change p q k _ he ih =>
    obtain ⟨j, hj, rfl, hpath⟩ := ih
    have hq : a ≤ q ∧ q < a + n := by
      rcases he with he | he
      · exact (h.event_inside he).1 ⟨by omega, by omega⟩
      · exact (h.event_inside he).2 ⟨by omega, by omega⟩
    obtain ⟨j', rfl⟩ : ∃ j', q = a + j' := ⟨q - a, by omega⟩
    refine ⟨j', by omega, rfl, Path.change hpath ?_⟩
    rcases he with he | he
    · exact Or.inl ((h.event hj).2 he)
    · exact Or.inr ((h.event (by omega)).2 he)

/-- An extraction from a slice is an extraction. -/
theorem isTake_slice {α : Type} {rows nw out : List (Links.Row α)} {a n : Nat} {idx : List Nat} (h1 : Links.IsTake rows (List.range' a n) nw)
    (h2 : Links.IsTake nw idx out) : Links.IsTake rows (idx.map (a + ·)) out := by
  have hget : ∀ k t : Nat, (List.range' a n)[k]? = some t → t = a + k ∧ k < n := by
    intro k t h
    obtain ⟨hk, e⟩ := List.getElem?_eq_some_iff.1 h
    simp at hk e
    omega
  have himg : ∀ p q r : Int, Links.Image (List.range' a n) p q → Links.Image idx q r → (∀ t ∈ idx, t < n) → Links.Image (idx.map (a + ·)) p r := by
    intro p q r hpq hqr hlt
    rcases hpq with ⟨k, t, rfl, hk, rfl⟩ | ⟨rfl, hno⟩
    · obtain ⟨rfl, hkn⟩ := hget k t hk
      rcases hqr with ⟨k', t', e, hk', rfl⟩ | ⟨rfl, hno⟩
      · have : k = t' := by omega
        subst this
        exact Or.inl ⟨k', a + k, rfl, by rw [List.getElem?_map, hk']; rfl, rfl⟩
      · refine Or.inr ⟨rfl, ?_⟩
        intro t ht e
        obtain ⟨t', ht', rfl⟩ := List.mem_map.1 ht
        exact hno t' ht' (by omega)
    · rcases hqr with ⟨k', t', e, hk', rfl⟩ | ⟨rfl, _⟩
      · omega
      · refine Or.inr ⟨rfl, ?_⟩
        intro t ht e
        obtain ⟨t', ht', rfl⟩ := List.mem_map.1 ht
        exact hno (a + t') (by rw [List.mem_range'_1]; have := hlt t' ht'; omega) e
  have hlt : ∀ t ∈ idx, t < n := by
    intro t ht
    obtain ⟨k, hk⟩ := List.getElem?_of_mem ht
    have hko : k < out.length := by rw [h2.1]; exact (List.getElem?_eq_some_iff.1 hk).1
    obtain ⟨i, r0, hi, hr0, _⟩ := h2.2 k _ (List.getElem?_eq_getElem hko)
    rw [hk] at hi
    cases hi
    have := (List.getElem?_eq_some_iff.1 hr0).1
    rw [h1.1] at this
    simpa using this
  refine ⟨by rw [h2.1, List.length_map], ?_⟩
  intro k r hr
  obtain ⟨i, r1, hi, hr1, hd, hp, hn⟩ := h2.2 k r hr
  obtain ⟨i0, r0, hi0, hr0, hd0, hp0, hn0⟩ := h1.2 i r1 hr1
  obtain ⟨rfl, _⟩ := hget i i0 hi0
  exact ⟨a + i, r0, by rw [List.getElem?_map, hi]; rfl, hr0, hd.trans hd0, himg _ _ _ hp0 hp hlt, himg _ _ _ hn0 hn hlt⟩

theorem image_slice {a n : Nat} {p q : Int} (hget : ∀ k t : Nat, (List.range' a n)[k]? = some t → t = a + k ∧ k < n)
    (h : Links.Image (List.range' a n) p q) (hin : ∀ t : Nat, p = t → a ≤ t ∧ t < a + n) (l : Nat) :
    q = l ↔ p = ((a + l : Nat) : Int) := by
  rcases h with ⟨k, t, rfl, hk, rfl⟩ | ⟨rfl, hno⟩
  · obtain ⟨rfl, _⟩ := hget k t hk
    omega
  · constructor
    · intro h; omega
    · intro h
      exfalso
      have := hin (a + l) h
      exact hno (a + l) (by rw [List.mem_range'_1]; omega) h

/-- The network of a row is a block. -/
theorem networkRows_block {rows : List NetRow} (hs : SortedRows rows) (hv : Links.Valid rows) (hin : Inside rows) {i : Nat} {r : NetRow}
    (hi : rows[i]? = some r) : ∃ nw a n, networkRows rows r.data.1 = some nw ∧ Links.IsTake rows (List.range' a n) nw ∧
      Block (rows.map NetRow.toObs) (nw.map NetRow.toObs) a n r.data.1 ∧ a ≤ i ∧ i < a + n := by
  have hne : rows.map (fun r => (r.data.1 : Int)) ≠ [] := by
    intro e
    rw [List.map_eq_nil_iff] at e
    subst e
    simp at hi
  have hsort : (rows.map (fun r => (r.data.1 : Int))).Pairwise (· ≤ ·) := by
    rw [List.pairwise_map]
    exact hs.imp (fun h => by omega)
  obtain ⟨first, last, i0, e, ⟨hl, hb, hsl⟩, _, _, _⟩ := Index.build_index_spec _ hne hsort
  have hmem : (r.data.1 : Int) ∈ rows.map (fun r => (r.data.1 : Int)) := List.mem_map.2 ⟨r, List.mem_of_getElem? hi, rfl⟩
  have hbr := hb _ hmem
  obtain ⟨m, hm⟩ : ∃ m : Nat, (r.data.1 : Int) - i0 = m := ⟨((r.data.1 : Int) - i0).toNat, by omega⟩
  have hml : m < first.length := by omega
  have hml' : m < last.length := by omega
  have ga := List.getElem?_eq_getElem hml
  have gb := List.getElem?_eq_getElem hml'
  obtain ⟨h1, h2, h3⟩ := hsl m _ _ ga gb
  generalize first[m] = a at ga h1 h2 h3
  generalize last[m] = b at gb h1 h2 h3
  have h3' : ∀ (q : Nat) o, (rows.map NetRow.toObs)[q]? = some o → (o.track = r.data.1 ↔ a ≤ q ∧ q < b) := by
    intro q o ho
    rw [List.getElem?_map, Option.map_eq_some_iff] at ho
    obtain ⟨r', hr', rfl⟩ := ho
    rw [← h3 q, List.getElem?_map, hr', Option.map_some, Option.some.injEq]
    show r'.data.1 = r.data.1 ↔ _
    omega
  have hb' : b ≤ rows.length := by simpa using h2
  obtain ⟨nw, hnw, htake⟩ := Links.extract_with_slice_links rows a b hb' hv
  have hia : a ≤ i ∧ i < b := (h3' i r.toObs (by rw [List.getElem?_map, hi]; rfl)).1 rfl
  refine ⟨nw, a, b - a, ?_, htake, ⟨?_, ?_, ?_, ?_⟩, hia.1, by omega⟩
  · unfold networkRows
    simp only [Option.bind_eq_bind]
    rw [e, Option.bind_some]
    simp only
    rw [hm, Py.get_natCast, ga, Option.bind_some, Py.get_natCast, gb, Option.bind_some, hnw]
  · rw [List.length_map, htake.1]; simp
  · intro q o ho
    rw [h3' q o ho]
    omega
  · intro k hk
    have hkl : k < nw.length := by rw [htake.1]; simpa using hk
    obtain ⟨i', r0, hi', hr0, hd, hp, hn⟩ := htake.2 k _ (List.getElem?_eq_getElem hkl)
    have hget : ∀ k t : Nat, (List.range' a (b - a))[k]? = some t → t = a + k ∧ k < b - a := by
      intro k t h
      obtain ⟨hk, e⟩ := List.getElem?_eq_some_iff.1 h
      simp at hk e
      omega
    obtain ⟨rfl, _⟩ := hget k i' hi'
    have ht0 : r0.data.1 = r.data.1 := (h3' _ (NetRow.toObs r0) (by rw [List.getElem?_map, hr0]; rfl)).2 ⟨by omega, by omega⟩
    refine ⟨(NetRow.toObs r0), NetRow.toObs nw[k], by rw [List.getElem?_map, hr0]; rfl, by rw [List.getElem?_map, List.getElem?_eq_getElem hkl]; rfl, ?_, ?_, ?_⟩
    · show (nw[k].data.2, nw[k].data.1) = (r0.data.2, r0.data.1)
      rw [hd]
    · intro l
      exact image_slice hget hp (fun p hpp => by
        obtain ⟨r', hr', ht'⟩ := hin r0 (List.mem_of_getElem? hr0) p (Or.inl hpp)
        have := (h3' p r'.toObs (by rw [List.getElem?_map, hr']; rfl)).1 (ht'.trans ht0)
        omega) l
    · intro l
      exact image_slice hget hn (fun p hpp => by
        obtain ⟨r', hr', ht'⟩ := hin r0 (List.mem_of_getElem? hr0) p (Or.inr hpp)
        have := (h3' p r'.toObs (by rw [List.getElem?_map, hr']; rfl)).1 (ht'.trans ht0)
        omega) l
  · intro q o ho p hp
    rw [List.getElem?_map, Option.map_eq_some_iff] at ho
    obtain ⟨r', hr', rfl⟩ := ho
    obtain ⟨r2, hr2, ht2⟩ := hin r' (List.mem_of_getElem? hr') p hp
    exact ⟨r2.toObs, by rw [List.getElem?_map, hr2]; rfl, ht2⟩

/-- The first row of the segment is on a path without event. -/
theorem firstOfSegment_spec {rows nw : List NetRow} (hs : SortedRows rows) {a n t : Nat}
    (hb : Block (rows.map NetRow.toObs) (nw.map NetRow.toObs) a n t) {i : Nat} {r : NetRow} (hi : rows[a + i]? = some r) (hin : i < n) :
    ∃ f, firstOfSegment nw r.data.2 = some f ∧ f < n ∧ Path (rows.map NetRow.toObs) (a + f) (a + i) 0 ∧
      Path (rows.map NetRow.toObs) (a + i) (a + f) 0 := by
  have hnl : nw.length = n := by simpa using hb.len
  have hkey : ∀ k, k < n → ∃ (x y : NetRow), rows[a + k]? = some x ∧ nw[k]? = some y ∧ y.data = x.data ∧ x.data.1 = t := by
    intro k hk
    obtain ⟨o, w, ho, hw, he, _⟩ := hb.get k hk
    have hto := (hb.inside _ o ho).2 ⟨by omega, by omega⟩
    rw [List.getElem?_map, Option.map_eq_some_iff] at ho hw
    obtain ⟨x, hx, rfl⟩ := ho
    obtain ⟨y, hy, rfl⟩ := hw
    refine ⟨x, y, hx, hy, ?_, hto⟩
    have h1 : y.data.2 = x.data.2 := congrArg Prod.fst he
    have h2 : y.data.1 = x.data.1 := congrArg Prod.snd he
    exact Prod.ext h2 h1
  obtain ⟨x, y, hx, hy, hd, hxt⟩ := hkey i hin
  rw [hi] at hx
  cases hx
  cases hf : firstOfSegment nw r.data.2 with
  | none =>
    exfalso
    unfold firstOfSegment at hf
    rw [List.findIdx?_eq_none_iff] at hf
    have := hf y (List.mem_of_getElem? hy)
    rw [hd] at this
    simp at this
  | some f =>
    unfold firstOfSegment at hf
    rw [List.findIdx?_eq_some_iff_getElem] at hf
    obtain ⟨hfl, hfs, hfm⟩ := hf
    have hfi : f ≤ i := by
      by_contra hlt
      have := hfm i (by omega)
      obtain ⟨hyl, rfl⟩ := List.getElem?_eq_some_iff.1 hy
      rw [hd] at this
      simp at this
    refine ⟨f, rfl, by omega, ?_⟩
    obtain ⟨m, rfl⟩ : ∃ m, i = f + m := ⟨i - f, by omega⟩
    rw [← Nat.add_assoc]
    apply path_stay (κ := (r.data.2, t))
    intro q h1 h2
    obtain ⟨q, rfl⟩ : ∃ q', q = a + q' := ⟨q - a, by omega⟩
    obtain ⟨z, z', hz, hz', hdz, hzt⟩ := hkey q (by omega)
    obtain ⟨u, u', hu, hu', hdu, hut⟩ := hkey f (by omega)
    have hus : u.data.2 = r.data.2 := by
      obtain ⟨_, rfl⟩ := List.getElem?_eq_some_iff.1 hu'
      rw [← hdu]
      simpa using hfs
    refine ⟨z.toObs, by rw [List.getElem?_map, hz]; rfl, ?_⟩
    show (z.data.2, z.data.1) = _
    rw [hzt]
    congr 1
    obtain ⟨hul, eu⟩ := List.getElem?_eq_some_iff.1 hu
    obtain ⟨hzl, ez⟩ := List.getElem?_eq_some_iff.1 hz
    obtain ⟨hrl, er⟩ := List.getElem?_eq_some_iff.1 hi
    have le1 : u.data.2 ≤ z.data.2 := by
      rcases Nat.eq_or_lt_of_le (show f ≤ q by omega) with rfl | hlt
      · rw [hu] at hz; cases hz; exact le_refl _
      · have := List.pairwise_iff_getElem.1 hs (a + f) (a + q) hul hzl (by omega)
        rw [eu, ez] at this
        omega
    have le2 : z.data.2 ≤ r.data.2 := by
      rcases Nat.eq_or_lt_of_le (show q ≤ f + m by omega) with rfl | hlt
      · rw [hi] at hz; cases hz; exact le_refl _
      · have := List.pairwise_iff_getElem.1 hs (a + q) (a + (f + m)) hzl hrl (by omega)
        rw [er, ez] at this
        omega
    omega

/-- The relatives of rows of a network, in the dataset. -/
theorem relatives_network {adj : List (Nat × Nat) → Nat → List Nat} (ha : Enumerates adj) {rows nw : List NetRow} {a n t : Nat}
    (hb : Block (rows.map NetRow.toObs) (nw.map NetRow.toObs) a n t) (hn : 0 < n) (htake : Links.IsTake rows (List.range' a n) nw)
    (firsts starts : List Nat) (hf : ∀ f ∈ firsts, f < n)
    (h1 : ∀ f ∈ firsts, ∃ i ∈ starts, Path (rows.map NetRow.toObs) i (a + f) 0)
    (h2 : ∀ i ∈ starts, ∃ f ∈ firsts, Path (rows.map NetRow.toObs) (a + f) i 0) (order : Nat) (ho : order < 65535) :
    ∃ out idx, (relatives adj (nw.map NetRow.toObs) (firsts.map (fun (i : Nat) => (i : Int))) order).bind (Links.extractMask nw) = some out ∧
      idx.Pairwise (· < ·) ∧ Links.IsTake rows idx out ∧
      ∀ j : Nat, j ∈ idx ↔ ∃ i ∈ starts, ∃ k, k ≤ order ∧ Path (rows.map NetRow.toObs) i j k := by
  have hnl : nw.length = n := by simpa using hb.len
  have hvn : Links.Valid nw := htake.valid
  have hvo : Valid (nw.map NetRow.toObs) := by
    intro o ho
    obtain ⟨x, hx, rfl⟩ := List.mem_map.1 ho
    obtain ⟨⟨p1, p2⟩, n1, n2⟩ := hvn x hx
    rw [List.length_map]
    refine ⟨?_, ?_⟩
    · show x.prev = -1 ∨ 0 ≤ x.prev ∧ x.prev < nw.length
      omega
    · show x.next = -1 ∨ 0 ≤ x.next ∧ x.next < nw.length
      omega
  obtain ⟨mask, hm, hml, hmm⟩ := relatives_spec adj ha (nw.map NetRow.toObs) hvo
    (by intro e; rw [List.map_eq_nil_iff] at e; subst e; simp at hnl; omega) firsts (by intro f hf'; rw [List.length_map, hnl]; exact hf f hf') order ho
  obtain ⟨out, idx, hout, hsort, hmem, hto⟩ := Links.extract_with_mask_links nw mask (by rw [hml, List.length_map]) hvn
  refine ⟨out, idx.map (a + ·), by rw [hm, Option.bind_some, hout], ?_, isTake_slice htake hto, ?_⟩
  · rw [List.pairwise_map]
    exact hsort.imp (fun h => by omega)
  · intro j
    constructor
    · intro hj
      obtain ⟨j', hj', rfl⟩ := List.mem_map.1 hj
      obtain ⟨_, f, hff, k, hk, hp⟩ := (hmm j').1 ((hmem j').1 hj')
      obtain ⟨i, hi, hp0⟩ := h1 f hff
      refine ⟨i, hi, k, hk, ?_⟩
      have := Path.trans hp0 (hb.path (hf f hff) hp).2
      rwa [Nat.zero_add] at this
    · rintro ⟨i, hi, k, hk, hp⟩
      obtain ⟨f, hff, hp0⟩ := h2 i hi
      have hp' := Path.trans hp0 hp
      rw [Nat.zero_add] at hp'
      obtain ⟨j', hj', rfl, hpw⟩ := hb.path_back (hf f hff) hp'
      exact List.mem_map.2 ⟨j', (hmem j').2 ((hmm j').2 ⟨by rw [List.length_map, hnl]; exact hj', f, hff, k, hk, hpw⟩), rfl⟩

/-- C170 (partial). In a dataset with the rows in the order of networks and segments, whose links stay in networks,
`find_segments_relative` gives the rows of all the dataset which are related to `obs`, or to `stopped`, by a path with at most `order`
changes of segment, with the links between them. Missing: `stopped` in another network, see `stopped_wrong`. -/
theorem find_segments_relative_partial (adj : List (Nat × Nat) → Nat → List Nat) (ha : Enumerates adj) (rows : List NetRow) (hs : SortedRows rows)
    (hv : Links.Valid rows) (hin : Inside rows) (i : Nat) (r : NetRow) (hi : rows[i]? = some r) (stopped : Option Nat)
    (hst : ∀ st, stopped = some st → ∃ r', rows[st]? = some r' ∧ r'.data.1 = r.data.1) (order : Nat) (ho : order < 65535) :
    ∃ out idx, findSegmentsRelative adj rows i stopped order = some out ∧ idx.Pairwise (· < ·) ∧ Links.IsTake rows idx out ∧
      ∀ j : Nat, j ∈ idx ↔ ∃ i', (i' = i ∨ stopped = some i') ∧ ∃ k, k ≤ order ∧ Path (rows.map NetRow.toObs) i' j k := by
  obtain ⟨nw, a, n, hnw, htake, hb, hia, hib⟩ := networkRows_block hs hv hin hi
  obtain ⟨i, rfl⟩ : ∃ i', i = a + i' := ⟨i - a, by omega⟩
  obtain ⟨f, hf, hfn, p1, p2⟩ := firstOfSegment_spec hs hb hi (by omega)
  cases stopped with
  | none =>
    obtain ⟨out, idx, h1, h2, h3, h4⟩ := relatives_network ha hb (by omega) htake [f] [a + i] (by simpa using hfn) (by simpa using p2)
      (by simpa using p1) order ho
    refine ⟨out, idx, ?_, h2, h3, ?_⟩
    · unfold findSegmentsRelative
      simp only [Option.bind_eq_bind]
      rw [hi, Option.bind_some, hnw, Option.bind_some, hf, Option.bind_some]
      exact h1
    · intro j
      rw [h4]
      simp
  | some st =>
    obtain ⟨r', hr', ht'⟩ := hst st rfl
    have hst' := (hb.inside st r'.toObs (by rw [List.getElem?_map, hr']; rfl)).1 ht'
    obtain ⟨st, rfl⟩ : ∃ i', st = a + i' := ⟨st - a, by omega⟩
    obtain ⟨g, hg, hgn, q1, q2⟩ := firstOfSegment_spec hs hb hr' (by omega)
    obtain ⟨out, idx, h1, h2, h3, h4⟩ := relatives_network ha hb (by omega) htake [f, g] [a + i, a + st]
      (by simpa using ⟨hfn, hgn⟩)
      (by
        intro x hx
        simp only [List.mem_cons, List.not_mem_nil, or_false] at hx
        rcases hx with rfl | rfl
        · exact ⟨a + i, by simp, p2⟩
        · exact ⟨a + st, by simp, q2⟩)
      (by
        intro x hx
        simp only [List.mem_cons, List.not_mem_nil, or_false] at hx
        rcases hx with rfl | rfl
        · exact ⟨f, by simp, p1⟩
        · exact ⟨g, by simp, q1⟩) order ho
    refine ⟨out, idx, ?_, h2, h3, ?_⟩
    · unfold findSegmentsRelative
      simp only [Option.bind_eq_bind]
      rw [hi, Option.bind_some, hnw, Option.bind_some, hf, Option.bind_some, hr', Option.bind_some, hg]
      exact h1
    · intro j
      rw [h4]
      constructor
      · rintro ⟨i', hi', h⟩
        simp only [List.mem_cons, List.not_mem_nil, or_false] at hi'
        rcases hi' with rfl | rfl
        · exact ⟨_, Or.inl rfl, h⟩
        · exact ⟨_, Or.inr rfl, h⟩
      · rintro ⟨i', hi', h⟩
        rcases hi' with rfl | hi'
        · exact ⟨_, by simp, h⟩
        · obtain rfl := Option.some.inj hi'
          exact ⟨_, by simp, h⟩

/-- Two networks: in the first one segment 1 leaves segment 0 at its first row and the segment 2 leaves segment 1. -/
def relativeRows : List NetRow :=
  [⟨(1, 0), -1, 1⟩, ⟨(1, 0), 0, -1⟩, ⟨(1, 1), 0, 3⟩, ⟨(1, 1), 2, -1⟩, ⟨(1, 2), 2, -1⟩, ⟨(4, 0), -1, 6⟩, ⟨(4, 0), 5, -1⟩, ⟨(4, 2), 5, -1⟩]

/-- The hypotheses hold for them. -/
example : Links.Valid relativeRows ∧ SortedRows relativeRows ∧ Inside relativeRows := by
  refine ⟨by unfold Links.Valid; decide, by unfold SortedRows; decide, ?_⟩
  intro r hr p hp
  have hlt : p < 8 := by
    simp only [relativeRows, List.mem_cons, List.not_mem_nil, or_false] at hr
    rcases hr with rfl | rfl | rfl | rfl | rfl | rfl | rfl | rfl <;> simp only at hp <;> omega
  revert r
  interval_cases p <;> decide

example : findSegmentsRelative adjOf relativeRows 3 none 0 = some [⟨(1, 1), -1, 1⟩, ⟨(1, 1), 0, -1⟩] ∧
    (findSegmentsRelative adjOf relativeRows 3 none 1).map List.length = some 5 ∧
    findSegmentsRelative adjOf relativeRows 6 none 0 = some [⟨(4, 0), -1, 1⟩, ⟨(4, 0), 0, -1⟩] ∧
    (findSegmentsRelative adjOf relativeRows 1 (some 4) 0).map (fun l => l.map (·.data)) = some [(1, 0), (1, 0), (1, 2)] := by decide +kernel

/-- C170, negation. When `stopped` is in another network, the segment of the same number in the network of `obs` is used in its place, or
the call raises. -/
theorem stopped_wrong : (findSegmentsRelative adjOf relativeRows 1 (some 7) 0).map (fun l => l.map (·.data)) = some [(1, 0), (1, 0), (1, 2)] ∧
    findSegmentsRelative adjOf relativeRows 6 (some 3) 0 = none := by decide +kernel

end Verif.Segments
