import Verif.Select.Model
import Verif.Index.Props
import Verif.Bins.Props
import Verif.Poly.Indexs
import Verif.Tracks.Props
import Verif.Segments.Lemmas
import Verif.Extract.Props

/-!
# Properties C92 to C94: selections of a dataset of networks
-/

namespace Verif.Select

open Verif.Bins

/-! ### C92: networks by number -/

/-- The index is the one of the rows. -/
def Net.Fresh {α : Type} (d : Net α) : Prop := d.index = none ∨ d.index = Index.buildIndex d.track

/-- Rows sorted by network, at least one. -/
structure Net.Sorted {α : Type} (d : Net α) : Prop where
  ne : d.rows ≠ []
  sorted : (d.rows.map (·.1)).Pairwise (· ≤ ·)

theorem index_spec {α : Type} {d : Net α} (hf : d.Fresh) (hs : d.Sorted) :
    ∃ first last i0, d.indexNetwork = some (first, last, i0) ∧ Index.IsIndex d.track first last i0 ∧ i0 ∈ d.track ∧
      i0 + first.length - 1 ∈ d.track ∧ 0 < first.length := by
  have hne : d.track ≠ [] := by
    unfold Net.track
    rw [Ne, List.map_eq_nil_iff]
    exact hs.ne
  have hso : d.track.Pairwise (· ≤ ·) := by
    unfold Net.track
    have := hs.sorted
    rw [List.pairwise_map] at this ⊢
    exact this.imp (fun h => by exact_mod_cast h)
  obtain ⟨first, last, i0, e, h⟩ := Index.build_index_spec d.track hne hso
  refine ⟨first, last, i0, ?_, h⟩
  unfold Net.indexNetwork
  rcases hf with h' | h'
  · rw [h']; exact e
  · rw [h', e]

theorem get_index {l : List Nat} {i : Int} (h0 : 0 ≤ i) (h1 : i < l.length) : ∃ a : Nat, Py.get l i = some a ∧ l[i.toNat]? = some a := by
  obtain ⟨m, rfl⟩ : ∃ m : Nat, i = m := ⟨i.toNat, by omega⟩
  have hm : m < l.length := by omega
  rw [Py.get_natCast]
  simp only [Int.toNat_natCast]
  exact ⟨l[m], List.getElem?_eq_getElem hm, List.getElem?_eq_getElem hm⟩

/-- The ids are in the range of the numbers of the dataset. -/
def InRange {α : Type} (d : Net α) (id : Int) : Prop := (∃ n ∈ d.track, n ≤ id) ∧ ∃ n ∈ d.track, id ≤ n

theorem slice_of {α : Type} {d : Net α} {first last : List Nat} {i0 : Int} (hI : Index.IsIndex d.track first last i0) {id : Int} (hr : InRange d id) :
    ∃ a b : Nat, Py.get first (id - i0) = some a ∧ Py.get last (id - i0) = some b ∧ a ≤ b ∧ b ≤ d.rows.length ∧
      ∀ k : Nat, d.track[k]? = some id ↔ a ≤ k ∧ k < b := by
  obtain ⟨⟨n, hn, h1⟩, ⟨m, hm, h2⟩⟩ := hr
  obtain ⟨hl, hb, hsl⟩ := hI
  have b1 := hb n hn
  have b2 := hb m hm
  obtain ⟨a, ga, ea⟩ := get_index (l := first) (i := id - i0) (by omega) (by omega)
  obtain ⟨b, gb, eb⟩ := get_index (l := last) (i := id - i0) (by omega) (by omega)
  obtain ⟨s1, s2, s3⟩ := hsl _ a b ea eb
  refine ⟨a, b, ga, gb, s1, by simpa [Net.track] using s2, fun k => ?_⟩
  rw [← s3 k]
  have : i0 + ((id - i0).toNat : Int) = id := by omega
  rw [this]

theorem maskLoop_spec {α : Type} {d : Net α} {first last : List Nat} {i0 : Int} (hI : Index.IsIndex d.track first last i0) :
    ∀ (ids : List Int) (m : Nat → Bool), (∀ i ∈ ids, InRange d i) →
      ∃ m', maskLoop first last i0 ids m = some m' ∧ ∀ k, m' k = true ↔ m k = true ∨ ∃ i ∈ ids, d.track[k]? = some i
  | [], m, _ => ⟨m, rfl, fun k => by simp⟩
  | i :: l, m, h => by
    obtain ⟨a, b, ga, gb, _, _, hk⟩ := slice_of hI (h i (by simp))
    obtain ⟨m', e, hm'⟩ := maskLoop_spec hI l (Index.sliceSet m a b true) (fun j hj => h j (by simp [hj]))
    refine ⟨m', by rw [maskLoop, ga, gb]; exact e, fun k => ?_⟩
    rw [hm' k]
    unfold Index.sliceSet
    constructor
    · rintro (h1 | ⟨j, hj, h1⟩)
      · split at h1
        · rename_i hin; exact Or.inr ⟨i, by simp, (hk k).2 hin⟩
        · exact Or.inl h1
      · exact Or.inr ⟨j, by simp [hj], h1⟩
    · rintro (h1 | ⟨j, hj, h1⟩)
      · left; split <;> [rfl; exact h1]
      · rcases List.mem_cons.1 hj with rfl | hj
        · left; rw [if_pos ((hk k).1 h1)]
        · exact Or.inr ⟨j, hj, h1⟩

/-- **C92**: `networks(ids)` keeps exactly the rows of the networks asked, in their order. Missing: numbers which are not between the first and the last
network, see `absent_wrong`; a dataset which was numbered again, see `numbering_wrong`. -/
theorem networks_partial {α : Type} {d : Net α} (hf : d.Fresh) (hs : d.Sorted) {ids : List Int} (hr : ∀ i ∈ ids, InRange d i) :
    networks d ids = some (d.rows.filter (fun r => decide ((r.1 : Int) ∈ ids))) := by
  obtain ⟨first, last, i0, e, hI, _⟩ := index_spec hf hs
  obtain ⟨m, em, hm⟩ := maskLoop_spec hI ids (fun _ => false) hr
  unfold networks networksMask maskFromIds
  rw [e]
  simp only [Option.bind_some, em, Option.map_some]
  congr 1
  rw [← Extract.extract_filter]
  congr 1
  apply List.ext_getElem?
  intro k
  by_cases hk : k < d.rows.length
  · rw [List.getElem?_map, List.getElem?_map, List.getElem?_range hk, List.getElem?_eq_getElem hk]
    simp only [Option.map_some, Option.some.injEq]
    rw [Bool.eq_iff_iff, hm k, decide_eq_true_eq]
    have : d.track[k]? = some ((d.rows[k].1 : Nat) : Int) := by
      unfold Net.track
      rw [List.getElem?_map, List.getElem?_eq_getElem hk]; rfl
    rw [this]
    simp
  · rw [List.getElem?_eq_none (by simp; omega), List.getElem?_eq_none (by simp; omega)]

theorem filter_slice {α : Type} (p : α → Bool) {l : List α} {a b : Nat} (hab : a ≤ b) (h : ∀ (k : Nat) (x : α), l[k]? = some x → (p x = true ↔ a ≤ k ∧ k < b)) :
    l.filter p = (l.take b).drop a := by
  have e : l = l.take a ++ ((l.take b).drop a ++ l.drop b) := by
    conv_lhs => rw [← List.take_append_drop b l]
    rw [← List.append_assoc]
    congr 1
    conv_lhs => rw [← List.take_append_drop a (l.take b)]
    rw [List.take_take, min_eq_left hab]
  have f1 : (l.take a).filter p = [] := by
    rw [List.filter_eq_nil_iff]
    intro x hx hp
    obtain ⟨k, hk⟩ := List.mem_iff_getElem?.1 hx
    rw [List.getElem?_take] at hk
    split at hk
    · have := (h k x hk).1 hp; omega
    · cases hk
  have f2 : ((l.take b).drop a).filter p = (l.take b).drop a := by
    rw [List.filter_eq_self]
    intro x hx
    obtain ⟨k, hk⟩ := List.mem_iff_getElem?.1 hx
    rw [List.getElem?_drop, List.getElem?_take] at hk
    split at hk
    · exact (h _ x hk).2 (by omega)
    · cases hk
  have f3 : (l.drop b).filter p = [] := by
    rw [List.filter_eq_nil_iff]
    intro x hx hp
    obtain ⟨k, hk⟩ := List.mem_iff_getElem?.1 hx
    rw [List.getElem?_drop] at hk
    have := (h _ x hk).1 hp; omega
  conv_lhs => rw [e]
  rw [List.filter_append, List.filter_append, f1, f2, f3]
  simp

theorem track_get {α : Type} (d : Net α) {k : Nat} {r : Nat × α} (h : d.rows[k]? = some r) : d.track[k]? = some (r.1 : Int) := by
  unfold Net.track
  rw [List.getElem?_map, h]; rfl

/-- **C92**: `network(id)` keeps exactly the rows of the network. Missing: as for `networks_partial`. -/
theorem network_partial {α : Type} {d : Net α} (hf : d.Fresh) (hs : d.Sorted) {id : Int} (hr : InRange d id) :
    network d id = some (d.rows.filter (fun r => decide ((r.1 : Int) = id))) := by
  obtain ⟨first, last, i0, e, hI, _⟩ := index_spec hf hs
  obtain ⟨a, b, ga, gb, hab, _, hk⟩ := slice_of hI hr
  unfold network
  rw [e]
  simp only [Option.bind_some, ga, gb, Option.map_some]
  congr 1
  symm
  apply filter_slice _ hab
  intro k r h
  rw [decide_eq_true_eq, ← hk k, track_get d h]
  simp

/-- Number of rows of a slice. -/
theorem count_slice {l : List Int} {v : Int} {a b : Nat} (hab : a ≤ b) (hb : b ≤ l.length) (h : ∀ k : Nat, l[k]? = some v ↔ a ≤ k ∧ k < b) : l.count v = b - a := by
  rw [List.count_eq_length_filter, filter_slice _ hab]
  · simp; omega
  · intro k x hx
    rw [beq_iff_eq, ← h k, hx]
    simp

/-- **C92** (sizes): the sizes are the numbers of rows of each number from the first to the last network. -/
theorem network_size_spec {α : Type} {d : Net α} (hf : d.Fresh) (hs : d.Sorted) :
    ∃ (i0 : Int) (l : List Nat), networkSize d = some l ∧ i0 ∈ d.track ∧ (∀ n ∈ d.track, i0 ≤ n ∧ n < i0 + l.length) ∧
      ∀ (m : Nat), m < l.length → l[m]? = some (d.track.count (i0 + m)) := by
  obtain ⟨first, last, i0, e, hI, hi0, _⟩ := index_spec hf hs
  have hl := hI.1
  refine ⟨i0, List.zipWith (fun a b => b - a) first last, by unfold networkSize; rw [e]; rfl, hi0, ?_, ?_⟩
  · intro n hn
    have := hI.2.1 n hn
    rw [List.length_zipWith]
    omega
  · intro m hm
    rw [List.length_zipWith] at hm
    have e1 := List.getElem?_eq_getElem (l := first) (i := m) (by omega)
    have e2 := List.getElem?_eq_getElem (l := last) (i := m) (by omega)
    obtain ⟨s1, s2, s3⟩ := hI.2.2 m _ _ e1 e2
    rw [List.getElem?_zipWith, e1, e2, count_slice s1 s2 s3]

/-- **C92** (number of networks): the number of different networks of the dataset. -/
theorem nb_network_spec {α : Type} {d : Net α} (hf : d.Fresh) (hs : d.Sorted) : nbNetwork d = some (d.track.dedup.length) := by
  obtain ⟨i0, l, e, _, hin, hl⟩ := network_size_spec hf hs
  unfold nbNetwork
  rw [e]
  simp only [Option.map_some, Option.some.injEq]
  have el : l = (List.range l.length).map (fun m => d.track.count (i0 + (m : Nat))) := by
    apply List.ext_getElem?
    intro m
    by_cases hm : m < l.length
    · rw [hl m hm, List.getElem?_map, List.getElem?_range hm]; rfl
    · rw [List.getElem?_eq_none (by omega), List.getElem?_eq_none (by simp; omega)]
  have hperm : (((List.range l.length).filter (fun m => decide (d.track.count (i0 + (m : Nat)) ≠ 0))).map (fun (m : Nat) => i0 + (m : Int))).Perm d.track.dedup := by
    rw [List.perm_ext_iff_of_nodup]
    · intro n
      rw [List.mem_map, List.mem_dedup]
      constructor
      · rintro ⟨m, hm, rfl⟩
        rw [List.mem_filter, decide_eq_true_eq] at hm
        exact List.count_pos_iff.1 (Nat.pos_of_ne_zero hm.2)
      · intro hn
        have := hin n hn
        refine ⟨(n - i0).toNat, ?_, by omega⟩
        rw [List.mem_filter, List.mem_range, decide_eq_true_eq]
        refine ⟨by omega, ?_⟩
        rw [show i0 + ((n - i0).toNat : Int) = n by omega]
        exact Nat.pos_iff_ne_zero.1 (List.count_pos_iff.2 hn)
    · refine List.Nodup.map ?_ (List.nodup_range.filter _)
      intro x y hxy
      simp only at hxy
      omega
    · exact List.nodup_dedup _
  rw [← hperm.length_eq, List.length_map]
  conv_lhs => rw [el]
  rw [List.filter_map, List.length_map]
  rfl

/-- A number before the first network gives another network (here the last one), a number after the last one raises. -/
theorem absent_wrong : networks ⟨[(5, "a"), (5, "b"), (6, "c")], none⟩ [4] = some [(6, "c")] ∧ network ⟨[(5, "a"), (5, "b"), (6, "c")], none⟩ 4 = some [(6, "c")] ∧
    network ⟨[(5, "a"), (5, "b"), (6, "c")], none⟩ 7 = none := by decide

/-- After `numbering_network` the index in memory is the one of the former numbers: `network(1)` gives the rows of network 2. -/
theorem numbering_wrong :
    (numberingNetwork ⟨[(5, "a"), (5, "b"), (7, "c")], Index.buildIndex [5, 5, 7]⟩ 1).bind (fun d => network d 1) = none ∧
    (numberingNetwork ⟨[(0, "a"), (1, "b"), (7, "c")], Index.buildIndex [0, 1, 7]⟩ 1).map (fun d => (d.rows, network d 1)) =
      some ([(1, "a"), (2, "b"), (3, "c")], some [(2, "b")]) := by decide

/-- Non-vacuity. -/
example : networks ⟨[(5, "a"), (5, "b"), (7, "c"), (8, "d")], none⟩ [8, 5, 6] = some [(5, "a"), (5, "b"), (8, "d")] ∧
    nbNetwork ⟨[(5, "a"), (5, "b"), (7, "c"), (8, "d")], none⟩ = some 3 := by decide

/-! ### C93: durations and dates -/

theorem foldl_min_nat : ∀ (l : List Nat) (a : Nat), ∃ m : Nat, (l.map (fun (n : Nat) => (n : Rat))).foldl min (a : Rat) = m
  | [], a => ⟨a, rfl⟩
  | b :: l, a => by
    rw [List.map_cons, List.foldl_cons]
    rw [show min (a : Rat) (b : Rat) = ((min a b : Nat) : Rat) by rw [Nat.cast_min]]
    exact foldl_min_nat l (min a b)

/-- The groups of `iter_on(track)` on sorted rows are exactly the networks. -/
theorem track_groups {argsort : List Int → List Nat} {t : List Nat} (hne : t ≠ []) (hs : t.Pairwise (· ≤ ·)) :
    (groups argsort t).ok = true ∧ (∀ g ∈ (groups argsort t).items, g.arr = false ∧ ∃ n : Nat, ∀ j : Nat, j ∈ g.obs ↔ t[j]? = some n) ∧
      ∀ (j n : Nat), t[j]? = some n → ∃ g ∈ (groups argsort t).items, j ∈ g.obs := by
  obtain ⟨a, l, rfl⟩ := List.exists_cons_of_ne_nil hne
  set x : List Rat := (a :: l).map (fun (n : Nat) => (n : Rat)) with hx
  have hxc : x = (a : Rat) :: l.map (fun (n : Nat) => (n : Rat)) := by rw [hx]; rfl
  have hxs : x.Pairwise (· ≤ ·) := by
    rw [hx, List.pairwise_map]
    exact hs.imp (fun h => by exact_mod_cast h)
  obtain ⟨z, hz⟩ := foldl_min_nat l a
  set M := (l.map (fun (n : Nat) => (n : Rat))).foldl max (a : Rat) with hM
  set bins := arange (z : Rat) (M + 2) with hbins
  have hdef : groups argsort (a :: l) = iterOn argsort true x bins := by
    unfold groups iterOnDefault defaultBins extent
    rw [← hx, hxc]
    simp only [Option.map_some]
    rw [hz]
  have hmin := foldl_min_le (l.map (fun (n : Nat) => (n : Rat))) (a : Rat)
  have hmax := le_foldl_max (l.map (fun (n : Nat) => (n : Rat))) (a : Rat)
  rw [hz] at hmin
  rw [← hM] at hmax
  have hsp := arange_spec (a := (z : Rat)) (b := M + 2) (by linarith [hmin.1, hmax.1])
  have hso := arange_sorted (z : Rat) (M + 2)
  rw [← hbins] at hsp hso
  have hmem : ∀ v ∈ x, (z : Rat) ≤ v ∧ v ≤ M := by
    intro v hv
    rw [hxc] at hv
    rcases List.mem_cons.1 hv with rfl | hv
    · exact ⟨hmin.1, hmax.1⟩
    · exact ⟨hmin.2 v hv, hmax.2 v hv⟩
  have hin : ∀ v ∈ x, ∀ lo hi, bins.head? = some lo → bins.getLast? = some hi → lo ≤ v ∧ v < hi := by
    intro v hv lo hi hlo hhi
    rw [hsp.2.1] at hlo
    cases hlo
    have h3 := hsp.2.2 hi hhi
    have := hmem v hv
    exact ⟨this.1, by linarith⟩
  have hcor : Correct x bins (iterOn argsort true x bins) := iter_on_monotone_partial hso hsp.1 (by rw [hxc]; simp) hxs hin
  rw [hdef]
  have hb : ∀ (k : Nat) (c : Rat), bins[k]? = some c → c = z + k := by
    intro k c hk
    rw [hbins] at hk
    unfold arange at hk
    rw [List.getElem?_map] at hk
    obtain ⟨q, hq, rfl⟩ := Option.map_eq_some_iff.1 hk
    have := (List.getElem?_eq_some_iff.1 hq).2
    simp only [List.getElem_range] at this
    rw [← this]
  have hval : ∀ j : Nat, x[j]? = ((a :: l)[j]?).map (fun (n : Nat) => (n : Rat)) := by
    intro j; rw [hx, List.getElem?_map]
  have hbin : ∀ (j k : Nat), InBin x j ((z : Rat) + k) ((z : Rat) + ((k + 1 : Nat) : Rat)) ↔ (a :: l)[j]? = some (z + k) := by
    intro j k
    unfold InBin
    rw [hval j]
    constructor
    · rintro ⟨v, hv, h1, h2⟩
      obtain ⟨n, hn, rfl⟩ := Option.map_eq_some_iff.1 hv
      rw [hn]
      have q1 : ((z + k : Nat) : Rat) ≤ (n : Rat) := by push_cast; exact h1
      have q2 : (n : Rat) < ((z + k + 1 : Nat) : Rat) := by push_cast at h2 ⊢; linarith
      have q1 : z + k ≤ n := by exact_mod_cast q1
      have q2 : n < z + k + 1 := by exact_mod_cast q2
      congr 1; omega
    · intro h
      rw [h]
      refine ⟨_, rfl, ?_, ?_⟩ <;> push_cast <;> linarith
  refine ⟨hcor.ok, ?_, ?_⟩
  · intro g hg
    constructor
    · unfold iterOn at hg
      rw [decreases_of_sorted hxs] at hg
      simp only [Bool.false_eq_true, if_false] at hg
      cases hm : iterMonotone x bins with
      | none => rw [hm] at hg; simp at hg
      | some p =>
        rw [hm] at hg
        simp only at hg
        have : ∀ (L : List (Nat × Nat)), ∀ g ∈ (emit (bodyMonotone x.length bins p.2) L).items, g.arr = false := by
          intro L
          induction L with
          | nil => intro g hg; simp [emit] at hg
          | cons q L ih =>
            intro g hg
            unfold emit at hg
            cases hb' : bodyMonotone x.length bins p.2 q with
            | none => rw [hb'] at hg; simp at hg
            | some o =>
              rw [hb'] at hg
              cases o with
              | none => exact ih g hg
              | some y =>
                simp only [List.mem_cons] at hg
                rcases hg with rfl | hg
                · unfold bodyMonotone at hb'
                  simp only [Option.bind_eq_bind, Option.bind_eq_some_iff, Option.some.injEq] at hb'
                  obtain ⟨_, _, _, _, _, _, rfl⟩ := hb'
                  rfl
                · exact ih g hg
        exact this _ g hg
    · obtain ⟨k, k1, k2⟩ := hcor.bounds g hg
      have e1 := hb k _ k1
      have e2 := hb (k + 1) _ k2
      refine ⟨z + k, fun j => ?_⟩
      rw [hcor.mem g hg j, e1, e2, hbin j k]
  · intro j n hj
    have hv : x[j]? = some (n : Rat) := by rw [hval j, hj]; rfl
    have hm := hmem _ (List.mem_of_getElem? hv)
    have hzn : z ≤ n := by exact_mod_cast hm.1
    have hnM := hm.2
    have hlen : bins.length = ⌈M + 2 - z⌉.toNat := by rw [hbins]; unfold arange; simp
    have hlt : n - z + 1 < bins.length := by
      rw [hlen, Int.lt_toNat, Int.lt_ceil]
      push_cast [Nat.cast_sub hzn]
      linarith
    have b0 := List.getElem?_eq_getElem (l := bins) (i := n - z) (by omega)
    have b1 := List.getElem?_eq_getElem (l := bins) (i := n - z + 1) hlt
    have e0 := hb _ _ b0
    have e1 := hb _ _ b1
    have hi : InBin x j bins[n - z] bins[n - z + 1] := by
      rw [e0, e1, hbin j (n - z), hj]
      congr 1; omega
    obtain ⟨g, hg, g1, g2⟩ := hcor.covered (n - z) _ _ j b0 b1 hi
    exact ⟨g, hg, (hcor.mem g hg j).2 (by rw [g1, g2]; exact hi)⟩

theorem markGroups_spec (cond : List Nat → Bool) : ∀ (l : List Group) (m : Nat → Bool) (j : Nat),
    markGroups cond l m j = true ↔ m j = true ∨ ∃ g ∈ l, cond g.obs = true ∧ j ∈ g.obs
  | [], m, j => by simp [markGroups]
  | g :: l, m, j => by
    rw [markGroups, markGroups_spec cond l]
    by_cases h : cond g.obs = true
    · rw [if_pos h]
      simp only [Bool.or_eq_true, decide_eq_true_eq, List.mem_cons, exists_eq_or_imp, h, true_and]
      tauto
    · rw [if_neg h]
      simp only [List.mem_cons, exists_eq_or_imp, h, false_and, false_or, Bool.false_eq_true]

/-- A condition which depends on the rows of a network only is the mask of the networks which meet it. -/
theorem mark_networks {argsort : List Int → List Nat} {t : List Nat} (hne : t ≠ []) (hs : t.Pairwise (· ≤ ·)) (cond : List Nat → Bool) (P : Nat → Prop)
    (hc : ∀ (n : Nat) (obs : List Nat), obs ≠ [] → (∀ j : Nat, j ∈ obs ↔ t[j]? = some n) → (cond obs = true ↔ P n)) (j n : Nat) (hj : t[j]? = some n) :
    markGroups cond (groups argsort t).items (fun _ => false) j = true ↔ P n := by
  obtain ⟨_, hg, hcov⟩ := track_groups (argsort := argsort) hne hs
  have hu : ∀ g ∈ (groups argsort t).items, j ∈ g.obs → (cond g.obs = true ↔ P n) := by
    intro g hgm hjg
    obtain ⟨_, n', hn'⟩ := hg g hgm
    have : n' = n := by
      have := (hn' j).1 hjg
      rw [hj] at this
      exact (Option.some.inj this).symm
    subst this
    exact hc n' g.obs (List.ne_nil_of_mem hjg) hn'
  rw [markGroups_spec]
  constructor
  · rintro (h | ⟨g, hgm, h1, h2⟩)
    · simp at h
    · exact (hu g hgm h2).1 h1
  · intro hp
    obtain ⟨g, hgm, hjg⟩ := hcov j n hj
    exact Or.inr ⟨g, hgm, (hu g hgm hjg).2 hp, hjg⟩

theorem mem_times {t : List Nat} {time : List Rat} (hl : time.length = t.length) {obs : List Nat} {n : Nat} (ho : ∀ j : Nat, j ∈ obs ↔ t[j]? = some n) (x : Rat) :
    x ∈ times time obs ↔ ∃ j : Nat, t[j]? = some n ∧ time[j]? = some x := by
  unfold times
  rw [List.mem_map]
  constructor
  · rintro ⟨j, hj, rfl⟩
    have h := (ho j).1 hj
    have hlt : j < time.length := by rw [hl]; exact (List.getElem?_eq_some_iff.1 h).1
    refine ⟨j, h, ?_⟩
    rw [List.getD_eq_getElem?_getD, List.getElem?_eq_getElem hlt]; rfl
  · rintro ⟨j, h, hx⟩
    refine ⟨j, (ho j).2 h, ?_⟩
    rw [List.getD_eq_getElem?_getD, hx]; rfl

/-- The duration of a network: greatest difference of dates of its rows. -/
def IsDuration (t : List Nat) (time : List Rat) (n : Nat) (d : Rat) : Prop :=
  (∃ (i j : Nat) (x y : Rat), t[i]? = some n ∧ t[j]? = some n ∧ time[i]? = some x ∧ time[j]? = some y ∧ y - x = d) ∧
  ∀ (i j : Nat) (x y : Rat), t[i]? = some n → t[j]? = some n → time[i]? = some x → time[j]? = some y → y - x ≤ d

theorem duration_unique {t : List Nat} {time : List Rat} {n : Nat} {d e : Rat} (hd : IsDuration t time n d) (he : IsDuration t time n e) : d = e := by
  obtain ⟨⟨p, q, x, y, hp, hq, hx, hy, rfl⟩, h2⟩ := hd
  obtain ⟨⟨p', q', x', y', hp', hq', hx', hy', rfl⟩, h2'⟩ := he
  exact le_antisymm (h2' _ _ _ _ hp hq hx hy) (h2 _ _ _ _ hp' hq' hx' hy')

/-- **C93** (`longer_than`): on rows sorted by network, a row is kept exactly when its network covers at least `nb_day_min` days and at most `nb_day_max`
days, a negative number being no limit. -/
theorem longer_than_spec {argsort : List Int → List Nat} {t : List Nat} (hne : t ≠ []) (hs : t.Pairwise (· ≤ ·)) {time : List Rat} (hl : time.length = t.length)
    (nbMin nbMax : Rat) : ∃ m, maskLongerThan argsort t time nbMin nbMax = some m ∧ m.length = t.length ∧
      ∀ (j n : Nat) (d : Rat), t[j]? = some n → IsDuration t time n d → d + 1 ≤ 1000000000000 →
        (m[j]? = some true ↔ (nbMin < 0 ∨ nbMin ≤ d + 1) ∧ (nbMax < 0 ∨ d + 1 ≤ nbMax)) := by
  obtain ⟨hok, hg, _⟩ := track_groups (argsort := argsort) hne hs
  have hrun : maskLongerThan argsort t time nbMin nbMax =
      some ((List.range t.length).map (markGroups (longTest time nbMin nbMax) (groups argsort t).items (fun _ => false))) := by
    unfold maskLongerThan
    simp only
    rw [if_neg]
    rintro (h | ⟨g, hgm, h⟩)
    · rw [hok] at h; simp at h
    · rw [(hg g hgm).1] at h; simp at h
  refine ⟨_, hrun, by simp, ?_⟩
  intro j n d hj hd hbig
  have hjl : j < t.length := (List.getElem?_eq_some_iff.1 hj).1
  rw [List.getElem?_map, List.getElem?_range hjl]
  simp only [Option.map_some, Option.some.injEq]
  have hd0 : 0 ≤ d := by
    obtain ⟨⟨i, _, x, _, hi, _, hx, _, _⟩, h2⟩ := hd
    have := h2 i i x x hi hi hx hx
    linarith
  refine (mark_networks hne hs _ (fun n' => ∀ d, IsDuration t time n' d → nbMin ≤ d + 1 ∧ d + 1 ≤ (if nbMax < 0 then 1000000000000 else nbMax)) ?_ j n hj).trans ?_
  · intro n' obs hone ho
    have hmem := mem_times hl ho
    have htne : times time obs ≠ [] := by
      unfold times
      rw [Ne, List.map_eq_nil_iff]; exact hone
    obtain ⟨m1, m2⟩ := Poly.minR_spec htne
    obtain ⟨M1, M2⟩ := Poly.maxR_spec htne
    obtain ⟨i, i1, i2⟩ := (hmem _).1 m1
    obtain ⟨k, k1, k2⟩ := (hmem _).1 M1
    have hdur : IsDuration t time n' (Poly.maxR (times time obs) - Poly.minR (times time obs)) := by
      refine ⟨⟨i, k, _, _, i1, k1, i2, k2, rfl⟩, ?_⟩
      intro p q x y hp hq hx hy
      have a := m2 x ((hmem x).2 ⟨p, hp, hx⟩)
      have b := M2 y ((hmem y).2 ⟨q, hq, hy⟩)
      linarith
    unfold longTest
    simp only [Bool.and_eq_true, decide_eq_true_eq]
    constructor
    · intro h d hd'
      rw [duration_unique hd' hdur]
      exact h
    · intro h
      exact h _ hdur
  · constructor
    · intro h
      obtain ⟨h1, h2⟩ := h d hd
      refine ⟨Or.inr h1, ?_⟩
      by_cases hx : nbMax < 0
      · exact Or.inl hx
      · rw [if_neg hx] at h2; exact Or.inr h2
    · rintro ⟨h1, h2⟩ d' hd'
      rw [duration_unique hd' hd]
      refine ⟨?_, ?_⟩
      · rcases h1 with h1 | h1 <;> linarith
      · split
        · exact hbig
        · rcases h2 with h2 | h2
          · contradiction
          · exact h2

/-- Non-vacuity: networks of 4 days and of 1 day, at least 2 days. -/
example : maskLongerThan (fun _ => []) [1, 1, 2] [0, 3, 7] 2 (-1) = some [true, true, false] ∧
    maskLongerThan (fun _ => []) [1, 1, 2] [0, 3, 7] (-1) 3 = some [false, false, true] := by decide +kernel

/-- An empty dataset raises. -/
theorem longer_than_empty : maskLongerThan (fun _ => []) [] [] 1 (-1) = none := by decide +kernel

/-- **C93** (`keep_tracks_by_date`): a row is kept exactly when its trajectory has a row at the date and a row at the date `nb_days` later. -/
theorem keep_by_date_spec {argsort : List Int → List Nat} {t : List Nat} (hne : t ≠ []) (hs : t.Pairwise (· ≤ ·)) {time : List Rat} (hl : time.length = t.length)
    (date nb : Rat) : ∃ m, maskByDate argsort t time date nb = some m ∧ m.length = t.length ∧
      ∀ (j n : Nat), t[j]? = some n → (m[j]? = some true ↔
        (∃ i : Nat, t[i]? = some n ∧ time[i]? = some date) ∧ ∃ i : Nat, t[i]? = some n ∧ time[i]? = some (date + nb)) := by
  obtain ⟨hok, _, _⟩ := track_groups (argsort := argsort) hne hs
  refine ⟨_, by unfold maskByDate; simp only; rw [if_neg (by rw [hok]; simp)], by simp, ?_⟩
  intro j n hj
  have hjl : j < t.length := (List.getElem?_eq_some_iff.1 hj).1
  rw [List.getElem?_map, List.getElem?_range hjl]
  simp only [Option.map_some, Option.some.injEq]
  refine mark_networks hne hs _ (fun n => (∃ i : Nat, t[i]? = some n ∧ time[i]? = some date) ∧ ∃ i : Nat, t[i]? = some n ∧ time[i]? = some (date + nb)) ?_ j n hj
  intro n' obs _ ho
  rw [Bool.and_eq_true, decide_eq_true_eq, decide_eq_true_eq, mem_times hl ho, mem_times hl ho]

/-- **C93** (`keep_tracks_by_date`): for trajectories with one row for each day, the trajectories kept are those which exist at the date and last at least
`nb_days` after it. Missing: trajectories with holes, see `by_date_wrong`. -/
theorem keep_by_date_partial {argsort : List Int → List Nat} {t : List Nat} (hne : t ≠ []) (hs : t.Pairwise (· ≤ ·)) {time : List Rat} (hl : time.length = t.length)
    (date : Rat) (nb : Nat)
    (hday : ∀ (n i j : Nat) (x y : Rat) (k : Nat), t[i]? = some n → t[j]? = some n → time[i]? = some x → time[j]? = some y → x + k ≤ y →
      ∃ l : Nat, t[l]? = some n ∧ time[l]? = some (x + k)) :
    ∃ m, maskByDate argsort t time date nb = some m ∧ m.length = t.length ∧
      ∀ (j n : Nat), t[j]? = some n → (m[j]? = some true ↔
        (∃ i : Nat, t[i]? = some n ∧ time[i]? = some date) ∧ ∃ (i : Nat) (y : Rat), t[i]? = some n ∧ time[i]? = some y ∧ date + nb ≤ y) := by
  obtain ⟨m, e, h1, h2⟩ := keep_by_date_spec (argsort := argsort) hne hs hl date nb
  refine ⟨m, e, h1, fun j n hj => (h2 j n hj).trans ?_⟩
  constructor
  · rintro ⟨a, i, i1, i2⟩
    exact ⟨a, i, _, i1, i2, le_refl _⟩
  · rintro ⟨⟨i, i1, i2⟩, k, y, k1, k2, hy⟩
    exact ⟨⟨i, i1, i2⟩, hday n i k date y nb i1 k1 i2 k2 hy⟩

/-- A trajectory which exists at the date and lasts longer is lost when its row of the last day is missing. -/
theorem by_date_wrong : maskByDate (fun _ => []) [1, 1, 1] [0, 1, 3] 0 2 = some [false, false, false] := by decide +kernel

/-- Non-vacuity. -/
example : maskByDate (fun _ => []) [1, 1, 1, 2] [0, 1, 2, 0] 0 2 = some [true, true, true, false] := by decide +kernel

/-- **C93** (`extract_with_period`): a positive bound is a date, a negative one is a number of days from the first or to the last date of the dataset, zero
is no bound. Missing: a dataset whose period is in memory and which was changed, see `period_wrong`. -/
theorem mask_period_partial {t : List Rat} (hne : t ≠ []) (pMin pMax : Rat) {lo hi : Rat} (hlo : lo ∈ t ∧ ∀ x ∈ t, lo ≤ x) (hhi : hi ∈ t ∧ ∀ x ∈ t, x ≤ hi)
    {α : Type} (rows : List α) (time : α → Rat) (ht : t = rows.map time) :
    ∀ r, r ∈ Extract.extractMask rows (maskPeriod ⟨t, none⟩ pMin pMax) ↔ r ∈ rows ∧
      (0 < pMin → pMin ≤ time r) ∧ (pMin < 0 → lo + |pMin| ≤ time r) ∧ (0 < pMax → time r ≤ pMax) ∧ (pMax < 0 → time r ≤ hi - |pMax|) := by
  obtain ⟨lo', hi', e, l1, h1, hb⟩ := Extract.period_spec t hne
  have el : lo' = lo := le_antisymm (hb lo hlo.1).1 (hlo.2 lo' l1)
  have eh : hi' = hi := le_antisymm (hhi.2 hi' h1) (hb hi hhi.1).2
  subst el eh
  intro r
  unfold maskPeriod
  rw [e, ht, List.map_map, Extract.extract_filter, List.mem_filter]
  refine and_congr_right (fun _ => ?_)
  simp only [Function.comp, Bool.and_eq_true]
  have f1 : fromTest (some (lo', hi')) pMin (time r) = true ↔ (0 < pMin → pMin ≤ time r) ∧ (pMin < 0 → lo' + |pMin| ≤ time r) := by
    unfold fromTest
    rcases lt_trichotomy pMin 0 with h | h | h
    · rw [if_neg (by linarith), if_pos h, abs_of_neg h]
      simp only [Option.elim_some, decide_eq_true_eq, ge_iff_le]
      constructor
      · exact fun q => ⟨fun h' => absurd h' (by linarith), fun _ => by linarith⟩
      · exact fun q => by linarith [q.2 h]
    · subst h; simp
    · rw [if_pos h]
      simp only [decide_eq_true_eq, ge_iff_le]
      exact ⟨fun q => ⟨fun _ => q, fun h' => absurd h' (by linarith)⟩, fun q => q.1 h⟩
  have f2 : toTest (some (lo', hi')) pMax (time r) = true ↔ (0 < pMax → time r ≤ pMax) ∧ (pMax < 0 → time r ≤ hi' - |pMax|) := by
    unfold toTest
    rcases lt_trichotomy pMax 0 with h | h | h
    · rw [if_neg (by linarith), if_pos h, abs_of_neg h]
      simp only [Option.elim_some, decide_eq_true_eq]
      constructor
      · exact fun q => ⟨fun h' => absurd h' (by linarith), fun _ => by linarith⟩
      · exact fun q => by linarith [q.2 h]
    · subst h; simp
    · rw [if_pos h]
      simp only [decide_eq_true_eq]
      exact ⟨fun q => ⟨fun _ => q, fun h' => absurd h' (by linarith)⟩, fun q => q.1 h⟩
  rw [f1, f2]
  tauto

/-- The period in memory is the one before the insertion of rows: the last row asked is not the last of the dataset. -/
theorem period_wrong : (((Extract.Data.period ⟨[1, 2], none⟩).1.insert [5] (-1)).map (fun d => maskPeriod d 0 (-1))) = some [true, false, false] := by
  decide +kernel

/-- Non-vacuity. -/
example : maskPeriod ⟨[1, 2, 4, 5], none⟩ (-1) (-1) = [false, true, true, false] ∧ maskPeriod ⟨[1, 2, 4, 5], none⟩ 2 0 = [false, true, true, true] := by
  decide +kernel

/-! ### C94: longitudes and unique numbers -/

theorem buildIndex_last {l : List Int} {first last : List Nat} {i0 : Int} (h : Index.buildIndex l = some (first, last, i0)) : last = first.tail ++ [l.length] := by
  cases l with
  | nil => simp [Index.buildIndex] at h
  | cons x l =>
    unfold Index.buildIndex at h
    simp only [Option.some.injEq, Prod.mk.injEq] at h
    obtain ⟨h1, h2, _⟩ := h
    rw [← h2, ← h1]

/-- The first row of every number, even without rows, is in the dataset. -/
theorem first_lt {g : List Int} {first last : List Nat} {i0 : Int} (e : Index.buildIndex g = some (first, last, i0)) (hI : Index.IsIndex g first last i0)
    (hmax : i0 + first.length - 1 ∈ g) (hpos : 0 < first.length) : ∀ (d m a : Nat), m + d + 1 = first.length → first[m]? = some a → a < g.length := by
  have hl := buildIndex_last e
  intro d
  induction d with
  | zero =>
    intro m a hm ha
    obtain ⟨b, hb⟩ : ∃ b, last[m]? = some b := ⟨_, List.getElem?_eq_getElem (by rw [← hI.1]; omega)⟩
    obtain ⟨s1, s2, s3⟩ := hI.2.2 m a b ha hb
    obtain ⟨k, hk⟩ := List.mem_iff_getElem?.1 hmax
    have := (s3 k).1 (by rw [hk]; congr 1; omega)
    omega
  | succ d ih =>
    intro m a hm ha
    obtain ⟨a', ha'⟩ : ∃ a', first[m + 1]? = some a' := ⟨_, List.getElem?_eq_getElem (by omega)⟩
    have := ih (m + 1) a' (by omega) ha'
    have hb : last[m]? = some a' := by
      rw [hl, List.getElem?_append_left (by simp; omega), List.getElem?_tail, ha']
    have := (hI.2.2 m a a' ha hb).1
    omega

/-- **C94** (`normalize_longitude` of networks): every longitude stays on its meridian; the first observation of a network does not move; every observation
of the network is within 180 degrees of it; the position of the maximum and every contour point are within 180 degrees of the centre. -/
theorem normalize_longitude_spec {d : Net Tracks.Lon} (hf : d.Fresh) (hs : d.Sorted) :
    ∃ r, normalizeLongitude d = some r ∧ r.length = d.rows.length ∧
      ∀ (j k t : Nat) (f o : Tracks.Lon), (∀ i, i < j → (d.rows.map (·.1))[i]? ≠ some t) → d.rows[j]? = some (t, f) →
        d.rows[k]? = some (t, o) → ∃ f' o' : Tracks.Lon, r[j]? = some (t, f') ∧ r[k]? = some (t, o') ∧ f'.lon = f.lon ∧
          Tracks.SameMeridian o'.lon o.lon ∧ f.lon - 180 ≤ o'.lon ∧ o'.lon < f.lon + 180 ∧
          Tracks.SameMeridian o'.lonMax o.lonMax ∧ o'.lon - 180 ≤ o'.lonMax ∧ o'.lonMax < o'.lon + 180 ∧
          o'.contour.length = o.contour.length ∧
          ∀ (m : Nat) x, o.contour[m]? = some x → ∃ x', o'.contour[m]? = some x' ∧ Tracks.SameMeridian x' x ∧
            o'.lon - 180 ≤ x' ∧ x' < o'.lon + 180 := by
  obtain ⟨first, last, i0, e, hI, hi0, hmax, hpos⟩ := index_spec hf hs
  have eb : Index.buildIndex d.track = some (first, last, i0) := by
    unfold Net.indexNetwork at e
    rcases hf with h | h
    · rw [h] at e; exact e
    · rw [h] at e
      cases hb : Index.buildIndex d.track with
      | none => rw [hb] at e; simpa [hb] using e
      | some y => rw [hb] at e; simpa using e
  have hi0' : 0 ≤ i0 := by
    unfold Net.track at hi0
    obtain ⟨r, _, rfl⟩ := List.mem_map.1 hi0
    omega
  obtain ⟨z, rfl⟩ : ∃ z : Nat, i0 = z := ⟨i0.toNat, by omega⟩
  have hlen : d.track.length = d.rows.length := by simp [Net.track]
  have hall : ∀ m : Nat, m < first.length → ∃ v, (d.rows.map (·.2.lon))[first.getD m 0]? = some v := by
    intro m hm
    have e1 := List.getElem?_eq_getElem hm
    have := first_lt eb hI hmax hpos (first.length - 1 - m) m _ (by omega) e1
    rw [List.getD_eq_getElem?_getD, e1]
    exact ⟨_, List.getElem?_eq_getElem (by rw [List.length_map, ← hlen]; exact this)⟩
  have hall' : ∀ m : Nat, ∃ v : Rat, m < first.length → (d.rows.map (·.2.lon))[first.getD m 0]? = some v := by
    intro m
    by_cases hm : m < first.length
    · obtain ⟨v, hv⟩ := hall m hm; exact ⟨v, fun _ => hv⟩
    · exact ⟨0, fun h => absurd h hm⟩
  choose g hg using hall'
  have hfm : first = (List.range first.length).map (fun m => first.getD m 0) := by
    apply List.ext_getElem?
    intro m
    by_cases hm : m < first.length
    · rw [List.getElem?_map, List.getElem?_range hm, List.getElem?_eq_getElem hm]
      simp [List.getD_eq_getElem?_getD, List.getElem?_eq_getElem hm]
    · rw [List.getElem?_eq_none (by omega), List.getElem?_eq_none (by simp; omega)]
  have hm : first.mapM (fun i => (d.rows.map (·.2.lon))[i]?) = some ((List.range first.length).map g) := by
    conv_lhs => rw [hfm]
    rw [List.mapM_map]
    exact Tracks.mapM_some_map (fun m hm => hg m (List.mem_range.1 hm))
  have hmem : ∀ r ∈ d.rows, z ≤ r.1 ∧ r.1 < z + first.length := by
    intro r hr
    have := hI.2.1 (r.1 : Int) (by unfold Net.track; exact List.mem_map.2 ⟨r, hr, rfl⟩)
    omega
  set tr := d.rows.map (fun r => r.1 - z) with htr
  have hsr : tr.Pairwise (· ≤ ·) := by
    rw [htr, List.pairwise_map]
    have := hs.sorted
    rw [List.pairwise_map] at this
    exact this.imp (fun h => by omega)
  have hcount : List.zipWith (fun a b => b - a) first last = (List.range first.length).map (fun m => tr.count m) := by
    apply List.ext_getElem?
    intro m
    by_cases hm : m < first.length
    · have e1 := List.getElem?_eq_getElem (l := first) (i := m) hm
      have e2 := List.getElem?_eq_getElem (l := last) (i := m) (by rw [← hI.1]; exact hm)
      obtain ⟨s1, s2, s3⟩ := hI.2.2 m _ _ e1 e2
      rw [List.getElem?_zipWith, e1, e2, List.getElem?_map, List.getElem?_range hm]
      simp only [Option.map_some, Option.some.injEq]
      rw [← count_slice s1 s2 s3, List.count_eq_countP, List.count_eq_countP]
      unfold Net.track
      rw [htr, List.countP_map, List.countP_map]
      apply List.countP_congr
      intro r hr
      have := hmem r hr
      simp only [Function.comp, beq_iff_eq]
      omega
    · rw [List.getElem?_eq_none (by simp; omega), List.getElem?_eq_none (by simp; omega)]
  have hrep : Py.rep (((List.range first.length).map g).map (· - 180)) (List.zipWith (fun a b => b - a) first last) = d.rows.map (fun o => g (o.1 - z) - 180) := by
    have h := Tracks.flatMap_replicate_sorted hsr first.length
    have h2 : tr.filter (fun x => decide (x < first.length)) = tr := by
      rw [List.filter_eq_self]
      intro x hx
      rw [htr] at hx
      obtain ⟨r, hr, rfl⟩ := List.mem_map.1 hx
      have := hmem r hr
      simp only [decide_eq_true_eq]
      omega
    rw [h2] at h
    rw [hcount, List.map_map]
    unfold Py.rep
    rw [List.zip_map', List.flatMap_map]
    have : d.rows.map (fun o => g (o.1 - z) - 180) = tr.map (fun m => g m - 180) := by rw [htr, List.map_map]; rfl
    rw [this]
    conv_rhs => rw [← h]
    rw [List.map_flatMap]
    congr 1
    funext t
    rw [List.map_replicate]
    rfl
  let F : Nat × Tracks.Lon → Nat × Tracks.Lon := fun o =>
    let lon := Py.fmod (o.2.lon - (g (o.1 - z) - 180)) 360 + (g (o.1 - z) - 180)
    (o.1, ⟨lon, Tracks.recentre o.2.lonMax lon, o.2.contour.map (fun x => Tracks.recentre x lon)⟩)
  have hr : normalizeLongitude d = some (d.rows.map F) := by
    unfold normalizeLongitude
    rw [e]
    simp only [Option.bind_some]
    rw [hm]
    simp only [Option.map_some]
    rw [hrep, Tracks.zipWith_map_right_self]
  refine ⟨d.rows.map F, hr, by simp, ?_⟩
  intro j k t f o hfirst hj hk
  have hgt : g (t - z) = f.lon := by
    have hb := hmem _ (List.mem_of_getElem? hj)
    simp only at hb
    have hlt : t - z < first.length := by omega
    obtain ⟨b, hb'⟩ : ∃ b, last[t - z]? = some b := ⟨_, List.getElem?_eq_getElem (by rw [← hI.1]; exact hlt)⟩
    have e1 := List.getElem?_eq_getElem hlt
    obtain ⟨s1, s2, s3⟩ := hI.2.2 (t - z) _ b e1 hb'
    have hz : (z : Int) + ((t - z : Nat) : Int) = t := by omega
    rw [hz] at s3
    have hjt := track_get d hj
    have hja := (s3 j).1 hjt
    have hE : first[t - z] = j := by
      by_contra hne
      have h3 := (s3 first[t - z]).2 ⟨le_refl _, by omega⟩
      apply hfirst first[t - z] (by omega)
      unfold Net.track at h3
      rw [List.getElem?_map] at h3 ⊢
      obtain ⟨r, hr, hr'⟩ := Option.map_eq_some_iff.1 h3
      rw [hr]
      simp only [Option.map_some, Option.some.injEq]
      omega
    have := hg (t - z) hlt
    rw [List.getD_eq_getElem?_getD, e1, Option.getD_some, hE, List.getElem?_map, hj] at this
    simpa using this.symm
  refine ⟨(F (t, f)).2, (F (t, o)).2, by rw [List.getElem?_map, hj]; rfl, by rw [List.getElem?_map, hk]; rfl, ?_⟩
  have spec : ∀ x : Tracks.Lon, Tracks.SameMeridian (F (t, x)).2.lon x.lon ∧ f.lon - 180 ≤ (F (t, x)).2.lon ∧ (F (t, x)).2.lon < f.lon + 180 := by
    intro x
    obtain ⟨h1, h2, q, h3⟩ := Py.fmod_spec (x.lon - (g (t - z) - 180)) (m := 360) (by norm_num)
    show Tracks.SameMeridian (Py.fmod (x.lon - (g (t - z) - 180)) 360 + (g (t - z) - 180)) x.lon ∧
      f.lon - 180 ≤ Py.fmod (x.lon - (g (t - z) - 180)) 360 + (g (t - z) - 180) ∧
      Py.fmod (x.lon - (g (t - z) - 180)) 360 + (g (t - z) - 180) < f.lon + 180
    rw [hgt] at *
    exact ⟨⟨q, by rw [h3]; ring⟩, by linarith, by linarith⟩
  refine ⟨?_, (spec o).1, (spec o).2.1, (spec o).2.2, (Tracks.recentre_spec o.lonMax _).1, (Tracks.recentre_spec o.lonMax _).2.1,
    (Tracks.recentre_spec o.lonMax _).2.2, by show (List.map _ _).length = _; simp, ?_⟩
  · show Py.fmod (f.lon - (g (t - z) - 180)) 360 + (g (t - z) - 180) = f.lon
    rw [hgt, show f.lon - (f.lon - 180) = 180 by ring]
    have : Py.fmod 180 360 = 180 := by decide +kernel
    rw [this]; ring
  · intro m x hx
    refine ⟨Tracks.recentre x (F (t, o)).2.lon, ?_, Tracks.recentre_spec x _⟩
    show (List.map _ _)[m]? = _
    rw [List.getElem?_map, hx]; rfl

/-- Non-vacuity: networks 1 and 3. -/
example : normalizeLongitude ⟨[(1, ⟨359, 359, [358]⟩), (1, ⟨1, -1, [0, 362]⟩), (3, ⟨10, 10, []⟩)], none⟩ =
    some [(1, ⟨359, 359, [358]⟩), (1, ⟨361, 359, [360, 362]⟩), (3, ⟨10, 10, []⟩)] := by decide +kernel

/-- **C94** (`unique_segment_to_id`): the number of the rows in `segment_track_array` gives back the network and the segment of these rows. -/
theorem unique_segment_spec {obs : List Segments.Obs} (hne : obs ≠ []) :
    ∃ sta, Segments.segTrackArray obs = some sta ∧ sta.length = obs.length ∧
      ∀ (i k : Nat) (o : Segments.Obs), sta[i]? = some k → obs[i]? = some o → uniqueSegmentToId obs k = some (o.track, o.seg) := by
  obtain ⟨sta, e, hn⟩ := Segments.segTrackArray_spec obs hne
  refine ⟨sta, e, hn.len, ?_⟩
  intro i k o hi ho
  have hsne : sta.map (fun (n : Nat) => (n : Int)) ≠ [] := by
    rw [Ne, List.map_eq_nil_iff]
    rintro rfl
    simp at hi
  obtain ⟨first, last, i0, eb, hI, hi0, _, _⟩ := Index.build_index_spec _ hsne hn.sorted
  have hz : i0 = 0 := by
    obtain ⟨n, hn1, rfl⟩ := List.mem_map.1 hi0
    have := (hI.2.1 0 (List.mem_map.2 ⟨0, List.mem_of_getElem? hn.zero, rfl⟩)).1
    omega
  subst hz
  have hb := hI.2.1 (k : Int) (List.mem_map.2 ⟨k, List.mem_of_getElem? hi, rfl⟩)
  have hlt : k < first.length := by omega
  have e1 := List.getElem?_eq_getElem hlt
  obtain ⟨b, hb'⟩ : ∃ b, last[k]? = some b := ⟨_, List.getElem?_eq_getElem (by rw [← hI.1]; exact hlt)⟩
  obtain ⟨s1, s2, s3⟩ := hI.2.2 k _ b e1 hb'
  have hsi : ∀ q : Nat, sta[q]? = some k ↔ first[k] ≤ q ∧ q < b := by
    intro q
    rw [← s3 q, List.getElem?_map, Int.zero_add]
    constructor
    · intro h; rw [h]; rfl
    · intro h
      obtain ⟨n, h1, h2⟩ := Option.map_eq_some_iff.1 h
      rw [h1]; congr 1; omega
  have hin := (hsi i).1 hi
  have hkey : ∀ q : Nat, first[k] ≤ q → q ≤ i → ∀ o', obs[q]? = some o' → o'.key = (obs[first[k]]?.map (·.key)).getD o'.key := by
    intro q h1
    induction q, h1 using Nat.le_induction with
    | base => intro _ o' ho'; rw [ho']; rfl
    | succ q hq ih =>
      intro hqi o' ho'
      have hql : q < obs.length := by have := (List.getElem?_eq_some_iff.1 ho').1; omega
      have eq := List.getElem?_eq_getElem hql
      have h2 := ih (by omega) _ eq
      have h3 := (hn.same_iff q k _ o' ((hsi q).2 ⟨hq, by omega⟩) eq ho').1 ((hsi (q + 1)).2 ⟨by omega, by omega⟩)
      have hfl : first[k] < obs.length := by omega
      rw [List.getElem?_eq_getElem hfl] at h2 ⊢
      simp only [Option.map_some, Option.getD_some] at h2 ⊢
      rw [h3, h2]
  have hfl : first[k] < obs.length := by have := (List.getElem?_eq_some_iff.1 ho).1; omega
  have hfin := hkey i hin.1 (le_refl _) o ho
  rw [List.getElem?_eq_getElem hfl] at hfin
  simp only [Option.map_some, Option.getD_some] at hfin
  unfold uniqueSegmentToId
  rw [e]
  simp only [Option.bind_some, eb, Py.get_natCast, e1, Int.sub_zero, List.getElem?_eq_getElem hfl, Option.map_some, Option.some.injEq, Prod.mk.injEq]
  unfold Segments.Obs.key at hfin
  simp only [Prod.mk.injEq] at hfin
  exact ⟨by tauto, by tauto⟩

/-- Non-vacuity: the third segment, network 4 segment 0. -/
example : uniqueSegmentToId [⟨3, 0, -1, 1⟩, ⟨3, 0, 0, -1⟩, ⟨3, 2, -1, -1⟩, ⟨4, 0, -1, -1⟩] 2 = some (4, 0) := by decide

end Verif.Select
