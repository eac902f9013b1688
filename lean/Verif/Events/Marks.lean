import Verif.Bins.Maps
import Verif.Segments.Lemmas

/-!
# C151: events drawn on maps and timelines

Model of the points drawn by `event_map` and `event_timeline` (src/py_eddy_tracker/observations/network.py), on top of `iter_on`. Segment numbers
are unsigned.
-/

namespace Verif.Events

open Verif.Segments (Obs First Last)
open Verif.Bins (groupsOf positions Group)

/-- A mark: the row where it is drawn, the row which ends the line drawn from it, the number given by `iter_on` to the segment. -/
structure Mark where
  row : Nat
  link : Int
  seg : Rat
deriving DecidableEq

/-- The mark of merging of one turn of the loop (network.py:859-862, 871-883 and 1041-1049). -/
def mergeMark (obs : List Obs) (g : Group) : Option Mark := do
  let e ← g.obs.getLast?
  let o ← obs[e]?
  if o.next ≠ -1 then some ⟨e, o.next, g.lo⟩ else none

/-- The mark of splitting of one turn of the loop (network.py:859-862, 885-899 and 1050-1054). -/
def splitMark (obs : List Obs) (g : Group) : Option Mark := do
  let f ← g.obs.head?
  let o ← obs[f]?
  if o.prev ≠ -1 then some ⟨f, o.prev, g.lo⟩ else none

/-- `event_map` (network.py:1023-1056) and the marks of `event_timeline` (network.py:847-901): marks of mergings and of splittings; the groups
without row are skipped (network.py:848-849, 1035-1036). -/
def marks (argsort : List Int → List Nat) (obs : List Obs) : Option (List Mark × List Mark) :=
  (groupsOf argsort (obs.map (·.seg))).map (fun gs => (gs.filterMap (mergeMark obs), gs.filterMap (splitMark obs)))

/-! ### Specification -/

/-- One network, with its segments in order. -/
structure OneNetwork (obs : List Obs) : Prop where
  same : ∀ o ∈ obs, ∀ o' ∈ obs, o.track = o'.track
  sorted : (obs.map (·.seg)).Pairwise (· ≤ ·)

/-! ### Proofs -/

theorem mem_positions {ids : List Nat} {v k : Nat} : k ∈ positions ids v ↔ ids[k]? = some v := by
  unfold positions
  rw [List.mem_filter, List.mem_range, decide_eq_true_eq]
  constructor
  · exact fun h => h.2
  · intro h; exact ⟨(List.getElem?_eq_some_iff.1 h).1, h⟩

theorem positions_sorted (ids : List Nat) (v : Nat) : (positions ids v).Pairwise (· < ·) := List.pairwise_lt_range.sublist List.filter_sublist

theorem le_last {l : List Nat} (hs : l.Pairwise (· < ·)) {m : Nat} (hm : l.getLast? = some m) : ∀ k ∈ l, k ≤ m := by
  intro k hk
  obtain ⟨l', rfl⟩ := List.getLast?_eq_some_iff.1 hm
  rcases List.mem_append.1 hk with h | h
  · exact ((List.pairwise_append.1 hs).2.2 k h m (by simp)).le
  · simp at h; omega

theorem head_le {l : List Nat} (hs : l.Pairwise (· < ·)) {m : Nat} (hm : l.head? = some m) : ∀ k ∈ l, m ≤ k := by
  intro k hk
  cases l with
  | nil => simp at hm
  | cons a l =>
    simp only [List.head?_cons, Option.some.injEq] at hm
    subst hm
    rcases List.mem_cons.1 hk with h | h
    · omega
    · exact ((List.pairwise_cons.1 hs).1 k h).le

theorem seg_at {obs : List Obs} {k v : Nat} : (obs.map (·.seg))[k]? = some v ↔ ∃ o, obs[k]? = some o ∧ o.seg = v := by
  rw [List.getElem?_map, Option.map_eq_some_iff]

theorem key_eq {obs : List Obs} (h : OneNetwork obs) {i j : Nat} {o o' : Obs} (hi : obs[i]? = some o) (hj : obs[j]? = some o') :
    o.key = o'.key ↔ o.seg = o'.seg := by
  unfold Segments.Obs.key
  rw [Prod.mk.injEq]
  exact ⟨fun e => e.1, fun e => ⟨e, h.same o (List.mem_of_getElem? hi) o' (List.mem_of_getElem? hj)⟩⟩

theorem seg_mono {obs : List Obs} (h : OneNetwork obs) {i j : Nat} (hij : i ≤ j) {o o' : Obs} (hi : obs[i]? = some o) (hj : obs[j]? = some o') :
    o.seg ≤ o'.seg := by
  rcases Nat.lt_or_ge i j with hlt | hge
  · have h1 : (obs.map (·.seg))[i]? = some o.seg := seg_at.2 ⟨o, hi, rfl⟩
    have h2 : (obs.map (·.seg))[j]? = some o'.seg := seg_at.2 ⟨o', hj, rfl⟩
    obtain ⟨l1, e1⟩ := List.getElem?_eq_some_iff.1 h1
    obtain ⟨l2, e2⟩ := List.getElem?_eq_some_iff.1 h2
    have := List.pairwise_iff_getElem.1 h.sorted i j l1 l2 hlt
    rw [e1, e2] at this
    exact this
  · have : i = j := by omega
    subst this
    rw [hi] at hj
    cases hj
    exact le_refl _

/-- The last row of a group is the last row of the segment. -/
theorem last_iff {obs : List Obs} (h : OneNetwork obs) {e : Nat} {o : Obs} (he : obs[e]? = some o) :
    (positions (obs.map (·.seg)) o.seg).getLast? = some e ↔ Last obs e := by
  have hmem : e ∈ positions (obs.map (·.seg)) o.seg := mem_positions.2 (seg_at.2 ⟨o, he, rfl⟩)
  constructor
  · intro hl
    refine ⟨o, he, fun o' ho' hk => ?_⟩
    rw [key_eq h ho' he] at hk
    have := le_last (positions_sorted _ _) hl (e + 1) (mem_positions.2 (seg_at.2 ⟨o', ho', hk⟩))
    omega
  · rintro ⟨o1, ho1, hlast⟩
    rw [he] at ho1
    cases ho1
    obtain ⟨m, hm⟩ : ∃ m, (positions (obs.map (·.seg)) o.seg).getLast? = some m := by
      cases hl : (positions (obs.map (·.seg)) o.seg).getLast? with
      | some m => exact ⟨m, rfl⟩
      | none => rw [List.getLast?_eq_none_iff] at hl; rw [hl] at hmem; simp at hmem
    have h1 := le_last (positions_sorted _ _) hm e hmem
    obtain ⟨om, hom, hseg⟩ := seg_at.1 (mem_positions.1 (List.mem_of_getLast? hm))
    rcases Nat.lt_or_ge e m with hlt | hge
    · have hlen : e + 1 < obs.length := by
        have := (List.getElem?_eq_some_iff.1 hom).1
        omega
      have hn := List.getElem?_eq_getElem hlen
      refine absurd ((key_eq h hn he).2 ?_) (hlast _ hn)
      have a1 := seg_mono h (by omega : e ≤ e + 1) he hn
      have a2 := seg_mono h (by omega : e + 1 ≤ m) hn hom
      omega
    · rw [hm, show m = e by omega]

/-- The first row of a group is the first row of the segment. -/
theorem first_iff {obs : List Obs} (h : OneNetwork obs) {f : Nat} {o : Obs} (hf : obs[f]? = some o) :
    (positions (obs.map (·.seg)) o.seg).head? = some f ↔ First obs f := by
  have hmem : f ∈ positions (obs.map (·.seg)) o.seg := mem_positions.2 (seg_at.2 ⟨o, hf, rfl⟩)
  constructor
  · intro hl
    refine ⟨o, hf, fun o' hpos ho' hk => ?_⟩
    rw [key_eq h ho' hf] at hk
    have := head_le (positions_sorted _ _) hl (f - 1) (mem_positions.2 (seg_at.2 ⟨o', ho', hk⟩))
    omega
  · rintro ⟨o1, ho1, hfirst⟩
    rw [hf] at ho1
    cases ho1
    obtain ⟨m, hm⟩ : ∃ m, (positions (obs.map (·.seg)) o.seg).head? = some m := by
      cases hl : (positions (obs.map (·.seg)) o.seg).head? with
      | some m => exact ⟨m, rfl⟩
      | none => rw [List.head?_eq_none_iff] at hl; rw [hl] at hmem; simp at hmem
    have h1 := head_le (positions_sorted _ _) hm f hmem
    obtain ⟨om, hom, hseg⟩ := seg_at.1 (mem_positions.1 (List.mem_of_head? hm))
    rcases Nat.lt_or_ge m f with hlt | hge
    · have hlen : f - 1 < obs.length := by
        have := (List.getElem?_eq_some_iff.1 hf).1
        omega
      have hn := List.getElem?_eq_getElem hlen
      refine absurd ((key_eq h hn hf).2 ?_) (hfirst _ (by omega) hn)
      have a1 := seg_mono h (by omega : f - 1 ≤ f) hn hf
      have a2 := seg_mono h (by omega : m ≤ f - 1) hom hn
      omega
    · rw [hm, show m = f by omega]

/-- **C151** in one network with its segments in order: the marks of merging are exactly the last rows of the segments with a following
observation, the line going to this observation, the marks of splitting are exactly the first rows of the segments with a previous observation,
each one once, in the order of the rows, under the number of its segment. Missing: several networks (`marks_wrong`). -/
theorem marks_partial (argsort : List Int → List Nat) {obs : List Obs} (hne : obs ≠ []) (h : OneNetwork obs) :
    ∃ ms ss, marks argsort obs = some (ms, ss) ∧ ms.Pairwise (fun a b => a.row < b.row) ∧ ss.Pairwise (fun a b => a.row < b.row) ∧
      (∀ m, m ∈ ms ↔ Last obs m.row ∧ ∃ o, obs[m.row]? = some o ∧ o.next ≠ -1 ∧ m.link = o.next ∧ m.seg = (o.seg : Rat)) ∧
      (∀ m, m ∈ ss ↔ First obs m.row ∧ ∃ o, obs[m.row]? = some o ∧ o.prev ≠ -1 ∧ m.link = o.prev ∧ m.seg = (o.seg : Rat)) := by
  obtain ⟨gs, hgs, hord, hg, hcov⟩ := Bins.groups_spec argsort (ids := obs.map (·.seg)) (by simpa using hne) h.sorted
  have hrow : ∀ g ∈ gs, ∀ k ∈ g.obs, ∃ o, obs[k]? = some o ∧ g.lo = (o.seg : Rat) ∧ g.obs = positions (obs.map (·.seg)) o.seg := by
    intro g hgm k hk
    obtain ⟨v, _, e1, e2⟩ := hg g hgm
    rw [e2] at hk
    obtain ⟨o, ho, rfl⟩ := seg_at.1 (mem_positions.1 hk)
    exact ⟨o, ho, e1, e2⟩
  have hof : ∀ (k : Nat) o, obs[k]? = some o → ∃ g ∈ gs, g.lo = (o.seg : Rat) ∧ g.obs = positions (obs.map (·.seg)) o.seg := by
    intro k o ho
    obtain ⟨g, hgm, e⟩ := hcov o.seg (List.mem_of_getElem? (seg_at.2 ⟨o, ho, rfl⟩))
    obtain ⟨v, _, e1, e2⟩ := hg g hgm
    have : v = o.seg := by
      rw [e] at e1
      exact_mod_cast e1.symm
    exact ⟨g, hgm, e, by rw [e2, this]⟩
  have hm : ∀ g m, mergeMark obs g = some m → m.row ∈ g.obs ∧ g.obs.getLast? = some m.row ∧ ∃ o, obs[m.row]? = some o ∧ o.next ≠ -1 ∧ m.link = o.next ∧ m.seg = g.lo := by
    intro g m hmm
    unfold mergeMark at hmm
    simp only [Option.bind_eq_bind, Option.bind_eq_some_iff] at hmm
    obtain ⟨e, he, o, ho, hh⟩ := hmm
    split at hh
    · rename_i hn
      cases hh
      exact ⟨List.mem_of_getLast? he, he, o, ho, hn, rfl, rfl⟩
    · cases hh
  have hs : ∀ g m, splitMark obs g = some m → m.row ∈ g.obs ∧ g.obs.head? = some m.row ∧ ∃ o, obs[m.row]? = some o ∧ o.prev ≠ -1 ∧ m.link = o.prev ∧ m.seg = g.lo := by
    intro g m hmm
    unfold splitMark at hmm
    simp only [Option.bind_eq_bind, Option.bind_eq_some_iff] at hmm
    obtain ⟨e, he, o, ho, hh⟩ := hmm
    split at hh
    · rename_i hn
      cases hh
      exact ⟨List.mem_of_head? he, he, o, ho, hn, rfl, rfl⟩
    · cases hh
  have hlt : ∀ g ∈ gs, ∀ g' ∈ gs, g.lo < g'.lo → ∀ k ∈ g.obs, ∀ k' ∈ g'.obs, k < k' := by
    intro g hgm g' hgm' hlo k hk k' hk'
    obtain ⟨o, ho, e1, _⟩ := hrow g hgm k hk
    obtain ⟨o', ho', e1', _⟩ := hrow g' hgm' k' hk'
    rw [e1, e1'] at hlo
    have hlo' : o.seg < o'.seg := by exact_mod_cast hlo
    by_contra hge
    have := seg_mono h (by omega : k' ≤ k) ho' ho
    omega
  have hsorted : ∀ (f : Group → Option Mark), (∀ g m, f g = some m → m.row ∈ g.obs) → ∀ l : List Group, (∀ g ∈ l, g ∈ gs) →
      l.Pairwise (fun g g' => g.lo < g'.lo) → (l.filterMap f).Pairwise (fun a b => a.row < b.row) := by
    intro f hf l hl hp
    rw [List.pairwise_filterMap]
    refine hp.imp_of_mem ?_
    intro g g' h1 h2 hlo m hm m' hm'
    exact hlt g (hl g h1) g' (hl g' h2) hlo _ (hf g m hm) _ (hf g' m' hm')
  refine ⟨gs.filterMap (mergeMark obs), gs.filterMap (splitMark obs), ?_, ?_, ?_, fun m => ?_, fun m => ?_⟩
  · unfold marks
    rw [hgs]
    rfl
  · exact hsorted _ (fun g m hh => (hm g m hh).1) gs (fun _ hh => hh) hord
  · exact hsorted _ (fun g m hh => (hs g m hh).1) gs (fun _ hh => hh) hord
  · rw [List.mem_filterMap]
    constructor
    · rintro ⟨g, hgm, hmm⟩
      obtain ⟨hmem, hlast, o, ho, hn, e1, e2⟩ := hm g m hmm
      obtain ⟨o', ho', e3, e4⟩ := hrow g hgm _ hmem
      rw [ho] at ho'
      cases ho'
      rw [e4] at hlast
      exact ⟨(last_iff h ho).1 hlast, o, ho, hn, e1, by rw [e2, e3]⟩
    · rintro ⟨hl, o, ho, hn, e1, e2⟩
      obtain ⟨g, hgm, e3, e4⟩ := hof _ o ho
      refine ⟨g, hgm, ?_⟩
      unfold mergeMark
      rw [e4, (last_iff h ho).2 hl]
      simp only [Option.bind_eq_bind, Option.bind_some, ho, if_pos hn, Option.some.injEq]
      rw [e3, ← e1, ← e2]
  · rw [List.mem_filterMap]
    constructor
    · rintro ⟨g, hgm, hmm⟩
      obtain ⟨hmem, hfirst, o, ho, hn, e1, e2⟩ := hs g m hmm
      obtain ⟨o', ho', e3, e4⟩ := hrow g hgm _ hmem
      rw [ho] at ho'
      cases ho'
      rw [e4] at hfirst
      exact ⟨(first_iff h ho).1 hfirst, o, ho, hn, e1, by rw [e2, e3]⟩
    · rintro ⟨hl, o, ho, hn, e1, e2⟩
      obtain ⟨g, hgm, e3, e4⟩ := hof _ o ho
      refine ⟨g, hgm, ?_⟩
      unfold splitMark
      rw [e4, (first_iff h ho).2 hl]
      simp only [Option.bind_eq_bind, Option.bind_some, ho, if_pos hn, Option.some.injEq]
      rw [e3, ← e1, ← e2]

/-- Two networks of two segments, a merging in the first one: the numbers of the segments are not in order and they are unsigned. -/
def twoNetworks : List Obs := [⟨1, 1, -1, 1⟩, ⟨1, 1, 0, -1⟩, ⟨1, 2, -1, 1⟩, ⟨2, 1, -1, 4⟩, ⟨2, 1, 3, -1⟩]

/-- The merging of the row 2 is not drawn: the rows of the same number in both networks are taken as one segment. -/
theorem marks_wrong : marks Bins.stableArgsort twoNetworks = some ([], []) ∧
    (marks Bins.stableArgsort (twoNetworks.take 3)).map (fun p => p.1.map (·.row)) = some [2] := by decide +kernel

example : OneNetwork (twoNetworks.take 3) := ⟨by decide, by decide⟩

end Verif.Events
