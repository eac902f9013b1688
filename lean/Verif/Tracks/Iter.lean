import Verif.Tracks.Props
import Mathlib.Tactic.Ring
import Mathlib.Tactic.Positivity

/-!
# C162: the tracks one by one, lifetime and age

`iter_track`, `track_slice`, `nb_tracks`, `lifetime`, `age` (src/py_eddy_tracker/observations/tracking.py).
-/

namespace Verif.Tracks

variable {α : Type}

/-- The rows of `slice(i0, i0 + nb)`. -/
def rowsOf (data : List (Nat × α)) (ti : TIndex) (t : Nat) : List (Nat × α) :=
  (data.take (Py.bound data.length (ti.index t + ti.number t))).drop (Py.bound data.length (ti.index t))

/-- `track_slice` and the rows it selects (observations/tracking.py:71-73): the two arrays are read with a Python index, `none` is an exception. -/
def trackRows (data : List (Nat × α)) (t : Int) : Option (List (Nat × α)) :=
  (computeIndex (data.map Prod.fst)).bind (fun ti => (Py.idx ti.size t).map (rowsOf data ti))

/-- `iter_track` (observations/tracking.py:75-82). -/
def iterTrack (data : List (Nat × α)) : Option (List (List (Nat × α))) :=
  (computeIndex (data.map Prod.fst)).map (fun ti => ((List.range ti.size).filter (fun t => decide (ti.number t ≠ 0))).map (rowsOf data ti))

/-- `nb_tracks` (observations/tracking.py:104-114). -/
def nbTracks (data : List (Nat × α)) : Option Nat :=
  if data.isEmpty then some 0 else (computeIndex (data.map Prod.fst)).map (fun ti => (ti.numbers.filter (fun n => decide (n ≠ 0))).length)

/-- `lifetime` (observations/tracking.py:352-355). -/
def lifetime (data : List (Nat × α)) : Option (List Nat) := (computeIndex (data.map Prod.fst)).map (fun ti => Py.rep ti.numbers ti.numbers)

/-- `age` (observations/tracking.py:357-360), `n` is the field `observation_number`. A division by zero is `none` (nan or infinity). -/
def age (n : α → Nat) (data : List (Nat × α)) : Option (List (Option Rat)) :=
  (lifetime data).map (fun l => List.zipWith (fun (o : Nat × α) (k : Nat) =>
    if (k : Rat) - 1 = 0 then none else some ((n o.2 : Rat) / ((k : Rat) - 1) * 100)) data l)

/-! ### Specification -/

/-- The observations of the track `t`, in the order of the dataset. -/
def ofTrack (data : List (Nat × α)) (t : Nat) : List (Nat × α) := data.filter (fun o => decide (o.1 = t))

/-- `observation_number` is the rank in the track. -/
def Ranked (n : α → Nat) (data : List (Nat × α)) : Prop :=
  ∀ (i : Nat) o, data[i]? = some o → n o.2 = (ofTrack (data.take i) o.1).length

/-! ### Proofs -/

theorem filter_run {β : Type} (p : β → Bool) (l : List β) (a n : Nat) (h : ∀ (k : Nat) x, l[k]? = some x → (p x = true ↔ a ≤ k ∧ k < a + n)) :
    l.filter p = (l.take (a + n)).drop a := by
  have hsplit : l = l.take a ++ ((l.take (a + n)).drop a ++ l.drop (a + n)) := by
    have h1 : l.take a = (l.take (a + n)).take a := by rw [List.take_take]; congr 1; omega
    rw [← List.append_assoc]
    conv_rhs => rw [h1, List.take_append_drop, List.take_append_drop]
  have e1 : (l.take a).filter p = [] := by
    rw [List.filter_eq_nil_iff]
    intro x hx
    obtain ⟨k, hk⟩ := List.mem_iff_getElem?.1 hx
    rw [List.getElem?_take] at hk
    split at hk
    · intro hp
      have := (h k x hk).1 hp
      omega
    · cases hk
  have e2 : ((l.take (a + n)).drop a).filter p = (l.take (a + n)).drop a := by
    rw [List.filter_eq_self]
    intro x hx
    obtain ⟨k, hk⟩ := List.mem_iff_getElem?.1 hx
    rw [List.getElem?_drop, List.getElem?_take] at hk
    split at hk
    · exact (h _ x hk).2 (by omega)
    · cases hk
  have e3 : (l.drop (a + n)).filter p = [] := by
    rw [List.filter_eq_nil_iff]
    intro x hx
    obtain ⟨k, hk⟩ := List.mem_iff_getElem?.1 hx
    rw [List.getElem?_drop] at hk
    intro hp
    have := (h _ x hk).1 hp
    omega
  conv_lhs => rw [hsplit]
  rw [List.filter_append, List.filter_append, e1, e2, e3]
  simp

theorem rowsOf_eq {data : List (Nat × α)} (hc : Contig (data.map Prod.fst)) {ti : TIndex} (e : computeIndex (data.map Prod.fst) = some ti) (t : Nat) :
    rowsOf data ti t = ofTrack data t := by
  have ok := computeIndex_ok hc e
  unfold rowsOf ofTrack
  by_cases ht : t ∈ data.map Prod.fst
  · obtain ⟨a, ha, hk⟩ := (ok.slice t).1 ht
    have hn : 0 < ti.number t := by rw [computeIndex_number e]; exact List.count_pos_iff.2 ht
    have h1 := (List.getElem?_eq_some_iff.1 ((hk (a + ti.number t - 1)).2 ⟨by omega, by omega⟩)).1
    rw [List.length_map] at h1
    have b0 : Py.bound data.length (ti.index t) = a := by
      rw [ha]; unfold Py.bound; rw [if_pos (by omega)]; omega
    have b1 : Py.bound data.length (ti.index t + ti.number t) = a + ti.number t := by
      rw [ha]; unfold Py.bound; rw [if_pos (by omega)]; omega
    rw [b0, b1]
    symm
    apply filter_run
    intro k x hx
    rw [decide_eq_true_eq, ← hk k, List.getElem?_map, hx, Option.map_some, Option.some.injEq]
  · obtain ⟨h1, h2⟩ := (ok.slice t).2 ht
    rw [h1, h2]
    have : data.filter (fun o => decide (o.1 = t)) = [] := by
      rw [List.filter_eq_nil_iff]
      intro o ho h
      rw [decide_eq_true_eq] at h
      exact ht (List.mem_map.2 ⟨o, ho, h⟩)
    rw [this, List.drop_eq_nil_iff]
    simp

theorem numbers_ids {tr : List Nat} {ti : TIndex} (e : computeIndex tr = some ti) :
    (List.range ti.size).filter (fun t => decide (ti.number t ≠ 0)) = Py.unique tr := by
  have hlt : ∀ t ∈ tr, t < ti.size := by
    unfold computeIndex at e
    rw [Option.map_eq_some_iff] at e
    obtain ⟨s, hs, rfl⟩ := e
    exact (sizeOf_spec hs).1
  have hs1 : ((List.range ti.size).filter (fun t => decide (ti.number t ≠ 0))).Pairwise (· < ·) := List.Pairwise.filter _ List.pairwise_lt_range
  have hs2 := Py.unique_sorted tr
  apply List.Perm.eq_of_pairwise (le := (· < ·)) (fun a b _ _ h1 h2 => absurd h1 (by omega)) hs1 hs2
  rw [List.perm_ext_iff_of_nodup (hs1.imp (fun h => Nat.ne_of_lt h)) (Py.unique_nodup tr)]
  intro t
  rw [List.mem_filter, List.mem_range, decide_eq_true_eq, Py.mem_unique, computeIndex_number e]
  constructor
  · rintro ⟨_, h⟩
    exact List.count_pos_iff.1 (by omega)
  · intro h
    exact ⟨hlt t h, by have := List.count_pos_iff.2 h; omega⟩

/-- **C162** (`iter_track`): where the observations of each track follow each other, the datasets given are the ones of the tracks, each once, by increasing
numbers, with all their observations. Missing: a dataset without observation raises (`iter_empty_raises`). -/
theorem iter_track_partial (data : List (Nat × α)) (hne : data ≠ []) (hc : Contig (data.map Prod.fst)) :
    iterTrack data = some ((Py.unique (data.map Prod.fst)).map (ofTrack data)) := by
  obtain ⟨ti, e⟩ := computeIndex_total (contig_ne hne)
  unfold iterTrack
  rw [e, Option.map_some, numbers_ids e]
  congr 1
  exact List.map_congr_left (fun t _ => rowsOf_eq hc e t)

/-- **C162** (`track_slice`): the rows of a number which is not above the largest one are the ones of the track. -/
theorem track_slice_spec (data : List (Nat × α)) (hne : data ≠ []) (hc : Contig (data.map Prod.fst)) (t t' : Nat) (ht : t' ∈ data.map Prod.fst) (htt : t ≤ t') :
    trackRows data t = some (ofTrack data t) := by
  obtain ⟨ti, e⟩ := computeIndex_total (contig_ne hne)
  have ok := computeIndex_ok hc e
  unfold trackRows
  rw [e, Option.bind_some]
  have : Py.idx ti.size (t : Int) = some t := by
    have := ok.lt t' ht
    unfold Py.idx
    rw [if_pos (by omega), if_pos (by omega)]
    rfl
  rw [this, Option.map_some, rowsOf_eq hc e]

theorem ofTrack_flatMap_lt {data : List (Nat × α)} (hs : (data.map Prod.fst).Pairwise (· ≤ ·)) (s : Nat) :
    (List.range s).flatMap (ofTrack data) = data.filter (fun o => decide (o.1 < s)) := by
  induction s with
  | zero => simp
  | succ s ih =>
    rw [List.range_succ, List.flatMap_append, ih]
    simp only [List.flatMap_cons, List.flatMap_nil, List.append_nil]
    unfold ofTrack
    clear ih
    induction data with
    | nil => rfl
    | cons o data ihd =>
      rw [List.map_cons, List.pairwise_cons] at hs
      have ih' := ihd hs.2
      rcases Nat.lt_trichotomy o.1 s with h | h | h
      · rw [List.filter_cons_of_pos (by simpa using h), List.filter_cons_of_neg (by simpa using (by omega : o.1 ≠ s)),
          List.filter_cons_of_pos (by simpa using (by omega : o.1 < s + 1)), List.cons_append, ih']
      · have h0 : data.filter (fun o => decide (o.1 < s)) = [] := by
          rw [List.filter_eq_nil_iff]
          intro x hx hx'
          rw [decide_eq_true_eq] at hx'
          have := hs.1 x.1 (List.mem_map.2 ⟨x, hx, rfl⟩)
          omega
        rw [h0] at ih'
        rw [List.filter_cons_of_neg (by simpa using (by omega : s ≤ o.1)), List.filter_cons_of_pos (by simpa using h),
          List.filter_cons_of_pos (by simpa using (by omega : o.1 < s + 1)), h0, ← ih']
        rfl
      · rw [List.filter_cons_of_neg (by simpa using (by omega : s ≤ o.1)), List.filter_cons_of_neg (by simpa using (by omega : o.1 ≠ s)),
          List.filter_cons_of_neg (by simpa using (by omega : s + 1 ≤ o.1)), ih']

/-- The tracks given one after the other are the whole dataset when it is sorted. -/
theorem iter_track_all (data : List (Nat × α)) (hne : data ≠ []) (hs : (data.map Prod.fst).Pairwise (· ≤ ·)) :
    ∃ l, iterTrack data = some l ∧ l.flatten = data := by
  obtain ⟨ti, e⟩ := computeIndex_total (contig_ne hne)
  refine ⟨_, iter_track_partial data hne (contig_of_sorted hs), ?_⟩
  rw [← List.flatMap_def, ← numbers_ids e]
  have hfil : ∀ l : List Nat, (l.filter (fun t => decide (ti.number t ≠ 0))).flatMap (ofTrack data) = l.flatMap (ofTrack data) := by
    intro l
    induction l with
    | nil => rfl
    | cons t l ih =>
      by_cases h : ti.number t = 0
      · rw [List.filter_cons_of_neg (by simpa using h), ih, List.flatMap_cons]
        have : ofTrack data t = [] := by
          unfold ofTrack
          rw [List.filter_eq_nil_iff]
          intro o ho h'
          rw [decide_eq_true_eq] at h'
          rw [computeIndex_number e] at h
          have := List.count_pos_iff.2 (List.mem_map.2 ⟨o, ho, h'⟩ : t ∈ data.map Prod.fst)
          omega
        rw [this, List.nil_append]
      · rw [List.filter_cons_of_pos (by simpa using h), List.flatMap_cons, List.flatMap_cons, ih]
  rw [hfil, ofTrack_flatMap_lt hs, List.filter_eq_self]
  intro o ho
  rw [decide_eq_true_eq]
  exact (computeIndex_ok (contig_of_sorted hs) e).lt _ (List.mem_map.2 ⟨o, ho, rfl⟩)

/-- **C162** (`nb_tracks`): the number of distinct tracks, for every dataset. -/
theorem nb_tracks_spec (data : List (Nat × α)) : nbTracks data = some (data.map Prod.fst).dedup.length := by
  unfold nbTracks
  by_cases hne : data = []
  · subst hne; rfl
  · rw [if_neg (by simpa using hne)]
    obtain ⟨ti, e⟩ := computeIndex_total (contig_ne hne)
    rw [e, Option.map_some]
    congr 1
    have h1 : (ti.numbers.filter (fun n => decide (n ≠ 0))).length = ((List.range ti.size).filter (fun t => decide (ti.number t ≠ 0))).length := by
      unfold TIndex.numbers
      rw [List.filter_map, List.length_map]
      rfl
    rw [h1, numbers_ids e]
    exact (List.perm_insertionSort _ _).length_eq

/-- **C162** (`lifetime`): in a sorted dataset, the number of observations of its track for each observation. Missing: datasets where the numbers do not
increase (`lifetime_order_wrong`). -/
theorem lifetime_partial (data : List (Nat × α)) (hne : data ≠ []) (hs : (data.map Prod.fst).Pairwise (· ≤ ·)) :
    lifetime data = some (data.map (fun o => (ofTrack data o.1).length)) := by
  obtain ⟨ti, e⟩ := computeIndex_total (contig_ne hne)
  unfold lifetime
  rw [e, Option.map_some]
  congr 1
  have : Py.rep ti.numbers ti.numbers = (data.map Prod.fst).map ti.number := rep_eq hs e ti.number
  rw [this, List.map_map]
  apply List.map_congr_left
  intro o _
  show ti.number o.1 = _
  rw [computeIndex_number e, ofTrack, ← List.countP_eq_length_filter, List.count, List.countP_map]
  congr 1

theorem ofTrack_take {data : List (Nat × α)} {i : Nat} {o : Nat × α} (ho : data[i]? = some o) :
    (ofTrack (data.take i) o.1).length < (ofTrack data o.1).length := by
  have hi := (List.getElem?_eq_some_iff.1 ho).1
  have : ofTrack data o.1 = ofTrack (data.take i) o.1 ++ ofTrack (data.drop i) o.1 := by
    unfold ofTrack
    rw [← List.filter_append, List.take_append_drop]
  rw [this, List.length_append]
  have hm : o ∈ ofTrack (data.drop i) o.1 := by
    unfold ofTrack
    rw [List.mem_filter]
    refine ⟨?_, by simp⟩
    rw [List.mem_iff_getElem?]
    exact ⟨0, by rw [List.getElem?_drop]; simpa using ho⟩
  have := List.length_pos_of_mem hm
  omega

/-- **C162** (`age`): in a sorted dataset where `observation_number` is the rank in the track, a track of two observations or more has the age
`100 * rank / (size - 1)`: between 0 and 100, 0 exactly on its first observation and 100 exactly on the last one. Missing: tracks of one observation
(`age_single_nan`), parts of tracks (`age_part_wrong`). -/
theorem age_partial (n : α → Nat) (data : List (Nat × α)) (hne : data ≠ []) (hs : (data.map Prod.fst).Pairwise (· ≤ ·)) (hr : Ranked n data) :
    ∃ l, age n data = some l ∧ l.length = data.length ∧ ∀ (i : Nat) o, data[i]? = some o → 2 ≤ (ofTrack data o.1).length →
      ∃ v, l[i]? = some (some v) ∧ v * ((ofTrack data o.1).length - 1) = 100 * (ofTrack (data.take i) o.1).length ∧ 0 ≤ v ∧ v ≤ 100 ∧
        (v = 0 ↔ IsFirst (data.map Prod.fst) i) ∧ (v = 100 ↔ IsLast (data.map Prod.fst) i) := by
  refine ⟨_, by unfold age; rw [lifetime_partial data hne hs, Option.map_some], by simp, fun i o ho h2 => ?_⟩
  have hlt := ofTrack_take ho
  have hn := hr i o ho
  set k := (ofTrack data o.1).length with hk
  set r := (ofTrack (data.take i) o.1).length with hrr
  have hk1 : (0 : Rat) < (k : Rat) - 1 := by
    have : (2 : Rat) ≤ k := by exact_mod_cast h2
    linarith
  refine ⟨(r : Rat) / ((k : Rat) - 1) * 100, ?_, by field_simp, by positivity, ?_, ?_, ?_⟩
  · rw [List.getElem?_zipWith, List.getElem?_map, ho]
    simp only [Option.map_some]
    rw [if_neg (by rw [← hk]; exact ne_of_gt hk1), ← hn]
  · have : (r : Rat) ≤ (k : Rat) - 1 := by
      have : (r : Rat) + 1 ≤ k := by exact_mod_cast hlt
      linarith
    have : (r : Rat) / ((k : Rat) - 1) ≤ 1 := by rw [div_le_one hk1]; exact this
    linarith
  · have e1 : (r : Rat) / ((k : Rat) - 1) * 100 = 0 ↔ r = 0 := by
      constructor
      · intro h
        have h' : (r : Rat) / ((k : Rat) - 1) = 0 := by linarith
        rw [div_eq_zero_iff] at h'
        rcases h' with h' | h'
        · exact_mod_cast h'
        · exact absurd h' (ne_of_gt hk1)
      · intro h
        rw [h]
        simp
    rw [e1]
    constructor
    · intro h
      refine ⟨o.1, by rw [List.getElem?_map, ho, Option.map_some], fun j hj hj' => ?_⟩
      rw [List.getElem?_map, Option.map_eq_some_iff] at hj'
      obtain ⟨x, hx, hx'⟩ := hj'
      rw [hrr, List.length_eq_zero_iff, ofTrack, List.filter_eq_nil_iff] at h
      apply h x
      · rw [List.mem_iff_getElem?]
        exact ⟨j, by rw [List.getElem?_take, if_pos hj]; exact hx⟩
      · simpa using hx'
    · rintro ⟨t, ht, hf⟩
      rw [List.getElem?_map, ho, Option.map_some, Option.some.injEq] at ht
      rw [hrr, List.length_eq_zero_iff, ofTrack, List.filter_eq_nil_iff]
      intro x hx hx'
      rw [decide_eq_true_eq] at hx'
      obtain ⟨j, hj⟩ := List.mem_iff_getElem?.1 hx
      rw [List.getElem?_take] at hj
      split at hj
      · rename_i hji
        exact hf j hji (by rw [List.getElem?_map, hj, Option.map_some, hx', ht])
      · cases hj
  · have e1 : (r : Rat) / ((k : Rat) - 1) * 100 = 100 ↔ r + 1 = k := by
      constructor
      · intro h
        have h' : (r : Rat) / ((k : Rat) - 1) = 1 := by linarith
        rw [div_eq_one_iff_eq (ne_of_gt hk1)] at h'
        have : (r : Rat) + 1 = k := by linarith
        exact_mod_cast this
      · intro h
        have : (k : Rat) - 1 = r := by rw [← h]; push_cast; ring
        rw [this] at hk1 ⊢
        rw [div_self (ne_of_gt hk1)]
        ring
    rw [e1]
    have hsplit : k = r + 1 + (ofTrack (data.drop (i + 1)) o.1).length := by
      have hd : data.drop i = o :: data.drop (i + 1) := by
        obtain ⟨hi, hi'⟩ := List.getElem?_eq_some_iff.1 ho
        rw [List.drop_eq_getElem_cons hi, hi']
      have : ofTrack data o.1 = ofTrack (data.take i) o.1 ++ ofTrack (data.drop i) o.1 := by
        unfold ofTrack
        rw [← List.filter_append, List.take_append_drop]
      rw [hk, this, List.length_append, hd]
      have : ofTrack (o :: data.drop (i + 1)) o.1 = o :: ofTrack (data.drop (i + 1)) o.1 := by
        unfold ofTrack
        rw [List.filter_cons_of_pos (by simp)]
      rw [this, List.length_cons]
      omega
    constructor
    · intro h
      have h0 : (ofTrack (data.drop (i + 1)) o.1).length = 0 := by omega
      refine ⟨o.1, by rw [List.getElem?_map, ho, Option.map_some], fun j hj hj' => ?_⟩
      rw [List.getElem?_map, Option.map_eq_some_iff] at hj'
      obtain ⟨x, hx, hx'⟩ := hj'
      rw [List.length_eq_zero_iff, ofTrack, List.filter_eq_nil_iff] at h0
      apply h0 x
      · rw [List.mem_iff_getElem?]
        exact ⟨j - (i + 1), by rw [List.getElem?_drop]; rw [show i + 1 + (j - (i + 1)) = j by omega]; exact hx⟩
      · simpa using hx'
    · rintro ⟨t, ht, hf⟩
      rw [List.getElem?_map, ho, Option.map_some, Option.some.injEq] at ht
      have h0 : (ofTrack (data.drop (i + 1)) o.1).length = 0 := by
        rw [List.length_eq_zero_iff, ofTrack, List.filter_eq_nil_iff]
        intro x hx hx'
        rw [decide_eq_true_eq] at hx'
        obtain ⟨j, hj⟩ := List.mem_iff_getElem?.1 hx
        rw [List.getElem?_drop] at hj
        exact hf (i + 1 + j) (by omega) (by rw [List.getElem?_map, hj, Option.map_some, hx', ht])
      omega

/-- Three tracks, their rank in the second field. -/
def iterData : List (Nat × Nat) := [(1, 0), (1, 1), (1, 2), (3, 0), (3, 1), (7, 0), (7, 1), (7, 2), (7, 3), (7, 4)]

example : (iterData.map Prod.fst).Pairwise (· ≤ ·) ∧ Ranked id iterData ∧
    (iterTrack iterData).map (fun l => l.map List.length) = some [3, 2, 5] ∧ nbTracks iterData = some 3 ∧
    age id iterData = some [some 0, some 50, some 100, some 0, some 100, some 0, some 25, some 50, some 75, some 100] := by
  refine ⟨by decide, ?_, by decide, by decide, by decide +kernel⟩
  have h : ∀ i : Fin 10, ∀ o ∈ iterData[i.1]?, o.2 = (ofTrack (iterData.take i.1) o.1).length := by decide
  exact fun i o ho => h ⟨i, (List.getElem?_eq_some_iff.1 ho).1⟩ o ho

/-- A dataset without observation: `iter_track`, `lifetime` and `age` raise. -/
theorem iter_empty_raises (n : α → Nat) : iterTrack ([] : List (Nat × α)) = none ∧ lifetime ([] : List (Nat × α)) = none ∧ age n [] = none := ⟨rfl, rfl, rfl⟩

/-- C162 refuted: the observations of each track follow each other, but the track 2 is before the track 1, and takes its lifetime. -/
theorem lifetime_order_wrong : lifetime [(2, ()), (1, ()), (1, ())] = some [2, 2, 1] ∧ (ofTrack [(2, ()), (1, ()), (1, ())] 2).length = 1 := by decide

/-- C162 refuted: a track of one observation has no age. -/
theorem age_single_nan (n : α → Nat) (t : Nat) (x : α) : age n [(t, x)] = some [none] := by
  unfold age
  rw [lifetime_partial [(t, x)] (by simp) (by simp)]
  simp [ofTrack]

/-- C162 refuted: the end of a track (as given by `extract_with_period`) has an age above 100. -/
theorem age_part_wrong : age id [(1, 8), (1, 9), (1, 10)] = some [some 400, some 450, some 500] := by decide +kernel

end Verif.Tracks
