import Verif.Tracks.Props
import Verif.Tracks.Iter
import Verif.Runs.Props
import Verif.Stats.Props

/-!
# C190: summary of a dataset of tracks

Model of the numbers printed by `TrackEddiesObservations.__repr__` (src/py_eddy_tracker/observations/tracking.py:116-146). The means and
medians of the lists of distances, the format of the numbers and the lines common with `EddiesObservations` (histograms of C122) are not
modelled. Values are exact.
-/

namespace Verif.Tracks

variable {α : Type}

/-! ### Model -/

/-- The distances in km of which the mean and the median by day and by track are printed (tracking.py:129-133, 140-141). -/
def reportDistances (dist : α → α → Rat) (data : List (Nat × α)) : Option (List Rat × List Rat) := do
  let d ← distanceToNext dist data
  let km := d.map (fun x => x / 1000)
  let cum := Runs.cumsumByTrack km (data.map (fun o => (o.1 : Int)))
  let ti ← computeIndex (data.map Prod.fst)
  let m ← Py.set (List.replicate data.length true) (-1) false
  let m ← assignAll m (ti.firsts.tail.map (· - 1)) false
  some (Py.select m km, Py.select (m.map (!·)) cum)

/-- The classes of lifetime (tracking.py:124). -/
def lifeBins : List Rat := [1, 30, 90, 180, 270, 365, 1000, 10000]

/-- `pct_tracks_by_t` and `pct_obs_by_t` (tracking.py:125-128), `none` is nan. -/
def reportLifetimes (data : List (Nat × α)) : Option (List (Option Rat) × List (Option Rat)) := do
  let ti ← computeIndex (data.map Prod.fst)
  let nb := ti.numbers.map (fun (n : Nat) => ((n : Rat), (n : Rat)))
  let tracks ← Stats.hist lifeBins nb true false true
  let obs ← Stats.hist lifeBins nb true false false
  some (tracks, obs)

/-- The lengths of the shortest and of the longest tracks (tracking.py:136). -/
def reportSizes (data : List (Nat × α)) : Option (Nat × Nat) := do
  let ti ← computeIndex (data.map Prod.fst)
  let s ← (ti.numbers.filter (fun n => decide (n ≠ 0))).min?
  let l ← ti.numbers.max?
  some (s, l)

/-! ### Specification -/

/-- The row `k` is followed by a row of the same track. -/
def follows (data : List (Nat × α)) (k : Nat) : Bool :=
  match data[k]?, data[k + 1]? with
  | some a, some b => decide (a.1 = b.1)
  | _, _ => false

/-- The number of the track of a row. -/
def trackAt (data : List (Nat × α)) (k : Nat) : Nat := ((data[k]?).map Prod.fst).getD 0

/-- The length of the path of a track: the sum of the distances between its consecutive observations. -/
def pathLength (dist : α → α → Rat) (data : List (Nat × α)) (t : Nat) : Rat :=
  (((List.range data.length).filter (fun k => decide (trackAt data k = t))).map (nextDistance dist data)).sum

/-- The distances printed: by day the ones between consecutive observations of a track, by track the lengths of the paths, one by track. -/
def ReportOf (dist : α → α → Rat) (data : List (Nat × α)) (r : List Rat × List Rat) : Prop :=
  r.1 = ((List.range data.length).filter (follows data)).map (fun k => nextDistance dist data k / 1000) ∧
  r.2 = ((List.range data.length).filter (fun k => !follows data k)).map (fun k => pathLength dist data (trackAt data k) / 1000)

/-- Full statement for the distances. -/
def DistancesReported : Prop := ∀ (dist : Rat → Rat → Rat) (data : List (Nat × Rat)), data ≠ [] → (data.map Prod.fst).Pairwise (· ≤ ·) →
  ∃ r, reportDistances dist data = some r ∧ ReportOf dist data r

/-- The numbers of the tracks. -/
def ids (data : List (Nat × α)) : List Nat := (data.map Prod.fst).dedup

/-- The number of observations of a track. -/
def sizeIn (data : List (Nat × α)) (t : Nat) : Nat := (ofTrack data t).length

/-- A size in a class of lifetime: `[1, 30[`, `[30, 90[`, ..., `[1000, 10000]`. -/
def inClass (a n : Nat) : Bool :=
  match a with
  | 0 => decide (1 ≤ n ∧ n < 30)
  | 1 => decide (30 ≤ n ∧ n < 90)
  | 2 => decide (90 ≤ n ∧ n < 180)
  | 3 => decide (180 ≤ n ∧ n < 270)
  | 4 => decide (270 ≤ n ∧ n < 365)
  | 5 => decide (365 ≤ n ∧ n < 1000)
  | 6 => decide (1000 ≤ n ∧ n ≤ 10000)
  | _ => false

/-- The shares, in percent, of the tracks and of the observations by class of lifetime. -/
def LifetimesOf (data : List (Nat × α)) (r : List (Option Rat) × List (Option Rat)) : Prop :=
  r.1 = (List.range 7).map (fun a => some (100 * (((ids data).filter (fun t => inClass a (sizeIn data t))).length : Rat) / (ids data).length)) ∧
  r.2 = (List.range 7).map (fun a =>
    some (100 * ((((ids data).filter (fun t => inClass a (sizeIn data t))).map (sizeIn data)).sum : Rat) / data.length))

/-- Full statement for the lifetimes. -/
def LifetimesReported : Prop := ∀ data : List (Nat × Unit), data ≠ [] → ∃ r, reportLifetimes data = some r ∧ LifetimesOf data r

/-! ### Proofs -/

theorem firsts_iff {data : List (Nat × α)} (hs : (data.map Prod.fst).Pairwise (· ≤ ·))
    (hgap : ∀ t, (∃ o ∈ data, t ≤ o.1) → ∃ o ∈ data, o.1 = t) {ti : TIndex} (e : computeIndex (data.map Prod.fst) = some ti) :
    (∀ i ∈ ti.firsts.tail.map (· - 1), 0 ≤ i ∧ i < (data.length : Int)) ∧
    ∀ k : Nat, k < data.length → ((k : Int) ∈ ti.firsts.tail.map (· - 1) ↔ k + 1 < data.length ∧ follows data k = false) := by
  have ok := computeIndex_ok (contig_of_sorted hs) e
  have hall : ∀ t, t < ti.size → t ∈ data.map Prod.fst := by
    intro t ht
    obtain ⟨t', h1, h2⟩ := ok.top
    obtain ⟨o, ho, rfl⟩ := List.mem_map.1 h1
    obtain ⟨o', ho', rfl⟩ := hgap t ⟨o, ho, by omega⟩
    exact List.mem_map.2 ⟨o', ho', rfl⟩
  have hmem : ∀ i : Int, i ∈ ti.firsts.tail.map (· - 1) ↔ ∃ t, 1 ≤ t ∧ t < ti.size ∧ ti.index t - 1 = i := by
    intro i
    rw [List.mem_map]
    constructor
    · rintro ⟨x, hx, rfl⟩
      obtain ⟨k, hk⟩ := List.mem_iff_getElem?.1 hx
      rw [List.getElem?_tail] at hk
      unfold TIndex.firsts at hk
      rw [List.getElem?_map, Option.map_eq_some_iff] at hk
      obtain ⟨t, h1, h2⟩ := hk
      obtain ⟨h3, h4⟩ := List.getElem?_eq_some_iff.1 h1
      simp at h3 h4
      exact ⟨t, by omega, by omega, by rw [h2]⟩
    · rintro ⟨t, h1, h2, rfl⟩
      refine ⟨ti.index t, List.mem_iff_getElem?.2 ⟨t - 1, ?_⟩, rfl⟩
      rw [List.getElem?_tail]
      unfold TIndex.firsts
      rw [List.getElem?_map, show t - 1 + 1 = t by omega, List.getElem?_range h2]; rfl
  have hidx : ∀ t, 1 ≤ t → t < ti.size → ∃ a : Nat, 0 < a ∧ a < data.length ∧ ti.index t = a ∧
      ((data.map Prod.fst)[a]? = some t) ∧ ∀ j, (data.map Prod.fst)[j]? = some t → a ≤ j := by
    intro t h1 h2
    obtain ⟨a, ha, hk⟩ := (ok.slice t).1 (hall t h2)
    have hn : 0 < ti.number t := by
      rw [computeIndex_number e]; exact List.count_pos_iff.2 (hall t h2)
    have hat := (hk a).2 ⟨le_refl _, by omega⟩
    have hal := (List.getElem?_eq_some_iff.1 hat).1
    rw [List.length_map] at hal
    refine ⟨a, ?_, hal, ha, hat, fun j hj => ((hk j).1 hj).1⟩
    obtain ⟨j, hj⟩ := List.mem_iff_getElem?.1 (hall 0 (by omega))
    by_contra h0
    have : a = 0 := by omega
    subst this
    obtain ⟨hj', ej⟩ := List.getElem?_eq_some_iff.1 hj
    obtain ⟨ha', ea⟩ := List.getElem?_eq_some_iff.1 hat
    rcases Nat.eq_zero_or_pos j with rfl | hjp
    · rw [hat] at hj
      have := Option.some.inj hj
      omega
    · have := List.pairwise_iff_getElem.1 hs 0 j ha' hj' hjp
      omega
  refine ⟨fun i hi => ?_, fun k hk => ?_⟩
  · obtain ⟨t, h1, h2, rfl⟩ := (hmem i).1 hi
    obtain ⟨a, h3, h4, h5, _⟩ := hidx t h1 h2
    rw [h5]
    omega
  · unfold follows
    rw [hmem]
    constructor
    · rintro ⟨t, h1, h2, h3⟩
      obtain ⟨a, h4, h5, h6, h7, h8⟩ := hidx t h1 h2
      have ha : a = k + 1 := by omega
      subst ha
      refine ⟨h5, ?_⟩
      rw [List.getElem?_eq_getElem hk, List.getElem?_eq_getElem h5]
      rw [List.getElem?_map, List.getElem?_eq_getElem h5] at h7
      have h7 : (data[k + 1]).1 = t := by simpa using h7
      simp only [decide_eq_false_iff_not]
      intro heq
      have := h8 k (by rw [List.getElem?_map, List.getElem?_eq_getElem hk]; simp [heq, h7])
      omega
    · rintro ⟨hlast, hf⟩
      rw [List.getElem?_eq_getElem hk, List.getElem?_eq_getElem hlast] at hf
      have heq : (data[k]).1 ≠ (data[k + 1]).1 := by simpa using hf
      have hle : (data[k]).1 ≤ (data[k + 1]).1 := by
        have := List.pairwise_iff_getElem.1 hs k (k + 1) (by simpa using hk) (by simpa using hlast) (by omega)
        simpa using this
      refine ⟨(data[k + 1]).1, by omega, ok.lt _ (List.mem_map.2 ⟨_, List.getElem_mem hlast, rfl⟩), ?_⟩
      obtain ⟨a, h4, h5, h6, h7, h8⟩ := hidx (data[k + 1]).1 (by omega)
        (ok.lt _ (List.mem_map.2 ⟨_, List.getElem_mem hlast, rfl⟩))
      have h9 := h8 (k + 1) (by rw [List.getElem?_map, List.getElem?_eq_getElem hlast]; rfl)
      have h10 : ¬ a ≤ k := by
        intro hak
        rw [List.getElem?_map, List.getElem?_eq_getElem h5] at h7
        have h7 : (data[a]).1 = (data[k + 1]).1 := by simpa using h7
        rcases Nat.eq_or_lt_of_le hak with rfl | hlt
        · exact heq h7
        · have := List.pairwise_iff_getElem.1 hs a k (by simpa using h5) (by simpa using hk) hlt
          simp at this
          omega
      rw [h6]; omega

theorem follows_last (data : List (Nat × α)) (k : Nat) (h : data.length ≤ k + 1) : follows data k = false := by
  unfold follows
  rw [List.getElem?_eq_none (l := data) h]
  cases data[k]? <;> rfl

theorem eq_range_map {β : Type} {l : List β} {n : Nat} {f : Nat → β} (hl : l.length = n) (h : ∀ k, k < n → l[k]? = some (f k)) :
    l = (List.range n).map f := by
  apply List.ext_getElem?
  intro k
  by_cases hk : k < n
  · rw [h k hk, List.getElem?_map, List.getElem?_range hk]; rfl
  · rw [List.getElem?_eq_none (by omega), List.getElem?_eq_none (by simp; omega)]

/-- The rows after a row which is not followed are not of its track. -/
theorem after_last {data : List (Nat × α)} (hs : (data.map Prod.fst).Pairwise (· ≤ ·)) {k : Nat} (hk : k < data.length)
    (hf : follows data k = false) {j : Nat} (hj : j < data.length) (hkj : k < j) : trackAt data j ≠ trackAt data k := by
  have h1 : k + 1 < data.length := by omega
  unfold follows at hf
  rw [List.getElem?_eq_getElem hk, List.getElem?_eq_getElem h1] at hf
  have heq : (data[k]).1 ≠ (data[k + 1]).1 := by simpa using hf
  have mono : ∀ i j (hi : i < data.length) (hj : j < data.length), i < j → (data[i]).1 ≤ (data[j]).1 := by
    intro i j hi hj hij
    have := List.pairwise_iff_getElem.1 hs i j (by simpa using hi) (by simpa using hj) hij
    simpa using this
  have h2 := mono k (k + 1) hk h1 (by omega)
  unfold trackAt
  rw [List.getElem?_eq_getElem hk, List.getElem?_eq_getElem hj]
  simp only [Option.map_some, Option.getD_some]
  rcases Nat.eq_or_lt_of_le (show k + 1 ≤ j by omega) with rfl | hlt
  · omega
  · have h3 := mono (k + 1) j h1 hj hlt
    omega

theorem cum_last (dist : α → α → Rat) {data : List (Nat × α)} (hs : (data.map Prod.fst).Pairwise (· ≤ ·)) {k : Nat} (hk : k < data.length)
    (hf : follows data k = false) :
    (Runs.cumsumByTrack ((List.range data.length).map (fun k => nextDistance dist data k / 1000)) (data.map (fun o => (o.1 : Int))))[k]? =
      some (pathLength dist data (trackAt data k) / 1000) := by
  have htr : data.map (fun o => (o.1 : Int)) = (List.range data.length).map (fun k => (trackAt data k : Int)) := by
    refine eq_range_map (by simp) (fun j hj => ?_)
    unfold trackAt
    rw [List.getElem?_map, List.getElem?_eq_getElem hj]
    rfl
  have hsi : (data.map (fun o => (o.1 : Int))).Pairwise (· ≤ ·) := by
    rw [List.pairwise_map] at hs ⊢
    exact hs.imp (fun h => by exact_mod_cast h)
  rw [Runs.cumsum_sorted _ _ hsi (by simp) k (t := (trackAt data k : Int))
    (by rw [htr, List.getElem?_map, List.getElem?_range hk]; rfl), htr, List.zip_map']
  congr 1
  rw [← List.map_take, List.filter_map, List.map_map]
  have hpre : (List.range data.length).filter ((fun p : Rat × Int => decide (p.2 = (trackAt data k : Int))) ∘
      fun j => (nextDistance dist data j / 1000, (trackAt data j : Int))) =
      ((List.range data.length).take (k + 1)).filter ((fun p : Rat × Int => decide (p.2 = (trackAt data k : Int))) ∘
        fun j => (nextDistance dist data j / 1000, (trackAt data j : Int))) := by
    conv_lhs => rw [← List.take_append_drop (k + 1) (List.range data.length)]
    rw [List.filter_append]
    have : ((List.range data.length).drop (k + 1)).filter ((fun p : Rat × Int => decide (p.2 = (trackAt data k : Int))) ∘
        fun j => (nextDistance dist data j / 1000, (trackAt data j : Int))) = [] := by
      rw [List.filter_eq_nil_iff]
      intro j hj
      obtain ⟨i, hi⟩ := List.mem_iff_getElem?.1 hj
      rw [List.getElem?_drop] at hi
      obtain ⟨h1, h2⟩ := List.getElem?_eq_some_iff.1 hi
      simp only [List.length_range, List.getElem_range] at h1 h2
      have := after_last hs hk hf (j := j) (by omega) (by omega)
      simp only [Function.comp, decide_eq_true_eq]
      exact_mod_cast this
    rw [this, List.append_nil]
  rw [← hpre]
  unfold pathLength
  have hfil : (List.range data.length).filter ((fun p : Rat × Int => decide (p.2 = (trackAt data k : Int))) ∘
      fun j => (nextDistance dist data j / 1000, (trackAt data j : Int))) =
      (List.range data.length).filter (fun j => decide (trackAt data j = trackAt data k)) := by
    apply List.filter_congr
    intro j _
    simp [Function.comp]
  rw [hfil]
  generalize (List.range data.length).filter (fun j => decide (trackAt data j = trackAt data k)) = l
  induction l with
  | nil => simp
  | cons a l ih => rw [List.map_cons, List.sum_cons, List.map_cons, List.sum_cons, ih]; simp only [Function.comp]; ring

/-- **C190** (distances): for tracks numbered from 0 without gap, the distances by day are the ones between the consecutive observations of
the tracks and the distances by track the lengths of their paths, one by track. Missing: other numbers (`distances_wrong`). -/
theorem report_distances_partial (dist : α → α → Rat) {data : List (Nat × α)} (hne : data ≠ []) (hs : (data.map Prod.fst).Pairwise (· ≤ ·))
    (hgap : ∀ t, (∃ o ∈ data, t ≤ o.1) → ∃ o ∈ data, o.1 = t) : ∃ r, reportDistances dist data = some r ∧ ReportOf dist data r := by
  obtain ⟨d, hd, hdl, hdk⟩ := distance_to_next_partial dist data hne hs hgap
  obtain ⟨ti, e⟩ := computeIndex_total (contig_ne hne)
  obtain ⟨hrange, hiff⟩ := firsts_iff hs hgap e
  have hpos : 0 < data.length := List.length_pos_of_ne_nil hne
  have hset : Py.set (List.replicate data.length true) (-1) false = some ((List.replicate data.length true).set (data.length - 1) false) := by
    unfold Py.set Py.idx
    rw [if_neg (by omega), List.length_replicate, if_pos (by omega)]
    simp only [Option.map_some, Option.some.injEq]
    congr 1
    omega
  obtain ⟨m, hm, hml, hmk⟩ := assignAll_spec (ti.firsts.tail.map (· - 1)) ((List.replicate data.length true).set (data.length - 1) false) false
    (by simpa using hrange)
  have hmr : m = (List.range data.length).map (follows data) := by
    refine eq_range_map (by simpa using hml) (fun k hk => ?_)
    rw [hmk k (by simpa using hk)]
    by_cases hl : k + 1 < data.length
    · have := hiff k hk
      cases hf : follows data k with
      | true => rw [if_neg (by rw [this, hf]; simp), List.getElem?_set_ne (by omega), List.getElem?_replicate, if_pos hk]
      | false => rw [if_pos (this.2 ⟨hl, hf⟩)]
    · rw [follows_last data k (by omega), show k = data.length - 1 by omega, List.getElem?_set_self (by simpa using hpos), ite_self]
  have hkm : d.map (fun x => x / 1000) = (List.range data.length).map (fun k => nextDistance dist data k / 1000) := by
    refine eq_range_map (by simpa using hdl) (fun k hk => ?_)
    rw [List.getElem?_map, hdk k hk]
    rfl
  refine ⟨(((List.range data.length).filter (follows data)).map (fun k => nextDistance dist data k / 1000),
    ((List.range data.length).filter (fun k => !follows data k)).map (fun k => pathLength dist data (trackAt data k) / 1000)), ?_, rfl, rfl⟩
  unfold reportDistances
  rw [hd, e]
  simp only [Option.bind_eq_bind, Option.bind_some]
  rw [hset]
  simp only [Option.bind_some]
  rw [hm]
  simp only [Option.bind_some, Option.some.injEq, Prod.mk.injEq]
  rw [hmr, hkm, Py.select_map]
  refine ⟨rfl, ?_⟩
  have hsel : ∀ (c : List Rat) (p : Nat → Bool) (f : Nat → Rat) (n : Nat), (∀ k, k < n → p k = true → c[k]? = some (f k)) → n ≤ c.length →
      Py.select ((List.range n).map p) c = ((List.range n).filter p).map f := by
    intro c p f n hc hlen
    have hz : ((List.range n).map p).zip c = (List.range n).map (fun k => (p k, c.getD k 0)) := by
      refine eq_range_map (by simp; omega) (fun k hk => ?_)
      have h1 : ((List.range n).map p)[k]? = some (p k) := by rw [List.getElem?_map, List.getElem?_range hk]; rfl
      have hkc : k < c.length := by omega
      have h2 : (((List.range n).map p).zip c)[k]? = some (p k, c[k]) := List.getElem?_zip_eq_some.2 ⟨h1, List.getElem?_eq_getElem hkc⟩
      rw [h2]
      simp [List.getD_eq_getElem?_getD, List.getElem?_eq_getElem (show k < c.length by omega)]
    unfold Py.select
    rw [hz, List.filterMap_map, ← List.filterMap_eq_map, ← List.filterMap_eq_filter, List.filterMap_filterMap]
    apply List.filterMap_congr
    intro k hk
    cases hp : p k with
    | false => simp [Function.comp, hp, Option.guard]
    | true => simp [Function.comp, hp, Option.guard, List.getD_eq_getElem?_getD, hc k (List.mem_range.1 hk) hp]
  rw [List.map_map]
  refine hsel _ _ _ _ (fun k hk hp => ?_) ?_
  · exact cum_last dist hs hk (by simpa [Function.comp] using hp)
  · have hlen : ∀ (l : List (Rat × Int)) (a : Int) (b : Rat), (Runs.cumLoop a b l).length = l.length := by
      intro l
      induction l with
      | nil => intro _ _; rfl
      | cons x l ih => intro a b; simp [Runs.cumLoop, ih]
    unfold Runs.cumsumByTrack
    rw [hlen]
    simp

/-! ### Sizes and lifetimes -/

theorem sizeIn_eq_count (data : List (Nat × α)) (t : Nat) : sizeIn data t = (data.map Prod.fst).count t := by
  unfold sizeIn ofTrack
  rw [List.count_eq_countP, List.countP_map, List.countP_eq_length_filter]
  congr 1

theorem numbers_eq {data : List (Nat × α)} {ti : TIndex} (e : computeIndex (data.map Prod.fst) = some ti) :
    ti.numbers = (List.range ti.size).map (sizeIn data) := by
  unfold TIndex.numbers
  apply List.map_congr_left
  intro t _
  rw [computeIndex_number e, sizeIn_eq_count]

theorem sizeIn_pos {data : List (Nat × α)} {t : Nat} : sizeIn data t ≠ 0 ↔ t ∈ ids data := by
  rw [sizeIn_eq_count, ids, List.mem_dedup, ← List.count_pos_iff]
  omega

theorem ids_lt {data : List (Nat × α)} {ti : TIndex} (e : computeIndex (data.map Prod.fst) = some ti) {t : Nat} (h : t ∈ ids data) : t < ti.size := by
  unfold computeIndex at e
  rw [Option.map_eq_some_iff] at e
  obtain ⟨s, hs, rfl⟩ := e
  exact (sizeOf_spec hs).1 t (List.mem_dedup.1 h)

/-- The numbers which pass a test which refuses the numbers without observation. -/
theorem filter_perm {data : List (Nat × α)} {ti : TIndex} (e : computeIndex (data.map Prod.fst) = some ti) (p : Nat → Bool) (h0 : p 0 = false) :
    ((List.range ti.size).filter (fun t => p (sizeIn data t))).Perm ((ids data).filter (fun t => p (sizeIn data t))) := by
  refine (List.perm_ext_iff_of_nodup (List.nodup_range.filter _) ((List.nodup_dedup _).filter _)).2 (fun t => ?_)
  rw [List.mem_filter, List.mem_filter, List.mem_range]
  constructor
  · rintro ⟨_, h⟩
    refine ⟨sizeIn_pos.1 (fun hz => ?_), h⟩
    rw [hz, h0] at h
    cases h
  · rintro ⟨h1, h2⟩
    exact ⟨ids_lt e h1, h2⟩

/-- **C190** (sizes): the shortest and the longest tracks, whatever their numbers. -/
theorem report_sizes {data : List (Nat × α)} (hne : data ≠ []) : ∃ s l, reportSizes data = some (s, l) ∧
    (∀ t ∈ ids data, s ≤ sizeIn data t ∧ sizeIn data t ≤ l) ∧ (∃ t ∈ ids data, sizeIn data t = s) ∧ ∃ t ∈ ids data, sizeIn data t = l := by
  obtain ⟨ti, e⟩ := computeIndex_total (contig_ne hne)
  obtain ⟨o, hod⟩ := List.exists_mem_of_ne_nil _ hne
  have hid : o.1 ∈ ids data := List.mem_dedup.2 (List.mem_map.2 ⟨o, hod, rfl⟩)
  have hmem : ∀ t ∈ ids data, sizeIn data t ∈ ti.numbers := fun t ht => by
    rw [numbers_eq e]; exact List.mem_map.2 ⟨t, List.mem_range.2 (ids_lt e ht), rfl⟩
  have hmem' : ∀ t ∈ ids data, sizeIn data t ∈ ti.numbers.filter (fun n => decide (n ≠ 0)) := fun t ht =>
    List.mem_filter.2 ⟨hmem t ht, by simpa using sizeIn_pos.2 ht⟩
  have hback : ∀ n ∈ ti.numbers, n ≠ 0 → ∃ t ∈ ids data, sizeIn data t = n := by
    intro n hn h0
    rw [numbers_eq e] at hn
    obtain ⟨t, _, rfl⟩ := List.mem_map.1 hn
    exact ⟨t, sizeIn_pos.1 h0, rfl⟩
  obtain ⟨s, hs⟩ : ∃ s, (ti.numbers.filter (fun n => decide (n ≠ 0))).min? = some s := by
    cases h : (ti.numbers.filter (fun n => decide (n ≠ 0))).min? with
    | some s => exact ⟨s, rfl⟩
    | none =>
      rw [List.min?_eq_none_iff] at h
      have := hmem' _ hid
      rw [h] at this
      simp at this
  obtain ⟨l, hl⟩ : ∃ l, ti.numbers.max? = some l := by
    cases h : ti.numbers.max? with
    | some s => exact ⟨s, rfl⟩
    | none =>
      rw [List.max?_eq_none_iff] at h
      have := hmem _ hid
      rw [h] at this
      simp at this
  have hs' := List.min?_eq_some_iff.1 hs
  have hl' := List.max?_eq_some_iff.1 hl
  refine ⟨s, l, ?_, fun t ht => ⟨hs'.2 _ (hmem' t ht), hl'.2 _ (hmem t ht)⟩, ?_, ?_⟩
  · unfold reportSizes
    rw [e]
    simp only [Option.bind_eq_bind, Option.bind_some, hs, hl]
  · have h1 := List.mem_filter.1 hs'.1
    exact hback s h1.1 (by simpa using h1.2)
  · refine hback l hl'.1 (fun h0 => ?_)
    have h1 := hl'.2 _ (hmem _ hid)
    have h2 := sizeIn_pos.2 hid
    omega

theorem bin_class (n a : Nat) (ha : a < 7) : Boxes.binNumber lifeBins (n : Rat) = a + 1 ↔ inClass a n = true := by
  have hc : ∀ k : Nat, (((k : Nat) : Rat) ≤ (n : Rat)) = (k ≤ n) := fun k => by rw [eq_iff_iff]; exact Nat.cast_le
  have e : Boxes.binNumber lifeBins (n : Rat) = (if 1 ≤ n then 1 else 0) + (if 30 ≤ n then 1 else 0) + (if 90 ≤ n then 1 else 0) +
      (if 180 ≤ n then 1 else 0) + (if 270 ≤ n then 1 else 0) + (if 365 ≤ n then 1 else 0) + (if 1000 ≤ n then 1 else 0) +
      (if 10000 ≤ n then 1 else 0) - (if n = 10000 then 1 else 0) := by
    have h1 := hc 1
    have h2 := hc 30
    have h3 := hc 90
    have h4 := hc 180
    have h5 := hc 270
    have h6 := hc 365
    have h7 := hc 1000
    have h8 := hc 10000
    push_cast at h1 h2 h3 h4 h5 h6 h7 h8
    have h9 : ((10000 : Rat) = (n : Rat)) = (n = 10000) := by
      rw [eq_iff_iff]
      constructor
      · intro h; exact_mod_cast h.symm
      · intro h; rw [h]; norm_num
    unfold Boxes.binNumber lifeBins
    simp only [List.countP_cons, List.countP_nil, h1, h2, h3, h4, h5, h6, h7, h8, decide_eq_true_eq, List.getLast?_cons_cons,
      List.getLast?_singleton, Option.some.injEq, h9]
    congr 1
    ring
  rw [e]
  clear e hc
  obtain rfl | rfl | rfl | rfl | rfl | rfl | rfl : a = 0 ∨ a = 1 ∨ a = 2 ∨ a = 3 ∨ a = 4 ∨ a = 5 ∨ a = 6 := by omega
  all_goals
    simp only [inClass, decide_eq_true_eq]
    obtain h | h | h | h | h | h | h | h | h | h : n < 1 ∨ (1 ≤ n ∧ n < 30) ∨ (30 ≤ n ∧ n < 90) ∨ (90 ≤ n ∧ n < 180) ∨ (180 ≤ n ∧ n < 270) ∨
      (270 ≤ n ∧ n < 365) ∨ (365 ≤ n ∧ n < 1000) ∨ (1000 ≤ n ∧ n < 10000) ∨ n = 10000 ∨ 10000 < n := by omega
    all_goals
      simp (disch := omega) only [if_pos, if_neg]
      first | omega | (rw [true_iff]; omega)

theorem class_total (n : Nat) (h : n ≤ 10000) (hn : n ≠ 0) : ∃ a, a < 7 ∧ ∀ b, b < 7 → (inClass b n = true ↔ b = a) := by
  have key : ∀ a, a < 7 → inClass a n = true → ∀ b, b < 7 → (inClass b n = true ↔ b = a) := by
    intro a ha hca b hb
    constructor
    · intro hcb
      have h1 := (bin_class n a ha).2 hca
      have h2 := (bin_class n b hb).2 hcb
      omega
    · rintro rfl; exact hca
  by_cases h1 : n < 30
  · exact ⟨0, by omega, key 0 (by omega) (by simp [inClass]; omega)⟩
  by_cases h2 : n < 90
  · exact ⟨1, by omega, key 1 (by omega) (by simp [inClass]; omega)⟩
  by_cases h3 : n < 180
  · exact ⟨2, by omega, key 2 (by omega) (by simp [inClass]; omega)⟩
  by_cases h4 : n < 270
  · exact ⟨3, by omega, key 3 (by omega) (by simp [inClass]; omega)⟩
  by_cases h5 : n < 365
  · exact ⟨4, by omega, key 4 (by omega) (by simp [inClass]; omega)⟩
  by_cases h6 : n < 1000
  · exact ⟨5, by omega, key 5 (by omega) (by simp [inClass]; omega)⟩
  · exact ⟨6, by omega, key 6 (by omega) (by simp [inClass]; omega)⟩

/-- A value of the histogram of the sizes. -/
theorem histo_class {data : List (Nat × α)} {ti : TIndex} (e : computeIndex (data.map Prod.fst) = some ti) (w : Nat → Rat) {a : Nat} (ha : a < 7) :
    Stats.histo lifeBins (ti.numbers.map (fun (n : Nat) => ((n : Rat), w n))) a =
      (((ids data).filter (fun t => inClass a (sizeIn data t))).map (fun t => w (sizeIn data t))).sum := by
  unfold Stats.histo
  rw [numbers_eq e, List.map_map, List.filter_map, List.map_map]
  have hf : (List.range ti.size).filter ((fun o : Rat × Rat => decide (Boxes.binNumber lifeBins o.1 = a + 1)) ∘
      ((fun (n : Nat) => ((n : Rat), w n)) ∘ sizeIn data)) = (List.range ti.size).filter (fun t => inClass a (sizeIn data t)) := by
    apply List.filter_congr
    intro t _
    have := bin_class (sizeIn data t) a ha
    simp only [Function.comp]
    rw [Bool.eq_iff_iff, decide_eq_true_eq]
    exact this
  rw [hf]
  have hp := (filter_perm e (inClass a) (by
    obtain rfl | rfl | rfl | rfl | rfl | rfl | rfl : a = 0 ∨ a = 1 ∨ a = 2 ∨ a = 3 ∨ a = 4 ∨ a = 5 ∨ a = 6 := by omega
    all_goals rfl)).map (fun t => w (sizeIn data t))
  rw [← hp.sum_eq]
  rfl

/-- The classes share all the tracks. -/
theorem class_sum (data : List (Nat × α)) (w : Nat → Rat) : ∀ l : List Nat, (∀ t ∈ l, sizeIn data t ≤ 10000 ∧ sizeIn data t ≠ 0) →
    ((List.range 7).map (fun a => ((l.filter (fun t => inClass a (sizeIn data t))).map (fun t => w (sizeIn data t))).sum)).sum =
      (l.map (fun t => w (sizeIn data t))).sum
  | [], _ => by simp
  | t :: l, h => by
    obtain ⟨a, ha, hb⟩ := class_total _ (h t (by simp)).1 (h t (by simp)).2
    have ih := class_sum data w l (fun x hx => h x (by simp [hx]))
    have hstep : ∀ b, b < 7 → (((t :: l).filter (fun t => inClass b (sizeIn data t))).map (fun t => w (sizeIn data t))).sum =
        (if b = a then w (sizeIn data t) else 0) + ((l.filter (fun t => inClass b (sizeIn data t))).map (fun t => w (sizeIn data t))).sum := by
      intro b hb'
      rw [List.filter_cons]
      by_cases hba : b = a
      · rw [if_pos ((hb b hb').2 hba), if_pos hba, List.map_cons, List.sum_cons]
      · rw [if_neg (fun hc => hba ((hb b hb').1 hc)), if_neg hba, zero_add]
    rw [List.map_cons, List.sum_cons, ← ih, List.map_congr_left (fun b hb' => hstep b (List.mem_range.1 hb'))]
    simp only [List.range_succ, List.range_zero, List.nil_append, List.map_append, List.map_cons, List.map_nil, List.sum_append, List.sum_cons,
      List.sum_nil]
    obtain rfl | rfl | rfl | rfl | rfl | rfl | rfl : a = 0 ∨ a = 1 ∨ a = 2 ∨ a = 3 ∨ a = 4 ∨ a = 5 ∨ a = 6 := by omega
    all_goals
      simp only [if_true, if_false, Nat.reduceEqDiff, OfNat.ofNat_ne_zero, OfNat.zero_ne_ofNat, one_ne_zero, zero_ne_one,
        OfNat.ofNat_ne_one, OfNat.one_ne_ofNat]
      ring

theorem sizes_sum (data : List (Nat × α)) : ((ids data).map (fun t => ((sizeIn data t : Nat) : Rat))).sum = data.length := by
  have h : ((ids data).map (sizeIn data)).sum = data.length := by
    have e : (ids data).map (sizeIn data) = (data.map Prod.fst).dedup.map (fun t => (data.map Prod.fst).count t) :=
      List.map_congr_left (fun t _ => sizeIn_eq_count data t)
    rw [e, List.sum_map_count_dedup_eq_length, List.length_map]
  rw [← h]
  generalize ids data = l
  induction l with
  | nil => simp
  | cons a l ih => rw [List.map_cons, List.sum_cons, ih, List.map_cons, List.sum_cons]; push_cast; ring

/-- **C190** (lifetimes): when no track is longer than 10000 observations, the percentages are the shares of the tracks and of the observations
by class of lifetime. Missing: longer tracks, which are not counted (`lifetimes_wrong`). -/
theorem report_lifetimes_partial {data : List (Nat × α)} (hne : data ≠ []) (h : ∀ t, sizeIn data t ≤ 10000) :
    ∃ r, reportLifetimes data = some r ∧ LifetimesOf data r := by
  obtain ⟨ti, e⟩ := computeIndex_total (contig_ne hne)
  have hl : ∀ t ∈ ids data, sizeIn data t ≤ 10000 ∧ sizeIn data t ≠ 0 := fun t ht => ⟨h t, sizeIn_pos.2 ht⟩
  have hpos : (data.length : Rat) ≠ 0 := by
    have := List.length_pos_of_ne_nil hne
    positivity
  have hids : ((ids data).length : Rat) ≠ 0 := by
    obtain ⟨o, hod⟩ := List.exists_mem_of_ne_nil _ hne
    have := List.length_pos_of_mem (List.mem_dedup.2 (List.mem_map.2 ⟨o, hod, rfl⟩) : o.1 ∈ ids data)
    positivity
  have h1 : Stats.counts lifeBins (ti.numbers.map (fun (n : Nat) => ((n : Rat), (n : Rat)))) =
      (List.range 7).map (fun a => (((ids data).filter (fun t => inClass a (sizeIn data t))).map (fun _ => (1 : Rat))).sum) := by
    unfold Stats.counts
    rw [List.map_map]
    exact List.map_congr_left (fun a ha => histo_class e (fun _ => 1) (List.mem_range.1 ha))
  have h2 : Stats.sums lifeBins (ti.numbers.map (fun (n : Nat) => ((n : Rat), (n : Rat)))) =
      (List.range 7).map (fun a => (((ids data).filter (fun t => inClass a (sizeIn data t))).map (fun t => ((sizeIn data t : Nat) : Rat))).sum) :=
    List.map_congr_left (fun a ha => histo_class e (fun n => (n : Rat)) (List.mem_range.1 ha))
  have s1 := class_sum data (fun _ => 1) (ids data) hl
  have s2 := class_sum data (fun n => (n : Rat)) (ids data) hl
  rw [sizes_sum] at s2
  have hone : ∀ l : List Nat, (l.map (fun _ => (1 : Rat))).sum = l.length := by
    intro l
    induction l with
    | nil => simp
    | cons a l ih => rw [List.map_cons, List.sum_cons, ih, List.length_cons]; push_cast; ring
  rw [hone] at s1
  refine ⟨((List.range 7).map (fun a => some (100 * (((ids data).filter (fun t => inClass a (sizeIn data t))).length : Rat) / (ids data).length)),
    (List.range 7).map (fun a =>
      some (100 * ((((ids data).filter (fun t => inClass a (sizeIn data t))).map (sizeIn data)).sum : Rat) / data.length))), ?_, rfl, rfl⟩
  unfold reportLifetimes
  rw [e]
  simp only [Option.bind_eq_bind, Option.bind_some, Stats.hist, if_true, Bool.false_eq_true, if_false]
  rw [h1, h2, s1, s2]
  simp only [hids, hpos, if_false, List.map_map, Option.some.injEq, Prod.mk.injEq]
  refine ⟨List.map_congr_left (fun a _ => ?_), List.map_congr_left (fun a _ => ?_)⟩
  · simp only [Function.comp, hone]
    congr 1
    ring
  · simp only [Function.comp]
    congr 1
    have : ((((ids data).filter (fun t => inClass a (sizeIn data t))).map (sizeIn data)).sum : Rat) =
        (((ids data).filter (fun t => inClass a (sizeIn data t))).map (fun t => ((sizeIn data t : Nat) : Rat))).sum := by
      generalize (ids data).filter (fun t => inClass a (sizeIn data t)) = l
      induction l with
      | nil => simp
      | cons b l ih => rw [List.map_cons, List.sum_cons, List.map_cons, List.sum_cons, ← ih]; push_cast; ring
    rw [this]
    ring

/-- **C190** is false as stated for the distances: the missing number 1 puts −2 in the rows before the first rows, so a step of the track 2 is
taken as its end and its distance is not printed by day but as one more track. -/
theorem distances_wrong : ¬ DistancesReported := by
  intro hall
  obtain ⟨r, h1, h2, _⟩ := hall (fun a b => |b - a|) [(0, 0), (2, 1000), (2, 3000)] (by simp) (by decide)
  have e : reportDistances (fun a b : Rat => |b - a|) [(0, 0), (2, 1000), (2, 3000)] = some ([], [0, 2, 2]) := by decide +kernel
  rw [e, Option.some.injEq] at h1
  subst h1
  revert h2
  decide +kernel

/-- A dataset without missing number meets the hypotheses. -/
example : reportDistances (fun a b : Rat => |b - a|) [(0, 0), (0, 500), (1, 1000), (1, 3000), (1, 2500)] =
    some ([1 / 2, 2, 1 / 2], [1 / 2, 5 / 2]) := by decide +kernel

/-- A single track of more than 10000 observations: no share is a number. -/
theorem lifetimes_long {n : Nat} (hn : 10000 < n) :
    ∃ r, reportLifetimes (List.replicate n ((0 : Nat), ())) = some r ∧ r.1 = [none, none, none, none, none, none, none] := by
  have hne : List.replicate n ((0 : Nat), ()) ≠ [] := by rw [Ne, List.replicate_eq_nil_iff]; omega
  obtain ⟨ti, e⟩ := computeIndex_total (contig_ne hne)
  have hsize : ∀ t ∈ ids (List.replicate n ((0 : Nat), ())), sizeIn (List.replicate n ((0 : Nat), ())) t = n := by
    intro t ht
    have h0 : t = 0 := by
      have := List.mem_dedup.1 ht
      rw [List.map_replicate] at this
      exact (List.mem_replicate.1 this).2
    subst h0
    rw [sizeIn_eq_count, List.map_replicate, List.count_replicate_self]
  have hz : ∀ a, a < 7 → (ids (List.replicate n ((0 : Nat), ()))).filter (fun t => inClass a (sizeIn (List.replicate n ((0 : Nat), ())) t)) = [] := by
    intro a ha
    rw [List.filter_eq_nil_iff]
    intro t ht
    rw [hsize t ht]
    obtain rfl | rfl | rfl | rfl | rfl | rfl | rfl : a = 0 ∨ a = 1 ∨ a = 2 ∨ a = 3 ∨ a = 4 ∨ a = 5 ∨ a = 6 := by omega
    all_goals simp only [inClass, decide_eq_true_eq]; omega
  have hc : Stats.counts lifeBins (ti.numbers.map (fun (n : Nat) => ((n : Rat), (n : Rat)))) = [0, 0, 0, 0, 0, 0, 0] := by
    have : Stats.counts lifeBins (ti.numbers.map (fun (n : Nat) => ((n : Rat), (n : Rat)))) = (List.range 7).map (fun _ => (0 : Rat)) := by
      unfold Stats.counts
      rw [List.map_map]
      refine List.map_congr_left (fun a ha => ?_)
      have := histo_class e (fun _ => 1) (List.mem_range.1 ha)
      rw [hz a (List.mem_range.1 ha)] at this
      exact this
    rw [this]
    rfl
  unfold reportLifetimes
  rw [e]
  simp only [Option.bind_eq_bind, Option.bind_some, Stats.hist, if_true, Bool.false_eq_true, if_false, hc]
  exact ⟨_, rfl, by simp⟩

/-- **C190** is false as stated for the lifetimes: a track of more than 10000 observations is in no class, its share is not a number. -/
theorem lifetimes_wrong : ¬ LifetimesReported := by
  intro hall
  obtain ⟨n, hn⟩ : ∃ n : Nat, 10000 < n := ⟨10001, by omega⟩
  obtain ⟨r, h1, h2, _⟩ := hall (List.replicate n (0, ())) (by rw [Ne, List.replicate_eq_nil_iff]; omega)
  obtain ⟨r', e, h3⟩ := lifetimes_long hn
  rw [e, Option.some.injEq] at h1
  subst h1
  rw [h3] at h2
  have h4 := congrArg (fun l : List (Option Rat) => l[0]?) h2
  simp at h4

/-- Two tracks of 40 and 10 observations. -/
example : reportLifetimes (List.replicate 40 ((0 : Nat), ()) ++ List.replicate 10 (1, ())) =
    some ([some 50, some 50, some 0, some 0, some 0, some 0, some 0], [some 20, some 80, some 0, some 0, some 0, some 0, some 0]) := by decide +kernel

end Verif.Tracks
