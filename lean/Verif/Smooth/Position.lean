import Verif.Smooth.Props
import Verif.Segments.Lemmas
import Mathlib.Data.List.Sort
import Mathlib.Tactic.Linarith
import Mathlib.Tactic.FieldSimp

/-!
# C154: smoothed positions of trajectories and of networks

Model of `position_filter` of the trajectories (src/py_eddy_tracker/observations/tracking.py:457-463) and of the networks
(src/py_eddy_tracker/observations/network.py:734-758), on top of the two filters.
-/

namespace Verif.Smooth

open Verif.Segments (Obs segTrackArray IsNumbering)

/-! ### Model -/

/-- `median_filter(…).loess_filter(…)` of one field (tracking.py:458-460, network.py:735-737): the second filter reads what the first one wrote. The
median of a window is never nan, the row itself is in it. -/
def smooth (hm hl : Rat) (x y : Nat → Rat) (tr : Nat → Nat) (n : Nat) : Option (List Rat) :=
  ((medianFilter hm x y tr n).bind (fun m => m.mapM id)).map (fun m => loess hl x (fun k => m.getD k 0) tr n)

/-- `position_filter` (tracking.py:457-463): longitudes, then latitudes. -/
def positionFilter (hm hl : Rat) (time lon lat : Nat → Rat) (tr : Nat → Nat) (n : Nat) : Option (List Rat × List Rat) := do
  let lon' ← smooth hm hl time lon tr n
  let lat' ← smooth hm hl time lat tr n
  some (lon', lat')

/-- `position_filter` of a network (network.py:734-758): the groups are those of `segment_track_array`. -/
def networkFilter (hm hl : Rat) (time lon lat : Nat → Rat) (obs : List Obs) : Option (List Rat × List Rat) := do
  let sta ← segTrackArray obs
  positionFilter hm hl time lon lat (fun k => sta.getD k 0) obs.length

/-! ### Specification -/

/-- `v` is between the least and the greatest value of `y` on the rows selected. -/
def Between (v : Rat) (y : Nat → Rat) (p : Nat → Prop) : Prop := ∀ lo hi : Rat, (∀ k, p k → lo ≤ y k ∧ y k ≤ hi) → lo ≤ v ∧ v ≤ hi

/-- Rows of the same group at less than `h` in time. -/
def Around (h : Rat) (x : Nat → Rat) (tr : Nat → Nat) (n i k : Nat) : Prop := k < n ∧ tr k = tr i ∧ |x k - x i| ≤ h

/-- The rows of a segment follow one another, in the order of time. -/
structure Tidy (obs : List Obs) (time : Nat → Rat) : Prop where
  contig : ∀ (i j k : Nat) (o o' : Obs), i < j → j < k → obs[i]? = some o → obs[k]? = some o' → o.key = o'.key → (obs[j]?).map (·.key) = some o.key
  mono : ∀ (i j : Nat) (o o' : Obs), i < j → obs[i]? = some o → obs[j]? = some o' → o.key = o'.key → time i ≤ time j

/-- Rows of the same segment at less than `h` in time. -/
def Along (h : Rat) (time : Nat → Rat) (obs : List Obs) (i k : Nat) : Prop :=
  (∃ o o', obs[i]? = some o ∧ obs[k]? = some o' ∧ o.key = o'.key) ∧ |time k - time i| ≤ h

/-! ### Proofs -/

/-- The medians of the windows. -/
def medians (hm : Rat) (x y : Nat → Rat) (tr : Nat → Nat) (n i : Nat) : Rat := (median (windowValues hm x y tr n i)).getD 0

theorem windowValues_ne {hm : Rat} (h0 : 0 ≤ hm) (x y : Nat → Rat) (tr : Nat → Nat) {n i : Nat} (hi : i < n) : windowValues hm x y tr n i ≠ [] := by
  refine List.ne_nil_of_mem (a := y i) ?_
  unfold windowValues
  exact List.mem_map.2 ⟨i, List.mem_filter.2 ⟨by simpa using hi,
    decide_eq_true (⟨rfl, by rw [sub_self]; exact h0, by rw [sub_self]; exact h0⟩ : InWindow hm x tr i i)⟩, rfl⟩

theorem mapM_id_map {f : Nat → Option Rat} {g : Nat → Rat} : ∀ (l : List Nat), (∀ i ∈ l, f i = some (g i)) → (l.map f).mapM id = some (l.map g)
  | [], _ => rfl
  | i :: l, h => by
    rw [List.map_cons, List.mapM_cons, h i (List.mem_cons_self), mapM_id_map l (fun j hj => h j (List.mem_cons_of_mem _ hj))]
    rfl

theorem loess_congr {hl : Rat} {x : Nat → Rat} {tr : Nat → Nat} {n : Nat} (hg : Grouped x tr n) {y y' : Nat → Rat} {i : Nat} (hi : i < n)
    (h : ∀ k, k < n → Used hl x tr n i k → y k = y' k) : (loess hl x y tr n)[i]? = (loess hl x y' tr n)[i]? := by
  obtain ⟨l, nd, hm, e⟩ := loess_formula hl x y tr n hg i hi
  obtain ⟨l', nd', hm', e'⟩ := loess_formula hl x y' tr n hg i hi
  have hp : l.Perm l' := (List.perm_ext_iff_of_nodup nd nd').2 (fun k => by rw [hm, hm'])
  rw [e, e', (hp.map (fun k => w hl x i k)).sum_eq, (hp.map (fun k => y k * w hl x i k)).sum_eq]
  congr 3
  refine List.map_congr_left fun k hk => ?_
  rw [h k ((hm' k).1 hk).1 ((hm' k).1 hk).2]

/-- The two filters in a row. -/
theorem smooth_eq {hm : Rat} (h0 : 0 ≤ hm) (hl : Rat) {x : Nat → Rat} (y : Nat → Rat) {tr : Nat → Nat} {n : Nat} (hg : Grouped x tr n) :
    ∃ out, smooth hm hl x y tr n = some out ∧ out.length = n ∧ ∀ i, i < n → out[i]? = (loess hl x (medians hm x y tr n) tr n)[i]? := by
  have e : smooth hm hl x y tr n = some (loess hl x (fun k => ((List.range n).map (medians hm x y tr n)).getD k 0) tr n) := by
    unfold smooth
    rw [median_filter_spec hm x y tr n h0 hg, Option.bind_some,
      mapM_id_map (g := medians hm x y tr n) (List.range n) (fun i hi => ?_)]
    · rfl
    · obtain ⟨v, hv, _⟩ := median_between _ (windowValues_ne h0 x y tr (List.mem_range.1 hi))
      rw [medians, hv]; rfl
  refine ⟨_, e, by simp [loess], fun i hi => loess_congr hg hi fun k hk _ => ?_⟩
  rw [List.getD_eq_getElem?_getD, List.getElem?_map, List.getElem?_range hk]
  rfl

theorem around_of_windows {hm hl : Rat} {x : Nat → Rat} {tr : Nat → Nat} {n i j k : Nat} (hk : k < n) (h1 : InWindow hl x tr i j) (h2 : InWindow hm x tr j k) :
    Around (hm + hl) x tr n i k := by
  obtain ⟨a1, a2, a3⟩ := h1
  obtain ⟨b1, b2, b3⟩ := h2
  exact ⟨hk, by rw [b1, a1], by rw [abs_le]; constructor <;> linarith⟩

theorem medians_between {hm : Rat} (h0 : 0 ≤ hm) (x y : Nat → Rat) (tr : Nat → Nat) {n i : Nat} (hi : i < n) :
    Between (medians hm x y tr n i) y (fun k => k < n ∧ InWindow hm x tr i k) := by
  intro lo hi' h
  obtain ⟨v, hv, hb⟩ := median_between _ (windowValues_ne h0 x y tr hi)
  rw [medians, hv]
  refine hb lo hi' (fun a ha => ?_)
  unfold windowValues at ha
  obtain ⟨k, hk, rfl⟩ := List.mem_map.1 ha
  obtain ⟨hk1, hk2⟩ := List.mem_filter.1 hk
  exact h k ⟨List.mem_range.1 hk1, of_decide_eq_true hk2⟩

theorem inWindow_of_used {hl : Rat} (h0 : 0 ≤ hl) {x : Nat → Rat} {tr : Nat → Nat} {n i k : Nat} (h : Used hl x tr n i k) : InWindow hl x tr i k := by
  rcases h with rfl | ⟨h1, h2, h3, _⟩
  · exact ⟨rfl, by rw [sub_self]; exact h0, by rw [sub_self]; exact h0⟩
  · exact ⟨h1, h2.le, h3.le⟩

/-- **C154** one field: each smoothed value is between the least and the greatest values of its group at less than the sum of the two windows. -/
theorem smooth_between {hm hl : Rat} (h0 : 0 ≤ hm) (h1 : 0 ≤ hl) {x : Nat → Rat} (y : Nat → Rat) {tr : Nat → Nat} {n : Nat} (hg : Grouped x tr n) :
    ∃ out, smooth hm hl x y tr n = some out ∧ out.length = n ∧ ∀ i, i < n → ∃ v, out[i]? = some v ∧ Between v y (Around (hm + hl) x tr n i) := by
  obtain ⟨out, e, hlen, hout⟩ := smooth_eq h0 hl y hg
  refine ⟨out, e, hlen, fun i hi => ?_⟩
  refine ⟨out[i], List.getElem?_eq_getElem (by omega), fun lo hi' h => ?_⟩
  obtain ⟨v, hv, hb⟩ := loess_between hl x (medians hm x y tr n) tr n h1 hg i hi lo hi' (fun k hk hw =>
    medians_between h0 x y tr hk lo hi' (fun j hj => h j (around_of_windows hj.1 hw hj.2)))
  rw [← hout i hi, List.getElem?_eq_getElem (by omega)] at hv
  obtain rfl := Option.some.inj hv
  exact hb

/-- **C154** one field: the smoothed value of a row depends only on the rows of its group at less than the sum of the two windows. -/
theorem smooth_local {hm hl : Rat} (h0 : 0 ≤ hm) (h1 : 0 ≤ hl) {x : Nat → Rat} {y y' : Nat → Rat} {tr : Nat → Nat} {n : Nat} (hg : Grouped x tr n) {i : Nat}
    (hi : i < n) (h : ∀ k, Around (hm + hl) x tr n i k → y k = y' k) :
    (smooth hm hl x y tr n).bind (·[i]?) = (smooth hm hl x y' tr n).bind (·[i]?) := by
  obtain ⟨out, e, _, hout⟩ := smooth_eq h0 hl y hg
  obtain ⟨out', e', _, hout'⟩ := smooth_eq h0 hl y' hg
  rw [e, e']
  simp only [Option.bind_some]
  rw [hout i hi, hout' i hi]
  refine loess_congr hg hi fun k hk hu => ?_
  unfold medians windowValues
  congr 2
  refine List.map_congr_left fun j hj => ?_
  obtain ⟨hj1, hj2⟩ := List.mem_filter.1 hj
  exact h j (around_of_windows (List.mem_range.1 hj1) (inWindow_of_used h1 hu) (of_decide_eq_true hj2))

theorem median_add (c : Rat) (l : List Rat) : median (l.map (· + c)) = (median l).map (· + c) := by
  have hs : (l.map (· + c)).insertionSort (· ≤ ·) = (l.insertionSort (· ≤ ·)).map (· + c) :=
    (List.map_insertionSort (r := (· ≤ ·)) (s := (· ≤ ·)) (fun a => a + c) l (fun a _ b _ => (add_le_add_iff_right c).symm)).symm
  unfold median
  simp only [hs, List.length_map, List.getElem?_map]
  split
  · rfl
  · cases (l.insertionSort (· ≤ ·))[l.length / 2 - 1]? <;> cases (l.insertionSort (· ≤ ·))[l.length / 2]? <;> simp
    ring

/-- **C154** one field: adding the same amount to all the rows of the group of a row adds it to its smoothed value. -/
theorem smooth_add {hm hl : Rat} (h0 : 0 ≤ hm) (h1 : 0 ≤ hl) {x : Nat → Rat} {y y' : Nat → Rat} {tr : Nat → Nat} {n : Nat} (hg : Grouped x tr n) {i : Nat}
    (hi : i < n) (c : Rat) (h : ∀ k, Around (hm + hl) x tr n i k → y' k = y k + c) :
    (smooth hm hl x y' tr n).bind (·[i]?) = ((smooth hm hl x y tr n).bind (·[i]?)).map (· + c) := by
  rw [smooth_local h0 h1 hg (y := y') (y' := fun k => y k + c) hi h]
  obtain ⟨out, e, _, hout⟩ := smooth_eq h0 hl y hg
  obtain ⟨out', e', _, hout'⟩ := smooth_eq h0 hl (fun k => y k + c) hg
  rw [e, e']
  simp only [Option.bind_some]
  rw [hout i hi, hout' i hi]
  have hmed : ∀ k, k < n → medians hm x (fun k => y k + c) tr n k = medians hm x y tr n k + c := by
    intro k hk
    obtain ⟨v, hv, _⟩ := median_between _ (windowValues_ne h0 x y tr hk)
    unfold medians
    rw [show windowValues hm x (fun k => y k + c) tr n k = (windowValues hm x y tr n k).map (· + c) by simp [windowValues, Function.comp_def],
      median_add, hv]
    rfl
  rw [loess_congr hg (y := medians hm x (fun k => y k + c) tr n) (y' := fun k => medians hm x y tr n k + c) hi (fun k hk _ => hmed k hk)]
  obtain ⟨l, nd, hml, el⟩ := loess_formula hl x (medians hm x y tr n) tr n hg i hi
  obtain ⟨l', nd', hml', el'⟩ := loess_formula hl x (fun k => medians hm x y tr n k + c) tr n hg i hi
  have hp : l'.Perm l := (List.perm_ext_iff_of_nodup nd' nd).2 (fun k => by rw [hml, hml'])
  rw [el, el', (hp.map (fun k => w hl x i k)).sum_eq, (hp.map (fun k => (medians hm x y tr n k + c) * w hl x i k)).sum_eq]
  simp only [Option.map_some, Option.some.injEq]
  have hpos : ∀ k ∈ l, 0 < w hl x i k := by
    intro k hk
    obtain ⟨_, rfl | ⟨_, h3, h4, _⟩⟩ := (hml k).1 hk
    · rw [w_self]; exact one_pos
    · exact w_pos hl x i k h3 h4
  have hsum : 0 < (l.map (fun k => w hl x i k)).sum := by
    have him : i ∈ l := (hml i).2 ⟨hi, Or.inl rfl⟩
    cases hlc : l with
    | nil => rw [hlc] at him; cases him
    | cons a l2 =>
      rw [hlc] at hpos
      rw [List.map_cons, List.sum_cons]
      have h1 : 0 ≤ (l2.map (fun k => w hl x i k)).sum := List.sum_nonneg (fun z hz => by
        obtain ⟨k, hk, rfl⟩ := List.mem_map.1 hz
        exact (hpos k (List.mem_cons_of_mem _ hk)).le)
      have := hpos a List.mem_cons_self
      linarith
  have hadd : ∀ (l : List Nat), (l.map (fun k => (medians hm x y tr n k + c) * w hl x i k)).sum =
      (l.map (fun k => medians hm x y tr n k * w hl x i k)).sum + c * (l.map (fun k => w hl x i k)).sum := by
    intro l
    induction l with
    | nil => simp
    | cons a l ih => simp only [List.map_cons, List.sum_cons, ih]; ring
  rw [hadd]
  have hne := hsum.ne'
  field_simp

/-- The numbers of `segment_track_array` of a tidy network are those of the segments. -/
theorem sta_iff {obs : List Obs} {time : Nat → Rat} (ht : Tidy obs time) {sta : List Nat} (hn : IsNumbering obs sta) {i k : Nat} (hi : i < obs.length)
    (hk : k < obs.length) : sta.getD k 0 = sta.getD i 0 ↔ obs[i].key = obs[k].key := by
  have key : ∀ (i k : Nat) (hik : i ≤ k) (hk : k < obs.length), sta.getD k 0 = sta.getD i 0 ↔ (obs[i]'(by omega)).key = obs[k].key := by
    intro i k hik hk
    have hgd : ∀ (j : Nat), j < obs.length → sta[j]? = some (sta.getD j 0) := by
      intro j hj
      rw [List.getD_eq_getElem?_getD, List.getElem?_eq_getElem (by rw [hn.len]; exact hj)]
      rfl
    constructor
    · intro e
      have hall : ∀ (j : Nat), i ≤ j → (hj : j ≤ k) → (obs[i]'(by omega)).key = (obs[j]'(by omega)).key := by
        intro j hij
        induction j, hij using Nat.le_induction with
        | base => intro _; rfl
        | succ j hij ih =>
          intro hj
          rw [ih (by omega)]
          have h1 := hn.mono i j _ _ hij (hgd i (by omega)) (hgd j (by omega))
          have h2 := hn.mono j (j + 1) _ _ (by omega) (hgd j (by omega)) (hgd (j + 1) (by omega))
          have h3 := hn.mono (j + 1) k _ _ hj (hgd (j + 1) (by omega)) (hgd k (by omega))
          have h4 : sta[j + 1]? = some (sta.getD j 0) := by rw [hgd (j + 1) (by omega)]; congr 1; omega
          exact ((hn.same_iff j _ _ _ (hgd j (by omega)) (List.getElem?_eq_getElem (by omega)) (List.getElem?_eq_getElem (by omega))).1 h4).symm
      exact hall k hik le_rfl
    · intro e
      have hall : ∀ (j : Nat), i ≤ j → (hj : j ≤ k) → sta.getD j 0 = sta.getD i 0 := by
        intro j hij
        induction j, hij using Nat.le_induction with
        | base => intro _; rfl
        | succ j hij ih =>
          intro hj
          have hkey : ∀ (m : Nat), i ≤ m → (hm : m ≤ k) → (obs[m]'(by omega)).key = (obs[i]'(by omega)).key := by
            intro m h1 h2
            rcases Nat.eq_or_lt_of_le h1 with rfl | h1
            · rfl
            rcases Nat.eq_or_lt_of_le h2 with rfl | h2
            · exact e.symm
            have := ht.contig i m k _ _ h1 h2 (List.getElem?_eq_getElem (by omega)) (List.getElem?_eq_getElem hk) e
            rw [List.getElem?_eq_getElem (by omega)] at this
            exact Option.some.inj this
          have h4 := (hn.same_iff j _ _ _ (hgd j (by omega)) (List.getElem?_eq_getElem (by omega)) (List.getElem?_eq_getElem (by omega))).2
            ((hkey (j + 1) (by omega) hj).trans (hkey j hij (by omega)).symm)
          rw [hgd (j + 1) (by omega)] at h4
          rw [Option.some.inj h4, ih (by omega)]
      exact hall k hik le_rfl
  rcases Nat.le_total i k with h | h
  · exact key i k h hk
  · rw [eq_comm, key k i h hi, eq_comm]

theorem grouped_of_tidy {obs : List Obs} {time : Nat → Rat} (ht : Tidy obs time) {sta : List Nat} (hn : IsNumbering obs sta) :
    Grouped time (fun k => sta.getD k 0) obs.length := by
  refine ⟨fun i j k hij hjk hk e => ?_, fun i j hij hj e => ?_⟩
  · have h1 := (sta_iff ht hn (i := i) (k := k) (by omega) hk).1 e.symm
    have h2 := ht.contig i j k _ _ hij hjk (List.getElem?_eq_getElem (by omega)) (List.getElem?_eq_getElem hk) h1
    rw [List.getElem?_eq_getElem (by omega)] at h2
    exact (sta_iff ht hn (i := i) (k := j) (by omega) (by omega)).2 (Option.some.inj h2).symm
  · exact ht.mono i j _ _ hij (List.getElem?_eq_getElem (by omega)) (List.getElem?_eq_getElem hj) ((sta_iff ht hn (by omega) hj).1 e.symm)

theorem along_of_around {obs : List Obs} {time : Nat → Rat} (ht : Tidy obs time) {sta : List Nat} (hn : IsNumbering obs sta) {h : Rat} {i k : Nat}
    (hi : i < obs.length) (hk : Around h time (fun k => sta.getD k 0) obs.length i k) : Along h time obs i k := by
  obtain ⟨h1, h2, h3⟩ := hk
  exact ⟨⟨_, _, List.getElem?_eq_getElem hi, List.getElem?_eq_getElem h1, (sta_iff ht hn hi h1).1 h2⟩, h3⟩

/-- **C154** of a network: each smoothed position is between the least and the greatest ones of its own segment at less than the sum of the windows. -/
theorem network_filter_between {hm hl : Rat} (h0 : 0 ≤ hm) (h1 : 0 ≤ hl) {time : Nat → Rat} (lon lat : Nat → Rat) {obs : List Obs} (hne : obs ≠ [])
    (ht : Tidy obs time) : ∃ lon' lat', networkFilter hm hl time lon lat obs = some (lon', lat') ∧ lon'.length = obs.length ∧ lat'.length = obs.length ∧
      ∀ i, i < obs.length → ∃ a b, lon'[i]? = some a ∧ lat'[i]? = some b ∧ Between a lon (Along (hm + hl) time obs i) ∧
        Between b lat (Along (hm + hl) time obs i) := by
  obtain ⟨sta, hsta, hn⟩ := Segments.segTrackArray_spec obs hne
  have hg := grouped_of_tidy ht hn
  obtain ⟨lon', e1, l1, b1⟩ := smooth_between h0 h1 lon hg
  obtain ⟨lat', e2, l2, b2⟩ := smooth_between h0 h1 lat hg
  refine ⟨lon', lat', ?_, l1, l2, fun i hi => ?_⟩
  · simp only [networkFilter, positionFilter, hsta, Option.bind_eq_bind, Option.bind_some, e1, e2]
  · obtain ⟨a, ha, ba⟩ := b1 i hi
    obtain ⟨b, hb, bb⟩ := b2 i hi
    exact ⟨a, b, ha, hb, fun lo hi' h => ba lo hi' (fun k hk => h k (along_of_around ht hn hi hk)),
      fun lo hi' h => bb lo hi' (fun k hk => h k (along_of_around ht hn hi hk))⟩

/-- **C154** of a network: the smoothed position depends only on the rows of its own segment near in time, and moves with them. -/
theorem network_filter_move {hm hl : Rat} (h0 : 0 ≤ hm) (h1 : 0 ≤ hl) {time : Nat → Rat} {lon lat lon2 lat2 : Nat → Rat} {obs : List Obs}
    (ht : Tidy obs time) {i : Nat} (hi : i < obs.length) (c d : Rat) (hlon : ∀ k, Along (hm + hl) time obs i k → lon2 k = lon k + c)
    (hlat : ∀ k, Along (hm + hl) time obs i k → lat2 k = lat k + d) :
    ∃ r r2 a b, networkFilter hm hl time lon lat obs = some r ∧ networkFilter hm hl time lon2 lat2 obs = some r2 ∧ r.1[i]? = some a ∧ r.2[i]? = some b ∧
      r2.1[i]? = some (a + c) ∧ r2.2[i]? = some (b + d) := by
  have hne : obs ≠ [] := fun e => by rw [e] at hi; simp at hi
  obtain ⟨sta, hsta, hn⟩ := Segments.segTrackArray_spec obs hne
  have hg := grouped_of_tidy ht hn
  obtain ⟨x1, e1, _, b1⟩ := smooth_between h0 h1 lon hg
  obtain ⟨y1, e2, _, b2⟩ := smooth_between h0 h1 lat hg
  obtain ⟨x2, e3, _⟩ := smooth_between h0 h1 lon2 hg
  obtain ⟨y2, e4, _⟩ := smooth_between h0 h1 lat2 hg
  obtain ⟨a, ha, _⟩ := b1 i hi
  obtain ⟨b, hb, _⟩ := b2 i hi
  have m1 := smooth_add h0 h1 hg hi c (fun k hk => hlon k (along_of_around ht hn hi hk))
  have m2 := smooth_add h0 h1 hg hi d (fun k hk => hlat k (along_of_around ht hn hi hk))
  rw [e1, e3] at m1
  rw [e2, e4] at m2
  simp only [Option.bind_some, ha, hb, Option.map_some] at m1 m2
  refine ⟨(x1, y1), (x2, y2), a, b, ?_, ?_, ha, hb, m1, m2⟩
  · simp only [networkFilter, positionFilter, hsta, Option.bind_eq_bind, Option.bind_some, e1, e2]
  · simp only [networkFilter, positionFilter, hsta, Option.bind_eq_bind, Option.bind_some, e3, e4]

/-- Two segments of a network and one of another network with the same number. -/
def exSegments : List Obs := [⟨1, 1, -1, 1⟩, ⟨1, 1, 0, -1⟩, ⟨1, 2, -1, 3⟩, ⟨1, 2, 2, -1⟩, ⟨2, 2, -1, 5⟩, ⟨2, 2, 4, -1⟩]

def exTime : Nat → Rat := fun k => [0, 1, 1, 2, 5, 6].getD k 0

theorem exTidy : Tidy exSegments exTime := by
  have h1 : ∀ i j k : Fin 6, i < j ∧ j < k ∧ (exSegments[i.1]?).map Obs.key = (exSegments[k.1]?).map Obs.key →
      (exSegments[j.1]?).map Obs.key = (exSegments[i.1]?).map Obs.key := by decide
  have h2 : ∀ (i : Nat), i < 6 → ∀ (j : Nat), j < 6 → i < j → (exSegments[i]?).map Obs.key = (exSegments[j]?).map Obs.key → exTime i ≤ exTime j := by
    decide +kernel
  constructor
  · intro i j k o o' hij hjk hi hk e
    have hk' : k < 6 := (List.getElem?_eq_some_iff.1 hk).1
    have := h1 ⟨i, by omega⟩ ⟨j, by omega⟩ ⟨k, hk'⟩ ⟨hij, hjk, by rw [hi, hk]; simp [e]⟩
    simp only at this
    rw [hi] at this
    exact this
  · intro i j o o' hij hi hj e
    have hj' : j < 6 := (List.getElem?_eq_some_iff.1 hj).1
    exact h2 i (by omega) j hj' hij (by rw [hi, hj]; simp [e])

example : networkFilter 1 2 exTime (fun k => k) (fun _ => 7) exSegments =
    some ([1 / 2, 1 / 2, 5 / 2, 5 / 2, 9 / 2, 9 / 2], [7, 7, 7, 7, 7, 7]) := by decide +kernel

/-- Refuted: the same positions with longitudes given by other whole turns have other smoothed positions: an eddy which crosses the limit of
longitudes is put at the other side of the Earth. -/
theorem turn_wrong : smooth 0 2 (fun k => k) (fun k => [359, 359, 361, 361].getD k 0) (fun _ => 0) 4 = some [359, (359 + 361 * (343 / 512)) / (1 + 343 / 512),
      (361 + 359 * (343 / 512)) / (1 + 343 / 512), 361] ∧
    smooth 0 2 (fun k => k) (fun k => [359, 359, 1, 1].getD k 0) (fun _ => 0) 4 = some [359, (359 + 1 * (343 / 512)) / (1 + 343 / 512),
      (1 + 359 * (343 / 512)) / (1 + 343 / 512), 1] := by decide +kernel

end Verif.Smooth
