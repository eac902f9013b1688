import Verif.Tracking.SelectProps
import Verif.Missing.Props

/-!
# C168: the files of EddyFinalTracking (`scripts/EddyFinalTracking`, lines 49-86)

The script writes three files: observations without track, short tracks and long tracks. The copy of all fields of an
observation is modelled as in `Verif.Tracking.Merge`: a row of a table records from where it comes.
-/

namespace Verif.Tracking

variable {α δ : Type}

/-- A file of tracks: columns `track` and `n`, and from where each row comes (`none`: no observation was copied). -/
structure Table where
  track : List Nat
  n : List Int
  rows : List (Option (Nat × Nat))
  deriving DecidableEq

/-- The dataset given by `merge`, tracking.py:632-722, for the counts `nb` of the `cid` tracks. -/
def mergeTable (virtual : Bool) (nb : Nat → Nat) (cid : Nat) (h : List (List Link)) : Table :=
  ⟨trackColumn nb cid, nColumn nb cid, (List.range (nbObs nb cid)).map (merge virtual nb h).rows⟩

/-- The same after a selection: `nb_obs_by_tracks` is an array of size `current_id` (values out of it are not read). -/
def selectionTable (virtual : Bool) (sel : Selection) : Table :=
  mergeTable virtual (fun i => sel.nb.getD i 1) sel.currentId sel.corrs

/-- The three files of the script. -/
structure Output where
  untracked : List (List Nat)
  long : Table
  short : Table
  deriving DecidableEq

/-- `scripts/EddyFinalTracking`, lines 49-76 (`_copy`, tracking.py:133-148, counts again and shares the tables, which are not
modified in place). `sizes` are the numbers of observations of the datasets. `none` is an exception. `longer_than` gives `False`
and keeps everything when no track is long enough: this result is not tested by the script. -/
def finalTracking (virtual : Bool) (sizes : List Nat) (h : List (List Link)) (cid sizeMin : Nat) : Option Output :=
  let nb := nbObsByTracks virtual h
  (unused virtual sizes h.reverse).bind (fun u => (shorterThan nb cid h sizeMin).map (fun short =>
    ⟨u, selectionTable virtual ((longerThan nb cid h sizeMin).getD ⟨h, cid, (List.range cid).map nb⟩), selectionTable virtual short⟩))

/-- The time of a row: zero in a new dataset when nothing is copied. -/
def rowValue (value : Nat × Nat → Rat) : Option (Nat × Nat) → Rat
  | some x => value x
  | none => 0

/-- The field `virtual`, EddyFinalTracking:80 and 82: `time == 0`. -/
def flags (time : Nat × Nat → Rat) (t : Table) : List Bool := t.rows.map (fun r => decide (rowValue time r = 0))

/-- A field after `filled_by_interpolation`, EddyFinalTracking:81 and 83. -/
def filledColumn (time value : Nat × Nat → Rat) (t : Table) : List Rat :=
  Missing.fillField (flags time t) (t.rows.map (rowValue value))

/-! ### Specification -/

/-- Number of times the observation `j` of dataset `d` is in the files. -/
def Output.times (o : Output) (d j : Nat) : Nat :=
  ((o.untracked[d]?).getD []).count j + o.long.rows.count (some (d, j)) + o.short.rows.count (some (d, j))

/-- Number of rows of the track `i`. -/
def Table.size (t : Table) (i : Nat) : Nat := t.track.count i

/-! ### Tables of a consistent history -/

theorem obsAt_filterRename {p : Nat → Prop} [DecidablePred p] {ρ : Nat → Nat} {h : List (List Link)}
    (hinj : ∀ i j, p i → p j → ρ i = ρ j → i = j) {i' d j : Nat} :
    ObsAt (filterRename p ρ h) i' d j ↔ ∃ i, p i ∧ ρ i = i' ∧ ObsAt h i d j := by
  have husd : ∀ k i, p i → (UsedAt (filterRename p ρ h) k (ρ i) ↔ UsedAt h k i) := by
    intro k i hp
    rw [usedAt_filterRename]
    constructor
    · rintro ⟨j, h1, h2, e⟩
      rw [hinj i j hp h2 e]; exact h1
    · exact fun h1 => ⟨i, h1, hp, rfl⟩
  constructor
  · rintro (⟨k, l, e, hl, e1, e2⟩ | ⟨l, hl, e1, e2, hn⟩)
    · obtain ⟨l0, g1, g2, rfl⟩ := linkAt_filterRename.1 hl
      exact ⟨l0.id, g2, e1, Or.inl ⟨k, l0, e, g1, rfl, e2⟩⟩
    · obtain ⟨l0, g1, g2, rfl⟩ := linkAt_filterRename.1 hl
      refine ⟨l0.id, g2, e1, Or.inr ⟨l0, g1, rfl, e2, fun k hk hu => hn k hk ?_⟩⟩
      rw [← e1]
      exact (husd k l0.id g2).2 hu
  · rintro ⟨i, hp, rfl, ⟨k, l, e, hl, e1, e2⟩ | ⟨l, hl, e1, e2, hn⟩⟩
    · subst e1
      exact Or.inl ⟨k, _, e, linkAt_filterRename.2 ⟨l, hl, hp, rfl⟩, rfl, e2⟩
    · subst e1
      exact Or.inr ⟨_, linkAt_filterRename.2 ⟨l, hl, hp, rfl⟩, rfl, e2, fun k hk hu => hn k hk ((husd k _ hp).1 hu)⟩

/-- The extent of the track of an observation. -/
theorem obsAt_extent {nbV : Nat} {h : List (List Link)} (wf : WF nbV h) {i d j : Nat} (ho : ObsAt h i d j) :
    ∃ k k0, UsedAt h k i ∧ FirstAt h i k0 ∧ k0 ≤ d ∧ d - k0 < nbObsByTracks (decide (0 < nbV)) h i := by
  have hu : ∃ k, UsedAt h k i ∧ k ≤ d ∧ d ≤ k + 1 := by
    rcases ho with ⟨k, l, e, hl, ei, _⟩ | ⟨l, hl, ei, _, _⟩
    · exact ⟨k, ⟨l, hl, ei⟩, by omega, by omega⟩
    · exact ⟨d, ⟨l, hl, ei⟩, by omega, by omega⟩
  obtain ⟨k, hu, hk1, hk2⟩ := hu
  obtain ⟨k0, hf⟩ := exists_first hu
  obtain ⟨k1, hla⟩ := exists_last hu
  have hc := (nbObs_spec wf i).2 k0 k1 hf hla
  have h01 : k0 ≤ k := by
    by_contra hlt
    exact hf.2 k (by omega) hu
  have h11 : k ≤ k1 := by
    by_contra hlt
    exact hla.2 k (by omega) hu
  exact ⟨k, k0, hu, hf, by omega, by omega⟩

theorem mem_mergeTable {nbV : Nat} {h : List (List Link)} (wf : WF nbV h) {cid : Nat} (hid : ∀ k i, UsedAt h k i → i < cid) (d j : Nat) :
    some (d, j) ∈ (mergeTable (decide (0 < nbV)) (nbObsByTracks (decide (0 < nbV)) h) cid h).rows ↔ ∃ i, ObsAt h i d j := by
  set N := nbObsByTracks (decide (0 < nbV)) h with hN
  have minv : MInv N h (merge (decide (0 < nbV)) N h) := merge_inv N wf (fun _ => Nat.le_refl _)
  constructor
  · intro hm
    obtain ⟨r, hr, e⟩ := List.mem_map.1 hm
    obtain ⟨i, n, hi, hn, rfl⟩ := start_cover _ (show r < start N cid from List.mem_range.1 hr)
    obtain ⟨k0, j', hf, e, ho⟩ := (minv.rows i n hn _).1 e
    simp only [Prod.mk.injEq] at e
    obtain ⟨rfl, rfl⟩ := e
    exact ⟨i, ho⟩
  · rintro ⟨i, ho⟩
    obtain ⟨k, k0, hu, hf, hd, hn⟩ := obsAt_extent wf ho
    refine List.mem_map.2 ⟨start N i + (d - k0), List.mem_range.2 ?_, ?_⟩
    · have := start_mono N (hid k i hu)
      have hn' : d - k0 < N i := hn
      show _ < start N cid
      omega
    · rw [minv.rows i (d - k0) hn]
      have : k0 + (d - k0) = d := by omega
      exact ⟨k0, j, hf, by rw [this], by rw [this]; exact ho⟩

theorem count_le_one_of {β : Type} [BEq β] [LawfulBEq β] {l : List β} {x : β}
    (h : ∀ a b : Nat, l[a]? = some x → l[b]? = some x → a = b) : l.count x ≤ 1 := by
  induction l with
  | nil => simp
  | cons y l ih =>
    have ih' := ih (fun a b ha hb => by
      have := h (a + 1) (b + 1) (by simpa using ha) (by simpa using hb)
      omega)
    rw [List.count_cons]
    split
    · rename_i e
      have e' : y = x := by simpa using e
      have : l.count x = 0 := by
        rw [List.count_eq_zero]
        intro hm
        obtain ⟨a, ha⟩ := List.mem_iff_getElem?.1 hm
        have := h 0 (a + 1) (by simp [e']) (by simpa using ha)
        omega
      omega
    · omega

theorem count_mergeTable {nbV : Nat} {h : List (List Link)} (wf : WF nbV h) {cid : Nat} (d j : Nat) :
    (mergeTable (decide (0 < nbV)) (nbObsByTracks (decide (0 < nbV)) h) cid h).rows.count (some (d, j)) ≤ 1 := by
  set N := nbObsByTracks (decide (0 < nbV)) h with hN
  have minv : MInv N h (merge (decide (0 < nbV)) N h) := merge_inv N wf (fun _ => Nat.le_refl _)
  have hrow : ∀ r : Nat, (mergeTable (decide (0 < nbV)) N cid h).rows[r]? = some (some (d, j)) →
      ∃ i n k0, n < N i ∧ r = start N i + n ∧ FirstAt h i k0 ∧ d = k0 + n ∧ ObsAt h i d j := by
    intro r hr
    unfold mergeTable at hr
    simp only [List.getElem?_map, Option.map_eq_some_iff] at hr
    obtain ⟨r', hr', hrow⟩ := hr
    have hlt : r < nbObs N cid := by
      by_contra hge
      rw [List.getElem?_eq_none (by simpa using hge)] at hr'
      cases hr'
    rw [List.getElem?_range hlt] at hr'
    obtain rfl := Option.some.inj hr'
    obtain ⟨i, n, hi, hn, rfl⟩ := start_cover _ (show r < start N cid from hlt)
    obtain ⟨k0, j', hf, e, ho⟩ := (minv.rows i n hn _).1 hrow
    simp only [Prod.mk.injEq] at e
    obtain ⟨rfl, rfl⟩ := e
    exact ⟨i, n, k0, hn, rfl, hf, rfl, ho⟩
  apply count_le_one_of
  intro a b ha hb
  obtain ⟨i, n, k0, hn, er, hf, ed, ho⟩ := hrow a ha
  obtain ⟨i', n', k0', hn', er', hf', ed', ho'⟩ := hrow b hb
  have := obsAt_unique wf ho ho'
  subst this
  have := hf.unique hf'
  subst this
  have : n = n' := by omega
  subst this
  rw [er, er']

/-! ### Tables of a selection -/

/-- The table of the kept tracks `keep` is the table of a consistent history with its own counts. -/
theorem selectionTable_eq {nbV : Nat} {h : List (List Link)} (wf : WF nbV h) {keep : List Nat} (hs : keep.Pairwise (· < ·)) :
    selectionTable (decide (0 < nbV)) ⟨renumber keep h, keep.length, keep.map (nbObsByTracks (decide (0 < nbV)) h)⟩ =
      mergeTable (decide (0 < nbV)) (nbObsByTracks (decide (0 < nbV)) (renumber keep h)) keep.length (renumber keep h) ∧
    WF nbV (renumber keep h) ∧ (∀ k i, UsedAt (renumber keep h) k i → i < keep.length) ∧
    (∀ d j, (∃ i, ObsAt (renumber keep h) i d j) ↔ ∃ i ∈ keep, ObsAt h i d j) := by
  have hnd : keep.Nodup := hs.imp (fun h => Nat.ne_of_lt h)
  have hinj : ∀ i j, i ∈ keep → j ∈ keep → translate keep i = translate keep j → i = j := by
    intro i j hi hj e
    have h1 := translate_lt_iff hs hi hj
    have h2 := translate_lt_iff hs hj hi
    omega
  have hwf : WF nbV (renumber keep h) := by rw [renumber_eq]; exact wf_filterRename hinj wf
  have hlt : ∀ k i, UsedAt (renumber keep h) k i → i < keep.length := by
    intro k i hu
    rw [renumber_eq] at hu
    obtain ⟨i0, _, hi0, rfl⟩ := usedAt_filterRename.1 hu
    obtain ⟨a, ha, rfl⟩ := List.mem_iff_getElem.1 hi0
    rw [translate_getElem hnd ha]
    exact ha
  refine ⟨?_, hwf, hlt, ?_⟩
  · unfold selectionTable
    congr 1
    funext m
    by_cases hm : m < keep.length
    · have e := nbObs_filterRename hinj wf keep[m] (List.getElem_mem hm)
      rw [translate_getElem hnd hm] at e
      rw [renumber_eq, e]
      simp [List.getD, List.getElem?_eq_getElem hm]
    · rw [(nbObs_spec hwf m).1 (fun k hu => hm (hlt k m hu))]
      simp [List.getD, List.getElem?_eq_none (Nat.le_of_not_lt hm)]
  · intro d j
    rw [renumber_eq]
    constructor
    · rintro ⟨i, ho⟩
      obtain ⟨i0, hi0, _, ho⟩ := (obsAt_filterRename hinj).1 ho
      exact ⟨i0, hi0, ho⟩
    · rintro ⟨i, hi, ho⟩
      exact ⟨_, (obsAt_filterRename hinj).2 ⟨i, hi, rfl, ho⟩⟩

theorem count_selectionTable {nbV : Nat} {h : List (List Link)} (wf : WF nbV h) {keep : List Nat} (hs : keep.Pairwise (· < ·))
    (d j : Nat) [Decidable (∃ i ∈ keep, ObsAt h i d j)] :
    (selectionTable (decide (0 < nbV)) ⟨renumber keep h, keep.length, keep.map (nbObsByTracks (decide (0 < nbV)) h)⟩).rows.count
      (some (d, j)) = if ∃ i ∈ keep, ObsAt h i d j then 1 else 0 := by
  obtain ⟨e, hwf, hid, hobs⟩ := selectionTable_eq wf hs
  rw [e]
  have h1 := mem_mergeTable hwf hid d j
  have h2 := count_mergeTable hwf (cid := keep.length) d j
  rw [hobs] at h1
  split
  · rename_i hex
    have := List.count_pos_iff.2 (h1.2 hex)
    omega
  · rename_i hex
    exact List.count_eq_zero.2 (fun hm => hex (h1.1 hm))

theorem count_trackColumn (nb : Nat → Nat) (cid i : Nat) : (trackColumn nb cid).count i = if i < cid then nb i else 0 := by
  unfold trackColumn
  induction cid with
  | zero => simp
  | succ c ih =>
    rw [List.range_succ, List.flatMap_append, List.count_append, ih]
    simp only [List.flatMap_cons, List.flatMap_nil, List.append_nil, List.count_replicate]
    by_cases h : c = i
    · subst h; simp
    · by_cases h2 : i < c
      · rw [if_pos h2, if_pos (show i < c + 1 by omega)]; simp [h]
      · rw [if_neg h2, if_neg (show ¬ i < c + 1 by omega)]; simp [h]

/-! ### C168 -/

/-- C168 (partial). For any run of the tracking on at least two datasets, when there is at least one short track and one long
track, the script succeeds: every observation of the datasets is exactly once in the three files, the files hold nothing else,
tracks of the long file have at least `sizeMin` rows, those of the short file less. Missing: without long track or without short
track the property is false, see `no_long_wrong` and `no_short_raises`. -/
theorem final_partial (cfg : Cfg α δ) (ht : OneToOne cfg.tracking) (files : List (List α)) (s : St α δ)
    (hs : track cfg files = some s) (h2 : 2 ≤ files.length) (sizeMin : Nat)
    (hshort : ∃ i, i < s.currentId ∧ counts cfg s i < sizeMin) (hlong : ∃ i, i < s.currentId ∧ sizeMin ≤ counts cfg s i) :
    ∃ o, finalTracking cfg.virtual (files.map List.length) s.corrs s.currentId sizeMin = some o ∧
      (∀ (d : Nat) f, files[d]? = some f → ∀ j, j < f.length → o.times d j = 1) ∧
      (∀ d j, 0 < o.times d j → ∃ f, files[d]? = some f ∧ j < f.length) ∧
      (∀ i, i ∈ o.long.track → sizeMin ≤ o.long.size i) ∧ (∀ i, i ∈ o.short.track → o.short.size i < sizeMin) ∧
      o.long.rows.length = o.long.track.length ∧ o.short.rows.length = o.short.track.length := by
  classical
  have inv := inv_of_track ht hs
  have wf := inv.wf
  obtain ⟨U, hU, hUl, hUm⟩ := unused_spec cfg ht files s hs h2
  have hkl := keepTracks_sorted s.currentId (fun i => decide (sizeMin ≤ counts cfg s i))
  have hks := keepTracks_sorted s.currentId (fun i => decide (counts cfg s i < sizeMin))
  have hel : longerThan (counts cfg s) s.currentId s.corrs sizeMin =
      some ⟨renumber (keepTracks s.currentId (fun i => decide (sizeMin ≤ counts cfg s i))) s.corrs,
        (keepTracks s.currentId (fun i => decide (sizeMin ≤ counts cfg s i))).length,
        (keepTracks s.currentId (fun i => decide (sizeMin ≤ counts cfg s i))).map (counts cfg s)⟩ := by
    unfold longerThan
    simp only
    rw [if_neg]
    rw [List.isEmpty_iff]
    obtain ⟨i, h1, h2⟩ := hlong
    intro e
    have : i ∈ keepTracks s.currentId (fun i => decide (sizeMin ≤ counts cfg s i)) := keepTracks_mem.2 ⟨h1, by simpa using h2⟩
    rw [e] at this
    simp at this
  have hes : shorterThan (counts cfg s) s.currentId s.corrs sizeMin =
      some ⟨renumber (keepTracks s.currentId (fun i => decide (counts cfg s i < sizeMin))) s.corrs,
        (keepTracks s.currentId (fun i => decide (counts cfg s i < sizeMin))).length,
        (keepTracks s.currentId (fun i => decide (counts cfg s i < sizeMin))).map (counts cfg s)⟩ := by
    unfold shorterThan
    simp only
    rw [if_neg]
    rw [List.isEmpty_iff]
    obtain ⟨i, h1, h2⟩ := hshort
    intro e
    have : i ∈ keepTracks s.currentId (fun i => decide (counts cfg s i < sizeMin)) := keepTracks_mem.2 ⟨h1, by simpa using h2⟩
    rw [e] at this
    simp at this
  generalize hKl : keepTracks s.currentId (fun i => decide (sizeMin ≤ counts cfg s i)) = Kl at hkl hel
  generalize hKs : keepTracks s.currentId (fun i => decide (counts cfg s i < sizeMin)) = Ks at hks hes
  have hml : ∀ i, i ∈ Kl ↔ i < s.currentId ∧ sizeMin ≤ counts cfg s i := by
    intro i; rw [← hKl, keepTracks_mem]; simp
  have hms : ∀ i, i ∈ Ks ↔ i < s.currentId ∧ counts cfg s i < sizeMin := by
    intro i; rw [← hKs, keepTracks_mem]; simp
  have hcl := fun d j => count_selectionTable wf hkl d j
  have hcs := fun d j => count_selectionTable wf hks d j
  have hobsid : ∀ i d j, ObsAt s.corrs i d j → i < s.currentId := by
    intro i d j ho
    obtain ⟨k, _, hu, _⟩ := obsAt_extent wf ho
    exact inv.idlt k i hu
  have hsize : ∀ i d j, ObsAt s.corrs i d j → ∃ f, files[d]? = some f ∧ j < f.length := by
    rintro i d j (⟨k, l, rfl, hl, _, rfl⟩ | ⟨l, hl, e1, rfl, hn⟩)
    · exact (inv.sized k l hl).1
    · obtain ⟨f, hf, hv⟩ := (inv.sized d l hl).2
      refine ⟨f, hf, hv.1 ?_⟩
      cases hv : l.virt with
      | false => rfl
      | true =>
        obtain ⟨_, _, _, h4, _⟩ := wf.virt _ l hl hv
        exact absurd (e1 ▸ h4) (hn _ (by omega))
  have hrow : ∀ d j, (∃ r, r < nbObs (counts cfg s) s.currentId ∧ (merged cfg s).rows r = some (d, j)) ↔ ∃ i, ObsAt s.corrs i d j := by
    intro d j
    rw [← mem_mergeTable wf inv.idlt d j]
    unfold mergeTable
    simp only [List.mem_map, List.mem_range]
    rfl
  refine ⟨⟨U, selectionTable cfg.virtual ⟨renumber Kl s.corrs, Kl.length, Kl.map (counts cfg s)⟩,
    selectionTable cfg.virtual ⟨renumber Ks s.corrs, Ks.length, Ks.map (counts cfg s)⟩⟩, ?_, ?_, ?_, ?_, ?_, ?_, ?_⟩
  · unfold finalTracking
    simp only
    rw [hU, Option.bind_some]
    have e1 : shorterThan (nbObsByTracks cfg.virtual s.corrs) s.currentId s.corrs sizeMin = _ := hes
    have e2 : longerThan (nbObsByTracks cfg.virtual s.corrs) s.currentId s.corrs sizeMin = _ := hel
    rw [e1, e2]
    rfl
  · intro d f hf j hj
    have hd : d < files.length := (List.getElem?_eq_some_iff.1 hf).1
    have hu : U[d]? = some U[d] := List.getElem?_eq_getElem (by omega)
    have hnd : (U[d]).Nodup := by
      unfold unused at hU
      obtain ⟨x, hx, e⟩ := mapM_mem hU (List.getElem_mem (by omega : d < U.length))
      rw [Option.map_eq_some_iff] at e
      obtain ⟨w, _, e⟩ := e
      rw [← e]
      exact List.nodup_range.filter _
    have hm := hUm d f _ hf hu j
    rw [hrow] at hm
    show ((U[d]?).getD []).count j + List.count _ _ + List.count _ _ = 1
    have a := hcl d j
    have b := hcs d j
    rw [hu, Option.getD_some]
    have a' : (selectionTable cfg.virtual ⟨renumber Kl s.corrs, Kl.length, Kl.map (counts cfg s)⟩).rows.count (some (d, j)) = _ := a
    have b' : (selectionTable cfg.virtual ⟨renumber Ks s.corrs, Ks.length, Ks.map (counts cfg s)⟩).rows.count (some (d, j)) = _ := b
    rw [a', b']
    by_cases ho : ∃ i, ObsAt s.corrs i d j
    · rw [List.count_eq_zero.2 (fun h' => (hm.1 h').2 ho)]
      obtain ⟨i, ho⟩ := ho
      have hi := hobsid i d j ho
      by_cases hc : sizeMin ≤ counts cfg s i
      · rw [if_pos ⟨i, (hml i).2 ⟨hi, hc⟩, ho⟩, if_neg]
        rintro ⟨i', hi', ho'⟩
        obtain rfl := obsAt_unique wf ho ho'
        have := ((hms i).1 hi').2
        omega
      · rw [if_neg, if_pos ⟨i, (hms i).2 ⟨hi, by omega⟩, ho⟩]
        rintro ⟨i', hi', ho'⟩
        obtain rfl := obsAt_unique wf ho ho'
        exact hc ((hml i).1 hi').2
    · rw [if_neg (fun ⟨i, _, h⟩ => ho ⟨i, h⟩), if_neg (fun ⟨i, _, h⟩ => ho ⟨i, h⟩), List.count_eq_one_of_mem hnd (hm.2 ⟨hj, ho⟩)]
  · intro d j hpos
    have hpos' : 0 < ((U[d]?).getD []).count j + List.count (some (d, j)) (selectionTable cfg.virtual ⟨renumber Kl s.corrs, Kl.length, Kl.map (counts cfg s)⟩).rows +
      List.count (some (d, j)) (selectionTable cfg.virtual ⟨renumber Ks s.corrs, Ks.length, Ks.map (counts cfg s)⟩).rows := hpos
    have a' : (selectionTable cfg.virtual ⟨renumber Kl s.corrs, Kl.length, Kl.map (counts cfg s)⟩).rows.count (some (d, j)) = _ := hcl d j
    have b' : (selectionTable cfg.virtual ⟨renumber Ks s.corrs, Ks.length, Ks.map (counts cfg s)⟩).rows.count (some (d, j)) = _ := hcs d j
    rw [a', b'] at hpos'
    by_cases ho : ∃ i, ObsAt s.corrs i d j
    · obtain ⟨i, ho⟩ := ho
      exact hsize i d j ho
    · rw [if_neg (fun ⟨i, _, h⟩ => ho ⟨i, h⟩), if_neg (fun ⟨i, _, h⟩ => ho ⟨i, h⟩)] at hpos'
      have hpos2 : 0 < ((U[d]?).getD []).count j := by omega
      by_cases hd : d < U.length
      · rw [List.getElem?_eq_getElem hd, Option.getD_some, List.count_pos_iff] at hpos2
        have hf : files[d]? = some files[d] := List.getElem?_eq_getElem (by omega)
        exact ⟨_, hf, ((hUm d _ _ hf (List.getElem?_eq_getElem hd) j).1 hpos2).1⟩
      · rw [List.getElem?_eq_none (by omega)] at hpos2
        simp at hpos2
  · intro i hi
    have e : (selectionTable cfg.virtual ⟨renumber Kl s.corrs, Kl.length, Kl.map (counts cfg s)⟩).size i = _ := count_trackColumn _ _ i
    have hpos := List.count_pos_iff.2 hi
    show sizeMin ≤ (selectionTable cfg.virtual ⟨renumber Kl s.corrs, Kl.length, Kl.map (counts cfg s)⟩).size i
    rw [e]
    have hpos' : 0 < (selectionTable cfg.virtual ⟨renumber Kl s.corrs, Kl.length, Kl.map (counts cfg s)⟩).size i := hpos
    rw [e] at hpos'
    split at hpos'
    · rename_i hlt
      have hlt' : i < Kl.length := hlt
      simp only [hlt', if_true, List.getD, List.getElem?_map, List.getElem?_eq_getElem hlt', Option.map_some, Option.getD_some]
      exact ((hml _).1 (List.getElem_mem hlt')).2
    · omega
  · intro i hi
    have e : (selectionTable cfg.virtual ⟨renumber Ks s.corrs, Ks.length, Ks.map (counts cfg s)⟩).size i = _ := count_trackColumn _ _ i
    have hpos := List.count_pos_iff.2 hi
    show (selectionTable cfg.virtual ⟨renumber Ks s.corrs, Ks.length, Ks.map (counts cfg s)⟩).size i < sizeMin
    rw [e]
    have hpos' : 0 < (selectionTable cfg.virtual ⟨renumber Ks s.corrs, Ks.length, Ks.map (counts cfg s)⟩).size i := hpos
    rw [e] at hpos'
    split at hpos'
    · rename_i hlt
      have hlt' : i < Ks.length := hlt
      simp only [hlt', if_true, List.getD, List.getElem?_map, List.getElem?_eq_getElem hlt', Option.map_some, Option.getD_some]
      exact ((hms _).1 (List.getElem_mem hlt')).2
    · omega
  · simp only [selectionTable, mergeTable, List.length_map, List.length_range, trackColumn, nbObs, List.length_flatMap, List.length_replicate]
  · simp only [selectionTable, mergeTable, List.length_map, List.length_range, trackColumn, nbObs, List.length_flatMap, List.length_replicate]

/-! ### What happens without long or without short tracks -/

/-- C168, negation. When no track is shorter than the limit, in particular without any track, the script raises after it wrote
the file of untracked observations: neither tracks file is written. -/
theorem no_short_raises (virtual : Bool) (sizes : List Nat) (h : List (List Link)) (cid sizeMin : Nat)
    (hall : ∀ i, i < cid → sizeMin ≤ nbObsByTracks virtual h i) : finalTracking virtual sizes h cid sizeMin = none := by
  unfold finalTracking
  simp only
  rw [shorter_than_raises _ cid h sizeMin hall]
  cases unused virtual sizes h.reverse <;> rfl

/-- C168, negation. When all tracks are short, the long file holds all of them too: each observation with a track is twice in the
files, and the long file holds tracks shorter than the limit. -/
theorem no_long_wrong (cfg : Cfg α δ) (ht : OneToOne cfg.tracking) (files : List (List α)) (s : St α δ)
    (hs : track cfg files = some s) (h2 : 2 ≤ files.length) (sizeMin : Nat) (hpos : 0 < s.currentId)
    (hall : ∀ i, i < s.currentId → counts cfg s i < sizeMin) :
    ∃ o, finalTracking cfg.virtual (files.map List.length) s.corrs s.currentId sizeMin = some o ∧
      (∀ d j, (∃ i, ObsAt s.corrs i d j) → o.long.rows.count (some (d, j)) = 1 ∧ o.short.rows.count (some (d, j)) = 1) ∧
      ∀ i, i < s.currentId → o.long.size i < sizeMin ∧ 0 < o.long.size i := by
  classical
  have inv := inv_of_track ht hs
  have wf := inv.wf
  obtain ⟨U, hU, hUl, hUm⟩ := unused_spec cfg ht files s hs h2
  have hel : longerThan (counts cfg s) s.currentId s.corrs sizeMin = none := (longer_than_spec cfg s sizeMin).1.2 hall
  have hks := keepTracks_sorted s.currentId (fun i => decide (counts cfg s i < sizeMin))
  have hes : shorterThan (counts cfg s) s.currentId s.corrs sizeMin =
      some ⟨renumber (keepTracks s.currentId (fun i => decide (counts cfg s i < sizeMin))) s.corrs,
        (keepTracks s.currentId (fun i => decide (counts cfg s i < sizeMin))).length,
        (keepTracks s.currentId (fun i => decide (counts cfg s i < sizeMin))).map (counts cfg s)⟩ := by
    unfold shorterThan
    simp only
    rw [if_neg]
    rw [List.isEmpty_iff]
    intro e
    have : 0 ∈ keepTracks s.currentId (fun i => decide (counts cfg s i < sizeMin)) := keepTracks_mem.2 ⟨hpos, by simpa using hall 0 hpos⟩
    rw [e] at this
    simp at this
  generalize hKs : keepTracks s.currentId (fun i => decide (counts cfg s i < sizeMin)) = Ks at hks hes
  have hms : ∀ i, i ∈ Ks ↔ i < s.currentId := by
    intro i
    rw [← hKs, keepTracks_mem]
    simp only [decide_eq_true_eq, and_iff_left_iff_imp]
    exact hall i
  have elong : selectionTable cfg.virtual ⟨s.corrs, s.currentId, (List.range s.currentId).map (counts cfg s)⟩ =
      mergeTable cfg.virtual (counts cfg s) s.currentId s.corrs := by
    unfold selectionTable
    congr 1
    funext m
    by_cases hm : m < s.currentId
    · simp [List.getD, hm]
    · have : counts cfg s m = 1 := (nbObs_spec wf m).1 (fun k hu => hm (inv.idlt k m hu))
      rw [this]
      simp [List.getD, hm]
  refine ⟨⟨U, selectionTable cfg.virtual ⟨s.corrs, s.currentId, (List.range s.currentId).map (counts cfg s)⟩,
    selectionTable cfg.virtual ⟨renumber Ks s.corrs, Ks.length, Ks.map (counts cfg s)⟩⟩, ?_, ?_, ?_⟩
  · unfold finalTracking
    simp only
    rw [hU, Option.bind_some]
    have e1 : shorterThan (nbObsByTracks cfg.virtual s.corrs) s.currentId s.corrs sizeMin = _ := hes
    have e2 : longerThan (nbObsByTracks cfg.virtual s.corrs) s.currentId s.corrs sizeMin = none := hel
    rw [e1, e2]
    rfl
  · intro d j ho
    constructor
    · show List.count _ (selectionTable _ _).rows = 1
      rw [elong]
      have h1 := count_mergeTable wf (cid := s.currentId) d j
      have h2 := List.count_pos_iff.2 ((mem_mergeTable wf inv.idlt d j).2 ho)
      exact Nat.le_antisymm h1 h2
    · have b' : (selectionTable cfg.virtual ⟨renumber Ks s.corrs, Ks.length, Ks.map (counts cfg s)⟩).rows.count (some (d, j)) = _ :=
        count_selectionTable wf hks d j
      show List.count _ (selectionTable _ _).rows = 1
      rw [b', if_pos]
      obtain ⟨i, ho⟩ := ho
      obtain ⟨k, _, hu, _⟩ := obsAt_extent wf ho
      exact ⟨i, (hms i).2 (inv.idlt k i hu), ho⟩
  · intro i hi
    have e : (mergeTable cfg.virtual (counts cfg s) s.currentId s.corrs).size i = _ := count_trackColumn _ _ i
    show (selectionTable _ _).size i < sizeMin ∧ 0 < (selectionTable _ _).size i
    rw [elong, e, if_pos hi]
    exact ⟨hall i hi, nbObs_pos wf i⟩

/-! ### Virtual observations -/

theorem points_append (k : Nat) : ∀ (m1 m2 : List Bool) (c1 c2 : List Rat), m1.length = c1.length →
    Missing.points k (m1 ++ m2) (c1 ++ c2) = Missing.points k m1 c1 ++ Missing.points (k + m1.length) m2 c2 := by
  intro m1
  induction m1 generalizing k with
  | nil => intro m2 c1 c2 h; cases c1 <;> simp_all [Missing.points]
  | cons b m1 ih =>
    intro m2 c1 c2 h
    cases c1 with
    | nil => simp at h
    | cons v c1 =>
      have h' : m1.length = c1.length := by simpa using h
      have e : k + 1 + m1.length = k + (b :: m1).length := by simp; omega
      cases b with
      | false => simp only [List.cons_append, Missing.points, ih (k + 1) m2 c1 c2 h', e]
      | true => simp only [List.cons_append, Missing.points, ih (k + 1) m2 c1 c2 h', e]

theorem points_lt : ∀ (k : Nat) (m : List Bool) (c : List Rat), ∀ q ∈ Missing.points k m c, q.1 < ((k + m.length : Nat) : Rat) := by
  intro k m
  induction m generalizing k with
  | nil => intro c q hq; cases c <;> simp [Missing.points] at hq
  | cons b m ih =>
    intro c q hq
    have e : ((k + 1 + m.length : Nat) : Rat) = ((k + (b :: m).length : Nat) : Rat) := by
      congr 1; simp; omega
    cases c with
    | nil => cases b <;> simp [Missing.points] at hq
    | cons v c =>
      cases b with
      | false =>
        simp only [Missing.points, List.mem_cons] at hq
        rcases hq with rfl | hq
        · simp only
          exact_mod_cast (show k < k + (false :: m).length by simp)
        · rw [← e]; exact ih (k + 1) c q hq
      | true =>
        simp only [Missing.points] at hq
        rw [← e]; exact ih (k + 1) c q hq

theorem points_all_true (k : Nat) (m : List Bool) (c : List Rat) (h : ∀ b ∈ m, b = true) : Missing.points k m c = [] := by
  induction m generalizing k c with
  | nil => cases c <;> rfl
  | cons b m ih =>
    have hb := h b (by simp)
    subst hb
    cases c with
    | nil => rfl
    | cons v c => rw [Missing.points]; exact ih _ _ (fun x hx => h x (by simp [hx]))

/-- Filling between two observations which are kept. -/
theorem fill_between {mask : List Bool} {col : List Rat} (hl : mask.length = col.length) {a r b : Nat} {va vb : Rat} (h1 : a < r) (h2 : r < b)
    (ha : mask[a]? = some false) (hb : mask[b]? = some false) (hm : ∀ k, a < k → k < b → mask[k]? = some true)
    (hva : col[a]? = some va) (hvb : col[b]? = some vb) :
    (Missing.fillField mask col)[r]? = some (va + (vb - va) / ((b : Rat) - a) * ((r : Rat) - a)) := by
  obtain ⟨hla, ea⟩ := List.getElem?_eq_some_iff.1 ha
  obtain ⟨hlb, eb⟩ := List.getElem?_eq_some_iff.1 hb
  obtain ⟨hca, eva⟩ := List.getElem?_eq_some_iff.1 hva
  obtain ⟨hcb, evb⟩ := List.getElem?_eq_some_iff.1 hvb
  have split : ∀ {β : Type} (l : List β) (x y : β), l[a]? = some x → l[b]? = some y →
      l = (l.take a ++ [x]) ++ (((l.drop (a + 1)).take (b - a - 1)) ++ (y :: l.drop (b + 1))) := by
    intro β l x y hx hy
    obtain ⟨g1, rfl⟩ := List.getElem?_eq_some_iff.1 hx
    obtain ⟨g2, rfl⟩ := List.getElem?_eq_some_iff.1 hy
    have e1 : l = l.take (a + 1) ++ l.drop (a + 1) := (List.take_append_drop _ _).symm
    have e2 : l.drop (a + 1) = (l.drop (a + 1)).take (b - a - 1) ++ l.drop b := by
      conv_lhs => rw [← List.take_append_drop (b - a - 1) (l.drop (a + 1))]
      rw [List.drop_drop]
      congr 2
      omega
    rw [← List.drop_eq_getElem_cons g2, ← e2]
    conv_lhs => rw [e1, List.take_add_one, hx]
    rfl
  have hpts : Missing.points 0 mask col = Missing.points 0 (mask.take a) (col.take a) ++
      ((a : Rat), va) :: ((b : Rat), vb) :: Missing.points (b + 1) (mask.drop (b + 1)) (col.drop (b + 1)) := by
    conv_lhs => rw [split mask false false ha hb, split col va vb hva hvb]
    have la : (mask.take a).length = a := by rw [List.length_take]; omega
    have lca : (col.take a).length = a := by rw [List.length_take]; omega
    have lb : ((mask.drop (a + 1)).take (b - a - 1)).length = b - a - 1 := by rw [List.length_take, List.length_drop]; omega
    have lcb : ((col.drop (a + 1)).take (b - a - 1)).length = b - a - 1 := by rw [List.length_take, List.length_drop]; omega
    rw [points_append 0 (mask.take a ++ [false]) _ (col.take a ++ [va]) _ (by simp [la, lca]),
      points_append 0 (mask.take a) [false] (col.take a) [va] (by rw [la, lca]),
      points_append _ ((mask.drop (a + 1)).take (b - a - 1)) _ ((col.drop (a + 1)).take (b - a - 1)) _ (by rw [lb, lcb]),
      points_all_true _ ((mask.drop (a + 1)).take (b - a - 1))]
    · rw [List.nil_append, List.length_append, la, lb, List.append_assoc]
      have e1 : 0 + (a + [false].length) + (b - a - 1) = b := by simp; omega
      rw [e1, Nat.zero_add]
      rfl
    · intro x hx
      obtain ⟨i, hi⟩ := List.mem_iff_getElem?.1 hx
      have hi' : i < b - a - 1 := by
        obtain ⟨g, _⟩ := List.getElem?_eq_some_iff.1 hi
        omega
      rw [List.getElem?_take_of_lt hi', List.getElem?_drop] at hi
      rw [hm (a + 1 + i) (by omega) (by omega)] at hi
      exact (Option.some.inj hi).symm
  unfold Missing.fillField
  rw [List.getElem?_mapIdx]
  have hr : r < mask.length := by omega
  have hz : (mask.zip col)[r]? = some (true, col[r]'(by omega)) := by
    rw [List.getElem?_zip_eq_some]
    exact ⟨hm r h1 h2, List.getElem?_eq_getElem _⟩
  rw [hz, Option.map_some, if_pos rfl, hpts, Missing.interp_mid]
  · intro q hq
    have := points_lt 0 (mask.take a) (col.take a) q hq
    have le : (((0 + (mask.take a).length : Nat)) : Rat) ≤ (r : Rat) := by
      rw [List.length_take]
      exact_mod_cast (show 0 + min a mask.length ≤ r by omega)
    linarith
  · simp only
    exact_mod_cast h1.le
  · simp only
    exact_mod_cast h2

/-- Rows without observation are between two observations of their track. -/
theorem row_between {nbV : Nat} {h : List (List Link)} (wf : WF nbV h) {cid : Nat} (hu : ∀ i, i < cid → ∃ k, UsedAt h k i) {r : Nat}
    (hr : (mergeTable (decide (0 < nbV)) (nbObsByTracks (decide (0 < nbV)) h) cid h).rows[r]? = some none) :
    ∃ a b x y, a < r ∧ r < b ∧
      (mergeTable (decide (0 < nbV)) (nbObsByTracks (decide (0 < nbV)) h) cid h).rows[a]? = some (some x) ∧
      (mergeTable (decide (0 < nbV)) (nbObsByTracks (decide (0 < nbV)) h) cid h).rows[b]? = some (some y) ∧
      (∀ k, a < k → k < b → (mergeTable (decide (0 < nbV)) (nbObsByTracks (decide (0 < nbV)) h) cid h).rows[k]? = some none) ∧
      (∀ k, a ≤ k → k ≤ b → (mergeTable (decide (0 < nbV)) (nbObsByTracks (decide (0 < nbV)) h) cid h).track[k]? =
        (mergeTable (decide (0 < nbV)) (nbObsByTracks (decide (0 < nbV)) h) cid h).track[r]?) := by
  classical
  set N := nbObsByTracks (decide (0 < nbV)) h with hN
  have minv : MInv N h (merge (decide (0 < nbV)) N h) := merge_inv N wf (fun _ => Nat.le_refl _)
  have hget : ∀ q : Nat, q < nbObs N cid → (mergeTable (decide (0 < nbV)) N cid h).rows[q]? = some ((merge (decide (0 < nbV)) N h).rows q) := by
    intro q hq
    unfold mergeTable
    simp only [List.getElem?_map, List.getElem?_range hq, Option.map_some]
  have hlt : r < nbObs N cid := by
    by_contra hge
    unfold mergeTable at hr
    rw [List.getElem?_eq_none (by simpa using hge)] at hr
    cases hr
  rw [hget r hlt] at hr
  have hr' := Option.some.inj hr
  obtain ⟨i, n, hi, hn, rfl⟩ := start_cover _ (show r < start N cid from hlt)
  have hblock : ∀ m, m < N i → start N i + m < nbObs N cid := by
    intro m hm
    have := start_mono N hi
    show _ < start N cid
    omega
  have htrack : ∀ m, m < N i → (mergeTable (decide (0 < nbV)) N cid h).track[start N i + m]? = some i := by
    intro m hm
    exact (columns_spec N cid i m hi hm).1
  obtain ⟨k, hku⟩ := hu i hi
  obtain ⟨k0, hf⟩ := exists_first hku
  obtain ⟨k1, hla⟩ := exists_last hku
  have hc : N i + k0 = k1 + 2 := (nbObs_spec wf i).2 k0 k1 hf hla
  have hle := hf.le_last hla
  have hfirst : ∃ x, (merge (decide (0 < nbV)) N h).rows (start N i + 0) = some x := by
    obtain ⟨l, hl, e⟩ := hf.1
    refine ⟨(k0 + 0, l.inp), (minv.rows i 0 (by omega) _).2 ⟨k0, l.inp, hf, rfl, Or.inr ⟨l, hl, e, rfl, hf.2⟩⟩⟩
  have hlast : ∃ x, (merge (decide (0 < nbV)) N h).rows (start N i + (N i - 1)) = some x := by
    obtain ⟨l, hl, e⟩ := hla.1
    refine ⟨(k0 + (N i - 1), l.out), (minv.rows i (N i - 1) (by omega) _).2 ⟨k0, l.out, hf, rfl, Or.inl ⟨k1, l, by omega, hl, e, rfl⟩⟩⟩
  -- the nearest observations
  have hP : ∃ m, n - m < n + 1 ∧ ∃ x, (merge (decide (0 < nbV)) N h).rows (start N i + (n - m)) = some x := by
    refine ⟨n, by omega, ?_⟩
    rw [Nat.sub_self]
    exact hfirst
  have hQ : ∃ m, n + m < N i ∧ ∃ x, (merge (decide (0 < nbV)) N h).rows (start N i + (n + m)) = some x := by
    refine ⟨N i - 1 - n, by omega, ?_⟩
    rw [show n + (N i - 1 - n) = N i - 1 by omega]
    exact hlast
  have hp := Nat.find_spec hP
  have hpm := fun m (hm : m < Nat.find hP) => Nat.find_min hP hm
  have hq := Nat.find_spec hQ
  have hqm := fun m (hm : m < Nat.find hQ) => Nat.find_min hQ hm
  generalize Nat.find hP = p at hp hpm
  generalize Nat.find hQ = q at hq hqm
  obtain ⟨_, x, hx⟩ := hp
  obtain ⟨hqn, y, hy⟩ := hq
  have hp0 : 0 < p := by
    rcases Nat.eq_zero_or_pos p with rfl | h
    · rw [Nat.sub_zero, hr'] at hx; cases hx
    · exact h
  have hpn : p ≤ n := by
    by_contra hge
    have := hpm n (by omega)
    exact this ⟨by omega, by rw [Nat.sub_self]; exact hfirst⟩
  have hq0 : 0 < q := by
    rcases Nat.eq_zero_or_pos q with rfl | h
    · rw [Nat.add_zero, hr'] at hy; cases hy
    · exact h
  refine ⟨start N i + (n - p), start N i + (n + q), x, y, by omega, by omega, ?_, ?_, ?_, ?_⟩
  · rw [hget _ (hblock _ (by omega)), hx]
  · rw [hget _ (hblock _ hqn), hy]
  · intro k hk1 hk2
    obtain ⟨m, rfl⟩ : ∃ m, k = start N i + m := ⟨k - start N i, by omega⟩
    rw [hget _ (hblock _ (by omega))]
    congr 1
    by_contra hne
    obtain ⟨z, hz⟩ := Option.ne_none_iff_exists'.1 hne
    rcases Nat.lt_trichotomy m n with hlt | rfl | hgt
    · exact hpm (n - m) (by omega) ⟨by omega, z, by rw [show n - (n - m) = m by omega]; exact hz⟩
    · rw [hr'] at hz; cases hz
    · exact hqm (m - n) (by omega) ⟨by omega, z, by rw [show n + (m - n) = m by omega]; exact hz⟩
  · intro k hk1 hk2
    obtain ⟨m, rfl⟩ : ∃ m, k = start N i + m := ⟨k - start N i, by omega⟩
    rw [htrack m (by omega), htrack n hn]

/-- What the virtual observations of a file must be: the flag is on the rows without observation, which are between two observations
of the same track, and get the values at their place on the line between them; other rows keep their values. -/
def Filled (time value : Nat × Nat → Rat) (t : Table) : Prop :=
  (∀ (r : Nat) x, t.rows[r]? = some (some x) → (flags time t)[r]? = some false ∧ (filledColumn time value t)[r]? = some (value x)) ∧
  ∀ r : Nat, t.rows[r]? = some none → (flags time t)[r]? = some true ∧ ∃ a b x y, a < r ∧ r < b ∧ t.rows[a]? = some (some x) ∧
    t.rows[b]? = some (some y) ∧ (∀ k, a < k → k < b → t.rows[k]? = some none) ∧
    (∀ k, a ≤ k → k ≤ b → t.track[k]? = t.track[r]?) ∧
    (filledColumn time value t)[r]? = some (value x + (value y - value x) / ((b : Rat) - a) * ((r : Rat) - a))

theorem filled_of_between (time value : Nat × Nat → Rat) (t : Table) (ht : ∀ x, some x ∈ t.rows → time x ≠ 0)
    (h : ∀ r : Nat, t.rows[r]? = some none → ∃ a b x y, a < r ∧ r < b ∧ t.rows[a]? = some (some x) ∧ t.rows[b]? = some (some y) ∧
      (∀ k, a < k → k < b → t.rows[k]? = some none) ∧ (∀ k, a ≤ k → k ≤ b → t.track[k]? = t.track[r]?)) : Filled time value t := by
  have hsome : ∀ (r : Nat) x, t.rows[r]? = some (some x) → (flags time t)[r]? = some false := by
    intro r x hx
    unfold flags
    rw [List.getElem?_map, hx]
    simp [rowValue, ht x (List.mem_of_getElem? hx)]
  have hnone : ∀ r : Nat, t.rows[r]? = some none → (flags time t)[r]? = some true := by
    intro r hx
    unfold flags
    rw [List.getElem?_map, hx]
    simp [rowValue]
  have hcol : ∀ (r : Nat) x, t.rows[r]? = some (some x) → (t.rows.map (rowValue value))[r]? = some (value x) := by
    intro r x hx
    rw [List.getElem?_map, hx]
    rfl
  have hlen : (flags time t).length = (t.rows.map (rowValue value)).length := by simp [flags]
  refine ⟨fun r x hx => ⟨hsome r x hx, ?_⟩, fun r hr => ⟨hnone r hr, ?_⟩⟩
  · unfold filledColumn Missing.fillField
    rw [List.getElem?_mapIdx]
    have hz : ((flags time t).zip (t.rows.map (rowValue value)))[r]? = some (false, value x) := by
      rw [List.getElem?_zip_eq_some]
      exact ⟨hsome r x hx, hcol r x hx⟩
    rw [hz]
    rfl
  · obtain ⟨a, b, x, y, h1, h2, hx, hy, hm, htr⟩ := h r hr
    exact ⟨a, b, x, y, h1, h2, hx, hy, hm, htr, fill_between hlen h1 h2 (hsome a x hx) (hsome b y hy) (fun k h3 h4 => hnone k (hm k h3 h4))
      (hcol a x hx) (hcol b y hy)⟩

/-- `Filled` for the files of any consistent state. -/
theorem filled_of_inv (cfg : Cfg α δ) (files : List (List α)) (s : St α δ) (inv : Inv cfg files s) (sizeMin : Nat) (o : Output)
    (ho : finalTracking cfg.virtual (files.map List.length) s.corrs s.currentId sizeMin = some o) (time value : Nat × Nat → Rat)
    (htime : ∀ x, time x ≠ 0) : Filled time value o.long ∧ Filled time value o.short := by
  have wf := inv.wf
  have key : ∀ keep : List Nat, keep.Pairwise (· < ·) → (∀ i ∈ keep, i < s.currentId) →
      Filled time value (selectionTable cfg.virtual ⟨renumber keep s.corrs, keep.length, keep.map (counts cfg s)⟩) := by
    intro keep hk hlt
    obtain ⟨e, hwf, _, _⟩ := selectionTable_eq wf hk
    have e' : selectionTable cfg.virtual ⟨renumber keep s.corrs, keep.length, keep.map (counts cfg s)⟩ = _ := e
    rw [e']
    apply filled_of_between _ _ _ (fun x _ => htime x)
    intro r hr
    refine row_between hwf ?_ hr
    intro i hi
    have hnd : keep.Nodup := hk.imp (fun h => Nat.ne_of_lt h)
    obtain ⟨k, hu⟩ := inv.idused keep[i] (hlt _ (List.getElem_mem hi))
    refine ⟨k, ?_⟩
    rw [renumber_eq, usedAt_filterRename]
    exact ⟨keep[i], hu, List.getElem_mem hi, (translate_getElem hnd hi).symm⟩
  have hkeep : ∀ (p : Nat → Bool), ∀ i ∈ keepTracks s.currentId p, i < s.currentId := fun p i hi => (keepTracks_mem.1 hi).1
  unfold finalTracking at ho
  simp only [Option.bind_eq_some_iff, Option.map_eq_some_iff] at ho
  obtain ⟨u, _, sel, hsel, rfl⟩ := ho
  have hsel' : shorterThan (counts cfg s) s.currentId s.corrs sizeMin = some sel := hsel
  constructor
  · show Filled time value (selectionTable _ ((longerThan (counts cfg s) s.currentId s.corrs sizeMin).getD _))
    unfold longerThan
    simp only
    split
    · show Filled time value (selectionTable _ ⟨s.corrs, s.currentId, (List.range s.currentId).map (counts cfg s)⟩)
      have elong : selectionTable cfg.virtual ⟨s.corrs, s.currentId, (List.range s.currentId).map (counts cfg s)⟩ =
          mergeTable cfg.virtual (counts cfg s) s.currentId s.corrs := by
        unfold selectionTable
        congr 1
        funext m
        by_cases hm : m < s.currentId
        · simp [List.getD, hm]
        · have : counts cfg s m = 1 := (nbObs_spec wf m).1 (fun k hu => hm (inv.idlt k m hu))
          rw [this]
          simp [List.getD, hm]
      rw [elong]
      exact filled_of_between _ _ _ (fun x _ => htime x) (fun r hr => row_between wf inv.idused hr)
    · exact key _ (keepTracks_sorted _ _) (hkeep _)
  · show Filled time value (selectionTable _ sel)
    unfold shorterThan at hsel'
    simp only at hsel'
    split at hsel'
    · cases hsel'
    · obtain rfl := Option.some.inj hsel'
      exact key _ (keepTracks_sorted _ _) (hkeep _)

/-- C168 (partial, virtual observations). In both files of tracks, when no observation has the time 0, the flag is on the rows
without observation and their values are on the line between the observations before and after in the track. Missing: an observation
of 1950-01-01 is replaced, see `time_zero_wrong`; longitudes on both sides of the seam give a position on the other side of the earth,
see `seam_wrong`; contours are not filled. -/
theorem final_filled_partial (cfg : Cfg α δ) (ht : OneToOne cfg.tracking) (files : List (List α)) (s : St α δ)
    (hs : track cfg files = some s) (sizeMin : Nat) (o : Output)
    (ho : finalTracking cfg.virtual (files.map List.length) s.corrs s.currentId sizeMin = some o) (time value : Nat × Nat → Rat)
    (htime : ∀ x, time x ≠ 0) : Filled time value o.long ∧ Filled time value o.short :=
  filled_of_inv cfg files s (inv_of_track ht hs) sizeMin o ho time value htime

/-- The example run: one long track with a gap, three short ones; nothing without track. -/
example : (track exCfg exFiles).bind (fun s => finalTracking exCfg.virtual (exFiles.map List.length) s.corrs s.currentId 4) =
    some ⟨[[], [], [], [], []], ⟨[0, 0, 0, 0, 0], [0, 1, 2, 3, 4], [some (0, 0), some (1, 2), none, none, some (4, 0)]⟩,
      ⟨[0, 0, 1, 1, 1, 2, 2], [0, 1, 0, 1, 2, 0, 1], [some (0, 1), some (1, 0), some (1, 1), some (2, 0), some (3, 1), some (3, 0), some (4, 1)]⟩⟩ := by
  decide +kernel

/-- A run for which the script raises, and one for which the track is in both files. -/
example : (track exCfg [[7], [7], [7]]).map (fun s => (finalTracking exCfg.virtual [1, 1, 1] s.corrs s.currentId 3,
    (finalTracking exCfg.virtual [1, 1, 1] s.corrs s.currentId 4).map (fun o => (o.long, decide (o.long = o.short))))) =
    some (none, some (⟨[0, 0, 0], [0, 1, 2], [some (0, 0), some (1, 0), some (2, 0)]⟩, true)) := by decide +kernel

/-- A table with a gap of two rows, as in the example above. -/
def finalExample : Table := ⟨[0, 0, 0, 0, 0], [0, 1, 2, 3, 4], [some (0, 0), some (1, 2), none, none, some (4, 0)]⟩

example : flags (fun x => 20000 + x.1) finalExample = [false, false, true, true, false] ∧
    filledColumn (fun x => 20000 + x.1) (fun x => 100 + x.1) finalExample = [100, 101, 102, 103, 104] := by decide +kernel

/-- C168, negation. The observation of 1950-01-01 is flagged as virtual and its values are replaced by those of its neighbours: here the
first of the track, which gets the values of the second one. -/
theorem time_zero_wrong : flags (fun x => x.1) finalExample = [true, false, true, true, false] ∧
    filledColumn (fun x => x.1) (fun x => 100 + x.1) finalExample = [101, 101, 102, 103, 104] := by decide +kernel

/-- C168, negation. The virtual observations of a track which goes from 359° to 2° of longitude are put at 240° and 121°. -/
theorem seam_wrong : filledColumn (fun x => 20000 + x.1) (fun x => if x.1 ≤ 1 then 358 + x.1 else 2) finalExample =
    [358, 359, 240, 121, 2] := by decide +kernel

end Verif.Tracking
