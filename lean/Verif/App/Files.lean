import Verif.App.Model
import Verif.Tracking.SelectProps

/-!
# C125: every observation is in exactly one of the files written by EddyTracking
-/

namespace Verif.App

open Verif.Tracking

/-! ### Rows of a merged table -/

/-- The observations which are on a row of the merged table are those of the tracks, each on one row. -/
theorem merge_rows_iff {nbV cid : Nat} {h : List (List Link)} {N : Nat → Nat} (wf : WF nbV h) (hid : ∀ k i, UsedAt h k i → i < cid)
    (hN : ∀ i, i < cid → N i = nbObsByTracks (decide (0 < nbV)) h i) (hN' : ∀ i, cid ≤ i → N i = 1) (d j : Nat) :
    ((∃ r, r < nbObs N cid ∧ (merge (decide (0 < nbV)) N h).rows r = some (d, j)) ↔ ∃ i, ObsAt h i d j) ∧
    ∀ r r', r < nbObs N cid → r' < nbObs N cid → (merge (decide (0 < nbV)) N h).rows r = some (d, j) →
      (merge (decide (0 < nbV)) N h).rows r' = some (d, j) → r = r' := by
  have hle : ∀ i, nbObsByTracks (decide (0 < nbV)) h i ≤ N i := by
    intro i
    by_cases hi : i < cid
    · rw [hN i hi]
    · rw [hN' i (by omega), (nbObs_spec wf i).1 (fun k hu => hi (hid k i hu))]
  have minv := merge_inv N wf hle
  generalize merge (decide (0 < nbV)) N h = m at minv
  have hrow : ∀ r, r < nbObs N cid → m.rows r = some (d, j) →
      ∃ i n k0, n < N i ∧ r = start N i + n ∧ FirstAt h i k0 ∧ d = k0 + n ∧ ObsAt h i d j := by
    intro r hr hrow
    obtain ⟨i, n, hi, hn, rfl⟩ := start_cover _ (show r < start N cid from hr)
    obtain ⟨k0, j', hf, e, ho⟩ := (minv.rows i n hn _).1 hrow
    simp only [Prod.mk.injEq] at e
    obtain ⟨rfl, rfl⟩ := e
    exact ⟨i, n, k0, hn, rfl, hf, rfl, ho⟩
  constructor
  · constructor
    · rintro ⟨r, hr, e⟩
      obtain ⟨i, _, _, _, _, _, _, ho⟩ := hrow r hr e
      exact ⟨i, ho⟩
    · rintro ⟨i, ho⟩
      have hu : ∃ k, UsedAt h k i ∧ k ≤ d ∧ d ≤ k + 1 := by
        rcases ho with ⟨k, l, e, hl, ei, _⟩ | ⟨l, hl, ei, _, _⟩
        · exact ⟨k, ⟨l, hl, ei⟩, by omega, by omega⟩
        · exact ⟨d, ⟨l, hl, ei⟩, by omega, by omega⟩
      obtain ⟨k, hu, hk1, hk2⟩ := hu
      obtain ⟨k0, hf⟩ := exists_first hu
      obtain ⟨k1, hla⟩ := exists_last hu
      have hc := (nbObs_spec wf i).2 k0 k1 hf hla
      have h01 : k0 ≤ k := by
        by_contra hlt
        exact hf.2 k (by omega) hu
      have h11 : k ≤ k1 := by
        by_contra hlt
        exact hla.2 k (by omega) hu
      have hi : i < cid := hid k i hu
      have hn : d - k0 < N i := by rw [hN i hi]; omega
      refine ⟨start N i + (d - k0), ?_, ?_⟩
      · have := start_mono N hi
        show _ < start N cid
        omega
      · rw [minv.rows i (d - k0) hn]
        have : k0 + (d - k0) = d := by omega
        exact ⟨k0, j, hf, by rw [this], by rw [this]; exact ho⟩
  · intro r r' hr hr' e e'
    obtain ⟨i, n, k0, hn, er, hf, ed, ho⟩ := hrow r hr e
    obtain ⟨i', n', k0', hn', er', hf', ed', ho'⟩ := hrow r' hr' e'
    have := obsAt_unique wf ho ho'
    subst this
    have := hf.unique hf'
    subst this
    have : n = n' := by omega
    subst this
    rw [er, er']

theorem obsAt_filterRename {p : Nat → Prop} [DecidablePred p] {ρ : Nat → Nat} {h : List (List Link)} (hinj : ∀ i j, p i → p j → ρ i = ρ j → i = j)
    {i' d j : Nat} : ObsAt (filterRename p ρ h) i' d j ↔ ∃ i, p i ∧ i' = ρ i ∧ ObsAt h i d j := by
  constructor
  · rintro (⟨k, l, e, hl, ei, eo⟩ | ⟨l, hl, ei, eo, hn⟩)
    · obtain ⟨l0, h1, h2, rfl⟩ := linkAt_filterRename.1 hl
      exact ⟨l0.id, h2, ei.symm, Or.inl ⟨k, l0, e, h1, rfl, eo⟩⟩
    · obtain ⟨l0, h1, h2, rfl⟩ := linkAt_filterRename.1 hl
      refine ⟨l0.id, h2, ei.symm, Or.inr ⟨l0, h1, rfl, eo, fun k hk hu => hn k hk ?_⟩⟩
      exact usedAt_filterRename.2 ⟨l0.id, hu, h2, ei.symm⟩
  · rintro ⟨i, hp, rfl, ⟨k, l, e, hl, ei, eo⟩ | ⟨l, hl, ei, eo, hn⟩⟩
    · subst ei
      exact Or.inl ⟨k, _, e, linkAt_filterRename.2 ⟨l, hl, hp, rfl⟩, rfl, eo⟩
    · subst ei
      refine Or.inr ⟨_, linkAt_filterRename.2 ⟨l, hl, hp, rfl⟩, rfl, eo, fun k hk hu => ?_⟩
      obtain ⟨i', h1, h2, h3⟩ := usedAt_filterRename.1 hu
      have := hinj _ _ hp h2 h3
      subst this
      exact hn k hk h1

theorem count_rows {β : Type} [BEq β] [LawfulBEq β] (f : Nat → β) (a : β) : ∀ n, (∀ r r', r < n → r' < n → f r = a → f r' = a → r = r') →
    ((∃ r, r < n ∧ f r = a) → ((List.range n).map f).count a = 1) ∧ ((¬∃ r, r < n ∧ f r = a) → ((List.range n).map f).count a = 0)
  | 0, _ => by simp
  | n + 1, h => by
    obtain ⟨i1, i2⟩ := count_rows f a n (fun r r' hr hr' => h r r' (by omega) (by omega))
    rw [List.range_succ, List.map_append, List.count_append, List.map_singleton, List.count_singleton]
    by_cases hn : f n = a
    · have h0 : ¬∃ r, r < n ∧ f r = a := by
        rintro ⟨r, hr, e⟩
        have := h r n (by omega) (by omega) e hn
        omega
      rw [i2 h0]
      refine ⟨fun _ => by simp [hn], fun hc => ?_⟩
      exact absurd ⟨n, by omega, hn⟩ hc
    · have e : (∃ r, r < n + 1 ∧ f r = a) ↔ ∃ r, r < n ∧ f r = a := by
        constructor
        · rintro ⟨r, hr, e⟩
          refine ⟨r, ?_, e⟩
          by_contra hc
          have : r = n := by omega
          subst this
          exact hn e
        · rintro ⟨r, hr, e⟩
          exact ⟨r, by omega, e⟩
      rw [e]
      have hb : (f n == a) = false := by simpa using hn
      simp only [hb, Bool.false_eq_true, if_false, Nat.add_zero]
      exact ⟨i1, i2⟩

/-- The rows of the file of the tracks which pass a test. -/
theorem trackFile_count {nbV cid : Nat} {h : List (List Link)} (wf : WF nbV h) (hid : ∀ k i, UsedAt h k i → i < cid) (p : Nat → Bool) (d j : Nat) :
    ((∃ i, p i = true ∧ ObsAt h i d j) → (trackFile (decide (0 < nbV)) ⟨renumber (keepTracks cid p) h, (keepTracks cid p).length,
      (keepTracks cid p).map (nbObsByTracks (decide (0 < nbV)) h)⟩).count (some (d, j)) = 1) ∧
    ((¬∃ i, p i = true ∧ ObsAt h i d j) → (trackFile (decide (0 < nbV)) ⟨renumber (keepTracks cid p) h, (keepTracks cid p).length,
      (keepTracks cid p).map (nbObsByTracks (decide (0 < nbV)) h)⟩).count (some (d, j)) = 0) := by
  have hs := keepTracks_sorted cid p
  have hmem : ∀ i, i ∈ keepTracks cid p ↔ i < cid ∧ p i = true := fun i => keepTracks_mem
  generalize keepTracks cid p = keep at hs hmem
  have hnd : keep.Nodup := hs.imp (fun h => Nat.ne_of_lt h)
  have hinj : ∀ i j, i ∈ keep → j ∈ keep → translate keep i = translate keep j → i = j := by
    intro i j hi hj e
    have h1 := translate_lt_iff hs hi hj
    have h2 := translate_lt_iff hs hj hi
    omega
  have wf' : WF nbV (filterRename (fun i => i ∈ keep) (translate keep) h) := wf_filterRename hinj wf
  have hid' : ∀ k i, UsedAt (filterRename (fun i => i ∈ keep) (translate keep) h) k i → i < keep.length := by
    intro k i hu
    obtain ⟨i0, _, h2, rfl⟩ := usedAt_filterRename.1 hu
    obtain ⟨a, ha, rfl⟩ := List.mem_iff_getElem.1 h2
    rw [translate_getElem hnd ha]
    exact ha
  obtain ⟨N, hN⟩ : ∃ N : Nat → Nat, N = fun i => (keep.map (nbObsByTracks (decide (0 < nbV)) h)).getD i 1 := ⟨_, rfl⟩
  obtain ⟨r1, r2⟩ := merge_rows_iff (N := N) wf' hid' (by
    intro i hi
    have e := nbObs_filterRename hinj wf keep[i] (List.getElem_mem hi)
    rw [translate_getElem hnd hi] at e
    rw [e, hN]
    simp [hi]) (by
    intro i hi
    rw [hN]
    simp only
    rw [List.getD_eq_getElem?_getD, List.getElem?_eq_none (by simpa using hi)]
    rfl) d j
  unfold trackFile
  simp only
  rw [← hN, renumber_eq]
  have e : (∃ r, r < nbObs N keep.length ∧ (merge (decide (0 < nbV)) N (filterRename (fun i => i ∈ keep) (translate keep) h)).rows r = some (d, j)) ↔
      ∃ i, p i = true ∧ ObsAt h i d j := by
    rw [r1]
    constructor
    · rintro ⟨i', ho⟩
      obtain ⟨i, h1, _, h3⟩ := (obsAt_filterRename hinj).1 ho
      exact ⟨i, ((hmem i).1 h1).2, h3⟩
    · rintro ⟨i, h1, h2⟩
      have hi : i < cid := by
        rcases h2 with ⟨k, l, _, hl, ei, _⟩ | ⟨l, hl, ei, _, _⟩
        · exact hid k i ⟨l, hl, ei⟩
        · exact hid d i ⟨l, hl, ei⟩
      exact ⟨translate keep i, (obsAt_filterRename hinj).2 ⟨i, (hmem i).2 ⟨hi, h1⟩, rfl, h2⟩⟩
  rw [← e]
  exact count_rows _ _ _ r2

/-- Being on a row of the whole merged table is being in a track. -/
theorem merged_iff {α δ : Type} {cfg : Cfg α δ} (ht : OneToOne cfg.tracking) {files : List (List α)} {s : St α δ} (hs : Tracking.track cfg files = some s)
    (d j : Nat) : (∃ r, r < nbObs (counts cfg s) s.currentId ∧ (merged cfg s).rows r = some (d, j)) ↔ ∃ i, ObsAt s.corrs i d j := by
  have inv := inv_of_track ht hs
  obtain ⟨N, hN⟩ : ∃ N : Nat → Nat, N = counts cfg s := ⟨_, rfl⟩
  have key := merge_rows_iff (N := counts cfg s) inv.wf inv.idlt (fun i _ => rfl) (by
    intro i hi
    exact (nbObs_spec inv.wf i).1 (fun k hu => by have := inv.idlt k i hu; omega)) d j
  exact key.1

/-! ### C125 -/

/-- The datasets which are read: all but the last `blank`. -/
def Read {α : Type} (all : List α) (blank d : Nat) (f : α) : Prop := d + blank < all.length ∧ all[d]? = some f

theorem blanked_get {α : Type} (blank : Nat) (all : List α) (d : Nat) (f : α) : (blanked blank all)[d]? = some f ↔ Read all blank d f := by
  unfold blanked Read
  split_ifs with h
  · rw [List.getElem?_take]
    split_ifs with h'
    · constructor
      · exact fun e => ⟨by omega, e⟩
      · exact fun e => e.2
    · constructor
      · simp
      · intro e; omega
  · constructor
    · intro e
      have := (List.getElem?_eq_some_iff.1 e).1
      exact ⟨by omega, e⟩
    · exact fun e => e.2

theorem reverseIndex_nodup (idx : List Nat) (n : Nat) : (reverseIndex idx n).Nodup := List.Nodup.filter _ List.nodup_range

theorem unused_nodup {v : Bool} {sizes : List Nat} {tables : List (List Link)} {U : List (List Nat)} (h : unused v sizes tables = some U) :
    ∀ u ∈ U, u.Nodup := by
  unfold unused at h
  have e := mapM_eq_some.1 h
  intro u hu
  have : some u ∈ U.map some := List.mem_map_of_mem hu
  rw [← e] at this
  obtain ⟨ds, _, hds⟩ := List.mem_map.1 this
  obtain ⟨w, _, rfl⟩ := Option.map_eq_some_iff.1 hds
  exact reverseIndex_nodup _ _

theorem trackFile_length (v : Bool) (c : List (List Link)) (keep : List Nat) (nb : Nat → Nat) :
    (trackFile v ⟨c, keep.length, keep.map nb⟩).length = (keep.map nb).sum := by
  unfold trackFile nbObs
  simp only [List.length_map, List.length_range]
  congr 1
  apply List.ext_getElem?
  intro k
  rw [List.getElem?_map]
  by_cases hk : k < keep.length
  · rw [List.getElem?_range hk]
    simp [hk]
  · rw [List.getElem?_eq_none (by simpa using hk), List.getElem?_eq_none (by simpa using hk)]
    rfl

/-- **C125**: when the application ends, every observation of the datasets read is one time in the three files together, nothing else is, and the
tracks are in the file of their number of observations. Missing: it does not end without a short track, see `application_some_iff`. -/
theorem application_partition_partial {α δ : Type} {cfg : Cfg α δ} (ht : OneToOne cfg.tracking) {all : List (List α)} {blank nbMin : Nat} {o : Out}
    (h : application cfg all blank nbMin = some o) :
    (∀ (d : Nat) (f : List α) (j : Nat), Read all blank d f → j < f.length →
      (o.untracked.getD d []).count j + o.short.count (some (d, j)) + o.long.count (some (d, j)) = 1) ∧
    (∀ (d j : Nat), j ∈ o.untracked.getD d [] ∨ some (d, j) ∈ o.short ∨ some (d, j) ∈ o.long → ∃ f, Read all blank d f ∧ j < f.length) ∧
    (∀ n ∈ o.shortSizes, n < nbMin) ∧ (∀ n ∈ o.longSizes, nbMin ≤ n) ∧ o.short.length = o.shortSizes.sum ∧ o.long.length = o.longSizes.sum := by
  unfold application at h
  simp only at h
  split_ifs at h with h1
  obtain ⟨s, hs, h⟩ := Option.bind_eq_some_iff.1 h
  split_ifs at h with h0
  obtain ⟨U, hU, h⟩ := Option.bind_eq_some_iff.1 h
  obtain ⟨sh, hsh, h⟩ := Option.bind_eq_some_iff.1 h
  obtain ⟨files, hfiles⟩ : ∃ files, files = blanked blank all := ⟨_, rfl⟩
  have hread : ∀ d f, files[d]? = some f ↔ Read all blank d f := by rw [hfiles]; exact blanked_get blank all
  rw [← hfiles] at hs hU h1
  have inv := inv_of_track ht hs
  have h2 : 2 ≤ files.length := by
    by_contra hc
    have hl := inv.len
    have hcorr : s.corrs = [] := List.length_eq_zero_iff.1 (by omega)
    have hc0 : s.currentId ≠ 0 := h0
    obtain ⟨k, hu⟩ := inv.idused 0 (by omega)
    rw [hcorr] at hu
    exact not_usedAt_nil hu
  obtain ⟨U', hU', hUl, hUs⟩ := unused_spec cfg ht files s hs h2
  rw [hU, Option.some.injEq] at hU'
  subst hU'
  have hUn := unused_nodup hU
  -- the two selections
  have hshort : sh = ⟨renumber (keepTracks s.currentId (fun i => decide (counts cfg s i < nbMin))) s.corrs,
      (keepTracks s.currentId (fun i => decide (counts cfg s i < nbMin))).length,
      (keepTracks s.currentId (fun i => decide (counts cfg s i < nbMin))).map (counts cfg s)⟩ := by
    unfold shorterThan at hsh
    simp only at hsh
    split_ifs at hsh
    exact (Option.some.inj hsh).symm
  have hsc := fun d j => trackFile_count inv.wf inv.idlt (fun i => decide (counts cfg s i < nbMin)) d j
  have hlc := fun d j => trackFile_count inv.wf inv.idlt (fun i => decide (nbMin ≤ counts cfg s i)) d j
  have out : o.untracked = U ∧ o.shortSizes = sh.nb ∧ o.short = trackFile cfg.virtual sh ∧
      o.longSizes = (keepTracks s.currentId (fun i => decide (nbMin ≤ counts cfg s i))).map (counts cfg s) ∧
      o.long = trackFile cfg.virtual ⟨renumber (keepTracks s.currentId (fun i => decide (nbMin ≤ counts cfg s i))) s.corrs,
        (keepTracks s.currentId (fun i => decide (nbMin ≤ counts cfg s i))).length,
        (keepTracks s.currentId (fun i => decide (nbMin ≤ counts cfg s i))).map (counts cfg s)⟩ := by
    split at h
    · rename_i hl
      obtain rfl := Option.some.inj h
      have hk : keepTracks s.currentId (fun i => decide (nbMin ≤ counts cfg s i)) = [] := by
        unfold longerThan at hl
        simp only at hl
        by_contra hne
        rw [if_neg (by rw [List.isEmpty_iff]; exact hne)] at hl
        simp at hl
      rw [hk]
      exact ⟨rfl, rfl, rfl, rfl, rfl⟩
    · rename_i l hl
      obtain rfl := Option.some.inj h
      unfold longerThan at hl
      simp only at hl
      split_ifs at hl
      obtain rfl := Option.some.inj hl
      exact ⟨rfl, rfl, rfl, rfl, rfl⟩
  obtain ⟨o1, o2, o3, o4, o5⟩ := out
  have cs : ∀ d j, (∃ i, counts cfg s i < nbMin ∧ ObsAt s.corrs i d j) ∧ o.short.count (some (d, j)) = 1 ∨
      (¬∃ i, counts cfg s i < nbMin ∧ ObsAt s.corrs i d j) ∧ o.short.count (some (d, j)) = 0 := by
    intro d j
    have := hsc d j
    simp only [decide_eq_true_eq] at this
    rw [o3, hshort]
    by_cases hx : ∃ i, counts cfg s i < nbMin ∧ ObsAt s.corrs i d j
    · exact Or.inl ⟨hx, this.1 hx⟩
    · exact Or.inr ⟨hx, this.2 hx⟩
  have cl : ∀ d j, (∃ i, nbMin ≤ counts cfg s i ∧ ObsAt s.corrs i d j) ∧ o.long.count (some (d, j)) = 1 ∨
      (¬∃ i, nbMin ≤ counts cfg s i ∧ ObsAt s.corrs i d j) ∧ o.long.count (some (d, j)) = 0 := by
    intro d j
    have := hlc d j
    simp only [decide_eq_true_eq] at this
    rw [o5]
    by_cases hx : ∃ i, nbMin ≤ counts cfg s i ∧ ObsAt s.corrs i d j
    · exact Or.inl ⟨hx, this.1 hx⟩
    · exact Or.inr ⟨hx, this.2 hx⟩
  have cu : ∀ d f j, files[d]? = some f → j < f.length → (¬∃ i, ObsAt s.corrs i d j) ∧ (o.untracked.getD d []).count j = 1 ∨
      (∃ i, ObsAt s.corrs i d j) ∧ (o.untracked.getD d []).count j = 0 := by
    intro d f j hf hj
    have hd := (List.getElem?_eq_some_iff.1 hf).1
    have hu := List.getElem?_eq_getElem (show d < U.length by omega)
    have e := hUs d f _ hf hu j
    rw [merged_iff ht hs] at e
    have eg : o.untracked.getD d [] = U[d] := by rw [o1, List.getD_eq_getElem?_getD, hu]; rfl
    rw [eg]
    by_cases hx : ∃ i, ObsAt s.corrs i d j
    · refine Or.inr ⟨hx, List.count_eq_zero_of_not_mem (fun hm => (e.1 hm).2 hx)⟩
    · exact Or.inl ⟨hx, List.count_eq_one_of_mem (hUn _ (List.getElem_mem _)) (e.2 ⟨hj, hx⟩)⟩
  refine ⟨?_, ?_, ?_, ?_, ?_, ?_⟩
  · intro d f j hf hj
    rw [← hread] at hf
    rcases cu d f j hf hj with ⟨u1, u2⟩ | ⟨⟨i, u1⟩, u2⟩
    · rcases cs d j with ⟨⟨i, _, s1⟩, _⟩ | ⟨_, s2⟩
      · exact absurd ⟨i, s1⟩ u1
      · rcases cl d j with ⟨⟨i, _, l1⟩, _⟩ | ⟨_, l2⟩
        · exact absurd ⟨i, l1⟩ u1
        · omega
    · rcases cs d j with ⟨⟨i', s0, s1⟩, s2⟩ | ⟨s1, s2⟩
      · rcases cl d j with ⟨⟨i'', l0, l1⟩, _⟩ | ⟨_, l2⟩
        · have := obsAt_unique inv.wf s1 l1
          subst this
          omega
        · omega
      · rcases cl d j with ⟨_, l2⟩ | ⟨l1, l2⟩
        · omega
        · exfalso
          by_cases hc : counts cfg s i < nbMin
          · exact s1 ⟨i, hc, u1⟩
          · exact l1 ⟨i, by omega, u1⟩
  · -- an observation of a track is in its dataset
    have hin : ∀ i d j, ObsAt s.corrs i d j → ∃ f, files[d]? = some f ∧ j < f.length := by
      intro i d j ho
      rcases ho with ⟨k, l, e, hl, _, eo⟩ | ⟨l, hl, ei, eo, hn⟩
      · obtain ⟨f, hf, hlt⟩ := (inv.sized k l hl).1
        exact ⟨f, by rw [e]; exact hf, by omega⟩
      · obtain ⟨f, hf, hlt⟩ := (inv.sized d l hl).2
        refine ⟨f, hf, ?_⟩
        rw [← eo, ← hlt]
        cases hv : l.virt with
        | false => rfl
        | true =>
          obtain ⟨_, _, h3, h4, _⟩ := inv.wf.virt _ l hl hv
          exact absurd (ei ▸ h4) (hn _ (by omega))
    rintro d j (hj | hj | hj)
    · have hd : d < U.length := by
        by_contra hc
        rw [o1, List.getD_eq_getElem?_getD, List.getElem?_eq_none (by omega)] at hj
        simp at hj
      have hu := List.getElem?_eq_getElem hd
      have hf := List.getElem?_eq_getElem (show d < files.length by omega)
      rw [o1, List.getD_eq_getElem?_getD, hu] at hj
      exact ⟨_, (hread _ _).1 hf, ((hUs d _ _ hf hu j).1 hj).1⟩
    · have := List.count_pos_iff.2 hj
      rcases cs d j with ⟨⟨i, _, s1⟩, _⟩ | ⟨_, s2⟩
      · obtain ⟨f, h3, h4⟩ := hin i d j s1
        exact ⟨f, (hread _ _).1 h3, h4⟩
      · omega
    · have := List.count_pos_iff.2 hj
      rcases cl d j with ⟨⟨i, _, s1⟩, _⟩ | ⟨_, s2⟩
      · obtain ⟨f, h3, h4⟩ := hin i d j s1
        exact ⟨f, (hread _ _).1 h3, h4⟩
      · omega
  · rw [o2, hshort]
    intro n hn
    obtain ⟨i, hi, rfl⟩ := List.mem_map.1 hn
    simpa using (keepTracks_mem.1 hi).2
  · rw [o4]
    intro n hn
    obtain ⟨i, hi, rfl⟩ := List.mem_map.1 hn
    simpa using (keepTracks_mem.1 hi).2
  · rw [o2, o3, hshort]
    exact trackFile_length _ _ _ _
  · rw [o4, o5]
    exact trackFile_length _ _ _ _

/-- When the application ends: enough datasets, and a track which is short. -/
theorem application_some_iff {α δ : Type} {cfg : Cfg α δ} (ht : OneToOne cfg.tracking) {all : List (List α)} {blank nbMin : Nat} :
    (∃ o, application cfg all blank nbMin = some o) ↔ nbMin ≤ all.length - blank ∧
      ∃ s, Tracking.track cfg (all.take (all.length - blank)) = some s ∧ ∃ i, i < s.currentId ∧ counts cfg s i < nbMin := by
  have hb : blanked blank all = all.take (all.length - blank) := by
    unfold blanked
    split_ifs with h
    · rfl
    · have : blank = 0 := by omega
      subst this
      simp
  have hl : (all.take (all.length - blank)).length = all.length - blank := by
    rw [List.length_take]; omega
  unfold application
  simp only
  rw [hb, hl]
  constructor
  · rintro ⟨o, h⟩
    split_ifs at h with h1
    obtain ⟨s, hs, h⟩ := Option.bind_eq_some_iff.1 h
    split_ifs at h with h0
    obtain ⟨U, hU, h⟩ := Option.bind_eq_some_iff.1 h
    obtain ⟨sh, hsh, h⟩ := Option.bind_eq_some_iff.1 h
    refine ⟨by omega, s, hs, ?_⟩
    by_contra hc
    have := shorter_than_raises (counts cfg s) s.currentId s.corrs nbMin (fun i hi => by
      by_contra hlt
      exact hc ⟨i, hi, by omega⟩)
    unfold counts at this
    rw [this] at hsh
    simp at hsh
  · rintro ⟨h1, s, hs, i, hi, hc⟩
    have inv := inv_of_track ht hs
    have h2 : 2 ≤ (all.take (all.length - blank)).length := by
      by_contra hc'
      have hl' := inv.len
      have hcorr : s.corrs = [] := List.length_eq_zero_iff.1 (by omega)
      obtain ⟨k, hu⟩ := inv.idused i hi
      rw [hcorr] at hu
      exact not_usedAt_nil hu
    obtain ⟨U, hU, _⟩ := unused_spec cfg ht _ s hs h2
    obtain ⟨sh, hsh, _⟩ := shorter_than_spec_partial cfg s nbMin ⟨i, hi, hc⟩
    unfold counts at hsh
    rw [if_neg (by omega), hs]
    simp only [Option.bind_eq_bind, Option.bind_some]
    rw [if_neg (by omega), hU, Option.bind_some, hsh, Option.bind_some]
    split
    · exact ⟨_, rfl⟩
    · exact ⟨_, rfl⟩

/-- The claim that the application ends when the tracking has enough datasets and finds a track. -/
def Ends : Prop := ∀ (cfg : Cfg Nat Nat) (files : List (List Nat)) (nbMin : Nat) (s : St Nat Nat), OneToOne cfg.tracking → nbMin ≤ files.length →
  Tracking.track cfg files = some s → 0 < s.currentId → ∃ o, application cfg files 0 nbMin = some o

/-- Refuted: an eddy seen in all datasets, and no short track. -/
theorem ends_wrong : ¬Ends := by
  intro h
  obtain ⟨s, hs, _⟩ := track_total exCfg exTracking_oneToOne [[7], [7], [7]] (by simp)
  have hid : (Tracking.track exCfg [[7], [7], [7]]).map (·.currentId) = some 1 := by decide +kernel
  rw [hs, Option.map_some, Option.some.injEq] at hid
  obtain ⟨o, ho⟩ := h exCfg [[7], [7], [7]] 3 s exTracking_oneToOne (by simp) hs (by omega)
  have : application exCfg [[7], [7], [7]] 0 3 = none := by decide +kernel
  rw [this] at ho
  simp at ho

example : application exCfg (exFiles ++ [[1, 2, 3]]) 1 4 = application exCfg exFiles 0 4 ∧ (application exCfg exFiles 0 4).isSome := by decide +kernel
example : application exCfg exFiles 0 4 = some ⟨[[], [], [], [], []], [2, 3, 2],
    [some (0, 1), some (1, 0), some (1, 1), some (2, 0), some (3, 1), some (3, 0), some (4, 1)], [5], [some (0, 0), some (1, 2), none, none, some (4, 0)]⟩ := by
  decide +kernel

end Verif.App
