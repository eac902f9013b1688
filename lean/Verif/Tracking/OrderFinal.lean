import Verif.Tracking.OrderMerge
import Verif.Tracking.Final

/-!
# C218: the files of EddyFinalTracking when the rows of the files are in another order

Model of `Verif.Tracking.Final` (src/scripts/EddyFinalTracking, src/py_eddy_tracker/tracking.py:567-630 and 724-755) on the two runs of C216.
-/

namespace Verif.Tracking.Order

variable {α δ : Type}

/-! ### Specification -/

/-- The tracks of a table, each as the list of its rows: date and observation (nothing in the row of a lost observation). -/
def tracksOf (files : List (List α)) (t : Table) : List (List (Option (Nat × Option α))) :=
  t.track.dedup.map (fun i => ((t.track.zip t.rows).filter (fun x => x.1 == i)).map (fun x => rowSeen files x.2))

/-- The observations left alone at each date. -/
def aloneOf (files : List (List α)) (u : List (List Nat)) : List (List (Option α)) :=
  List.zipWith (fun f idx => idx.map (fun j => f[j]?)) files u

/-- The three files hold the same: the same observations left alone at each date, the same long tracks and the same short tracks. -/
structure SameOutput (files files' : List (List α)) (o o' : Output) : Prop where
  alone : List.Forall₂ List.Perm (aloneOf files' o'.untracked) (aloneOf files o.untracked)
  long : (tracksOf files' o'.long).Perm (tracksOf files o.long)
  short : (tracksOf files' o'.short).Perm (tracksOf files o.short)

/-! ### Tracks of a table -/

theorem zip_rows {β : Type} (nb : Nat → Nat) (g : Nat → β) : ∀ cid, (trackColumn nb cid).zip ((List.range (nbObs nb cid)).map g) =
    (List.range cid).flatMap (fun i => (List.range (nb i)).map (fun n => (i, g (start nb i + n)))) := by
  intro cid
  induction cid with
  | zero => rfl
  | succ c ih =>
    have hl : (trackColumn nb c).length = nbObs nb c := by simp [trackColumn, nbObs, List.length_flatMap]
    have e1 : trackColumn nb (c + 1) = trackColumn nb c ++ List.replicate (nb c) c := by simp [trackColumn, List.range_succ]
    have e2 : nbObs nb (c + 1) = nbObs nb c + nb c := by simp [nbObs, List.range_succ]
    rw [e1, e2, List.range_add, List.map_append, List.zip_append (by simp [hl]), ih, List.range_succ, List.flatMap_append]
    congr 1
    simp only [List.flatMap_cons, List.flatMap_nil, List.append_nil]
    refine List.ext_getElem (by simp) (fun n h1 h2 => ?_)
    simp [start, nbObs]

theorem zip_filter {β : Type} (nb : Nat → Nat) (g : Nat → β) {cid i : Nat} (hi : i < cid) :
    ((trackColumn nb cid).zip ((List.range (nbObs nb cid)).map g)).filter (fun x => x.1 == i) =
      (List.range (nb i)).map (fun n => (i, g (start nb i + n))) := by
  rw [zip_rows]
  induction cid with
  | zero => omega
  | succ c ih =>
    rw [List.range_succ, List.flatMap_append, List.filter_append]
    simp only [List.flatMap_cons, List.flatMap_nil, List.append_nil]
    by_cases h : i = c
    · subst h
      have e1 : ((List.range i).flatMap (fun i => (List.range (nb i)).map (fun n => (i, g (start nb i + n))))).filter (fun x => x.1 == i) = [] := by
        refine List.filter_eq_nil_iff.2 (fun x hx => ?_)
        obtain ⟨j, hj, hx⟩ := List.mem_flatMap.1 hx
        obtain ⟨n, _, rfl⟩ := List.mem_map.1 hx
        have := List.mem_range.1 hj
        simp
        omega
      rw [e1, List.nil_append]
      refine List.filter_eq_self.2 (fun x hx => ?_)
      obtain ⟨n, _, rfl⟩ := List.mem_map.1 hx
      simp
    · rw [ih (by omega)]
      have e1 : ((List.range (nb c)).map (fun n => (c, g (start nb c + n)))).filter (fun x => x.1 == i) = [] := by
        refine List.filter_eq_nil_iff.2 (fun x hx => ?_)
        obtain ⟨n, _, rfl⟩ := List.mem_map.1 hx
        simp
        omega
      rw [e1, List.append_nil]

/-- The tracks of the merged table. -/
theorem tracks_merge (files : List (List α)) {v : Bool} {nb : Nat → Nat} (h1 : ∀ i, 1 ≤ nb i) (cid : Nat) (h : List (List Link)) :
    (tracksOf files (mergeTable v nb cid h)).Perm
      ((List.range cid).map (fun i => (List.range (nb i)).map (fun n => rowSeen files ((merge v nb h).rows (start nb i + n))))) := by
  have hp : (trackColumn nb cid).dedup.Perm (List.range cid) := by
    refine (List.perm_ext_iff_of_nodup (List.nodup_dedup _) List.nodup_range).2 (fun i => ?_)
    rw [List.mem_dedup, ← List.count_pos_iff, count_trackColumn, List.mem_range]
    have := h1 i
    split <;> omega
  refine (hp.map _).trans (List.Perm.of_eq (List.map_congr_left (fun i hi => ?_)))
  simp only [mergeTable]
  rw [zip_filter nb _ (List.mem_range.1 hi), List.map_map]
  rfl

theorem nb_pos {nbV : Nat} {h : List (List Link)} (wf : WF nbV h) (i : Nat) : 1 ≤ nbObsByTracks (decide (0 < nbV)) h i := by
  by_cases hu : ∃ k, UsedAt h k i
  · obtain ⟨k, hu⟩ := hu
    obtain ⟨k0, h0⟩ := first_exists hu
    obtain ⟨k1, h1⟩ := last_exists hu
    have := (nbObs_spec wf i).2 k0 k1 h0 h1
    have : k0 ≤ k1 := Nat.le_of_not_lt (fun hlt => h1.2 k0 hlt h0.1)
    omega
  · exact Nat.le_of_eq ((nbObs_spec wf i).1 (fun k hk => hu ⟨k, hk⟩)).symm

theorem tracks_same {nbV : Nat} {ρ : Nat → Nat} (hρ : Function.Injective ρ) {F F' : List (List α)} {h h' : List (List Link)}
    (S : SameTables ρ F F' h h') (wf : WF nbV h) (wf' : WF nbV h') {cid : Nat} (hl : ∀ i, i < cid → ρ i < cid) :
    (tracksOf F' (mergeTable (decide (0 < nbV)) (nbObsByTracks (decide (0 < nbV)) h') cid h')).Perm
      (tracksOf F (mergeTable (decide (0 < nbV)) (nbObsByTracks (decide (0 < nbV)) h) cid h)) := by
  refine ((tracks_merge F' (nb_pos wf') cid h').trans ?_).trans (tracks_merge F (nb_pos wf) cid h).symm
  have hp : ((List.range cid).map ρ).Perm (List.range cid) := by
    refine List.Subperm.perm_of_length_le (List.Nodup.subperm (List.nodup_range.map hρ) ?_) (by simp)
    intro x hx
    obtain ⟨i, h1, rfl⟩ := List.mem_map.1 hx
    exact List.mem_range.2 (hl i (List.mem_range.1 h1))
  refine (hp.map _).symm.trans (List.Perm.of_eq ?_)
  rw [List.map_map]
  refine List.map_congr_left (fun i _ => ?_)
  simp only [Function.comp, nb_iff hρ S wf wf']
  exact List.map_congr_left (fun n hn => (rows_same hρ S wf wf' rfl rfl rfl i n (List.mem_range.1 hn)).1)

/-! ### Selections -/

theorem keep_map {ρ : Nat → Nat} (hρ : Function.Injective ρ) {cid : Nat} (hl : ∀ i, i < cid → ρ i < cid) {p p' : Nat → Bool} (hp : ∀ i, p' (ρ i) = p i) :
    (keepTracks cid p').Perm ((keepTracks cid p).map ρ) := by
  have hp' : ((List.range cid).map ρ).Perm (List.range cid) := by
    refine List.Subperm.perm_of_length_le (List.Nodup.subperm (List.nodup_range.map hρ) ?_) (by simp)
    intro x hx
    obtain ⟨i, h1, rfl⟩ := List.mem_map.1 hx
    exact List.mem_range.2 (hl i (List.mem_range.1 h1))
  refine (hp'.filter p').symm.trans (List.Perm.of_eq ?_)
  rw [List.filter_map]
  congr 1
  exact List.filter_congr (fun i _ => hp i)

/-- Number in the second selection of the track `m` of the first one. -/
def selNum (ρ : Nat → Nat) (keep keep' : List Nat) (m : Nat) : Nat := ((keep[m]?).map (fun i => translate keep' (ρ i))).getD m

theorem translate_lt {keep : List Nat} (hn : keep.Nodup) {i : Nat} (hi : i ∈ keep) : translate keep i < keep.length := by
  obtain ⟨a, ha, rfl⟩ := List.mem_iff_getElem.1 hi
  rw [translate_getElem hn ha]
  exact ha

theorem keep_translate {keep : List Nat} (hn : keep.Nodup) {i : Nat} (hi : i ∈ keep) : keep[translate keep i]? = some i := by
  obtain ⟨a, ha, rfl⟩ := List.mem_iff_getElem.1 hi
  rw [translate_getElem hn ha, List.getElem?_eq_getElem ha]

theorem selNum_spec {ρ : Nat → Nat} (hρ : Function.Injective ρ) {keep keep' : List Nat} (hn : keep.Nodup) (hn' : keep'.Nodup)
    (hp : keep'.Perm (keep.map ρ)) : Function.Injective (selNum ρ keep keep') ∧ (∀ m, m < keep.length → selNum ρ keep keep' m < keep.length) ∧
      ∀ i ∈ keep, selNum ρ keep keep' (translate keep i) = translate keep' (ρ i) := by
  have hlen : keep'.length = keep.length := by simpa using hp.length_eq
  have hm : ∀ i ∈ keep, ρ i ∈ keep' := fun i hi => hp.mem_iff.2 (List.mem_map.2 ⟨i, hi, rfl⟩)
  have h2 : ∀ m, m < keep.length → selNum ρ keep keep' m < keep.length := by
    intro m h
    simp only [selNum, List.getElem?_eq_getElem h, Option.map_some, Option.getD_some]
    rw [← hlen]
    exact translate_lt hn' (hm _ (List.getElem_mem h))
  have h3 : ∀ m, keep.length ≤ m → selNum ρ keep keep' m = m := by
    intro m h
    simp [selNum, List.getElem?_eq_none h]
  refine ⟨fun a b e => ?_, h2, fun i hi => ?_⟩
  · rcases Nat.lt_or_ge a keep.length with ha | ha
    · rcases Nat.lt_or_ge b keep.length with hb | hb
      · simp only [selNum, List.getElem?_eq_getElem ha, List.getElem?_eq_getElem hb, Option.map_some, Option.getD_some] at e
        have e1 := keep_translate hn' (hm _ (List.getElem_mem ha))
        rw [e, keep_translate hn' (hm _ (List.getElem_mem hb))] at e1
        have := hρ (Option.some.inj e1)
        exact ((List.Nodup.getElem_inj_iff hn).1 this).symm
      · have := h2 a ha
        rw [e, h3 b hb] at this
        omega
    · rcases Nat.lt_or_ge b keep.length with hb | hb
      · have := h2 b hb
        rw [← e, h3 a ha] at this
        omega
      · rw [h3 a ha, h3 b hb] at e
        exact e
  · simp only [selNum, keep_translate hn hi, Option.map_some, Option.getD_some]

theorem renumber_same {ρ : Nat → Nat} (hρ : Function.Injective ρ) {keep keep' : List Nat} (hn : keep.Nodup) (hn' : keep'.Nodup)
    (hp : keep'.Perm (keep.map ρ)) {F F' : List (List α)} {h h' : List (List Link)} (S : SameTables ρ F F' h h') :
    SameTables (selNum ρ keep keep') F F' (renumber keep h) (renumber keep' h') := by
  refine ⟨by simp [renumber, S.1], fun k c d hc hd => ?_⟩
  rw [renumber_eq, filterRename, ← List.map_reverse, List.getElem?_map, Option.map_eq_some_iff] at hc hd
  obtain ⟨c, hc, rfl⟩ := hc
  obtain ⟨d, hd, rfl⟩ := hd
  have := (((S.2 k c d hc hd).filter (fun x => decide (x.1 ∈ keep'))).map (fun x => (translate keep' x.1, x.2)))
  rw [List.filter_map, List.filter_map, List.map_map, List.map_map] at this
  rw [List.map_map, List.map_map]
  refine (List.Perm.of_eq ?_).trans (this.trans (List.Perm.of_eq ?_))
  · rfl
  · have e : c.filter ((fun x : Nat × _ => decide (x.1 ∈ keep')) ∘ fun l => (ρ l.id, seen F k l)) = c.filter (fun l => decide (l.id ∈ keep)) := by
      refine List.filter_congr (fun l _ => ?_)
      simp only [Function.comp, hp.mem_iff, List.mem_map_of_injective hρ]
    rw [e]
    refine List.map_congr_left (fun l hl => ?_)
    have hk : l.id ∈ keep := by simpa using (List.mem_filter.1 hl).2
    simp only [Function.comp, LinkOf.setId, (selNum_spec hρ hn hn' hp).2.2 _ hk]
    rfl

/-- The tables of the two selections. -/
theorem selection_same {nbV : Nat} {ρ : Nat → Nat} (hρ : Function.Injective ρ) {F F' : List (List α)} {h h' : List (List Link)}
    (S : SameTables ρ F F' h h') (wf : WF nbV h) (wf' : WF nbV h') {cid : Nat} (hl : ∀ i, i < cid → ρ i < cid) {p p' : Nat → Bool}
    (hp : ∀ i, p' (ρ i) = p i) :
    ((keepTracks cid p').isEmpty = (keepTracks cid p).isEmpty) ∧
    (tracksOf F' (selectionTable (decide (0 < nbV)) ⟨renumber (keepTracks cid p') h', (keepTracks cid p').length,
      (keepTracks cid p').map (nbObsByTracks (decide (0 < nbV)) h')⟩)).Perm
    (tracksOf F (selectionTable (decide (0 < nbV)) ⟨renumber (keepTracks cid p) h, (keepTracks cid p).length,
      (keepTracks cid p).map (nbObsByTracks (decide (0 < nbV)) h)⟩)) := by
  have hk := keep_map hρ hl hp
  have hs := keepTracks_sorted cid p
  have hs' := keepTracks_sorted cid p'
  have hn : (keepTracks cid p).Nodup := hs.imp (fun h => Nat.ne_of_lt h)
  have hn' : (keepTracks cid p').Nodup := hs'.imp (fun h => Nat.ne_of_lt h)
  have hlen : (keepTracks cid p').length = (keepTracks cid p).length := by simpa using hk.length_eq
  obtain ⟨e, w, _, _⟩ := selectionTable_eq wf hs
  obtain ⟨e', w', _, _⟩ := selectionTable_eq wf' hs'
  obtain ⟨g1, g2, _⟩ := selNum_spec hρ hn hn' hk
  constructor
  · rw [Bool.eq_iff_iff, List.isEmpty_iff_length_eq_zero, List.isEmpty_iff_length_eq_zero, hlen]
  · rw [e, e', hlen]
    exact tracks_same g1 (renumber_same hρ hn hn' hk S) w w' g2

theorem whole_table {nbV : Nat} {h : List (List Link)} (wf : WF nbV h) {cid : Nat} (hid : ∀ k i, UsedAt h k i → i < cid) :
    selectionTable (decide (0 < nbV)) ⟨h, cid, (List.range cid).map (nbObsByTracks (decide (0 < nbV)) h)⟩ =
      mergeTable (decide (0 < nbV)) (nbObsByTracks (decide (0 < nbV)) h) cid h := by
  unfold selectionTable
  congr 1
  funext m
  by_cases hm : m < cid
  · simp [List.getD, hm]
  · rw [(nbObs_spec wf m).1 (fun k hu => hm (hid k m hu))]
    simp [List.getD, List.getElem?_eq_none (show ((List.range cid).map _).length ≤ m by simpa using hm)]

/-! ### Observations left alone -/

/-- The table which arrives at the date `d`. -/
def before (h : List (List Link)) : Nat → List Link
  | 0 => []
  | k + 1 => (h.reverse[k]?).getD []

/-- The links which start a track at the date `d`. -/
def starting (h : List (List Link)) (d : Nat) : List Link :=
  ((h.reverse[d]?).getD []).filter (fun l => !l.virt && decide (l.id ∉ ids (before h d)))

/-- The rows of the date `d` which are in a track. -/
def inTrack (h : List (List Link)) (d : Nat) : List Nat := (before h d).map (·.out) ++ (starting h d).map (·.inp)

theorem now_iff {h : List (List Link)} {d : Nat} {l : Link} : l ∈ (h.reverse[d]?).getD [] ↔ LinkAt h d l := by
  unfold LinkAt
  cases h.reverse[d]? with
  | none => simp
  | some c => simp

theorem before_iff {h : List (List Link)} {d : Nat} {l : Link} : l ∈ before h d ↔ ∃ k, d = k + 1 ∧ LinkAt h k l := by
  cases d with
  | zero => simp [before]
  | succ k =>
    have : l ∈ before h (k + 1) ↔ LinkAt h k l := now_iff
    rw [this]
    constructor
    · exact fun hl => ⟨k, rfl, hl⟩
    · rintro ⟨k', e, hl⟩
      obtain rfl : k = k' := by omega
      exact hl

theorem now_nodup {nbV : Nat} {h : List (List Link)} (wf : WF nbV h) (d : Nat) :
    ((((h.reverse[d]?).getD []).map (·.inp)).Nodup) ∧ (((h.reverse[d]?).getD []).map (·.out)).Nodup := by
  cases e : h.reverse[d]? with
  | none => simp
  | some c =>
    obtain ⟨_, h1, h2⟩ := wf.nodup c (List.mem_reverse.1 (List.mem_of_getElem? e))
    exact ⟨h1, h2⟩

theorem starting_iff {h : List (List Link)} {d : Nat} {l : Link} :
    l ∈ starting h d ↔ LinkAt h d l ∧ l.virt = false ∧ ∀ k l', d = k + 1 → LinkAt h k l' → l'.id ≠ l.id := by
  unfold starting
  rw [List.mem_filter, now_iff]
  rw [Bool.and_eq_true, Bool.not_eq_true', decide_eq_true_iff]
  constructor
  · rintro ⟨h1, h2, h3⟩
    exact ⟨h1, h2, fun k l' e hl he => h3 (List.mem_map.2 ⟨l', before_iff.2 ⟨k, e, hl⟩, he⟩)⟩
  · rintro ⟨h1, h2, h3⟩
    refine ⟨h1, h2, fun hm => ?_⟩
    obtain ⟨l', hl, he⟩ := List.mem_map.1 hm
    obtain ⟨k, e, hl⟩ := before_iff.1 hl
    exact h3 k l' e hl he

theorem inTrack_nodup {nbV : Nat} {h : List (List Link)} (wf : WF nbV h) (d : Nat) : (inTrack h d).Nodup := by
  refine List.nodup_append.2 ⟨?_, ?_, ?_⟩
  · cases d with
    | zero => exact List.nodup_nil
    | succ k => exact (now_nodup wf k).2
  · exact List.Nodup.sublist (List.filter_sublist.map _) (now_nodup wf d).1
  · intro a ha b hb e
    obtain ⟨l', hl', rfl⟩ := List.mem_map.1 ha
    obtain ⟨l, hl, rfl⟩ := List.mem_map.1 hb
    obtain ⟨k, ed, hlk⟩ := before_iff.1 hl'
    obtain ⟨h1, h2, h3⟩ := starting_iff.1 hl
    rcases wf.real _ l h1 h2 with ⟨k1, l1, ek, g1, g2, g3⟩ | ⟨_, g2⟩
    · exact h3 k1 l1 ek g1 g3
    · exact g2 k l' ed hlk e

theorem inTrack_iff {nbV : Nat} {h : List (List Link)} (wf : WF nbV h) (d j : Nat) :
    j ∈ inTrack h d ↔ (∃ k l, d = k + 1 ∧ LinkAt h k l ∧ l.out = j) ∨ ∃ l, LinkAt h d l ∧ l.virt = false ∧ l.inp = j := by
  unfold inTrack
  rw [List.mem_append, List.mem_map, List.mem_map]
  constructor
  · rintro (⟨l, hl, rfl⟩ | ⟨l, hl, rfl⟩)
    · obtain ⟨k, e, hl⟩ := before_iff.1 hl
      exact .inl ⟨k, l, e, hl, rfl⟩
    · obtain ⟨h1, h2, _⟩ := starting_iff.1 hl
      exact .inr ⟨l, h1, h2, rfl⟩
  · rintro (⟨k, l, e, hl, rfl⟩ | ⟨l, h1, h2, rfl⟩)
    · exact .inl ⟨l, before_iff.2 ⟨k, e, hl⟩, rfl⟩
    · rcases wf.real _ l h1 h2 with ⟨k1, l1, ek, g1, g2, g3⟩ | ⟨g1, _⟩
      · exact .inl ⟨l1, before_iff.2 ⟨k1, ek, g1⟩, g2⟩
      · exact .inr ⟨l, starting_iff.2 ⟨h1, h2, fun k l' e hl' e' => g1 k (by omega) ⟨l', hl', e'⟩⟩, rfl⟩

/-- The indices found by `get_unused_data`. -/
theorem index_used {nbV : Nat} {h : List (List Link)} (wf : WF nbV h) {n d : Nat} (hn : h.length + 1 = n) (hd : d < n) (h2 : 2 ≤ n) :
    ∃ u, indexUsed (decide (0 < nbV)) n h.reverse d = some u ∧ ∀ j, j ∈ u ↔ j ∈ inTrack h d := by
  have hlr : h.reverse.length = h.length := List.length_reverse
  unfold indexUsed
  simp only
  by_cases h0 : d = 0
  · subst h0
    rw [if_pos rfl]
    obtain ⟨c, hc⟩ : ∃ c, h.reverse[0]? = some c := ⟨_, List.getElem?_eq_getElem (by omega)⟩
    refine ⟨c.map (·.inp), by rw [hc]; rfl, fun j => ?_⟩
    rw [inTrack_iff wf, List.mem_map]
    constructor
    · rintro ⟨l, hl, e⟩
      have hl' := (linkAt_of_table hc).2 hl
      refine .inr ⟨l, hl', ?_, e⟩
      cases hv : l.virt with
      | false => rfl
      | true =>
        have := (wf.virt 0 l hl' hv).2.2.1
        omega
    · rintro (⟨k, l, e, _⟩ | ⟨l, hl, _, e⟩)
      · omega
      · exact ⟨l, (linkAt_of_table hc).1 hl, e⟩
  · rw [if_neg h0]
    obtain ⟨k, rfl⟩ : ∃ k, d = k + 1 := ⟨d - 1, by omega⟩
    obtain ⟨a, ha⟩ : ∃ c, h.reverse[k]? = some c := ⟨_, List.getElem?_eq_getElem (by omega)⟩
    have hout : ∀ j, j ∈ a.map (·.out) ↔ ∃ k' l, k + 1 = k' + 1 ∧ LinkAt h k' l ∧ l.out = j := by
      intro j
      rw [List.mem_map]
      constructor
      · rintro ⟨l, hl, e⟩
        exact ⟨k, l, rfl, (linkAt_of_table ha).2 hl, e⟩
      · rintro ⟨k', l, e, hl, ej⟩
        obtain rfl : k = k' := by omega
        exact ⟨l, (linkAt_of_table ha).1 hl, ej⟩
    by_cases hl : k + 1 + 1 = n
    · rw [if_pos (by simpa using hl)]
      refine ⟨a.map (·.out), by rw [Nat.add_sub_cancel, ha]; rfl, fun j => ?_⟩
      rw [hout, inTrack_iff wf]
      refine ⟨.inl, ?_⟩
      rintro (h' | ⟨l, hl', _⟩)
      · exact h'
      · have := hl'.lt
        omega
    · rw [if_neg (by simpa using hl)]
      obtain ⟨b, hb⟩ : ∃ c, h.reverse[k + 1]? = some c := ⟨_, List.getElem?_eq_getElem (by omega)⟩
      refine ⟨_, by rw [Nat.add_sub_cancel, ha, hb]; rfl, fun j => ?_⟩
      rw [List.mem_append, hout, inTrack_iff wf]
      refine or_congr_right ?_
      rw [List.mem_map]
      constructor
      · rintro ⟨l, hl, e⟩
        have hm : l ∈ b := by
          split at hl
          · exact (List.mem_filter.1 hl).1
          · exact hl
        have hl' := (linkAt_of_table hb).2 hm
        refine ⟨l, hl', ?_, e⟩
        cases hv : l.virt with
        | false => rfl
        | true =>
          obtain ⟨g1, g2, _⟩ := wf.virt _ l hl' hv
          rw [if_pos (by simp only [decide_eq_true_eq]; omega)] at hl
          simpa [hv] using (List.mem_filter.1 hl).2
      · rintro ⟨l, hl, hv, e⟩
        have hl' := (linkAt_of_table hb).1 hl
        refine ⟨l, ?_, e⟩
        split
        · exact List.mem_filter.2 ⟨hl', by simp [hv]⟩
        · exact hl'

theorem index_parts {idx D : List Nat} {f : List α} (hD : D.Nodup) (hm : ∀ j, j ∈ idx ↔ j ∈ D) (hr : ∀ j ∈ D, j < f.length) :
    (D.map (fun j => f[j]?) ++ (reverseIndex idx f.length).map (fun j => f[j]?)).Perm (f.map some) := by
  have hp : (D ++ reverseIndex idx f.length).Perm (List.range f.length) := by
    refine (List.perm_ext_iff_of_nodup ?_ List.nodup_range).2 (fun j => ?_)
    · refine List.nodup_append.2 ⟨hD, List.nodup_range.filter _, fun a ha b hb e => ?_⟩
      subst e
      exact (mem_reverseIndex.1 hb).2 ((hm _).2 ha)
    · rw [List.mem_append, mem_reverseIndex, List.mem_range, hm]
      constructor
      · rintro (h | h)
        · exact hr j h
        · exact h.1
      · intro h
        by_cases hj : j ∈ D
        · exact .inl hj
        · exact .inr ⟨h, hj⟩
  rw [← List.map_append]
  refine (hp.map _).trans (List.Perm.of_eq ?_)
  refine List.ext_getElem (by simp) (fun n h1 h2 => ?_)
  have : n < f.length := by simpa using h2
  simp [this]

theorem ids_same {ρ : Nat → Nat} {F F' : List (List α)} {h h' : List (List Link)} (S : SameTables ρ F F' h h') (k : Nat) :
    (((h'.reverse[k]?).getD []).map (fun l => (l.id, seen F' k l))).Perm (((h.reverse[k]?).getD []).map (fun l => (ρ l.id, seen F k l))) := by
  rcases Nat.lt_or_ge k h.length with hk | hk
  · have e1 : h.reverse[k]? = some (h.reverse[k]'(by simpa using hk)) := List.getElem?_eq_getElem _
    have e2 : h'.reverse[k]? = some (h'.reverse[k]'(by simpa [S.1] using hk)) := List.getElem?_eq_getElem _
    have := S.2 k _ _ e1 e2
    rw [e1, e2]
    exact this
  · have x1 : h.reverse[k]? = none := List.getElem?_eq_none (by simpa using hk)
    have x2 : h'.reverse[k]? = none := List.getElem?_eq_none (by rw [List.length_reverse, S.1]; exact hk)
    rw [x1, x2]
    exact .refl _

theorem inTrack_same {ρ : Nat → Nat} (hρ : Function.Injective ρ) {F F' : List (List α)} {h h' : List (List Link)} (S : SameTables ρ F F' h h')
    {d : Nat} {f f' : List α} (hf : F[d]? = some f) (hf' : F'[d]? = some f') :
    ((inTrack h' d).map (fun j => f'[j]?)).Perm ((inTrack h d).map (fun j => f[j]?)) := by
  unfold inTrack
  rw [List.map_append, List.map_append]
  have hids : (ids (before h' d)).Perm ((ids (before h d)).map ρ) := by
    cases d with
    | zero => exact .refl _
    | succ k =>
      have := (ids_same S k).map (·.1)
      simp only [List.map_map] at this
      simp only [before, ids, List.map_map]
      exact this
  refine List.Perm.append ?_ ?_
  · cases d with
    | zero => exact .refl _
    | succ k =>
      have := (ids_same S k).map (fun x => x.2.2.1)
      simp only [List.map_map] at this
      simp only [before, List.map_map]
      refine (List.Perm.of_eq ?_).trans (this.trans (List.Perm.of_eq ?_))
      · exact List.map_congr_left (fun l _ => by simp [seen, hf'])
      · exact List.map_congr_left (fun l _ => by simp [seen, hf])
  · have := ((ids_same S d).filter (fun x => !x.2.2.2.2.1 && decide (x.1 ∉ ids (before h' d)))).map (fun x => x.2.1)
    rw [List.filter_map, List.filter_map, List.map_map, List.map_map] at this
    rw [List.map_map, List.map_map]
    refine (List.Perm.of_eq ?_).trans (this.trans (List.Perm.of_eq ?_))
    · refine List.map_congr_left (fun l hl => ?_)
      have : l.virt = false := (starting_iff.1 hl).2.1
      simp [seen, hf', this]
    · have e : ((h.reverse[d]?).getD []).filter ((fun x : Nat × Option α × Option α × Rat × Bool × Nat =>
          !x.2.2.2.2.1 && decide (x.1 ∉ ids (before h' d))) ∘ fun l => (ρ l.id, seen F d l)) = starting h d := by
        refine List.filter_congr (fun l _ => ?_)
        simp only [Function.comp, hids.mem_iff, List.mem_map_of_injective hρ]
        rfl
      rw [e]
      refine List.map_congr_left (fun l hl => ?_)
      have : l.virt = false := (starting_iff.1 hl).2.1
      simp [seen, hf, this]

theorem unused_same {nbV : Nat} {ρ : Nat → Nat} (hρ : Function.Injective ρ) {F F' : List (List α)} {h h' : List (List Link)}
    (S : SameTables ρ F F' h h') (wf : WF nbV h) (wf' : WF nbV h') (hF : List.Forall₂ List.Perm F F') (hl : h.length + 1 = F.length) (h2 : 2 ≤ F.length)
    (hs : ∀ d j f, j ∈ inTrack h d → F[d]? = some f → j < f.length) (hs' : ∀ d j f, j ∈ inTrack h' d → F'[d]? = some f → j < f.length) :
    ∃ u u', unused (decide (0 < nbV)) (F.map List.length) h.reverse = some u ∧ unused (decide (0 < nbV)) (F'.map List.length) h'.reverse = some u' ∧
      List.Forall₂ List.Perm (aloneOf F' u') (aloneOf F u) := by
  have hlF : F'.length = F.length := hF.length_eq.symm
  have key : ∀ {G : List (List α)} {g : List (List Link)}, WF nbV g → g.length + 1 = G.length → 2 ≤ G.length →
      ∃ u, unused (decide (0 < nbV)) (G.map List.length) g.reverse = some u ∧ u.length = G.length ∧
        ∀ (d : Nat) f, G[d]? = some f → ∃ idx, u[d]? = some (reverseIndex idx f.length) ∧ ∀ j, j ∈ idx ↔ j ∈ inTrack g d := by
    intro G g wg hg hg2
    have hmap : (G.map List.length).length = G.length := List.length_map _
    obtain ⟨U, hU⟩ : ∃ U, unused (decide (0 < nbV)) (G.map List.length) g.reverse = some U := by
      unfold unused
      apply mapM_total
      intro ds hds
      have hd : ds.1 < G.length := by
        have := (List.of_mem_zip hds).1
        simpa using this
      obtain ⟨u, hu, _⟩ := index_used wg hg hd hg2
      exact ⟨reverseIndex u ds.2, by rw [hmap, hu]; rfl⟩
    refine ⟨U, hU, ?_, ?_⟩
    · have := congrArg List.length (mapM_eq_some.1 hU)
      simp at this
      exact this.symm
    · intro d f hf
      have hd : d < G.length := (List.getElem?_eq_some_iff.1 hf).1
      obtain ⟨w, hw, hwm⟩ := index_used wg hg hd hg2
      have e := mapM_eq_some.1 hU
      have e' := congrArg (fun (l : List (Option (List Nat))) => l[d]?) e
      simp only [List.getElem?_map] at e'
      have hz : ((List.range (G.map List.length).length).zip (G.map List.length))[d]? = some (d, f.length) := by
        rw [List.getElem?_zip_eq_some]
        refine ⟨List.getElem?_range (by simpa using hd), by rw [List.getElem?_map, hf]; rfl⟩
      rw [hz] at e'
      simp only [Option.map_some, hmap, hw] at e'
      obtain ⟨y, hy, ey⟩ := Option.map_eq_some_iff.1 e'.symm
      rw [hy, Option.some.inj ey]
      exact ⟨w, rfl, hwm⟩
  obtain ⟨u, hu, ul, um⟩ := key wf hl h2
  obtain ⟨u', hu', ul', um'⟩ := key (G := F') wf' (by rw [S.1, hlF]; exact hl) (by omega)
  refine ⟨u, u', hu, hu', ?_⟩
  rw [List.forall₂_iff_get]
  refine ⟨by simp [aloneOf, ul, ul', hlF], fun d h1 h2 => ?_⟩
  have hd : d < F.length := by
    simp only [aloneOf, List.length_zipWith] at h2
    omega
  have hd' : d < F'.length := by omega
  have ef := List.getElem?_eq_getElem hd
  have ef' := List.getElem?_eq_getElem hd'
  obtain ⟨w, ew, hw⟩ := um d _ ef
  obtain ⟨w', ew', hw'⟩ := um' d _ ef'
  have a1 := index_parts (inTrack_nodup wf d) hw (fun j hj => hs d j _ hj ef)
  have a2 := index_parts (inTrack_nodup wf' d) hw' (fun j hj => hs' d j _ hj ef')
  have a3 : (F[d]).Perm F'[d] := (List.forall₂_iff_get.1 hF).2 d hd hd'
  have a4 := (inTrack_same hρ S ef ef')
  have a5 := (a2.trans ((a3.map some).symm.trans a1.symm))
  have a6 := (List.perm_append_left_iff _).1 ((a4.symm.append_right _).trans a5)
  obtain ⟨x1, x2⟩ := List.getElem?_eq_some_iff.1 ew
  obtain ⟨y1, y2⟩ := List.getElem?_eq_some_iff.1 ew'
  simp only [aloneOf, List.get_eq_getElem, List.getElem_zipWith, x2, y2]
  exact a6

/-! ### C218 -/

theorem in_range {cfg : Cfg α δ} {F : List (List α)} {s : St α δ} (inv : Inv cfg F s) {d j : Nat} {f : List α} (hj : j ∈ inTrack s.corrs d)
    (hf : F[d]? = some f) : j < f.length := by
  rcases (inTrack_iff inv.wf d j).1 hj with ⟨k, l, rfl, hl, rfl⟩ | ⟨l, hl, hv, rfl⟩
  · obtain ⟨⟨g, hg, h1⟩, _⟩ := inv.sized k l hl
    rw [hf] at hg
    obtain rfl := Option.some.inj hg
    exact h1
  · obtain ⟨_, g, hg, h1⟩ := inv.sized d l hl
    rw [hf] at hg
    obtain rfl := Option.some.inj hg
    exact h1.1 hv

/-- **C218** (files of EddyFinalTracking): the files hold the same observations in another order. Either the script raises an exception for both, or the three
files hold the same: the same observations left alone at each date, the same long tracks and the same short tracks, row by row. -/
theorem final_order (cfg : Cfg α δ) {f f' : List α} {fs fs' : List (List α)} (h0 : f.Perm f') (hf : List.Forall₂ List.Perm fs fs')
    (hr : OrderRun cfg (swap init f) fs) (sizeMin : Nat) :
    ∃ s t, track cfg (f :: fs) = some s ∧ track cfg (f' :: fs') = some t ∧
      ((finalTracking cfg.virtual ((f :: fs).map List.length) s.corrs s.currentId sizeMin = none ∧
          finalTracking cfg.virtual ((f' :: fs').map List.length) t.corrs t.currentId sizeMin = none) ∨
        ∃ o o', finalTracking cfg.virtual ((f :: fs).map List.length) s.corrs s.currentId sizeMin = some o ∧
          finalTracking cfg.virtual ((f' :: fs').map List.length) t.corrs t.currentId sizeMin = some o' ∧ SameOutput (f :: fs) (f' :: fs') o o') := by
  obtain ⟨s, t, ρ, e1, e2, h, inv, inv'⟩ := track_sim cfg h0 hf hr
  refine ⟨s, t, e1, e2, ?_⟩
  have S := h.tables
  have hnb : ∀ i, nbObsByTracks cfg.virtual t.corrs (ρ i) = nbObsByTracks cfg.virtual s.corrs i := fun i => nb_iff h.inj S inv.wf inv'.wf i
  have hS := selection_same h.inj S inv.wf inv'.wf h.low (p := fun i => decide (nbObsByTracks cfg.virtual s.corrs i < sizeMin))
    (p' := fun i => decide (nbObsByTracks cfg.virtual t.corrs i < sizeMin)) (fun i => by simp only [hnb])
  have hL := selection_same h.inj S inv.wf inv'.wf h.low (p := fun i => decide (sizeMin ≤ nbObsByTracks cfg.virtual s.corrs i))
    (p' := fun i => decide (sizeMin ≤ nbObsByTracks cfg.virtual t.corrs i)) (fun i => by simp only [hnb])
  cases hf with
  | nil =>
    left
    have l1 := inv.len
    have l2 := inv'.len
    have c1 : s.corrs = [] := List.length_eq_zero_iff.1 (by simpa using l1)
    have c2 : t.corrs = [] := List.length_eq_zero_iff.1 (by simpa using l2)
    rw [c1, c2]
    exact ⟨rfl, rfl⟩
  | cons ha hb =>
    obtain ⟨u, u', hu, hu', hp⟩ := unused_same h.inj S inv.wf inv'.wf (.cons h0 (.cons ha hb)) inv.len (by simp)
      (fun d j g hj hg => in_range inv hj hg) (fun d j g hj hg => in_range inv' hj hg)
    unfold finalTracking
    simp only
    rw [show cfg.virtual = decide (0 < cfg.nbVirtual) from rfl] at *
    rw [hu, hu', h.cid]
    simp only [Option.bind_some, shorterThan, longerThan, hS.1, hL.1]
    by_cases hse : (keepTracks s.currentId (fun i => decide (nbObsByTracks (decide (0 < cfg.nbVirtual)) s.corrs i < sizeMin))).isEmpty = true
    · left
      simp only [hse, if_true, Option.map_none, and_self]
    · right
      simp only [hse, if_false, Option.map_some]
      refine ⟨_, _, rfl, rfl, ⟨hp, ?_, hS.2⟩⟩
      by_cases hle : (keepTracks s.currentId (fun i => decide (sizeMin ≤ nbObsByTracks (decide (0 < cfg.nbVirtual)) s.corrs i))).isEmpty = true
      · simp only [hle, if_true, Option.getD_none]
        rw [whole_table inv.wf inv.idlt, whole_table inv'.wf (fun k i hu => by rw [← h.cid]; exact inv'.idlt k i hu)]
        exact tracks_same h.inj S inv.wf inv'.wf h.low
      · simp only [hle, if_false, Option.getD_some]
        exact hL.2

/-- The tracks of the long and of the short file of the class of numbers of `Verif.Tracking.Props`: date and number of each row. -/
def exTracks (files : List (List Nat)) : Option (List (List (List Nat)) × List (List (List Nat))) :=
  (track Tracking.exCfg files).bind (fun s => (finalTracking Tracking.exCfg.virtual (files.map List.length) s.corrs s.currentId 4).map (fun o =>
    let read := fun (t : List (Option (Nat × Option Nat))) => t.map (fun r => (r.map (fun x => [x.1, x.2.getD 0])).getD [])
    ((tracksOf files o.long).map read, (tracksOf files o.short).map read)))

/-- What the files of the example hold, then with the rows of the files in another order: one long track with a gap and three short ones. -/
example : exTracks [[7, 9], [9, 8, 7], [8], [5, 8], [7, 5]] =
    some ([[[0, 7], [1, 7], [], [], [4, 7]]], [[[0, 9], [1, 9]], [[1, 8], [2, 8], [3, 8]], [[3, 5], [4, 5]]]) := by decide +kernel

example : exTracks [[9, 7], [7, 8, 9], [8], [8, 5], [7, 5]] =
    some ([[[0, 7], [1, 7], [], [], [4, 7]]], [[[0, 9], [1, 9]], [[1, 8], [2, 8], [3, 8]], [[3, 5], [4, 5]]]) := by decide +kernel

end Verif.Tracking.Order
