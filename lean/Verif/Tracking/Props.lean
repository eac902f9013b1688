import Verif.Tracking.MergeLemmas
import Verif.Tracking.Resume

/-!
# C06, C07, C08, C09, C10, C11: properties of the correspondence tables

`track cfg files` is the complete tracking run over the datasets `files`, for an arbitrary one-to-one association function.
-/

namespace Verif.Tracking

variable {α δ : Type}

/-! ### A concrete run used to show that the hypotheses are met -/

/-- An association function: observations are numbers, an observation is linked to the first equal one. -/
def exTracking (p c : List Nat) : List (Nat × Nat × Rat) :=
  ((List.range p.length).filterMap (fun i => (p[i]?).bind (fun x =>
    if (p.take i).contains x then none else (c.findIdx? (· == x)).map (fun j => (i, j, 1)))))

/-- Two virtual steps allowed; a lost number keeps its value. -/
def exCfg : Cfg Nat Nat := ⟨exTracking, fun _ b => (b, 0), fun o _ => o, 2⟩

theorem exTracking_mem {p c : List Nat} {m : Nat × Nat × Rat} :
    m ∈ exTracking p c ↔ ∃ x, p[m.1]? = some x ∧ x ∉ p.take m.1 ∧ c.findIdx? (· == x) = some m.2.1 ∧ m.2.2 = 1 := by
  unfold exTracking
  rw [List.mem_filterMap]
  constructor
  · rintro ⟨i, hi, e⟩
    rw [Option.bind_eq_some_iff] at e
    obtain ⟨x, hx, e⟩ := e
    by_cases hc : (p.take i).contains x = true
    · rw [if_pos hc] at e; simp at e
    · rw [if_neg hc, Option.map_eq_some_iff] at e
      obtain ⟨j, hj, rfl⟩ := e
      exact ⟨x, hx, by simpa using hc, hj, rfl⟩
  · rintro ⟨x, h1, h2, h3, h4⟩
    have hlt := (List.getElem?_eq_some_iff.1 h1).1
    refine ⟨m.1, List.mem_range.2 hlt, ?_⟩
    rw [h1, Option.bind_some, if_neg (by simpa using h2), h3]
    obtain ⟨a, b, q⟩ := m
    simp at h4
    simp [h4]

theorem exTracking_oneToOne : OneToOne exTracking := by
  intro p c
  have hk : (exTracking p c).Pairwise (fun a b => a.1 < b.1) := by
    unfold exTracking
    rw [List.pairwise_filterMap]
    refine List.Pairwise.imp ?_ List.pairwise_lt_range
    intro a b hab x hx y hy
    have aux : ∀ i (z : Nat × Nat × Rat), (p[i]?).bind (fun x =>
        if (p.take i).contains x then none else (c.findIdx? (· == x)).map (fun j => (i, j, (1 : Rat)))) = some z →
        z.1 = i := by
      intro i z hz
      rw [Option.bind_eq_some_iff] at hz
      obtain ⟨x, _, hz⟩ := hz
      split at hz
      · simp at hz
      · rw [Option.map_eq_some_iff] at hz
        obtain ⟨j, _, rfl⟩ := hz
        rfl
    rw [aux a x hx, aux b y hy]; exact hab
  refine ⟨?_, ?_, ?_⟩
  · unfold List.Nodup
    rw [List.pairwise_map]
    exact hk.imp (fun h => Nat.ne_of_lt h)
  · unfold List.Nodup
    rw [List.pairwise_map]
    refine List.Pairwise.imp_of_mem ?_ hk
    intro a b ha hb hab e
    obtain ⟨x, h1, h2, h3, _⟩ := exTracking_mem.1 ha
    obtain ⟨y, g1, g2, g3, _⟩ := exTracking_mem.1 hb
    rw [List.findIdx?_eq_some_iff_getElem] at h3 g3
    obtain ⟨hlt, hx, _⟩ := h3
    obtain ⟨hlt', hy, _⟩ := g3
    have hx : c[a.2.1] = x := by simpa using hx
    have hy : c[b.2.1] = y := by simpa using hy
    have exy : x = y := by rw [← hx, ← hy]; simp only [e]
    subst exy
    apply g2
    rw [List.mem_take_iff_getElem]
    obtain ⟨hl, hxa⟩ := List.getElem?_eq_some_iff.1 h1
    exact ⟨a.1, by omega, hxa⟩
  · intro m hm
    obtain ⟨x, h1, _, h3, _⟩ := exTracking_mem.1 hm
    rw [List.findIdx?_eq_some_iff_getElem] at h3
    exact ⟨(List.getElem?_eq_some_iff.1 h1).1, h3.1⟩

/-- Five datasets: 7 is lost during two datasets and found again, 8 starts at the second dataset, 9 is lost for good. -/
def exFiles : List (List Nat) := [[7, 9], [9, 8, 7], [8], [5, 8], [7, 5]]

/-! ### C06 -/

/-- Tracking never fails. -/
theorem track_total (cfg : Cfg α δ) (ht : OneToOne cfg.tracking) (files : List (List α)) (hne : files ≠ []) :
    ∃ s, track cfg files = some s ∧ s.corrs.length + 1 = files.length := by
  obtain ⟨s, e, inv⟩ := track_inv cfg ht files hne
  exact ⟨s, e, inv.len⟩

theorem inv_of_track {cfg : Cfg α δ} (ht : OneToOne cfg.tracking) {files : List (List α)} {s : St α δ}
    (hs : track cfg files = some s) : Inv cfg files s := by
  have hne : files ≠ [] := by rintro rfl; simp [track] at hs
  obtain ⟨s', e, inv⟩ := track_inv cfg ht files hne
  rw [hs] at e
  obtain rfl := Option.some.inj e
  exact inv

theorem linkAt_table {h : List (List Link)} {k : Nat} {l : Link} (hl : LinkAt h k l) : ∃ c ∈ h, l ∈ c ∧ h.reverse[k]? = some c := by
  obtain ⟨c, e, hm⟩ := hl
  exact ⟨c, List.mem_reverse.1 (List.mem_of_getElem? e), hm, e⟩

theorem WF.unique_id {nbV : Nat} {h : List (List Link)} (wf : WF nbV h) {k : Nat} {l l' : Link} (hl : LinkAt h k l)
    (hl' : LinkAt h k l') (e : l.id = l'.id) : l = l' := by
  obtain ⟨c, hc, hm, hk⟩ := linkAt_table hl
  obtain ⟨c', _, hm', hk'⟩ := linkAt_table hl'
  rw [hk] at hk'
  obtain rfl := Option.some.inj hk'
  exact eq_of_nodup_map (wf.nodup c hc).1 hm hm' e

theorem WF.unique_out {nbV : Nat} {h : List (List Link)} (wf : WF nbV h) {k : Nat} {l l' : Link} (hl : LinkAt h k l)
    (hl' : LinkAt h k l') (e : l.out = l'.out) : l = l' := by
  obtain ⟨c, hc, hm, hk⟩ := linkAt_table hl
  obtain ⟨c', _, hm', hk'⟩ := linkAt_table hl'
  rw [hk] at hk'
  obtain rfl := Option.some.inj hk'
  exact eq_of_nodup_map (wf.nodup c hc).2.2 hm hm' e

theorem WF.unique_inp {nbV : Nat} {h : List (List Link)} (wf : WF nbV h) {k : Nat} {l l' : Link} (hl : LinkAt h k l)
    (hl' : LinkAt h k l') (e : l.inp = l'.inp) : l = l' := by
  obtain ⟨c, hc, hm, hk⟩ := linkAt_table hl
  obtain ⟨c', _, hm', hk'⟩ := linkAt_table hl'
  rw [hk] at hk'
  obtain rfl := Option.some.inj hk'
  exact eq_of_nodup_map (wf.nodup c hc).2.1 hm hm' e

/-- C06. In every run the identifiers of one link table are pairwise distinct. -/
theorem ids_distinct (cfg : Cfg α δ) (ht : OneToOne cfg.tracking) (files : List (List α)) (s : St α δ)
    (hs : track cfg files = some s) : ∀ c ∈ s.corrs, (c.map (·.id)).Nodup :=
  fun c hc => ((inv_of_track ht hs).wf.nodup c hc).1

/-- C06. A link which neither continues a link arriving at its source nor resumes a lost track carries an identifier never
used before. -/
theorem new_id_never_used_before (cfg : Cfg α δ) (ht : OneToOne cfg.tracking) (files : List (List α)) (s : St α δ)
    (hs : track cfg files = some s) (k : Nat) (l : Link) (hl : LinkAt s.corrs k l) (hreal : l.virt = false)
    (hnew : ∀ k' l', k = k' + 1 → LinkAt s.corrs k' l' → l'.out ≠ l.inp) :
    ∀ j l', j < k → LinkAt s.corrs j l' → l'.id ≠ l.id := by
  intro j l' hj hl' e
  rcases (inv_of_track ht hs).wf.real k l hl hreal with ⟨k', l'', e1, h1, h2, _⟩ | ⟨h1, _⟩
  · exact hnew k' l'' e1 h1 h2
  · exact h1 j hj ⟨l', hl', e⟩

/-- C06. Between consecutive link tables an identifier is kept exactly along the chain of observations. -/
theorem id_kept_iff (cfg : Cfg α δ) (ht : OneToOne cfg.tracking) (files : List (List α)) (s : St α δ)
    (hs : track cfg files = some s) (k : Nat) (l l' : Link) (hl : LinkAt s.corrs k l) (hl' : LinkAt s.corrs (k + 1) l') :
    l'.id = l.id ↔ l'.virt = false ∧ l'.inp = l.out := by
  have wf := (inv_of_track ht hs).wf
  constructor
  · intro e
    cases hv : l'.virt with
    | true =>
      obtain ⟨h1, _, h3, _, h5⟩ := wf.virt _ l' hl' hv
      exact absurd ⟨l, hl, e.symm⟩ (h5 k (by omega) (by omega))
    | false =>
      refine ⟨rfl, ?_⟩
      rcases wf.real _ l' hl' hv with ⟨k', l'', e1, h1, h2, h3⟩ | ⟨h1, _⟩
      · have : k' = k := by omega
        subst this
        have := wf.unique_id hl h1 (by rw [h3, e])
        subst this
        exact h2.symm
      · exact absurd ⟨l, hl, e.symm⟩ (h1 k (by omega))
  · rintro ⟨hv, e⟩
    rcases wf.real _ l' hl' hv with ⟨k', l'', e1, h1, h2, h3⟩ | ⟨_, h2⟩
    · have : k' = k := by omega
      subst this
      have := wf.unique_out hl h1 (by rw [h2, e])
      subst this
      exact h3.symm
    · exact absurd e.symm (h2 k l rfl hl)

/-- C06. The identifiers in use are exactly those below the counter. -/
theorem ids_below_counter (cfg : Cfg α δ) (ht : OneToOne cfg.tracking) (files : List (List α)) (s : St α δ)
    (hs : track cfg files = some s) (i : Nat) : i < s.currentId ↔ ∃ k l, LinkAt s.corrs k l ∧ l.id = i := by
  have inv := inv_of_track ht hs
  constructor
  · intro hi
    obtain ⟨k, l, h1, h2⟩ := inv.idused i hi
    exact ⟨k, l, h1, h2⟩
  · rintro ⟨k, l, h1, h2⟩
    exact inv.idlt k i ⟨l, h1, h2⟩

/-- Non-vacuity for C06, C07, C10: a run with four identifiers and a resumed track. -/
example : (track exCfg exFiles).map (fun s => s.corrs.reverse.map (fun c => c.map (fun l =>
      [l.inp, l.out, l.id, l.virt.toNat, l.vlen]))) =
    some [[[0, 2, 0, 0, 255], [1, 0, 1, 0, 255]], [[1, 0, 2, 0, 255]], [[0, 1, 2, 0, 255]],
      [[0, 1, 3, 0, 255], [2, 0, 0, 1, 2]]] := by decide +kernel

example : (track exCfg exFiles).map (·.currentId) = some 4 := by decide +kernel

/-! ### C10 -/

/-- C10. If a track is used by table `j`, by table `k > j` and by no table in between, the gap `k - j - 1` is the virtual
length recorded on the link, and it is at most `nb_virtual`. -/
theorem gap_bounded (cfg : Cfg α δ) (ht : OneToOne cfg.tracking) (files : List (List α)) (s : St α δ)
    (hs : track cfg files = some s) (j k : Nat) (l l' : Link) (hl : LinkAt s.corrs j l) (hl' : LinkAt s.corrs k l')
    (hid : l.id = l'.id) (hjk : j < k) (hbetween : ∀ m x, j < m → m < k → LinkAt s.corrs m x → x.id ≠ l'.id) :
    k - j - 1 ≤ cfg.nbVirtual ∧ (l'.virt = true ↔ k - j - 1 ≠ 0) ∧ (l'.virt = true → l'.vlen = k - j - 1) := by
  have wf := (inv_of_track ht hs).wf
  cases hv : l'.virt with
  | true =>
    obtain ⟨h1, h2, h3, ⟨x, hx, ex⟩, h5⟩ := wf.virt _ l' hl' hv
    have e : j = k - 1 - l'.vlen := by
      rcases Nat.lt_trichotomy j (k - 1 - l'.vlen) with h | h | h
      · exact absurd ex (hbetween _ x h (by omega) hx)
      · exact h
      · exact absurd ⟨l, hl, hid⟩ (h5 j h hjk)
    refine ⟨by omega, by simp; omega, fun _ => by omega⟩
  | false =>
    rcases wf.real _ l' hl' hv with ⟨k', x, e1, hx, _, ex⟩ | ⟨h1, _⟩
    · have : k' = j := by
        by_contra hne
        exact hbetween k' x (by omega) (by omega) hx ex
      refine ⟨by omega, by simp; omega, by simp⟩
    · exact absurd ⟨l, hl, hid⟩ (h1 j hjk)

/-- C10. The virtual observations carried to the next step are exactly the tracks lost since `g` datasets with
`1 ≤ g ≤ nb_virtual`, each once. -/
theorem virtual_observations_exact (cfg : Cfg α δ) (ht : OneToOne cfg.tracking) (files : List (List α)) (s : St α δ)
    (hs : track cfg files = some s) (hV : 0 < cfg.nbVirtual) (h3 : 3 ≤ files.length) :
    ∃ vs, s.virtualObs = some vs ∧ (vs.map (·.track)).Nodup ∧
      ∀ i g, (∃ v ∈ vs, v.track = i ∧ v.seg = g) ↔
        1 ≤ g ∧ g ≤ cfg.nbVirtual ∧ ∃ k l, LinkAt s.corrs k l ∧ l.id = i ∧ k + g + 1 = s.corrs.length ∧
          ∀ j x, k < j → LinkAt s.corrs j x → x.id ≠ i := by
  have inv := inv_of_track ht hs
  have hlen := inv.len
  have hf : s.flg = true := by
    rw [inv.flg]
    simp [Cfg.virtual, hV]; omega
  obtain ⟨vs, e, vok⟩ := inv.vsome hf
  refine ⟨vs, e, vok.nodup, fun i g => ?_⟩
  rw [vok.iff i g]
  constructor
  · rintro ⟨h1, h2, h4, ⟨l, hl, el⟩, h5⟩
    refine ⟨h1, h2, _, l, hl, el, by omega, fun j x hj hx ex => h5 j hj hx.lt ⟨x, hx, ex⟩⟩
  · rintro ⟨h1, h2, k, l, hl, el, ek, h5⟩
    refine ⟨h1, h2, by omega, ?_, fun j hj _ ⟨x, hx, ex⟩ => h5 j x (by omega) hx ex⟩
    have : s.corrs.length - 1 - g = k := by omega
    rw [this]; exact ⟨l, hl, el⟩

/-! ### C07 -/

/-- The counts and the merged table of a run, as computed by `prepare_merging` and `merge`. -/
def counts (cfg : Cfg α δ) (s : St α δ) : Nat → Nat := nbObsByTracks cfg.virtual s.corrs

def merged (cfg : Cfg α δ) (s : St α δ) : MSt := merge cfg.virtual (counts cfg s) s.corrs

/-- C07. The number of observations of a track is the number of datasets from its first to its last one, virtual steps
included. -/
theorem count_is_extent (cfg : Cfg α δ) (ht : OneToOne cfg.tracking) (files : List (List α)) (s : St α δ)
    (hs : track cfg files = some s) (i k0 k1 : Nat) (h0 : FirstAt s.corrs i k0) (h1 : LastAt s.corrs i k1) :
    counts cfg s i + k0 = k1 + 2 := (nbObs_spec (inv_of_track ht hs).wf i).2 k0 k1 h0 h1

/-- C07. Row `n` of the block of track `i` holds the observation of that track in the `n`-th dataset counted from its first
one, and stays untouched when the track has no observation there. -/
theorem merge_rows (cfg : Cfg α δ) (ht : OneToOne cfg.tracking) (files : List (List α)) (s : St α δ)
    (hs : track cfg files = some s) (i k0 n : Nat) (h0 : FirstAt s.corrs i k0) (hn : n < counts cfg s i)
    (y : Nat × Nat) :
    (merged cfg s).rows (start (counts cfg s) i + n) = some y ↔ y.1 = k0 + n ∧ ObsAt s.corrs i (k0 + n) y.2 := by
  have inv := inv_of_track ht hs
  have minv : MInv (counts cfg s) s.corrs (merged cfg s) := merge_inv (counts cfg s) inv.wf (fun _ => Nat.le_refl _)
  rw [minv.rows i n hn y]
  constructor
  · rintro ⟨k, j, hf, rfl, ho⟩
    have := h0.unique hf
    subst this
    exact ⟨rfl, ho⟩
  · rintro ⟨e, ho⟩
    exact ⟨k0, y.2, h0, by rw [← e], ho⟩

/-- C07. The cost written on row `n` is the cost of the link leaving that dataset. -/
theorem merge_cost (cfg : Cfg α δ) (ht : OneToOne cfg.tracking) (files : List (List α)) (s : St α δ)
    (hs : track cfg files = some s) (i k0 n : Nat) (h0 : FirstAt s.corrs i k0) (hn : n < counts cfg s i) (q : Rat) :
    (merged cfg s).cost (start (counts cfg s) i + n) = some q ↔ ∃ l, LinkAt s.corrs (k0 + n) l ∧ l.id = i ∧ l.cost = q := by
  have inv := inv_of_track ht hs
  have minv : MInv (counts cfg s) s.corrs (merged cfg s) := merge_inv (counts cfg s) inv.wf (fun _ => Nat.le_refl _)
  rw [minv.cost i n hn q]
  constructor
  · rintro ⟨k, l, hf, h1⟩
    have := h0.unique hf
    subst this
    exact ⟨l, h1⟩
  · rintro ⟨l, h1⟩
    exact ⟨k0, l, h0, h1⟩

/-- C07. The blocks `[start i, start i + count i)` are consecutive, disjoint and cover the `nb_obs` rows. -/
theorem blocks_partition (nb : Nat → Nat) (cid : Nat) :
    start nb 0 = 0 ∧ (∀ i, start nb (i + 1) = start nb i + nb i) ∧ nbObs nb cid = start nb cid ∧
      (∀ r, r < nbObs nb cid → ∃ i n, i < cid ∧ n < nb i ∧ r = start nb i + n) ∧
      (∀ i i' n n', n < nb i → n' < nb i' → start nb i + n = start nb i' + n' → i = i' ∧ n = n') :=
  ⟨rfl, start_succ nb, rfl, fun _ h => start_cover nb h, fun _ _ _ _ h h' e => start_inj nb h h' e⟩

/-- The columns `track` and `n` describe these blocks. -/
theorem columns_spec (nb : Nat → Nat) (cid i n : Nat) (hi : i < cid) (hn : n < nb i) :
    (trackColumn nb cid)[start nb i + n]? = some i ∧ (nColumn nb cid)[start nb i + n]? = some (n : Int) := by
  have key : ∀ (β : Type) (g : Nat → β) (cid : Nat), i < cid →
      ((List.range cid).flatMap (fun i => List.replicate (nb i) (g i)))[start nb i + n]? = some (g i) ∧
      ((List.range cid).flatMap (fun i => List.replicate (nb i) (g i))).length = start nb cid := by
    intro β g cid hi
    have hlen : ∀ cid, ((List.range cid).flatMap (fun i => List.replicate (nb i) (g i))).length = start nb cid := by
      intro cid
      simp [List.length_flatMap, start]
    refine ⟨?_, hlen cid⟩
    induction cid with
    | zero => omega
    | succ cid ih =>
      rw [List.range_succ, List.flatMap_append]
      by_cases hc : i < cid
      · have := start_mono nb hc
        rw [List.getElem?_append_left (by rw [hlen]; omega)]
        exact ih hc
      · have : i = cid := by omega
        subst this
        rw [List.getElem?_append_right (by rw [hlen]; omega), hlen]
        simp [hn]
  refine ⟨(key Nat id cid hi).1, ?_⟩
  have hmono : start nb i + nb i ≤ start nb cid := by
    have := start_mono nb hi; omega
  unfold nColumn
  rw [List.getElem?_zipWith, (key Nat (start nb) cid hi).1, List.getElem?_range (by unfold nbObs; unfold start at *; omega)]
  simp
  omega

/-- Two tracks never share an observation. -/
theorem obsAt_unique {nbV : Nat} {h : List (List Link)} (wf : WF nbV h) {i i' d j : Nat} (ho : ObsAt h i d j)
    (ho' : ObsAt h i' d j) : i = i' := by
  have first : ∀ i l, LinkAt h d l → l.id = i → (∀ k, k < d → ¬ UsedAt h k i) → ∀ k' l', d = k' + 1 → LinkAt h k' l' →
      l'.out ≠ l.inp := by
    intro i l hl e hn k' l' ek hl' eo
    subst e
    cases hv : l.virt with
    | true =>
      obtain ⟨_, _, _, h4, _⟩ := wf.virt _ l hl hv
      exact hn _ (by omega) h4
    | false =>
      rcases wf.real _ l hl hv with ⟨k'', l'', e1, h1, _, h3⟩ | ⟨_, h2⟩
      · exact hn k'' (by omega) ⟨l'', h1, h3⟩
      · exact h2 k' l' ek hl' eo
  rcases ho with ⟨k, l, e, hl, e1, e2⟩ | ⟨l, hl, e1, e2, hn⟩ <;>
    rcases ho' with ⟨k', l', e', hl', e1', e2'⟩ | ⟨l', hl', e1', e2', hn'⟩
  · have : k = k' := by omega
    subst this
    have := wf.unique_out hl hl' (by rw [e2, e2'])
    subst this
    rw [← e1, ← e1']
  · exact absurd (e2.trans e2'.symm) (first i' l' hl' e1' hn' k l e hl)
  · exact absurd (e2'.trans e2.symm) (first i l hl e1 hn k' l' e' hl')
  · have := wf.unique_inp hl hl' (by rw [e2, e2'])
    subst this
    rw [← e1, ← e1']

/-- C07. Each linked observation is copied exactly once: an observation which is the source of a real link or the target of
a link occurs on exactly one row, and every other observation on none. -/
theorem merge_each_once (cfg : Cfg α δ) (ht : OneToOne cfg.tracking) (files : List (List α)) (s : St α δ)
    (hs : track cfg files = some s) (d j : Nat) :
    ((∃ l, LinkAt s.corrs d l ∧ l.virt = false ∧ l.inp = j) ∨ (∃ k l, d = k + 1 ∧ LinkAt s.corrs k l ∧ l.out = j) ↔
      ∃ r, r < nbObs (counts cfg s) s.currentId ∧ (merged cfg s).rows r = some (d, j)) ∧
    ∀ r r', r < nbObs (counts cfg s) s.currentId → r' < nbObs (counts cfg s) s.currentId →
      (merged cfg s).rows r = some (d, j) → (merged cfg s).rows r' = some (d, j) → r = r' := by
  have inv := inv_of_track ht hs
  have wf := inv.wf
  have minv : MInv (counts cfg s) s.corrs (merged cfg s) := merge_inv (counts cfg s) wf (fun _ => Nat.le_refl _)
  have hrow : ∀ r, r < nbObs (counts cfg s) s.currentId → (merged cfg s).rows r = some (d, j) →
      ∃ i n k0, n < counts cfg s i ∧ r = start (counts cfg s) i + n ∧ FirstAt s.corrs i k0 ∧ d = k0 + n ∧
        ObsAt s.corrs i d j := by
    intro r hr hrow
    obtain ⟨i, n, hi, hn, rfl⟩ := start_cover _ (show r < start (counts cfg s) s.currentId from hr)
    obtain ⟨k0, j', hf, e, ho⟩ := (minv.rows i n hn _).1 hrow
    simp only [Prod.mk.injEq] at e
    obtain ⟨rfl, rfl⟩ := e
    exact ⟨i, n, k0, hn, rfl, hf, rfl, ho⟩
  constructor
  · have hobs : (∃ l, LinkAt s.corrs d l ∧ l.virt = false ∧ l.inp = j) ∨ (∃ k l, d = k + 1 ∧ LinkAt s.corrs k l ∧ l.out = j) ↔
        ∃ i, ObsAt s.corrs i d j := by
      constructor
      · rintro (⟨l, hl, hv, e⟩ | ⟨k, l, e, hl, e'⟩)
        · rcases wf.real _ l hl hv with ⟨k', l', e1, h1, h2, _⟩ | ⟨h1, _⟩
          · exact ⟨l'.id, Or.inl ⟨k', l', e1, h1, rfl, by rw [h2, e]⟩⟩
          · exact ⟨l.id, Or.inr ⟨l, hl, rfl, e, h1⟩⟩
        · exact ⟨l.id, Or.inl ⟨k, l, e, hl, rfl, e'⟩⟩
      · rintro ⟨i, ⟨k, l, e, hl, _, e'⟩ | ⟨l, hl, ei, e, hn⟩⟩
        · exact Or.inr ⟨k, l, e, hl, e'⟩
        · refine Or.inl ⟨l, hl, ?_, e⟩
          cases hv : l.virt with
          | false => rfl
          | true =>
            obtain ⟨_, _, _, h4, _⟩ := wf.virt _ l hl hv
            exact absurd (ei ▸ h4) (hn _ (by omega))
    rw [hobs]
    constructor
    · rintro ⟨i, ho⟩
      -- extent of the track
      have hu : ∃ k, UsedAt s.corrs k i ∧ k ≤ d ∧ d ≤ k + 1 := by
        rcases ho with ⟨k, l, e, hl, ei, _⟩ | ⟨l, hl, ei, _, _⟩
        · exact ⟨k, ⟨l, hl, ei⟩, by omega, by omega⟩
        · exact ⟨d, ⟨l, hl, ei⟩, by omega, by omega⟩
      obtain ⟨k, hu, hk1, hk2⟩ := hu
      obtain ⟨k0, hf⟩ := exists_first hu
      obtain ⟨k1, hla⟩ := exists_last hu
      have hc := (nbObs_spec wf i).2 k0 k1 hf hla
      have h01 : k0 ≤ k := by
        by_contra hlt
        exact hf.2 k (by omega) hu
      have h11 : k ≤ k1 := by
        by_contra hlt
        exact hla.2 k (by omega) hu
      have hn : d - k0 < counts cfg s i := by
        have : counts cfg s i + k0 = k1 + 2 := hc
        omega
      refine ⟨start (counts cfg s) i + (d - k0), ?_, ?_⟩
      · have hi : i < s.currentId := inv.idlt k i hu
        have := start_mono (counts cfg s) hi
        show _ < start (counts cfg s) s.currentId
        omega
      · rw [minv.rows i (d - k0) hn]
        have : k0 + (d - k0) = d := by omega
        exact ⟨k0, j, hf, by rw [this], by rw [this]; exact ho⟩
    · rintro ⟨r, hr, e⟩
      obtain ⟨i, _, _, _, _, _, _, ho⟩ := hrow r hr e
      exact ⟨i, ho⟩
  · intro r r' hr hr' e e'
    obtain ⟨i, n, k0, hn, er, hf, ed, ho⟩ := hrow r hr e
    obtain ⟨i', n', k0', hn', er', hf', ed', ho'⟩ := hrow r' hr' e'
    have := obsAt_unique wf ho ho'
    subst this
    have := hf.unique hf'
    subst this
    have : n = n' := by omega
    subst this
    rw [er, er']

/-- Non-vacuity for C07: rows of the merged table of the example run. Track 0 has five rows, two of them untouched. -/
example : (track exCfg exFiles).map (fun s => (List.range (nbObs (counts exCfg s) s.currentId)).map (merged exCfg s).rows) =
    some [some (0, 0), some (1, 2), none, none, some (4, 0), some (0, 1), some (1, 0), some (1, 1), some (2, 0),
      some (3, 1), some (3, 0), some (4, 1)] := by decide +kernel

end Verif.Tracking
