import Verif.Tracking.Props

/-!
# C11: resuming from saved correspondences
-/

namespace Verif.Tracking

variable {α δ : Type}

/-- What a saved file must allow to rebuild, besides `Inv`: the previous dataset with the virtual observations that were
appended to it, and the presence of the two groups of virtual observations. -/
structure InvR (cfg : Cfg α δ) (files : List (List α)) (s : St α δ) : Prop where
  prev : s.corrs ≠ [] → s.previous = (files[s.corrs.length - 1]?).map (fun f => f ++ (s.prevVirtualObs.getD []).map (·.obs))
  pv : s.prevVirtualObs.isSome = (cfg.virtual && decide (3 ≤ s.corrs.length))
  flg : s.flg = (cfg.virtual && decide (2 ≤ s.corrs.length))
  vs : s.virtualObs.isSome = s.flg

theorem invR_init (cfg : Cfg α δ) (f : List α) : InvR cfg [f] (swap (init : St α δ) f) :=
  ⟨fun h => absurd rfl h, by simp [swap, init], by simp [swap, init], by simp [swap, init]⟩

theorem invR_step (cfg : Cfg α δ) (files : List (List α)) (s s' : St α δ) (inv : Inv cfg files s)
    (invr : InvR cfg files s) (file : List α) (hs : step cfg s file = some s') : InvR cfg (files ++ [file]) s' := by
  have hlen := inv.len
  obtain ⟨real, hreal⟩ : ∃ real, files[s.corrs.length]? = some real := ⟨_, List.getElem?_eq_getElem (by omega)⟩
  have hcur : s.current = some real := by rw [inv.cur, hreal]
  have happ : (files ++ [file])[s.corrs.length]? = some real := by
    rw [List.getElem?_append_left (by omega)]; exact hreal
  have hprev' : ∀ v : List (VObs α δ), some (real ++ v.map (·.obs)) =
      ((files ++ [file])[s.corrs.length]?).map (fun f => f ++ v.map (·.obs)) := by
    intro v; rw [happ]; rfl
  cases hc : s.corrs with
  | nil =>
    have hp := inv.prevNone hc
    have hf : s.flg = false := by rw [invr.flg, hc]; simp
    have hpv : s.prevVirtualObs = none := by
      have := invr.pv
      rw [hc] at this
      simpa using this
    have hvo : s.virtualObs = none := by
      have := invr.vs
      rw [hf] at this
      simpa using this
    have : s' = ⟨[fillNew s.currentId ((cfg.tracking real file).map (rawLink cfg.virtual real.length))],
        s.currentId + (cfg.tracking real file).length, s.virtualObs, s.prevVirtualObs, none, some real, some file, false⟩ := by
      have : step cfg s file = some _ := hs
      simp [step, swap, mergeVirtual, store, hcur, hp, hf, hc] at this
      exact this.symm
    subst this
    refine ⟨fun _ => ?_, ?_, ?_, ?_⟩
    · simp only [hpv, List.length_singleton, Nat.sub_self]
      rw [hc] at happ
      simp only [List.length_nil] at happ
      rw [happ]; simp
    · simp [hpv]
    · simp
    · simp [hvo]
  | cons c h =>
    obtain ⟨p, hp, _⟩ := inv.prevSome c h hc
    have hl : s.corrs.length = h.length + 1 := by rw [hc]; rfl
    -- previous observations after the merge with the virtual ones
    have hmerge : mergeVirtual (swap s file) =
        some ⟨s.corrs, s.currentId, s.virtualObs, s.prevVirtualObs, some p,
          some (real ++ (s.virtualObs.getD []).map (·.obs)), some file, s.flg⟩ := by
      cases hv : s.virtualObs with
      | none =>
        have hf : s.flg = false := by
          have := invr.vs
          rw [hv] at this
          simpa using this.symm
        simp [mergeVirtual, swap, hf, hcur, hp, hv]
      | some vs =>
        have hf : s.flg = true := by
          have := invr.vs
          rw [hv] at this
          simpa using this.symm
        simp [mergeVirtual, swap, hf, hcur, hp, hv]
    have e1 : (swap s file).previous = some real := hcur
    simp only [step, e1, hmerge, Option.bind_eq_bind, Option.bind_some, store, hc, List.head?_cons] at hs
    rw [Option.bind_eq_some_iff] at hs
    obtain ⟨r, hr, hs⟩ := hs
    rw [Option.bind_eq_some_iff] at hr
    obtain ⟨pre, hpre, hr⟩ := hr
    obtain rfl := Option.some.inj hr
    simp only [Bool.false_eq_true, if_false] at hs
    rw [Option.bind_eq_some_iff] at hs
    obtain ⟨t, ht, hs⟩ := hs
    by_cases hvirt : cfg.virtual = true
    · simp only [recense, hvirt, if_true, Option.bind_eq_bind, Option.bind_some] at ht
      rw [Option.bind_eq_some_iff] at ht
      obtain ⟨dead, _, ht⟩ := ht
      obtain rfl := Option.some.inj ht
      simp only [hvirt, if_true, Option.some.injEq] at hs
      subst hs
      refine ⟨fun _ => ?_, ?_, ?_, ?_⟩
      · simp only [List.length_cons, Nat.add_sub_cancel]
        rw [hprev', hl]
      · simp only [invr.vs, invr.flg, hvirt, hc, List.length_cons, Bool.true_and]
        rw [decide_eq_decide]; omega
      · simp [hvirt]
      · simp
    · have hvirt' : cfg.virtual = false := by simpa using hvirt
      have hf : s.flg = false := by rw [invr.flg, hvirt']; rfl
      have hvo : s.virtualObs = none := by
        have := invr.vs
        rw [hf] at this
        simpa using this
      have hpv : s.prevVirtualObs = none := by
        have := invr.pv
        rw [hvirt'] at this
        simpa using this
      simp only [recense, hvirt', Bool.false_eq_true, if_false, Option.some.injEq] at ht
      subst ht
      simp only [hvirt', Bool.false_eq_true, if_false, Option.some.injEq] at hs
      subst hs
      refine ⟨fun _ => ?_, ?_, ?_, ?_⟩
      · simp only [List.length_cons, Nat.add_sub_cancel, hvo, hpv]
        rw [← hl, happ]; simp
      · simp [hpv, hvirt']
      · simp [hf, hvirt']
      · simp [hvo, hf]

theorem invR_foldl (cfg : Cfg α δ) (ht : OneToOne cfg.tracking) (rest files : List (List α)) (s s' : St α δ)
    (inv : Inv cfg files s) (invr : InvR cfg files s) (hs : rest.foldlM (step cfg) s = some s') :
    InvR cfg (files ++ rest) s' := by
  induction rest generalizing files s with
  | nil =>
    obtain rfl := Option.some.inj hs
    simpa using invr
  | cons f rest ih =>
    obtain ⟨s1, e1, inv1⟩ := inv_step cfg ht files s inv f
    rw [List.foldlM_cons, e1] at hs
    have := ih (files ++ [f]) s1 inv1 (invR_step cfg files s s1 inv invr f e1) hs
    simpa using this

theorem invR_of_track {cfg : Cfg α δ} (ht : OneToOne cfg.tracking) {files : List (List α)} {s : St α δ}
    (hs : track cfg files = some s) : InvR cfg files s := by
  cases files with
  | nil => simp [track] at hs
  | cons f rest => exact invR_foldl cfg ht rest [f] _ _ (inv_init cfg f) (invR_init cfg f) hs

/-- Tracking a prefix, then the rest. -/
theorem track_append (cfg : Cfg α δ) (pre rest : List (List α)) (hne : pre ≠ []) :
    track cfg (pre ++ rest) = (track cfg pre).bind (fun s => rest.foldlM (step cfg) s) := by
  cases pre with
  | nil => exact absurd rfl hne
  | cons f pre =>
    simp only [track, trackFrom, List.cons_append, List.foldlM_append]
    rfl

/-- The stale `previous2_obs` of a state does not influence what follows. -/
theorem foldl_previous2 (cfg : Cfg α δ) (rest : List (List α)) (hne : rest ≠ []) (s : St α δ) (x : Option (List α)) :
    rest.foldlM (step cfg) { s with previous2 := x } = rest.foldlM (step cfg) s := by
  cases rest with
  | nil => exact absurd rfl hne
  | cons f rest => rfl

/-- C11 (partial). For every cut point, saving after the datasets `pre`, loading and tracking the remaining datasets ends in
exactly the state of the uninterrupted run: same link tables, identifiers, counters and virtual observations. Needed: no
link table of the saved part is empty, and the saved part has at least 2 datasets (4 with virtual observations). Outside
these hypotheses the code fails, see the theorems below. -/
theorem resume_eq_track_partial (cfg : Cfg α δ) (ht : OneToOne cfg.tracking) (pre rest : List (List α)) (s : St α δ)
    (hs : track cfg pre = some s) (hpre : if cfg.virtual then 4 ≤ pre.length else 2 ≤ pre.length)
    (hlinks : ∀ c ∈ s.corrs, c ≠ []) (hrest : rest ≠ []) :
    ∃ sv, save cfg s = some sv ∧ resume cfg sv (pre ++ rest) = track cfg (pre ++ rest) ∧
      (track cfg (pre ++ rest)).isSome = true := by
  have inv := inv_of_track ht hs
  have invr := invR_of_track ht hs
  have hlen := inv.len
  have hne : pre ≠ [] := by rintro rfl; simp at hlen
  have hc1 : 1 ≤ s.corrs.length := by
    split at hpre <;> omega
  have hcne : s.corrs ≠ [] := by intro e; rw [e] at hc1; simp at hc1
  obtain ⟨s2, e2, _⟩ := track_inv cfg ht (pre ++ rest) (by simp [hne])
  have happ := track_append cfg pre rest hne
  rw [hs, Option.bind_some] at happ
  have hcurf : (pre ++ rest)[s.corrs.length]? = s.current := by
    rw [inv.cur, List.getElem?_append_left (by omega)]
  obtain ⟨last, hlast⟩ : ∃ last, s.current = some last := by
    rw [inv.cur]; exact ⟨_, List.getElem?_eq_getElem (by omega)⟩
  have hpf : (pre ++ rest)[s.corrs.length - 1]? = pre[s.corrs.length - 1]? :=
    List.getElem?_append_left (by omega)
  obtain ⟨pf, hpf'⟩ : ∃ pf, pre[s.corrs.length - 1]? = some pf := ⟨_, List.getElem?_eq_getElem (by omega)⟩
  have hdrop : (pre ++ rest).drop (s.corrs.length + 1) = rest := by
    rw [hlen]; simp
  have hload : ∀ g, loadable cfg (⟨s.corrs, cfg.nbVirtual, s.currentId, g⟩ : Saved α δ) = true := by
    intro g
    simp only [loadable, decide_true, Bool.and_true, Bool.and_eq_true, Bool.not_eq_true']
    refine ⟨by simpa using hcne, ?_⟩
    rw [List.all_eq_true]
    intro c hc
    simpa using hlinks c hc
  have hprev := invr.prev hcne
  rw [hpf', Option.map_some] at hprev
  cases hvirt : cfg.virtual with
  | true =>
    rw [hvirt, if_pos rfl] at hpre
    have hpv : ∃ pv, s.prevVirtualObs = some pv := by
      have := invr.pv
      have h' : decide (3 ≤ s.corrs.length) = true := by simp; omega
      rw [hvirt, h', Bool.true_and, Option.isSome_iff_exists] at this
      exact this
    have hflg : s.flg = true := by rw [invr.flg, hvirt]; simp; omega
    have hv : ∃ v, s.virtualObs = some v := by
      have := invr.vs
      rw [hflg, Option.isSome_iff_exists] at this
      exact this
    obtain ⟨pv, hpv⟩ := hpv
    obtain ⟨v, hv⟩ := hv
    have hV : decide (0 < cfg.nbVirtual) = true := hvirt
    refine ⟨⟨s.corrs, cfg.nbVirtual, s.currentId, some (v, pv)⟩, by simp [save, hv, hpv], ?_, by rw [e2]; rfl⟩
    simp only [resume, loadState, hload, if_true, hpf, hpf', hcurf, hlast, hdrop, Option.bind_eq_bind, Option.bind_some, hV,
      trackFrom, swap]
    rw [happ]
    have : s = { (⟨s.corrs, s.currentId, some v, some pv, none, some (pf ++ pv.map (·.obs)), some last, true⟩ : St α δ) with
        previous2 := s.previous2 } := by
      rw [hpv] at hprev
      cases s
      simp_all
    conv_rhs => rw [this]
    rw [foldl_previous2 cfg rest hrest]
  | false =>
    have hflg : s.flg = false := by rw [invr.flg, hvirt]; rfl
    have hv : s.virtualObs = none := by
      have := invr.vs
      rw [hflg] at this; simpa using this
    have hpv : s.prevVirtualObs = none := by
      have := invr.pv
      rw [hvirt] at this; simpa using this
    have hV : decide (0 < cfg.nbVirtual) = false := hvirt
    refine ⟨⟨s.corrs, cfg.nbVirtual, s.currentId, none⟩, by simp [save, hv], ?_, by rw [e2]; rfl⟩
    simp only [resume, loadState, hload, if_true, hpf, hpf', hcurf, hlast, hdrop, Option.bind_eq_bind, Option.bind_some, hV,
      trackFrom, swap, Bool.false_eq_true, if_false]
    rw [happ]
    have : s = { (⟨s.corrs, s.currentId, none, none, none, some pf, some last, false⟩ : St α δ) with
        previous2 := s.previous2 } := by
      rw [hpv] at hprev
      cases s
      simp_all
    conv_rhs => rw [this]
    rw [foldl_previous2 cfg rest hrest]

/-- C11, negation. With virtual observations, a run over exactly three datasets cannot be saved. -/
theorem save_three_datasets_raises (cfg : Cfg α δ) (ht : OneToOne cfg.tracking) (hV : cfg.virtual = true)
    (pre : List (List α)) (h3 : pre.length = 3) (s : St α δ) (hs : track cfg pre = some s) : save cfg s = none := by
  have inv := inv_of_track ht hs
  have invr := invR_of_track ht hs
  have hlen := inv.len
  have hflg : s.flg = true := by rw [invr.flg, hV]; simp; omega
  have hpv : s.prevVirtualObs = none := by
    have := invr.pv
    rw [hV] at this
    have h' : decide (3 ≤ s.corrs.length) = false := by simp; omega
    rw [h'] at this
    simpa using this
  have hv := invr.vs
  rw [hflg, Option.isSome_iff_exists] at hv
  obtain ⟨v, hv⟩ := hv
  simp [save, hv, hpv]

/-- C11, negation. With virtual observations, a run over two datasets can be saved but not resumed. -/
theorem resume_two_datasets_raises (cfg : Cfg α δ) (ht : OneToOne cfg.tracking) (hV : cfg.virtual = true)
    (pre rest : List (List α)) (h2 : pre.length = 2) (s : St α δ) (hs : track cfg pre = some s) :
    ∃ sv, save cfg s = some sv ∧ resume cfg sv (pre ++ rest) = none := by
  have inv := inv_of_track ht hs
  have invr := invR_of_track ht hs
  have hlen := inv.len
  have hflg : s.flg = false := by rw [invr.flg, hV]; simp; omega
  have hv : s.virtualObs = none := by
    have := invr.vs
    rw [hflg] at this; simpa using this
  have hV' : decide (0 < cfg.nbVirtual) = true := hV
  refine ⟨⟨s.corrs, cfg.nbVirtual, s.currentId, none⟩, by simp [save, hv], ?_⟩
  simp only [resume, loadState, hV', if_true]
  split
  · cases (pre ++ rest)[s.corrs.length - 1]? <;> rfl
  · rfl

/-- C11, negation. A saved run with an empty link table cannot be resumed. -/
theorem resume_empty_table_raises (cfg : Cfg α δ) (sv : Saved α δ) (files : List (List α)) (h : [] ∈ sv.corrs) :
    resume cfg sv files = none := by
  have : loadable cfg sv = false := by
    have : sv.corrs.all (fun c => !c.isEmpty) = false := by
      rw [List.all_eq_false]
      exact ⟨[], h, by simp⟩
    simp [loadable, this]
  simp [resume, loadState, this]

/-- Non-vacuity of `resume_eq_track_partial`: a run with virtual observations, cut after four datasets. -/
example : ((track exCfg (exFiles.take 4)).map (fun s => s.corrs.all (fun c => !c.isEmpty))) = some true ∧
    exCfg.virtual = true ∧ (exFiles.take 4).length = 4 ∧ exFiles.drop 4 ≠ [] := by decide +kernel

/-- A run with an empty link table. -/
example : (track exCfg [[1], [2], [2], [2], [2]]).map (fun s => s.corrs.any (·.isEmpty)) = some true := by decide +kernel

end Verif.Tracking
