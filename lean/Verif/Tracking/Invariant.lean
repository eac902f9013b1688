import Verif.Tracking.Lemmas

namespace Verif.Tracking

variable {α δ : Type}

/-! ### Helpers on `mapM` -/

theorem mapM_eq_some {β γ : Type} {f : β → Option γ} {l : List β} {bs : List γ} :
    l.mapM f = some bs ↔ l.map f = bs.map some := by
  induction l generalizing bs with
  | nil => cases bs <;> simp
  | cons a l ih =>
    rw [List.mapM_cons, List.map_cons]
    cases ha : f a with
    | none => cases bs <;> simp
    | some b =>
      cases hl : l.mapM f with
      | none =>
        cases bs with
        | nil => simp
        | cons b' bs =>
          simp only [Option.bind_eq_bind, Option.bind_some, Option.bind_none, List.map_cons, List.cons.injEq,
            reduceCtorEq, false_iff, not_and]
          intro _ h
          have := ih.2 h
          rw [hl] at this; simp at this
      | some cs =>
        have h := ih.1 hl
        cases bs with
        | nil => simp
        | cons b' bs =>
          simp only [Option.bind_eq_bind, Option.bind_some, Option.pure_def, Option.some.injEq, List.map_cons,
            List.cons.injEq, h]
          constructor
          · rintro ⟨rfl, rfl⟩; exact ⟨rfl, rfl⟩
          · rintro ⟨rfl, h'⟩
            exact ⟨rfl, List.map_injective_iff.2 (Option.some_injective _) h'⟩

theorem mapM_total {β γ : Type} {f : β → Option γ} {l : List β} (h : ∀ a ∈ l, ∃ b, f a = some b) :
    ∃ bs, l.mapM f = some bs := by
  induction l with
  | nil => exact ⟨[], rfl⟩
  | cons a l ih =>
    obtain ⟨b, hb⟩ := h a List.mem_cons_self
    obtain ⟨bs, hbs⟩ := ih (fun x hx => h x (List.mem_cons_of_mem _ hx))
    exact ⟨b :: bs, by rw [List.mapM_cons, hb, hbs]; rfl⟩

theorem mapM_map {β γ κ : Type} {f : β → Option γ} {l : List β} {bs : List γ} (h : l.mapM f = some bs) (g : γ → κ)
    (k : β → κ) (hg : ∀ a ∈ l, ∀ b, f a = some b → g b = k a) : bs.map g = l.map k := by
  rw [mapM_eq_some] at h
  induction l generalizing bs with
  | nil =>
    have : bs = [] := by simpa using h.symm
    simp [this]
  | cons a l ih =>
    cases bs with
    | nil => simp at h
    | cons b bs =>
      simp only [List.map_cons, List.cons.injEq] at h ⊢
      exact ⟨hg a List.mem_cons_self b h.1, ih h.2 (fun x hx => hg x (List.mem_cons_of_mem _ hx))⟩

theorem mapM_mem {β γ : Type} {f : β → Option γ} {l : List β} {bs : List γ} (h : l.mapM f = some bs) {b : γ}
    (hb : b ∈ bs) : ∃ a ∈ l, f a = some b := by
  rw [mapM_eq_some] at h
  have : some b ∈ l.map f := by rw [h]; exact List.mem_map_of_mem hb
  obtain ⟨a, ha, e⟩ := List.mem_map.1 this
  exact ⟨a, ha, e⟩

theorem mapM_mem' {β γ : Type} {f : β → Option γ} {l : List β} {bs : List γ} (h : l.mapM f = some bs) {a : β}
    (ha : a ∈ l) : ∃ b ∈ bs, f a = some b := by
  rw [mapM_eq_some] at h
  have : f a ∈ bs.map some := by rw [← h]; exact List.mem_map_of_mem ha
  obtain ⟨b, hb, e⟩ := List.mem_map.1 this
  exact ⟨b, hb, e.symm⟩

/-! ### idPrevious -/

theorem idPrevious_some {c : List Link} {x i : Nat} (h : idPrevious c x = some i) : ∃ l ∈ c, l.out = x ∧ l.id = i := by
  unfold idPrevious at h
  rcases scatter_cases (c.map (fun l => (l.out, some l.id))) (fun _ => none) x with ⟨_, h'⟩ | h'
  · rw [h] at h'; simp at h'
  · rw [h] at h'
    obtain ⟨l, hl, e⟩ := List.mem_map.1 h'
    simp only [Prod.mk.injEq, Option.some.injEq] at e
    exact ⟨l, hl, e.1, e.2⟩

theorem idPrevious_none {c : List Link} {x : Nat} (h : idPrevious c x = none) : ∀ l ∈ c, l.out ≠ x := by
  unfold idPrevious at h
  rcases scatter_cases (c.map (fun l => (l.out, some l.id))) (fun _ => none) x with ⟨h', _⟩ | h'
  · intro l hl e
    exact h' (l.out, some l.id) (List.mem_map_of_mem (f := fun l => (l.out, some l.id)) hl) e
  · rw [h] at h'
    obtain ⟨l, hl, e⟩ := List.mem_map.1 h'
    simp at e

/-! ### The invariant -/

/-- The track `i` was last used `g` link tables before the newest one. -/
def LastUsed (h : List (List Link)) (i g : Nat) : Prop :=
  g < h.length ∧ UsedAt h (h.length - 1 - g) i ∧ ∀ j, h.length - 1 - g < j → j < h.length → ¬ UsedAt h j i

theorem LastUsed.not_head {c : List Link} {h : List (List Link)} {i g : Nat} (hu : LastUsed (c :: h) i g) (hg : 1 ≤ g) :
    i ∉ ids c := by
  obtain ⟨h1, _, h3⟩ := hu
  simp only [List.length_cons] at h1 h3
  exact fun hm => h3 h.length (by omega) (by omega) (usedAt_cons_last.2 hm)

/-- The virtual observations are exactly the tracks lost between 1 and `nbV` link tables ago. -/
structure VOK (nbV : Nat) (h : List (List Link)) (vs : List (VObs α δ)) : Prop where
  nodup : (vs.map (·.track)).Nodup
  iff : ∀ i g, (∃ v ∈ vs, v.track = i ∧ v.seg = g) ↔ 1 ≤ g ∧ g ≤ nbV ∧ LastUsed h i g

structure Inv (cfg : Cfg α δ) (files : List (List α)) (s : St α δ) : Prop where
  len : s.corrs.length + 1 = files.length
  cur : s.current = files[s.corrs.length]?
  prevNone : s.corrs = [] → s.previous = none
  prevSome : ∀ c h, s.corrs = c :: h → ∃ p, s.previous = some p ∧ ∀ l ∈ c, l.inp < p.length
  sized : ∀ k l, LinkAt s.corrs k l → (∃ f, files[k + 1]? = some f ∧ l.out < f.length) ∧
    ∃ f, files[k]? = some f ∧ (l.virt = false ↔ l.inp < f.length)
  wf : WF cfg.nbVirtual s.corrs
  idlt : ∀ k i, UsedAt s.corrs k i → i < s.currentId
  idused : ∀ i, i < s.currentId → ∃ k, UsedAt s.corrs k i
  flg : s.flg = (cfg.virtual && decide (2 ≤ s.corrs.length))
  vnone : s.flg = false → s.virtualObs = none
  vsome : s.flg = true → ∃ vs, s.virtualObs = some vs ∧ VOK cfg.nbVirtual s.corrs vs

theorem inv_init (cfg : Cfg α δ) (f : List α) : Inv cfg [f] (swap (init : St α δ) f) where
  len := rfl
  cur := rfl
  prevNone := fun _ => rfl
  prevSome := by intro c h e; simp [swap, init] at e
  sized := by intro k l hl; exact absurd hl linkAt_nil
  wf := wf_nil _
  idlt := by rintro k i ⟨l, hl, _⟩; exact absurd hl linkAt_nil
  idused := by intro i hi; simp [swap, init] at hi
  flg := by simp [swap, init]
  vnone := fun _ => rfl
  vsome := by intro h; simp [swap, init] at h

theorem rawLink_map (v : Bool) (n : Nat) (links : List (Nat × Nat × Rat)) :
    (links.map (rawLink v n)).map (·.inp) = links.map (·.1) ∧
      (links.map (rawLink v n)).map (·.out) = links.map (·.2.1) := by
  simp [rawLink, Function.comp_def]

theorem nbNew_rawLink (v : Bool) (n : Nat) (links : List (Nat × Nat × Rat)) :
    nbNew (links.map (rawLink v n)) = links.length := by
  unfold nbNew
  rw [List.countP_eq_length.2]
  · simp
  · intro a ha
    obtain ⟨m, _, rfl⟩ := List.mem_map.1 ha
    rfl

/-- What a successful `preLink` returns. -/
theorem preLink_some {v : Bool} {nbReal nbPrev : Nat} {last : List Link} {vobs : Option (List (VObs α δ))}
    {m : Nat × Nat × Rat} {p : PreLink} (h : preLink v nbReal nbPrev last vobs m = some p) :
    p.inp = m.1 ∧ p.out = m.2.1 ∧ p.virt = (v && decide (nbReal ≤ m.1)) ∧
      ((p.virt = true ∧ ∃ vs w, vobs = some vs ∧ vs[m.1 - nbReal]? = some w ∧ p.id = some w.track ∧ p.vlen = w.seg) ∨
        (p.virt = false ∧ p.id = idPrevious last m.1)) := by
  unfold preLink at h
  by_cases h1 : m.1 < nbPrev
  · simp only [h1, if_true] at h
    by_cases h2 : (rawLink v nbReal m).virt = true
    · rw [if_pos h2, Option.map_eq_some_iff] at h
      obtain ⟨w, hw, rfl⟩ := h
      rw [Option.bind_eq_some_iff] at hw
      obtain ⟨vs, e, hw⟩ := hw
      exact ⟨rfl, rfl, rfl, Or.inl ⟨h2, vs, w, e, hw, rfl, rfl⟩⟩
    · rw [if_neg h2] at h
      obtain rfl := Option.some.inj h
      exact ⟨rfl, rfl, rfl, Or.inr ⟨by simpa using h2, rfl⟩⟩
  · simp [h1] at h

theorem getElem?_inj_of_nodup {β : Type} {l : List β} (h : l.Nodup) {a b : Nat} {x : β} (ha : l[a]? = some x)
    (hb : l[b]? = some x) : a = b := by
  obtain ⟨h1, e1⟩ := List.getElem?_eq_some_iff.1 ha
  obtain ⟨h2, e2⟩ := List.getElem?_eq_some_iff.1 hb
  exact (List.Nodup.getElem_inj_iff h).1 (e1.trans e2.symm)

theorem eq_of_nodup_map {β γ : Type} {l : List β} {g : β → γ} (h : (l.map g).Nodup) {a b : β} (ha : a ∈ l) (hb : b ∈ l)
    (e : g a = g b) : a = b := List.inj_on_of_nodup_map h ha hb e

/-- First turn of the loop. -/
theorem inv_step_first (cfg : Cfg α δ) (ht : OneToOne cfg.tracking) (files : List (List α)) (s : St α δ)
    (inv : Inv cfg files s) (hc : s.corrs = []) (file : List α) :
    ∃ s', step cfg s file = some s' ∧ Inv cfg (files ++ [file]) s' := by
  have hl : files.length = 1 := by have := inv.len; simp [hc] at this; omega
  obtain ⟨f, rfl⟩ := List.length_eq_one_iff.1 hl
  have hcur : s.current = some f := by rw [inv.cur, hc]; rfl
  have hprev := inv.prevNone hc
  have hflg : s.flg = false := by rw [inv.flg, hc]; simp
  have hid : s.currentId = 0 := by
    by_contra hne
    obtain ⟨k, l, hl, _⟩ := inv.idused 0 (by omega)
    rw [hc] at hl; exact absurd hl linkAt_nil
  obtain ⟨t1, t2, t3⟩ := ht f file
  have hstep : step cfg s file = some
      { swap s file with
        corrs := fillNew 0 ((cfg.tracking f file).map (rawLink cfg.virtual f.length)) :: []
        currentId := 0 + (cfg.tracking f file).length } := by
    simp [step, swap, mergeVirtual, store, hcur, hprev, hflg, hid, hc]
  refine ⟨_, hstep, ?_⟩
  have hm : ∀ l ∈ fillNew 0 ((cfg.tracking f file).map (rawLink cfg.virtual f.length)),
      (∃ m ∈ cfg.tracking f file, l.inp = m.1 ∧ l.out = m.2.1) ∧ l.virt = false ∧ l.id < (cfg.tracking f file).length := by
    intro l hl
    obtain ⟨p, hp, e, h'⟩ := mem_fillNew hl
    obtain ⟨m, hm, rfl⟩ := List.mem_map.1 hp
    have h3 := t3 m hm
    rw [e]
    refine ⟨⟨m, hm, rfl, rfl⟩, ?_, ?_⟩
    · simp only [LinkOf.setId, rawLink, Bool.and_eq_false_iff, decide_eq_false_iff_not]
      exact Or.inr (by omega)
    · rcases h' with h' | ⟨_, _, h'⟩
      · simp [rawLink] at h'
      · rw [nbNew_rawLink] at h'; simpa [LinkOf.setId] using h'
  have hN := rawLink_map cfg.virtual f.length (cfg.tracking f file)
  refine ⟨rfl, rfl, by simp, ?_, ?_, ?_, ?_, ?_, ?_, ?_, ?_⟩
  · intro c h e
    simp only [List.cons.injEq] at e
    obtain ⟨rfl, rfl⟩ := e
    refine ⟨f, hcur, ?_⟩
    intro l hl
    obtain ⟨⟨m, hm', e, _⟩, _⟩ := hm l hl
    rw [e]; exact (t3 m hm').1
  · intro k l hl
    rcases linkAt_cons.1 hl with ⟨rfl, hl'⟩ | hl
    · obtain ⟨⟨m, hm', e1, e2⟩, hv, _⟩ := hm l hl'
      refine ⟨⟨file, rfl, by rw [e2]; exact (t3 m hm').2⟩, f, rfl, ?_⟩
      rw [e1, hv]; simpa using (t3 m hm').1
    · exact absurd hl linkAt_nil
  · rw [wf_cons]
    refine ⟨⟨⟨?_, ?_, ?_⟩, ?_, ?_⟩, wf_nil _⟩
    · apply fillNew_nodup
      · have : ((cfg.tracking f file).map (rawLink cfg.virtual f.length)).filterMap (·.id) = [] := by
          rw [List.filterMap_eq_nil_iff]
          intro a ha
          obtain ⟨m, _, rfl⟩ := List.mem_map.1 ha
          rfl
        rw [this]; exact List.nodup_nil
      · intro p hp i hi
        obtain ⟨m, _, rfl⟩ := List.mem_map.1 hp
        simp [rawLink] at hi
    · rw [fillNew_inp, hN.1]; exact t1
    · rw [fillNew_out, hN.2]; exact t2
    · intro l hl hv
      rw [(hm l hl).2.1] at hv; simp at hv
    · intro l hl _
      right
      exact ⟨fun j hj => by simp at hj, fun k' l' e => by simp at e⟩
  · rintro k i hu
    rcases usedAt_cons.1 hu with ⟨_, hi⟩ | ⟨l, hl, _⟩
    · obtain ⟨l, hl, rfl⟩ := List.mem_map.1 hi
      simpa using (hm l hl).2.2
    · exact absurd hl linkAt_nil
  · intro i hi
    refine ⟨0, usedAt_cons_last.2 (fillNew_issues (Nat.zero_le _) ?_)⟩
    rw [nbNew_rawLink]; exact hi
  · simp [swap, hflg]
  · intro _; exact inv.vnone hflg
  · intro h; simp [swap, hflg] at h

/-- Table stored by a later turn of the loop. -/
theorem store_spec (cfg : Cfg α δ) (h : List (List Link)) (c : List Link) (cid : Nat) (real : List α)
    (vobs : Option (List (VObs α δ))) (flg : Bool) (prev : List α) (links : List (Nat × Nat × Rat))
    (hflg : flg = true → cfg.virtual = true)
    (hprev : (flg = false ∧ prev = real) ∨
      ∃ vs, flg = true ∧ vobs = some vs ∧ VOK cfg.nbVirtual (c :: h) vs ∧ prev = real ++ vs.map (·.obs))
    (wf : WF cfg.nbVirtual (c :: h)) (idlt : ∀ k i, UsedAt (c :: h) k i → i < cid)
    (l1 : (links.map (·.1)).Nodup) (l2 : (links.map (·.2.1)).Nodup) (l3 : ∀ m ∈ links, m.1 < prev.length) :
    ∃ pre, links.mapM (preLink cfg.virtual real.length prev.length c vobs) = some pre ∧
      HeadOK cfg.nbVirtual (fillNew cid pre) (c :: h) ∧
      (∀ l ∈ fillNew cid pre, l.id < cid + nbNew pre ∧ (l.virt = false ↔ l.inp < real.length) ∧
        ∃ m ∈ links, l.inp = m.1 ∧ l.out = m.2.1) := by
  have htot : ∀ m ∈ links, ∃ p, preLink cfg.virtual real.length prev.length c vobs m = some p := by
    intro m hm
    have hlt := l3 m hm
    unfold preLink
    simp only [hlt, if_true]
    by_cases hv : (rawLink cfg.virtual real.length m).virt = true
    · simp only [hv, if_true]
      simp only [rawLink, Bool.and_eq_true, decide_eq_true_eq] at hv
      rcases hprev with ⟨_, rfl⟩ | ⟨vs, _, e, _, rfl⟩
      · omega
      · rw [e]
        have : m.1 - real.length < vs.length := by simp at hlt; omega
        simp [List.getElem?_eq_getElem this]
    · simp [hv]
  obtain ⟨pre, hpre⟩ := mapM_total htot
  have hp : ∀ p ∈ pre, ∃ m ∈ links, preLink cfg.virtual real.length prev.length c vobs m = some p := fun p hp =>
    mapM_mem hpre hp
  have hinp : pre.map (·.inp) = links.map (·.1) := mapM_map hpre _ _ (fun a _ b hb => (preLink_some hb).1)
  have hout : pre.map (·.out) = links.map (·.2.1) := mapM_map hpre _ _ (fun a _ b hb => (preLink_some hb).2.1)
  have hids := (wf.nodup c List.mem_cons_self).1
  have lastidx : UsedAt (c :: h) h.length = fun i => i ∈ ids c := by
    funext i; exact propext usedAt_cons_last
  -- origin of a known identifier
  have horig : ∀ p ∈ pre, ∀ i, p.id = some i →
      (p.virt = false ∧ p.inp < real.length ∧ ∃ l ∈ c, l.out = p.inp ∧ l.id = i) ∨
      (p.virt = true ∧ real.length ≤ p.inp ∧ ∃ vs w, vobs = some vs ∧ VOK cfg.nbVirtual (c :: h) vs ∧
        vs[p.inp - real.length]? = some w ∧ w.track = i ∧ p.vlen = w.seg) := by
    intro p hpm i hi
    obtain ⟨m, hm, hpl⟩ := hp p hpm
    obtain ⟨e1, e2, e3, hcase⟩ := preLink_some hpl
    have hlt := l3 m hm
    rcases hcase with ⟨hv, vs, w, ev, hw, ei, el⟩ | ⟨hv, ei⟩
    · right
      rw [hv] at e3
      have e3' : cfg.virtual = true ∧ real.length ≤ m.1 := by simpa using e3.symm
      refine ⟨hv, by omega, ?_⟩
      rcases hprev with ⟨_, rfl⟩ | ⟨vs', _, e, vok, rfl⟩
      · omega
      · rw [ev] at e
        obtain rfl := Option.some.inj e
        exact ⟨vs, w, ev, vok, by rw [e1]; exact hw, by rw [ei] at hi; exact Option.some.inj hi, el⟩
    · left
      have hreal : p.inp < real.length := by
        rw [hv] at e3
        rcases hprev with ⟨_, rfl⟩ | ⟨vs', ef, e, vok, rfl⟩
        · omega
        · have := hflg ef
          rw [this] at e3
          have : ¬ real.length ≤ m.1 := by simpa using e3.symm
          omega
      rw [ei] at hi
      obtain ⟨l, hl, h1, h2⟩ := idPrevious_some hi
      exact ⟨hv, hreal, l, hl, by omega, h2⟩
  have hlt_of : ∀ p ∈ pre, ∀ i, p.id = some i → i < cid := by
    intro p hpm i hi
    rcases horig p hpm i hi with ⟨_, _, l, hl, _, e⟩ | ⟨_, _, vs, w, _, vok, hw, e, _⟩
    · exact idlt h.length i (usedAt_cons_last.2 (by rw [← e]; exact List.mem_map_of_mem hl))
    · obtain ⟨_, _, _, hu, _⟩ := (vok.iff i w.seg).1 ⟨w, List.mem_of_getElem? hw, e, rfl⟩
      exact idlt _ i hu
  refine ⟨pre, hpre, ⟨⟨?_, ?_, ?_⟩, ?_, ?_⟩, ?_⟩
  · -- identifiers are distinct
    apply fillNew_nodup _ hlt_of
    unfold List.Nodup
    rw [List.pairwise_filterMap]
    have hnd : pre.Pairwise (fun a b => a.inp ≠ b.inp) := by
      have : (pre.map (·.inp)).Nodup := by rw [hinp]; exact l1
      unfold List.Nodup at this
      rwa [List.pairwise_map] at this
    refine List.Pairwise.imp_of_mem ?_ hnd
    intro p q hpm hqm hne i hi j hj hij
    subst hij
    apply hne
    rcases horig p hpm i hi with ⟨_, hr, l, hl, o1, e⟩ | ⟨_, hr, vs, w, ev, vok, hw, e, _⟩ <;>
      rcases horig q hqm i hj with ⟨_, hr', l', hl', o1', e'⟩ | ⟨_, hr', vs', w', ev', vok', hw', e', _⟩
    · have : l = l' := eq_of_nodup_map hids hl hl' (by rw [e, e'])
      subst this; omega
    · obtain ⟨h1, _, hu⟩ := (vok'.iff i w'.seg).1 ⟨w', List.mem_of_getElem? hw', e', rfl⟩
      exact absurd (by rw [← e]; exact List.mem_map_of_mem hl) (hu.not_head h1)
    · obtain ⟨h1, _, hu⟩ := (vok.iff i w.seg).1 ⟨w, List.mem_of_getElem? hw, e, rfl⟩
      exact absurd (by rw [← e']; exact List.mem_map_of_mem hl') (hu.not_head h1)
    · rw [ev] at ev'
      obtain rfl := Option.some.inj ev'
      have h1 : (vs.map (·.track))[p.inp - real.length]? = some i := by rw [List.getElem?_map, hw]; simp [e]
      have h2 : (vs.map (·.track))[q.inp - real.length]? = some i := by rw [List.getElem?_map, hw']; simp [e']
      have := getElem?_inj_of_nodup vok.nodup h1 h2
      omega
  · rw [fillNew_inp, hinp]; exact l1
  · rw [fillNew_out, hout]; exact l2
  · -- virtual links
    intro l hl hv
    obtain ⟨p, hpm, e, hcase⟩ := mem_fillNew hl
    have ev : l.virt = p.virt := by rw [e]; rfl
    have el : l.vlen = p.vlen := by rw [e]; rfl
    rcases hcase with hcase | ⟨hcase, _⟩
    · rcases horig p hpm _ hcase with ⟨h1, _⟩ | ⟨_, _, vs, w, _, vok, hw, e', e2⟩
      · rw [ev, h1] at hv; simp at hv
      · obtain ⟨g1, g2, g3, g4, g5⟩ := (vok.iff l.id w.seg).1 ⟨w, List.mem_of_getElem? hw, e', rfl⟩
        rw [el, e2]
        exact ⟨g1, g2, g3, g4, g5⟩
    · obtain ⟨m, _, hpl⟩ := hp p hpm
      rcases (preLink_some hpl).2.2.2 with ⟨_, vs, w, _, _, ei, _⟩ | ⟨hv', _⟩
      · rw [hcase] at ei; simp at ei
      · rw [ev, hv'] at hv; simp at hv
  · -- real links
    intro l hl hv
    obtain ⟨p, hpm, e, hcase⟩ := mem_fillNew hl
    have ev : l.virt = p.virt := by rw [e]; rfl
    have ei : l.inp = p.inp := by rw [e]; rfl
    rcases hcase with hcase | ⟨hcase, hge, _⟩
    · rcases horig p hpm _ hcase with ⟨_, _, l', hl', e1, e2⟩ | ⟨h1, _⟩
      · exact Or.inl ⟨h.length, l', rfl, linkAt_cons_last.2 hl', by rw [ei]; exact e1, e2⟩
      · rw [ev, h1] at hv; simp at hv
    · right
      refine ⟨fun j _ hu => ?_, ?_⟩
      · have := idlt j _ hu; omega
      · intro k' l' ek hl'
        have : k' = h.length := by simp at ek; omega
        subst this
        obtain ⟨m, _, hpl⟩ := hp p hpm
        rcases (preLink_some hpl).2.2.2 with ⟨hv', _⟩ | ⟨_, e'⟩
        · rw [ev, hv'] at hv; simp at hv
        · rw [hcase] at e'
          rw [ei, (preLink_some hpl).1]
          exact idPrevious_none e'.symm l' (linkAt_cons_last.1 hl')
  · intro l hl
    obtain ⟨p, hpm, e, hcase⟩ := mem_fillNew hl
    obtain ⟨m, hm, hpl⟩ := hp p hpm
    obtain ⟨e1, e2, e3, _⟩ := preLink_some hpl
    refine ⟨?_, ?_, m, hm, by rw [e]; exact e1, by rw [e]; exact e2⟩
    · rcases hcase with hcase | ⟨_, _, h'⟩
      · have := hlt_of p hpm _ hcase; omega
      · exact h'
    · have ev : l.virt = p.virt := by rw [e]; rfl
      have ei : l.inp = p.inp := by rw [e]; rfl
      rw [ev, ei, e1, e3]
      have hlt := l3 m hm
      rcases hprev with ⟨_, rfl⟩ | ⟨vs', ef, e, vok, rfl⟩
      · simp only [Bool.and_eq_false_iff, decide_eq_false_iff_not]
        exact ⟨fun _ => hlt, fun _ => Or.inr (by omega)⟩
      · have := hflg ef
        rw [this]; simp

/-- The virtual observations after `recense`. -/
theorem recense_vok (cfg : Cfg α δ) (h : List (List Link)) (c c1 : List Link) (prev2 prev : List α)
    (vobs : Option (List (VObs α δ))) (hV : 1 ≤ cfg.nbVirtual)
    (hv : (vobs = none ∧ h = []) ∨ ∃ vs, vobs = some vs ∧ VOK cfg.nbVirtual (c :: h) vs)
    (hin : ∀ l ∈ c, l.inp < prev2.length) (hout : ∀ l ∈ c, l.out < prev.length) :
    ∃ dead, deadVirtual cfg prev2 prev c (setdiff1d (ids c) (ids c1)) = some dead ∧
      VOK cfg.nbVirtual (c1 :: c :: h) (dead ++ match (motive := Option (List (VObs α δ)) → List (VObs α δ)) vobs with
        | none => []
        | some vs => prolonged cfg vs (ids c1)) := by
  have htot : ∀ i ∈ setdiff1d (ids c) (ids c1), ∃ v : VObs α δ, (do
      let l ← c.find? (fun l => l.id == i)
      let a ← prev2[l.inp]?
      let b ← prev[l.out]?
      let cd := cfg.extend a b
      some (⟨i, 1, cd.1, cd.2⟩ : VObs α δ)) = some v := by
    intro i hi
    obtain ⟨hi, _⟩ := mem_setdiff1d.1 hi
    obtain ⟨l0, hl0, e0⟩ := List.mem_map.1 hi
    cases hf : c.find? (fun l => l.id == i) with
    | none =>
      rw [List.find?_eq_none] at hf
      have := hf l0 hl0
      simp [e0] at this
    | some l =>
      have hl := List.mem_of_find?_eq_some hf
      have h1 := hin l hl
      have h2 := hout l hl
      simp [List.getElem?_eq_getElem h1, List.getElem?_eq_getElem h2]
  obtain ⟨dead, hd⟩ := mapM_total htot
  refine ⟨dead, hd, ?_⟩
  have hshape : ∀ i ∈ setdiff1d (ids c) (ids c1), ∀ v : VObs α δ, (do
      let l ← c.find? (fun l => l.id == i)
      let a ← prev2[l.inp]?
      let b ← prev[l.out]?
      let cd := cfg.extend a b
      some (⟨i, 1, cd.1, cd.2⟩ : VObs α δ)) = some v → v.track = i ∧ v.seg = 1 := by
    intro i _ v hv
    simp only [Option.bind_eq_bind, Option.bind_eq_some_iff, Option.some.injEq] at hv
    obtain ⟨l, _, a, _, b, _, rfl⟩ := hv
    exact ⟨rfl, rfl⟩
  have hdt : dead.map (·.track) = setdiff1d (ids c) (ids c1) := by
    have := mapM_map hd (·.track) id (fun a ha b hb => (hshape a ha b hb).1)
    simpa using this
  have hds : ∀ v ∈ dead, v.seg = 1 := by
    intro v hv
    obtain ⟨a, ha, e⟩ := mapM_mem hd hv
    exact (hshape a ha v e).2
  -- positions
  have hlast1 : ∀ i, UsedAt (c1 :: c :: h) (h.length + 1) i ↔ i ∈ ids c1 := fun i =>
    usedAt_cons_last (c := c1) (h := c :: h)
  have hlast2 : ∀ i, UsedAt (c1 :: c :: h) h.length i ↔ i ∈ ids c := fun i => by
    rw [usedAt_cons_lt (by simp)]; exact usedAt_cons_last
  have hone : ∀ i, LastUsed (c1 :: c :: h) i 1 ↔ i ∈ ids c ∧ i ∉ ids c1 := by
    intro i
    unfold LastUsed
    simp only [List.length_cons]
    have e1 : h.length + 1 + 1 - 1 - 1 = h.length := by omega
    rw [e1, hlast2]
    constructor
    · rintro ⟨_, h1, h2⟩
      exact ⟨h1, fun hm => h2 (h.length + 1) (by omega) (by omega) ((hlast1 i).2 hm)⟩
    · rintro ⟨h1, h2⟩
      refine ⟨by omega, h1, fun j hj hj' hu => ?_⟩
      have : j = h.length + 1 := by omega
      subst this
      exact h2 ((hlast1 i).1 hu)
  have hsucc : ∀ i g, 1 ≤ g → (LastUsed (c1 :: c :: h) i (g + 1) ↔ LastUsed (c :: h) i g ∧ i ∉ ids c1) := by
    intro i g hg
    unfold LastUsed
    simp only [List.length_cons]
    have e1 : h.length + 1 + 1 - 1 - (g + 1) = h.length + 1 - 1 - g := by omega
    rw [e1]
    constructor
    · rintro ⟨h0, h1, h2⟩
      refine ⟨⟨by omega, (usedAt_cons_lt (by simp; omega)).1 h1, fun j hj hj' hu => h2 j hj (by omega)
        ((usedAt_cons_lt (by simp; omega)).2 hu)⟩, fun hm => h2 (h.length + 1) (by omega) (by omega) ((hlast1 i).2 hm)⟩
    · rintro ⟨⟨h0, h1, h2⟩, h3⟩
      refine ⟨by omega, (usedAt_cons_lt (by simp; omega)).2 h1, fun j hj hj' hu => ?_⟩
      by_cases ej : j = h.length + 1
      · subst ej; exact h3 ((hlast1 i).1 hu)
      · exact h2 j hj (by omega) ((usedAt_cons_lt (by simp; omega)).1 hu)
  have hdead : ∀ i g, (∃ v ∈ dead, v.track = i ∧ v.seg = g) ↔ g = 1 ∧ LastUsed (c1 :: c :: h) i 1 := by
    intro i g
    rw [hone, ← mem_setdiff1d, ← hdt, List.mem_map]
    constructor
    · rintro ⟨v, hv, e1, e2⟩
      exact ⟨by rw [← e2]; exact hds v hv, v, hv, e1⟩
    · rintro ⟨rfl, v, hv, e1⟩
      exact ⟨v, hv, e1, hds v hv⟩
  rcases hv with ⟨rfl, rfl⟩ | ⟨vs, rfl, vok⟩
  · simp only [List.append_nil]
    refine ⟨by rw [hdt]; exact nodup_setdiff1d _ _, fun i g => ?_⟩
    rw [hdead]
    constructor
    · rintro ⟨rfl, h1⟩
      exact ⟨Nat.le_refl _, hV, h1⟩
    · rintro ⟨h1, _, h3⟩
      have : g = 1 := by
        have := h3.1
        simp at this; omega
      subst this
      exact ⟨rfl, h3⟩
  · simp only
    have hpro : ∀ v', v' ∈ prolonged cfg vs (ids c1) ↔ ∃ v ∈ vs, v.track ∉ ids c1 ∧ v.seg < cfg.nbVirtual ∧
        v' = ⟨v.track, v.seg + 1, cfg.prolong v.obs v.drift, v.drift⟩ := by
      intro v'
      unfold prolonged
      rw [List.mem_filterMap]
      constructor
      · rintro ⟨i, hi, e⟩
        obtain ⟨_, h2⟩ := mem_setdiff1d.1 hi
        rw [Option.bind_eq_some_iff] at e
        obtain ⟨v, hf, e⟩ := e
        have ht : v.track = i := by simpa using List.find?_some hf
        by_cases hseg : v.seg < cfg.nbVirtual
        · simp only [hseg, if_true, Option.some.injEq] at e
          exact ⟨v, List.mem_of_find?_eq_some hf, by rw [ht]; exact h2, hseg, e.symm⟩
        · simp [hseg] at e
      · rintro ⟨v, hv, h2, hseg, rfl⟩
        refine ⟨v.track, mem_setdiff1d.2 ⟨List.mem_map_of_mem hv, h2⟩, ?_⟩
        cases hf : vs.find? (fun w => w.track == v.track) with
        | none =>
          rw [List.find?_eq_none] at hf
          have := hf v hv
          simp at this
        | some w =>
          have ht : w.track = v.track := by simpa using List.find?_some hf
          have : w = v := eq_of_nodup_map vok.nodup (List.mem_of_find?_eq_some hf) hv ht
          subst this
          simp [hseg]
    constructor
    · rw [List.map_append, List.nodup_append]
      refine ⟨by rw [hdt]; exact nodup_setdiff1d _ _, ?_, ?_⟩
      · have : (prolonged cfg vs (ids c1)).map (·.track) =
            (setdiff1d (vs.map (·.track)) (ids c1)).filterMap (fun i =>
              ((vs.find? (fun v => v.track == i)).bind (fun v =>
                if v.seg < cfg.nbVirtual then some (⟨v.track, v.seg + 1, cfg.prolong v.obs v.drift, v.drift⟩ : VObs α δ)
                else none)).map (·.track)) := by
          unfold prolonged; rw [List.map_filterMap]
        rw [this]
        unfold List.Nodup
        rw [List.pairwise_filterMap]
        refine List.Pairwise.imp ?_ (nodup_setdiff1d _ _)
        intro a b hab x hx y hy
        have aux : ∀ i z, ((vs.find? (fun v => v.track == i)).bind (fun v =>
            if v.seg < cfg.nbVirtual then some (⟨v.track, v.seg + 1, cfg.prolong v.obs v.drift, v.drift⟩ : VObs α δ)
            else none)).map (·.track) = some z → z = i := by
          intro i z hz
          rw [Option.map_eq_some_iff] at hz
          obtain ⟨w, hw, rfl⟩ := hz
          rw [Option.bind_eq_some_iff] at hw
          obtain ⟨v, hf, e⟩ := hw
          have ht : v.track = i := by simpa using List.find?_some hf
          split at e
          · obtain rfl := Option.some.inj e; exact ht
          · simp at e
        rw [aux a x hx, aux b y hy]; exact hab
      · intro a ha b hb hab
        subst hab
        rw [hdt] at ha
        obtain ⟨ha, _⟩ := mem_setdiff1d.1 ha
        obtain ⟨v', hv', e'⟩ := List.mem_map.1 hb
        obtain ⟨v, hv, _, _, rfl⟩ := (hpro v').1 hv'
        obtain ⟨g1, _, hu⟩ := (vok.iff a v.seg).1 ⟨v, hv, e', rfl⟩
        exact hu.not_head g1 ha
    · intro i g
      have : (∃ v ∈ dead ++ prolonged cfg vs (ids c1), v.track = i ∧ v.seg = g) ↔
          (∃ v ∈ dead, v.track = i ∧ v.seg = g) ∨ ∃ v ∈ prolonged cfg vs (ids c1), v.track = i ∧ v.seg = g := by
        simp only [List.mem_append, or_and_right, exists_or]
      rw [this, hdead]
      constructor
      · rintro (⟨rfl, h1⟩ | ⟨v', hv', e1, e2⟩)
        · exact ⟨Nat.le_refl _, hV, h1⟩
        · obtain ⟨v, hv, hn, hseg, rfl⟩ := (hpro v').1 hv'
          obtain ⟨g1, g2, g3⟩ := (vok.iff i v.seg).1 ⟨v, hv, e1, rfl⟩
          subst e2
          simp only at e1 ⊢
          exact ⟨by omega, by omega, (hsucc i v.seg g1).2 ⟨g3, by rw [← e1]; exact hn⟩⟩
      · rintro ⟨h1, h2, h3⟩
        by_cases hg : g = 1
        · subst hg; exact Or.inl ⟨rfl, h3⟩
        · right
          obtain ⟨g', rfl⟩ : ∃ g', g = g' + 1 := ⟨g - 1, by omega⟩
          obtain ⟨h4, h5⟩ := (hsucc i g' (by omega)).1 h3
          obtain ⟨v, hv, e1, e2⟩ := (vok.iff i g').2 ⟨by omega, by omega, h4⟩
          exact ⟨_, (hpro _).2 ⟨v, hv, by rw [e1]; exact h5, by omega, rfl⟩, e1, by simp [e2]⟩

/-- A later turn of the loop. -/
theorem inv_step_next (cfg : Cfg α δ) (ht : OneToOne cfg.tracking) (files : List (List α)) (s : St α δ)
    (inv : Inv cfg files s) (c : List Link) (h : List (List Link)) (hc : s.corrs = c :: h) (file : List α) :
    ∃ s', step cfg s file = some s' ∧ Inv cfg (files ++ [file]) s' := by
  obtain ⟨p, hp, hpin⟩ := inv.prevSome c h hc
  have hlen : files.length = h.length + 2 := by have := inv.len; simp [hc] at this; omega
  obtain ⟨real, hreal⟩ : ∃ real, files[h.length + 1]? = some real := ⟨_, List.getElem?_eq_getElem (by omega)⟩
  have hcur : s.current = some real := by rw [inv.cur, hc, ← hreal]; rfl
  have wf := inv.wf
  rw [hc] at wf
  have idlt := inv.idlt
  rw [hc] at idlt
  have idused := inv.idused
  rw [hc] at idused
  have hflg := inv.flg
  rw [hc] at hflg
  have hout : ∀ l ∈ c, l.out < real.length := by
    intro l hl
    obtain ⟨⟨f, hf, hlt⟩, _⟩ := inv.sized h.length l (by rw [hc]; exact linkAt_cons_last.2 hl)
    rw [hreal] at hf
    obtain rfl := Option.some.inj hf
    exact hlt
  -- the state after the virtual observations are appended
  obtain ⟨prev, hmerge, hprev⟩ : ∃ prev, mergeVirtual (swap s file) =
      some ⟨s.corrs, s.currentId, s.virtualObs, s.prevVirtualObs, some p, some prev, some file, s.flg⟩ ∧
      ((s.flg = false ∧ prev = real) ∨ ∃ vs, s.flg = true ∧ s.virtualObs = some vs ∧ VOK cfg.nbVirtual (c :: h) vs ∧
        prev = real ++ vs.map (·.obs)) := by
    cases hf : s.flg with
    | false => exact ⟨real, by simp [mergeVirtual, swap, hf, hcur, hp], Or.inl ⟨rfl, rfl⟩⟩
    | true =>
      obtain ⟨vs, ev, vok⟩ := inv.vsome hf
      rw [hc] at vok
      exact ⟨real ++ vs.map (·.obs), by simp [mergeVirtual, swap, hf, hcur, hp, ev], Or.inr ⟨vs, rfl, ev, vok, rfl⟩⟩
  obtain ⟨t1, t2, t3⟩ := ht prev file
  have hfv : s.flg = true → cfg.virtual = true := by
    intro e; rw [e] at hflg
    have := hflg.symm
    rw [Bool.and_eq_true] at this; exact this.1
  obtain ⟨pre, hpre, hok, hrow⟩ := store_spec cfg h c s.currentId real s.virtualObs s.flg prev (cfg.tracking prev file)
    hfv hprev wf idlt t1 t2 (fun m hm => (t3 m hm).1)
  have hstep : step cfg s file = (recense cfg ⟨fillNew s.currentId pre :: c :: h, s.currentId + nbNew pre, s.virtualObs,
      s.prevVirtualObs, some p, some prev, some file, s.flg⟩).bind
        (fun s => some (if cfg.virtual then { s with flg := true } else s)) := by
    have e1 : (swap s file).previous = some real := hcur
    simp only [step, e1, hmerge, Option.bind_eq_bind, Option.bind_some, store, hc, List.head?_cons, hpre]
    simp
  have hprevlen : real.length ≤ prev.length := by
    rcases hprev with ⟨_, rfl⟩ | ⟨vs, _, _, _, rfl⟩
    · exact Nat.le_refl _
    · simp
  have hwf' : WF cfg.nbVirtual (fillNew s.currentId pre :: c :: h) := wf_cons.2 ⟨hok, wf⟩
  -- common part of the invariant
  have common : ∀ (v pv : Option (List (VObs α δ))) (fl : Bool), fl = cfg.virtual → (fl = false → v = none) →
      (fl = true → ∃ vs, v = some vs ∧ VOK cfg.nbVirtual (fillNew s.currentId pre :: c :: h) vs) →
      Inv cfg (files ++ [file]) (⟨fillNew s.currentId pre :: c :: h, s.currentId + nbNew pre, v, pv, some p, some prev,
        some file, fl⟩ : St α δ) := by
    intro v pv fl hfl hv0 hv1
    refine ⟨by simp [hlen], ?_, by simp, ?_, ?_, hwf', ?_, ?_, ?_, hv0, hv1⟩
    · simp only [List.length_cons]
      rw [List.getElem?_append_right (by omega)]
      simp [hlen]
    · intro c' h' e
      simp only [List.cons.injEq] at e
      obtain ⟨rfl, _⟩ := e
      refine ⟨prev, rfl, fun l hl => ?_⟩
      obtain ⟨_, _, m, hm, e1, _⟩ := hrow l hl
      rw [e1]; exact (t3 m hm).1
    · intro k l hl
      rcases linkAt_cons.1 hl with ⟨rfl, hl'⟩ | hl
      · obtain ⟨_, hv, m, hm, e1, e2⟩ := hrow l hl'
        refine ⟨⟨file, ?_, by rw [e2]; exact (t3 m hm).2⟩, real, ?_, hv⟩
        · simp only [List.length_cons]
          rw [List.getElem?_append_right (by omega)]
          simp [hlen]
        · simp only [List.length_cons]
          rw [List.getElem?_append_left (by omega)]
          exact hreal
      · have hk := hl.lt
        obtain ⟨⟨f, hf, h1⟩, f', hf', h2⟩ := inv.sized k l (by rw [hc]; exact hl)
        simp only [List.length_cons] at hk
        refine ⟨⟨f, ?_, h1⟩, f', ?_, h2⟩
        · rw [List.getElem?_append_left (by omega)]; exact hf
        · rw [List.getElem?_append_left (by omega)]; exact hf'
    · intro k i hu
      rcases usedAt_cons.1 hu with ⟨_, hi⟩ | hu
      · obtain ⟨l, hl, rfl⟩ := List.mem_map.1 hi
        exact (hrow l hl).1
      · have := idlt k i hu
        simp only; omega
    · intro i hi
      by_cases hlt : i < s.currentId
      · obtain ⟨k, hu⟩ := idused i hlt
        exact ⟨k, usedAt_cons.2 (Or.inr hu)⟩
      · exact ⟨(c :: h).length, usedAt_cons_last.2 (fillNew_issues (by omega) hi)⟩
    · simp [hfl]
  by_cases hvirt : cfg.virtual = true
  · have hV : 1 ≤ cfg.nbVirtual := of_decide_eq_true hvirt
    have hv : (s.virtualObs = none ∧ h = []) ∨ ∃ vs, s.virtualObs = some vs ∧ VOK cfg.nbVirtual (c :: h) vs := by
      cases hf : s.flg with
      | false =>
        left
        refine ⟨inv.vnone hf, ?_⟩
        rw [hf, hvirt] at hflg
        have := hflg.symm
        simp only [Bool.true_and, decide_eq_false_iff_not, List.length_cons] at this
        exact List.eq_nil_of_length_eq_zero (by omega)
      | true =>
        right
        obtain ⟨vs, ev, vok⟩ := inv.vsome hf
        rw [hc] at vok
        exact ⟨vs, ev, vok⟩
    obtain ⟨dead, hd, vok⟩ := recense_vok cfg h c (fillNew s.currentId pre) p prev s.virtualObs hV hv hpin
      (fun l hl => Nat.lt_of_lt_of_le (hout l hl) hprevlen)
    refine ⟨_, ?_, common (some (dead ++ match (motive := Option (List (VObs α δ)) → List (VObs α δ)) s.virtualObs with
        | none => []
        | some vs => prolonged cfg vs (ids (fillNew s.currentId pre)))) s.virtualObs true hvirt.symm (by simp)
        (fun _ => ⟨_, rfl, vok⟩)⟩
    rw [hstep]
    simp only [recense, hvirt, if_true, Option.bind_eq_bind, Option.bind_some, hd]
    rfl
  · have hvirt' : cfg.virtual = false := by simpa using hvirt
    have hf : s.flg = false := by rw [hflg, hvirt']; rfl
    refine ⟨_, ?_, common s.virtualObs s.prevVirtualObs false hvirt'.symm (fun _ => inv.vnone hf) (by simp)⟩
    rw [hstep]
    simp [recense, hvirt', hf]

theorem inv_step (cfg : Cfg α δ) (ht : OneToOne cfg.tracking) (files : List (List α)) (s : St α δ)
    (inv : Inv cfg files s) (file : List α) : ∃ s', step cfg s file = some s' ∧ Inv cfg (files ++ [file]) s' := by
  cases hc : s.corrs with
  | nil => exact inv_step_first cfg ht files s inv hc file
  | cons c h => exact inv_step_next cfg ht files s inv c h hc file

theorem inv_foldl (cfg : Cfg α δ) (ht : OneToOne cfg.tracking) (rest : List (List α)) (files : List (List α)) (s : St α δ)
    (inv : Inv cfg files s) : ∃ s', rest.foldlM (step cfg) s = some s' ∧ Inv cfg (files ++ rest) s' := by
  induction rest generalizing files s with
  | nil => exact ⟨s, rfl, by simpa using inv⟩
  | cons f rest ih =>
    obtain ⟨s1, e1, inv1⟩ := inv_step cfg ht files s inv f
    obtain ⟨s2, e2, inv2⟩ := ih _ s1 inv1
    exact ⟨s2, by rw [List.foldlM_cons, e1]; exact e2, by simpa using inv2⟩

/-- Tracking never fails on a non-empty list of datasets and ends in a state satisfying the invariant. -/
theorem track_inv (cfg : Cfg α δ) (ht : OneToOne cfg.tracking) (files : List (List α)) (hne : files ≠ []) :
    ∃ s, track cfg files = some s ∧ Inv cfg files s := by
  cases files with
  | nil => exact absurd rfl hne
  | cons f rest => exact inv_foldl cfg ht rest [f] _ (inv_init cfg f)

end Verif.Tracking
