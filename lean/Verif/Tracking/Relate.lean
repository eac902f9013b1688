import Verif.Tracking.Drift

/-!
# C208: what the whole tracking reads of the observations

The loop of `Correspondances.track` (src/py_eddy_tracker/tracking.py:365-403) on two sequences of datasets whose observations are related one by one
(the same observation in another turn of longitude, with another date, another unit...): see `Verif.Tracking.Model` for the functions.
-/

namespace Verif.Tracking

/-! ### Specification -/

/-- Two tracking classes which do the same with related observations: the same links, and related positions for the lost tracks. -/
structure Alike {α β δ ε : Type} (R : α → β → Prop) (D : δ → ε → Prop) (cfg : Cfg α δ) (cfg' : Cfg β ε) : Prop where
  tracking : ∀ p p' c c', List.Forall₂ R p p' → List.Forall₂ R c c' → cfg'.tracking p' c' = cfg.tracking p c
  extend : ∀ a a' b b', R a a' → R b b' → R (cfg.extend a b).1 (cfg'.extend a' b').1 ∧ D (cfg.extend a b).2 (cfg'.extend a' b').2
  prolong : ∀ p p' d d', R p p' → D d d' → R (cfg.prolong p d) (cfg'.prolong p' d')
  nb : cfg'.nbVirtual = cfg.nbVirtual

/-- Related virtual observations: the same track, lost since the same number of datasets, at related positions. -/
structure RelV {α β δ ε : Type} (R : α → β → Prop) (D : δ → ε → Prop) (v : VObs α δ) (w : VObs β ε) : Prop where
  track : w.track = v.track
  seg : w.seg = v.seg
  obs : R v.obs w.obs
  drift : D v.drift w.drift

/-- Related states of the loop. -/
structure RelSt {α β δ ε : Type} (R : α → β → Prop) (D : δ → ε → Prop) (s : St α δ) (t : St β ε) : Prop where
  corrs : t.corrs = s.corrs
  currentId : t.currentId = s.currentId
  virtualObs : Option.Rel (List.Forall₂ (RelV R D)) s.virtualObs t.virtualObs
  prevVirtualObs : Option.Rel (List.Forall₂ (RelV R D)) s.prevVirtualObs t.prevVirtualObs
  previous2 : Option.Rel (List.Forall₂ R) s.previous2 t.previous2
  previous : Option.Rel (List.Forall₂ R) s.previous t.previous
  current : Option.Rel (List.Forall₂ R) s.current t.current
  flg : t.flg = s.flg

/-! ### Options and lists -/

theorem rel_bind {γ γ' η η' : Type} {A : γ → γ' → Prop} {B : η → η' → Prop} {x : Option γ} {x' : Option γ'} {f : γ → Option η} {g : γ' → Option η'}
    (hx : Option.Rel A x x') (h : ∀ a a', A a a' → Option.Rel B (f a) (g a')) : Option.Rel B (x.bind f) (x'.bind g) := by
  cases hx with
  | none => exact .none
  | some hx => exact h _ _ hx

theorem rel_refl {γ : Type} (x : Option γ) : Option.Rel Eq x x := by
  cases x with
  | none => exact .none
  | some a => exact .some rfl

theorem rel_eq {γ : Type} {x y : Option γ} (h : x = y) : Option.Rel Eq x y := h ▸ rel_refl x

theorem rel_mapM {γ η η' : Type} {B : η → η' → Prop} {f : γ → Option η} {g : γ → Option η'} (h : ∀ i, Option.Rel B (f i) (g i)) :
    ∀ l : List γ, Option.Rel (List.Forall₂ B) (l.mapM f) (l.mapM g)
  | [] => .some .nil
  | i :: l => by
    rw [List.mapM_cons, List.mapM_cons]
    exact rel_bind (h i) (fun a a' ha => rel_bind (rel_mapM h l) (fun m m' hm => .some (.cons ha hm)))

theorem rel_get {γ η : Type} {R : γ → η → Prop} : ∀ {l : List γ} {l' : List η}, List.Forall₂ R l l' → ∀ i : Nat, Option.Rel R l[i]? l'[i]?
  | _, _, .nil, i => by simp only [List.getElem?_nil]; exact .none
  | _, _, .cons h _, 0 => .some h
  | _, _, .cons _ t, i + 1 => by
    rw [List.getElem?_cons_succ, List.getElem?_cons_succ]
    exact rel_get t i

theorem rel_find {γ η : Type} {R : γ → η → Prop} {p : γ → Bool} {q : η → Bool} (hp : ∀ a b, R a b → q b = p a) : ∀ {l : List γ} {l' : List η},
    List.Forall₂ R l l' → Option.Rel R (l.find? p) (l'.find? q)
  | _, _, .nil => .none
  | a :: l, b :: l', .cons h t => by
    rw [List.find?_cons, List.find?_cons, hp a b h]
    cases p a with
    | true => exact .some h
    | false => exact rel_find hp t

theorem rel_filterMap {γ η η' : Type} {B : η → η' → Prop} {f : γ → Option η} {g : γ → Option η'} (h : ∀ i, Option.Rel B (f i) (g i)) :
    ∀ l : List γ, List.Forall₂ B (l.filterMap f) (l.filterMap g)
  | [] => .nil
  | i :: l => by
    rw [List.filterMap_cons, List.filterMap_cons]
    have := h i
    cases hf : f i with
    | none =>
      cases hg : g i with
      | none => exact rel_filterMap h l
      | some b => rw [hf, hg] at this; cases this
    | some a =>
      cases hg : g i with
      | none => rw [hf, hg] at this; cases this
      | some b =>
        rw [hf, hg] at this
        cases this with
        | some hab => exact .cons hab (rel_filterMap h l)

theorem forall_append {γ η : Type} {R : γ → η → Prop} : ∀ {a : List γ} {a' : List η} {b : List γ} {b' : List η}, List.Forall₂ R a a' →
    List.Forall₂ R b b' → List.Forall₂ R (a ++ b) (a' ++ b')
  | _, _, _, _, .nil, h => h
  | _, _, _, _, .cons h t, k => .cons h (forall_append t k)

/-! ### The steps of the loop -/

variable {α β δ ε : Type} {R : α → β → Prop} {D : δ → ε → Prop} {cfg : Cfg α δ} {cfg' : Cfg β ε}

theorem Alike.virtual (h : Alike R D cfg cfg') : cfg'.virtual = cfg.virtual := by
  unfold Cfg.virtual
  rw [h.nb]

theorem tracks_eq : ∀ {vs : List (VObs α δ)} {ws : List (VObs β ε)}, List.Forall₂ (RelV R D) vs ws → ws.map (·.track) = vs.map (·.track)
  | _, _, .nil => rfl
  | _, _, .cons h t => by rw [List.map_cons, List.map_cons, h.track, tracks_eq t]

theorem obs_rel : ∀ {vs : List (VObs α δ)} {ws : List (VObs β ε)}, List.Forall₂ (RelV R D) vs ws → List.Forall₂ R (vs.map (·.obs)) (ws.map (·.obs))
  | _, _, .nil => .nil
  | _, _, .cons h t => .cons h.obs (obs_rel t)

theorem pre_eq (virtual : Bool) (nbReal nbPrev : Nat) (last : List Link) {vs : Option (List (VObs α δ))} {ws : Option (List (VObs β ε))}
    (h : Option.Rel (List.Forall₂ (RelV R D)) vs ws) (m : Nat × Nat × Rat) :
    preLink virtual nbReal nbPrev last ws m = preLink virtual nbReal nbPrev last vs m := by
  unfold preLink
  split_ifs with h1
  · have : Option.Rel (RelV R D) (vs.bind (fun vs => vs[m.1 - nbReal]?)) (ws.bind (fun vs => vs[m.1 - nbReal]?)) :=
      rel_bind h (fun a a' ha => rel_get ha _)
    cases e : vs.bind (fun vs => vs[m.1 - nbReal]?) with
    | none =>
      cases e' : ws.bind (fun vs => vs[m.1 - nbReal]?) with
      | none => rfl
      | some b => rw [e, e'] at this; cases this
    | some a =>
      cases e' : ws.bind (fun vs => vs[m.1 - nbReal]?) with
      | none => rw [e, e'] at this; cases this
      | some b =>
        rw [e, e'] at this
        cases this with
        | some hab => simp only [Option.map_some, hab.track, hab.seg]
  · rfl

theorem store_rel (h : Alike R D cfg cfg') {s : St α δ} {t : St β ε} (hs : RelSt R D s t) (n : Nat) (links : List (Nat × Nat × Rat)) :
    Option.Rel (fun r r' => RelSt R D r.1 r'.1 ∧ r'.2 = r.2) (store cfg s n links) (store cfg' t n links) := by
  unfold store
  have h2 := hs.previous2
  cases e : s.previous2 with
  | none =>
    cases e' : t.previous2 with
    | none =>
      refine .some ⟨⟨?_, ?_, hs.virtualObs, hs.prevVirtualObs, ?_, hs.previous, hs.current, hs.flg⟩, rfl⟩
      · simp only [hs.corrs, hs.currentId, h.virtual]
      · simp only [hs.currentId]
      · exact .none
    | some b => rw [e, e'] at h2; cases h2
  | some a =>
    cases e' : t.previous2 with
    | none => rw [e, e'] at h2; cases h2
    | some b =>
      refine rel_bind (rel_eq (show s.corrs.head? = t.corrs.head? by rw [hs.corrs])) (fun last last' hl => ?_)
      subst hl
      refine rel_bind hs.previous (fun p p' hp => ?_)
      refine rel_bind (rel_eq (show links.mapM (preLink cfg.virtual n p.length last s.virtualObs) =
        links.mapM (preLink cfg'.virtual n p'.length last t.virtualObs) from ?_)) (fun pre pre' hpre => ?_)
      · rw [h.virtual, ← hp.length_eq]
        congr 1
        funext m
        exact (pre_eq _ _ _ _ hs.virtualObs m).symm
      · subst hpre
        refine .some ⟨⟨?_, ?_, hs.virtualObs, hs.prevVirtualObs, ?_, hs.previous, hs.current, hs.flg⟩, rfl⟩
        · simp only [hs.corrs, hs.currentId]
        · simp only [hs.currentId]
        · rw [e, e'] at h2
          exact h2

theorem dead_rel (h : Alike R D cfg cfg') {p2 : List α} {p2' : List β} {p : List α} {p' : List β} (h2 : List.Forall₂ R p2 p2')
    (hp : List.Forall₂ R p p') (c2 : List Link) (dead : List Nat) :
    Option.Rel (List.Forall₂ (RelV R D)) (deadVirtual cfg p2 p c2 dead) (deadVirtual cfg' p2' p' c2 dead) := by
  unfold deadVirtual
  refine rel_mapM (fun i => ?_) dead
  refine rel_bind (rel_refl _) (fun l l' hl => ?_)
  subst hl
  refine rel_bind (rel_get h2 _) (fun a a' ha => ?_)
  refine rel_bind (rel_get hp _) (fun b b' hb => ?_)
  obtain ⟨k1, k2⟩ := h.extend a a' b b' ha hb
  exact .some ⟨rfl, rfl, k1, k2⟩

theorem prolonged_rel (h : Alike R D cfg cfg') {vs : List (VObs α δ)} {ws : List (VObs β ε)} (hv : List.Forall₂ (RelV R D) vs ws) (last : List Nat) :
    List.Forall₂ (RelV R D) (prolonged cfg vs last) (prolonged cfg' ws last) := by
  unfold prolonged
  rw [tracks_eq hv]
  refine rel_filterMap (fun i => ?_) _
  refine rel_bind (rel_find (fun a b hab => by rw [hab.track]) hv) (fun v w hvw => ?_)
  rw [hvw.seg, h.nb]
  split_ifs
  · exact .some ⟨hvw.track, rfl, h.prolong _ _ _ _ hvw.obs hvw.drift, hvw.drift⟩
  · exact .none

theorem recense_rel (h : Alike R D cfg cfg') {s : St α δ} {t : St β ε} (hs : RelSt R D s t) :
    Option.Rel (RelSt R D) (recense cfg s) (recense cfg' t) := by
  unfold recense
  rw [hs.corrs, h.virtual]
  match s.corrs, hs.corrs with
  | [], _ => exact .none
  | [_], _ => exact .none
  | c1 :: c2 :: cs, hc =>
    simp only
    split_ifs with hv
    · refine rel_bind hs.previous2 (fun p2 p2' h2 => ?_)
      refine rel_bind hs.previous (fun p p' hp => ?_)
      refine rel_bind (dead_rel h h2 hp c2 _) (fun dead dead' hd => ?_)
      refine .some ⟨rfl, hs.currentId, .some (forall_append hd ?_), hs.virtualObs, hs.previous2, hs.previous, hs.current, hs.flg⟩
      have := hs.virtualObs
      cases e : s.virtualObs with
      | none =>
        cases e' : t.virtualObs with
        | none => exact .nil
        | some b => rw [e, e'] at this; cases this
      | some a =>
        cases e' : t.virtualObs with
        | none => rw [e, e'] at this; cases this
        | some b =>
          rw [e, e'] at this
          cases this with
          | some hab => exact prolonged_rel h hab _
    · exact .some hs

theorem merge_rel {s : St α δ} {t : St β ε} (hs : RelSt R D s t) : Option.Rel (RelSt R D) (mergeVirtual s) (mergeVirtual t) := by
  unfold mergeVirtual
  rw [hs.flg]
  split_ifs with hf
  · refine rel_bind hs.previous (fun p p' hp => ?_)
    refine rel_bind hs.virtualObs (fun vs ws hv => ?_)
    exact .some ⟨hs.corrs, hs.currentId, hs.virtualObs, hs.prevVirtualObs, hs.previous2, .some (forall_append hp (obs_rel hv)), hs.current, rfl⟩
  · exact .some hs

theorem swap_rel {s : St α δ} {t : St β ε} (hs : RelSt R D s t) {f : List α} {f' : List β} (hf : List.Forall₂ R f f') :
    RelSt R D (swap s f) (swap t f') :=
  ⟨hs.corrs, hs.currentId, hs.virtualObs, hs.prevVirtualObs, hs.previous, hs.current, .some hf, hs.flg⟩

theorem step_rel (h : Alike R D cfg cfg') {s : St α δ} {t : St β ε} (hs : RelSt R D s t) {f : List α} {f' : List β} (hf : List.Forall₂ R f f') :
    Option.Rel (RelSt R D) (step cfg s f) (step cfg' t f') := by
  unfold step
  have hsw := swap_rel hs hf
  refine rel_bind hsw.previous (fun real real' hr => ?_)
  refine rel_bind (merge_rel hsw) (fun u u' hu => ?_)
  refine rel_bind hu.previous (fun p p' hp => ?_)
  rw [h.tracking p p' f f' hp hf, ← hr.length_eq]
  refine rel_bind (store_rel h hu real.length _) (fun r r' hrr => ?_)
  rw [hrr.2, h.virtual]
  cases r.2 with
  | true => exact .some hrr.1
  | false =>
    refine rel_bind (recense_rel h hrr.1) (fun w w' hw => ?_)
    split_ifs
    · exact .some ⟨hw.corrs, hw.currentId, hw.virtualObs, hw.prevVirtualObs, hw.previous2, hw.previous, hw.current, rfl⟩
    · exact .some hw

theorem fold_rel (h : Alike R D cfg cfg') : ∀ {rest : List (List α)} {rest' : List (List β)} {s : St α δ} {t : St β ε}, RelSt R D s t →
    List.Forall₂ (List.Forall₂ R) rest rest' → Option.Rel (RelSt R D) (rest.foldlM (step cfg) s) (rest'.foldlM (step cfg') t)
  | _, _, _, _, hs, .nil => .some hs
  | _, _, _, _, hs, .cons hf ht => by
    rw [List.foldlM_cons, List.foldlM_cons]
    exact rel_bind (step_rel h hs hf) (fun u u' hu => fold_rel h hu ht)

/-- **C208** the tracking of related datasets: it raises in both cases, or in none; then the tables of links, the numbers of the tracks and the lost tracks
which are still searched are the same, at related positions. -/
theorem track_rel (h : Alike R D cfg cfg') {files : List (List α)} {files' : List (List β)} (hf : List.Forall₂ (List.Forall₂ R) files files') :
    Option.Rel (RelSt R D) (track cfg files) (track cfg' files') := by
  cases hf with
  | nil => exact .none
  | cons h0 ht =>
    have hi : RelSt R D (init : St α δ) (init : St β ε) := ⟨rfl, rfl, .none, .none, .none, .none, .none, rfl⟩
    exact fold_rel h (swap_rel hi h0) ht

/-- **C208** the tracks are the same: the same rows of the same datasets, in the same order, with the same costs, and the same observations left aside. -/
theorem tracks_rel (h : Alike R D cfg cfg') {files : List (List α)} {files' : List (List β)} (hf : List.Forall₂ (List.Forall₂ R) files files')
    {s : St α δ} (hs : track cfg files = some s) : ∃ t, track cfg' files' = some t ∧ t.currentId = s.currentId ∧ counts cfg' t = counts cfg s ∧
      merged cfg' t = merged cfg s ∧
      unused cfg'.virtual (files'.map List.length) t.corrs.reverse = unused cfg.virtual (files.map List.length) s.corrs.reverse := by
  have hr := track_rel h hf
  rw [hs] at hr
  cases ht : track cfg' files' with
  | none => rw [ht] at hr; cases hr
  | some t =>
    rw [ht] at hr
    cases hr with
    | some k =>
      have hc : counts cfg' t = counts cfg s := by unfold counts; rw [h.virtual, k.corrs]
      refine ⟨t, rfl, k.currentId, hc, ?_, ?_⟩
      · unfold merged; rw [h.virtual, hc, k.corrs]
      · have hl : ∀ {a : List (List α)} {b : List (List β)}, List.Forall₂ (List.Forall₂ R) a b → b.map List.length = a.map List.length := by
          intro a b hab
          induction hab with
          | nil => rfl
          | cons x _ ih => rw [List.map_cons, List.map_cons, ih, x.length_eq]
        rw [h.virtual, k.corrs, hl hf]

end Verif.Tracking
