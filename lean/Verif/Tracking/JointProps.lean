import Verif.Tracking.Joint
import Verif.Tracking.ResumeProps
import Verif.Tracking.SelectProps

/-!
# C156, C157: the merge of two correspondence tables, the names of the datasets in the file
-/

namespace Verif.Tracking

variable {α δ : Type}

/-! ### Specification -/

/-- Other numbers for the same tracks: the numbers of the first run are kept, the others are shifted. -/
def shifted (cid r i : Nat) : Nat := if i < cid then i else i + r

/-- The tables `h` where the track `i` has the number `ρ i`. -/
def renamed (ρ : Nat → Nat) (h : List (List Link)) : List (List Link) := h.map (fun c => c.map (fun l => l.setId (ρ l.id)))

theorem shifted_inj {cid r i j : Nat} (h : shifted cid r i = shifted cid r j) : i = j := by
  unfold shifted at h
  split at h <;> split at h <;> omega

/-! ### Tracking without virtual observations -/

/-- The next link table from the previous one. -/
def nextPre (last : List Link) (links : List (Nat × Nat × Rat)) : List PreLink := links.map (fun m => ⟨m.1, m.2.1, idPrevious last m.1, m.2.2, false, 255⟩)

/-- One dataset more, without virtual observations: last dataset, tables, next identifier. -/
def plainStep (t : List α → List α → List (Nat × Nat × Rat)) (s : List α × List (List Link) × Nat) (file : List α) : List α × List (List Link) × Nat :=
  (file, fillNew s.2.2 (nextPre (s.2.1.headD []) (t s.1 file)) :: s.2.1, s.2.2 + nbNew (nextPre (s.2.1.headD []) (t s.1 file)))

def plain (t : List α → List α → List (Nat × Nat × Rat)) (s : List α × List (List Link) × Nat) (rest : List (List α)) : List α × List (List Link) × Nat :=
  rest.foldl (plainStep t) s

structure Plain (s : St α δ) (p : List α × List (List Link) × Nat) : Prop where
  cur : s.current = some p.1
  corrs : s.corrs = p.2.1
  cid : s.currentId = p.2.2
  flg : s.flg = false
  prev : s.previous = none ↔ s.corrs = []

theorem plain_step {cfg : Cfg α δ} (ht : OneToOne cfg.tracking) (hv : cfg.nbVirtual = 0) {s : St α δ} {p : List α × List (List Link) × Nat} (h : Plain s p)
    (file : List α) : ∃ s', step cfg s file = some s' ∧ Plain s' (plainStep cfg.tracking p file) := by
  obtain ⟨prev, corrs, cid⟩ := p
  obtain ⟨h1, h2, h3, h4, h5⟩ := h
  simp only at h1 h2 h3
  have hvirt : cfg.virtual = false := by simp [Cfg.virtual, hv]
  unfold step
  simp only [swap, mergeVirtual, h4, Bool.false_eq_true, if_false, Option.bind_eq_bind, Option.bind_some, h1]
  cases hp : s.previous with
  | none =>
    have hc : s.corrs = [] := h5.1 hp
    rw [hc] at h2
    simp only [store]
    refine ⟨_, rfl, ?_⟩
    have e : (cfg.tracking prev file).map (rawLink cfg.virtual prev.length) = nextPre [] (cfg.tracking prev file) := by
      unfold nextPre
      refine List.map_congr_left fun m _ => ?_
      simp [rawLink, hvirt, idPrevious]
    have en : nbNew (nextPre [] (cfg.tracking prev file)) = (cfg.tracking prev file).length := by
      unfold nbNew nextPre
      rw [List.countP_map, List.countP_eq_length.2]
      intro m _
      simp [idPrevious]
    refine ⟨rfl, ?_, ?_, rfl, ?_⟩
    · simp only [plainStep, ← h2, List.headD_nil, hc, e, h3]
    · simp only [plainStep, ← h2, List.headD_nil, en, h3]
    · simp
  | some p2 =>
    have hne : s.corrs ≠ [] := fun hc => by rw [h5.2 hc] at hp; cases hp
    obtain ⟨last, tl, hl⟩ := List.exists_cons_of_ne_nil hne
    rw [hl] at h2
    simp only [store, hl, List.head?_cons, Option.bind_eq_bind, Option.bind_some]
    have e : (cfg.tracking prev file).mapM (preLink cfg.virtual prev.length prev.length last s.virtualObs) = some (nextPre last (cfg.tracking prev file)) := by
      rw [mapM_eq_some]
      unfold nextPre
      rw [List.map_map]
      refine List.map_congr_left fun m hm => ?_
      have hlt := ((ht prev file).2.2 m hm).1
      simp [preLink, rawLink, hvirt, hlt]
    rw [e]
    simp only [Option.bind_some, Bool.false_eq_true, if_false, recense, hvirt]
    refine ⟨_, rfl, ?_⟩
    refine ⟨rfl, ?_, ?_, rfl, ?_⟩
    · simp only [plainStep, ← h2, List.headD_cons, h3]
    · simp only [plainStep, ← h2, List.headD_cons, h3]
    · simp

theorem plain_foldl {cfg : Cfg α δ} (ht : OneToOne cfg.tracking) (hv : cfg.nbVirtual = 0) (rest : List (List α)) {s : St α δ}
    {p : List α × List (List Link) × Nat} (h : Plain s p) : ∃ s', rest.foldlM (step cfg) s = some s' ∧ Plain s' (plain cfg.tracking p rest) := by
  induction rest generalizing s p with
  | nil => exact ⟨s, rfl, h⟩
  | cons f rest ih =>
    obtain ⟨s1, e1, h1⟩ := plain_step ht hv h f
    obtain ⟨s2, e2, h2⟩ := ih h1
    refine ⟨s2, ?_, h2⟩
    rw [List.foldlM_cons, e1]
    exact e2

theorem plain_track {cfg : Cfg α δ} (ht : OneToOne cfg.tracking) (hv : cfg.nbVirtual = 0) {f : List α} {fs : List (List α)} {s : St α δ}
    (h : track cfg (f :: fs) = some s) : s.corrs = (plain cfg.tracking (f, [], 0) fs).2.1 ∧ s.currentId = (plain cfg.tracking (f, [], 0) fs).2.2 := by
  have h0 : Plain (swap (init : St α δ) f) (f, [], 0) := ⟨rfl, rfl, rfl, rfl, by simp [swap, init]⟩
  obtain ⟨s', e, h'⟩ := plain_foldl ht hv fs h0
  have : s = s' := by
    have : track cfg (f :: fs) = some s' := e
    rw [h] at this
    exact Option.some.inj this
  subst this
  exact ⟨h'.corrs, h'.cid⟩

theorem plain_append (t : List α → List α → List (Nat × Nat × Rat)) (s : List α × List (List Link) × Nat) (x y : List (List α)) :
    plain t s (x ++ y) = plain t (plain t s x) y := List.foldl_append

theorem plain_length (t : List α → List α → List (Nat × Nat × Rat)) (s : List α × List (List Link) × Nat) (x : List (List α)) :
    (plain t s x).2.1.length = s.2.1.length + x.length := by
  induction x generalizing s with
  | nil => rfl
  | cons f x ih =>
    rw [plain, List.foldl_cons]
    change (plain t (plainStep t s f) x).2.1.length = _
    rw [ih]
    simp only [plainStep, List.length_cons]
    omega

/-! ### Two runs from the same dataset -/

/-- The same table with other numbers. -/
def relabel (σ : Nat → Nat) (c : List Link) : List Link := c.map (fun l => l.setId (σ l.id))

theorem idPrevious_relabel (σ : Nat → Nat) (c : List Link) (x : Nat) : idPrevious (relabel σ c) x = (idPrevious c x).map σ := by
  unfold idPrevious relabel
  rw [List.map_map]
  have gen : ∀ (c : List Link) (f g : Nat → Option Nat), (∀ y, g y = (f y).map σ) →
      scatter g (c.map ((fun l => (l.out, some l.id)) ∘ fun l => l.setId (σ l.id))) x = (scatter f (c.map (fun l => (l.out, some l.id))) x).map σ := by
    intro c
    induction c with
    | nil => intro f g h; exact h x
    | cons l c ih =>
      intro f g h
      rw [List.map_cons, List.map_cons, scatter_cons, scatter_cons]
      refine ih _ _ fun y => ?_
      simp only [Function.comp, LinkOf.setId, Function.update_apply]
      by_cases hy : y = l.out
      · rw [if_pos hy, if_pos hy]; rfl
      · rw [if_neg hy, if_neg hy]; exact h y
  exact gen c _ _ (fun _ => rfl)

def mapId (σ : Nat → Nat) (p : PreLink) : PreLink := { p with id := p.id.map σ }

theorem nextPre_relabel (σ : Nat → Nat) (c : List Link) (links : List (Nat × Nat × Rat)) : nextPre (relabel σ c) links = (nextPre c links).map (mapId σ) := by
  unfold nextPre
  rw [List.map_map]
  refine List.map_congr_left fun m _ => ?_
  simp [mapId, idPrevious_relabel]

theorem nbNew_mapId (σ : Nat → Nat) (ls : List PreLink) : nbNew (ls.map (mapId σ)) = nbNew ls := by
  unfold nbNew
  rw [List.countP_map]
  refine List.countP_congr fun p _ => ?_
  simp [mapId]

theorem fillNew_mapId (σ : Nat → Nat) (ls : List PreLink) (cid cid' : Nat) (h : ∀ j, j < nbNew ls → σ (cid + j) = cid' + j) :
    fillNew cid' (ls.map (mapId σ)) = relabel σ (fillNew cid ls) := by
  induction ls generalizing cid cid' with
  | nil => rfl
  | cons p ls ih =>
    rw [List.map_cons]
    cases hp : p.id with
    | some i =>
      have hn : nbNew (p :: ls) = nbNew ls := by simp [nbNew, hp]
      simp only [fillNew, mapId, hp, Option.map_some, relabel, List.map_cons]
      rw [hn] at h
      congr 1
      exact ih cid cid' h
    | none =>
      have hn : nbNew (p :: ls) = nbNew ls + 1 := by simp [nbNew, hp]
      simp only [fillNew, mapId, hp, Option.map_none, relabel, List.map_cons]
      rw [hn] at h
      congr 1
      · have := h 0 (by omega)
        simp only [Nat.add_zero] at this
        simp [LinkOf.setId, this]
      · refine ih (cid + 1) (cid' + 1) fun j hj => ?_
        have := h (j + 1) (by omega)
        rw [show cid + (j + 1) = cid + 1 + j by omega] at this
        omega

/-- Two runs which differ by the numbers of tracks keep differing by them. -/
theorem plain_sim (t : List α → List α → List (Nat × Nat × Rat)) (σ : Nat → Nat) (rest : List (List α)) (prev : List α) (hb hw : List (List Link)) (cb cw : Nat)
    (hhead : hw.headD [] = relabel σ (hb.headD [])) (hσ : ∀ j, σ (cb + j) = cw + j) :
    ∃ new : List (List Link), (plain t (prev, hb, cb) rest).2.1 = new ++ hb ∧ (plain t (prev, hw, cw) rest).2.1 = new.map (relabel σ) ++ hw ∧
      new.length = rest.length ∧ ∃ n, (plain t (prev, hb, cb) rest).2.2 = cb + n ∧ (plain t (prev, hw, cw) rest).2.2 = cw + n ∧
        (∀ d ∈ new, ∀ l ∈ d, l.id ∈ ids (hb.headD []) ∨ cb ≤ l.id ∧ l.id < cb + n) := by
  induction rest generalizing prev hb hw cb cw with
  | nil => exact ⟨[], rfl, rfl, rfl, 0, rfl, rfl, by simp⟩
  | cons f rest ih =>
    obtain ⟨new, e1, e2, e3, n, e4, e5, e6⟩ := ih f (fillNew cb (nextPre (hb.headD []) (t prev f)) :: hb) (fillNew cw (nextPre (hw.headD []) (t prev f)) :: hw)
      (cb + nbNew (nextPre (hb.headD []) (t prev f))) (cw + nbNew (nextPre (hw.headD []) (t prev f)))
      (by
        simp only [List.headD_cons]
        rw [hhead, nextPre_relabel]
        exact fillNew_mapId σ _ cb cw (fun j _ => hσ j))
      (by
        intro j
        rw [hhead, nextPre_relabel, nbNew_mapId, Nat.add_assoc, hσ, Nat.add_assoc])
    have hnew : fillNew cw (nextPre (hw.headD []) (t prev f)) = relabel σ (fillNew cb (nextPre (hb.headD []) (t prev f))) := by
      rw [hhead, nextPre_relabel]
      exact fillNew_mapId σ _ cb cw (fun j _ => hσ j)
    have hcount : nbNew (nextPre (hw.headD []) (t prev f)) = nbNew (nextPre (hb.headD []) (t prev f)) := by rw [hhead, nextPre_relabel, nbNew_mapId]
    have hfill : ∀ l ∈ fillNew cb (nextPre (hb.headD []) (t prev f)), l.id ∈ ids (hb.headD []) ∨
        cb ≤ l.id ∧ l.id < cb + nbNew (nextPre (hb.headD []) (t prev f)) := by
      intro l hl
      obtain ⟨p, hp, _, h⟩ := mem_fillNew hl
      rcases h with h | h
      · left
        obtain ⟨m, _, rfl⟩ := List.mem_map.1 hp
        obtain ⟨l', hl', _, e⟩ := idPrevious_some h
        exact List.mem_map.2 ⟨l', hl', e⟩
      · exact Or.inr ⟨h.2.1, h.2.2⟩
    refine ⟨new ++ [fillNew cb (nextPre (hb.headD []) (t prev f))], ?_, ?_, ?_, nbNew (nextPre (hb.headD []) (t prev f)) + n, ?_, ?_, ?_⟩
    · rw [List.append_assoc]; exact e1
    · rw [List.map_append, List.append_assoc, List.map_singleton, ← hnew]; exact e2
    · rw [List.length_append, e3]; rfl
    · rw [← Nat.add_assoc]; exact e4
    · rw [← hcount, ← Nat.add_assoc]; exact e5
    · intro d hd l hl
      rcases List.mem_append.1 hd with hd | hd
      · rcases e6 d hd l hl with h | h
        · simp only [List.headD_cons] at h
          obtain ⟨l', hl', e⟩ := List.mem_map.1 h
          rcases hfill l' hl' with h | h
          · left; rw [← e]; exact h
          · right; rw [← e]; omega
        · right; omega
      · rw [List.mem_singleton.1 hd] at hl
        rcases hfill l hl with h | h
        · exact Or.inl h
        · right; omega

/-! ### The table of numbers -/

theorem common_zip {c la : List Link} (hlen : la.length = c.length) : common c la = scatter (fun _ => none) ((ids c).zip ((ids la).map some)) := by
  unfold common
  by_cases h1 : la.length = 1
  · rw [if_pos h1]
    obtain ⟨x, rfl⟩ := List.length_eq_one_iff.1 h1
    rw [← hlen]
    rfl
  · rw [if_neg h1]

theorem common_get {c la : List Link} (hlen : la.length = c.length) (hnd : (ids c).Nodup) {r : Nat} {l l' : Link} (hl : c[r]? = some l) (hl' : la[r]? = some l') :
    common c la l.id = some l'.id := by
  rw [common_zip hlen]
  have h1 : (ids c)[r]? = some l.id := by simp [ids, hl]
  have h2 : ((ids la).map some)[r]? = some (some l'.id) := by simp [ids, hl']
  refine scatter_at (List.mem_of_getElem? (i := r) (by rw [List.getElem?_zip_eq_some]; exact ⟨h1, h2⟩)) fun y hy => ?_
  obtain ⟨r', hr'⟩ := List.mem_iff_getElem?.1 hy
  rw [List.getElem?_zip_eq_some] at hr'
  have := getElem?_inj_of_nodup hnd hr'.1 h1
  subst this
  rw [h2] at hr'
  exact (Option.some.inj hr'.2).symm

theorem common_none {c la : List Link} (hlen : la.length = c.length) {k : Nat} (hk : k ∉ ids c) : common c la k = none := by
  rw [common_zip hlen]
  refine scatter_of_not_mem _ _ _ fun w hw e => hk ?_
  rw [← e]
  exact (List.of_mem_zip hw).1

/-- The fields of a row without its number. -/
def bare (l : Link) : Nat × Nat × Rat × Bool × Nat := (l.inp, l.out, l.cost, l.virt, l.vlen)

theorem bare_fillNew (cid : Nat) (ls : List PreLink) : (fillNew cid ls).map bare = ls.map (fun p => (p.inp, p.out, p.cost, p.virt, p.vlen)) := by
  induction ls generalizing cid with
  | nil => rfl
  | cons p ls ih =>
    unfold fillNew
    cases p.id with
    | some i => simp only [List.map_cons, ih]; rfl
    | none => simp only [List.map_cons, ih]; rfl

theorem setId_of_bare {l l' : Link} (h : bare l = bare l') : l.setId l'.id = l' := by
  obtain ⟨a, b, i, c, v, n⟩ := l
  obtain ⟨a', b', i', c', v', n'⟩ := l'
  simp only [bare, Prod.mk.injEq] at h
  obtain ⟨rfl, rfl, rfl, rfl, rfl⟩ := h
  rfl

theorem relabel_common {c la : List Link} (hb : la.map bare = c.map bare) (hnd : (ids c).Nodup) {σ : Nat → Nat} (hσ : ∀ k ∈ ids c, some (σ k) = common c la k) :
    la = relabel σ c := by
  have hlen : la.length = c.length := by simpa using congrArg List.length hb
  refine List.ext_getElem? fun r => ?_
  unfold relabel
  rw [List.getElem?_map]
  cases hc : c[r]? with
  | none =>
    rw [List.getElem?_eq_none_iff] at hc
    rw [Option.map_none, List.getElem?_eq_none_iff]
    omega
  | some l =>
    obtain ⟨hr, _⟩ := List.getElem?_eq_some_iff.1 hc
    have hla : la[r]? = some la[r] := List.getElem?_eq_getElem (by omega)
    rw [hla, Option.map_some]
    have h1 := common_get hlen hnd hc hla
    have h2 := hσ l.id (List.mem_map.2 ⟨l, List.mem_of_getElem? hc, rfl⟩)
    rw [h1] at h2
    have h3 := congrArg (fun q : List _ => q[r]?) hb
    simp only [List.getElem?_map, hc, hla, Option.map_some, Option.some.injEq] at h3
    rw [Option.some.inj h2, setId_of_bare h3.symm]

theorem rank_above {p : Nat → Bool} {c k : Nat} (h : ∀ j, c ≤ j → p j = true) (hk : c ≤ k) :
    ((List.range k).filter p).length = ((List.range c).filter p).length + (k - c) := by
  obtain ⟨d, rfl⟩ := Nat.exists_eq_add_of_le hk
  induction d with
  | zero => simp
  | succ d ih =>
    rw [← Nat.add_assoc, List.range_succ, List.filter_append, List.length_append, ih (by omega)]
    rw [List.filter_cons_of_pos (h _ (by omega))]
    simp only [List.filter_nil, List.length_singleton]
    omega

theorem junctions_unique {ν : Type} [DecidableEq ν] {names : List ν} (hnd : names.Nodup) {i : Nat} {x : ν} (hx : names[i]? = some x) : junctions names x = [i] := by
  unfold junctions
  have hi : i < names.length := (List.getElem?_eq_some_iff.1 hx).1
  have : (List.range names.length).filter (fun j => decide (names[j]? = some x)) = (List.range names.length).filter (fun j => decide (i = j)) := by
    refine List.filter_congr fun j _ => ?_
    have : (names[j]? = some x) ↔ i = j := ⟨fun h => getElem?_inj_of_nodup hnd hx h, fun h => h ▸ hx⟩
    by_cases h : i = j
    · simp [this, h]
    · simp [this, h]
  rw [this]
  have h1 : (List.range names.length).count i = 1 := List.count_eq_one_of_mem List.nodup_range (List.mem_range.2 hi)
  have h2 := List.filter_eq (l := List.range names.length) i
  rw [h1] at h2
  simpa [eq_comm] using h2

theorem plain_head_bare (t : List α → List α → List (Nat × Nat × Rat)) (s s' : List α × List (List Link) × Nat) (hs : s.1 = s'.1) (f : List α) :
    ((plainStep t s f).2.1.headD []).map bare = ((plainStep t s' f).2.1.headD []).map bare := by
  simp only [plainStep, List.headD_cons, bare_fillNew, nextPre, List.map_map, hs]
  rfl

theorem plain_fst (t : List α → List α → List (Nat × Nat × Rat)) (s : List α × List (List Link) × Nat) (x : List (List α)) (f : List α) :
    (plain t s (x ++ [f])).1 = f := by
  rw [plain_append]; rfl

/-- **C157** the merge of two trackings without virtual observations, the second one beginning at least two datasets before the end of the first one, is the
tracking of all the datasets: same links, same tracks, up to the numbers of tracks; the numbers of the first tracking are kept. The next free number is right
when a track begins after the first tracking. Missing: the next free number otherwise (`join_number_wrong`), the number of links (`join_link_wrong`), virtual
observations (`join_virtual_wrong`), a junction without any link. -/
theorem join_partial {ν : Type} [DecidableEq ν] (cfg : Cfg α δ) (ht : OneToOne cfg.tracking) (hv : cfg.nbVirtual = 0) (pre mid post : List (List α))
    (hmid : 2 ≤ mid.length) (P M Q : List ν) (hM : M.length = mid.length) (hnd : (M ++ Q).Nodup) (a b w : St α δ) (ha : track cfg (pre ++ mid) = some a)
    (hb : track cfg (mid ++ post) = some b) (hw : track cfg (pre ++ mid ++ post) = some w) (hne : a.corrs.head? ≠ some []) :
    ∃ m r, joinCorr (jointOf cfg (P ++ M) a) (jointOf cfg (M ++ Q) b) = some m ∧ m.datasets = P ++ M ++ Q ∧
      m.corrs = renamed (shifted a.currentId r) w.corrs ∧ WF 0 m.corrs ∧ m.nbLinkMax = linkMax a.corrs ∧
      (a.currentId < w.currentId → m.currentId = w.currentId + r) := by
  have hA := inv_of_track ht ha
  have hB := inv_of_track ht hb
  have hW := inv_of_track ht hw
  -- the three runs
  obtain ⟨u, us, rfl⟩ := List.exists_cons_of_ne_nil (show mid ≠ [] by intro e; simp [e] at hmid)
  obtain ⟨us', z, rfl⟩ : ∃ us' z, us = us' ++ [z] := by
    rcases List.eq_nil_or_concat us with e | ⟨us', z, e⟩
    · simp [e] at hmid
    · exact ⟨us', z, by rw [e, List.concat_eq_append]⟩
  obtain ⟨sb, hsb⟩ : ∃ sb, plain cfg.tracking (u, [], 0) (us' ++ [z]) = sb := ⟨_, rfl⟩
  obtain ⟨sa, hsa, hsa1, hsa2, hsw1, hsw2, hbare⟩ : ∃ sa : List α × List (List Link) × Nat, sa.1 = z ∧ a.corrs = sa.2.1 ∧ a.currentId = sa.2.2 ∧
      w.corrs = (plain cfg.tracking sa post).2.1 ∧ w.currentId = (plain cfg.tracking sa post).2.2 ∧
      (sa.2.1.headD []).map bare = (sb.2.1.headD []).map bare := by
    have hbody : ∀ s : List α × List (List Link) × Nat, ((plain cfg.tracking (u, [], 0) us').1 = s.1) →
        ((plainStep cfg.tracking s z).2.1.headD []).map bare = (sb.2.1.headD []).map bare := by
      intro s hs
      rw [← hsb, plain_append]
      exact plain_head_bare cfg.tracking s _ hs.symm z
    have hfst : ∀ s : List α × List (List Link) × Nat, s.1 = u → (plain cfg.tracking (u, [], 0) us').1 = (plain cfg.tracking s us').1 := by
      intro s hs
      rcases List.eq_nil_or_concat us' with e | ⟨v, y, e⟩
      · rw [e]; exact hs.symm
      · rw [e, List.concat_eq_append, plain_fst, plain_fst]
    cases pre with
    | nil =>
      obtain ⟨p1, p2⟩ := plain_track (fs := us' ++ [z]) ht hv ha
      obtain ⟨q1, q2⟩ := plain_track (fs := us' ++ [z] ++ post) ht hv hw
      refine ⟨plain cfg.tracking (u, [], 0) (us' ++ [z]), plain_fst _ _ _ _, p1, p2, ?_, ?_, by rw [hsb]⟩
      · rw [q1, ← plain_append]
      · rw [q2, ← plain_append]
    | cons p0 ps =>
      obtain ⟨p1, p2⟩ := plain_track (fs := ps ++ u :: (us' ++ [z])) ht hv ha
      obtain ⟨q1, q2⟩ := plain_track (fs := ps ++ u :: (us' ++ [z]) ++ post) ht hv hw
      refine ⟨plain cfg.tracking (p0, [], 0) (ps ++ u :: (us' ++ [z])), ?_, p1, p2, ?_, ?_, ?_⟩
      · rw [show ps ++ u :: (us' ++ [z]) = (ps ++ u :: us') ++ [z] by simp, plain_fst]
      · rw [q1, ← plain_append]
      · rw [q2, ← plain_append]
      · rw [show ps ++ u :: (us' ++ [z]) = ((ps ++ [u]) ++ us') ++ [z] by simp, plain_append]
        refine hbody _ ?_
        rw [plain_append]
        exact hfst _ (plain_fst _ _ _ _)
  obtain ⟨hb1, hb2⟩ := plain_track (fs := us' ++ [z] ++ post) ht hv hb
  rw [plain_append, hsb] at hb1 hb2
  have hsb0 : sb.1 = z := by rw [← hsb, plain_fst]
  have hsblen : sb.2.1.length = us'.length + 1 := by rw [← hsb, plain_length]; simp
  obtain ⟨za, ca, na⟩ := sa
  obtain ⟨zb, cb, nb⟩ := sb
  simp only at hsa hsa1 hsa2 hbare hsb0 hsblen
  subst hsa hsb0
  obtain ⟨c, cs, rfl⟩ := List.exists_cons_of_ne_nil (show cb ≠ [] by intro e; simp [e] at hsblen)
  obtain ⟨la, las, rfl⟩ : ∃ la las, ca = la :: las := by
    refine List.exists_cons_of_ne_nil fun e => ?_
    rw [e] at hsa1
    have h1 := hA.len
    rw [hsa1] at h1
    simp at h1
    omega
  simp only [List.headD_cons] at hbare
  have hlen : la.length = c.length := by simpa using congrArg List.length hbare
  -- numbers of the second run
  have hinc : ∀ d, d ∈ b.corrs → (ids d).Nodup := fun d hd => (hB.wf.nodup d hd).1
  -- the run of the second tracking up to the junction
  have hmidtrack : ∃ s, track cfg (u :: (us' ++ [zb])) = some s := (track_total cfg ht _ (by simp)).imp fun _ h => h.1
  obtain ⟨sm, hsm⟩ := hmidtrack
  have hMid := inv_of_track ht hsm
  obtain ⟨hm1, hm2⟩ := plain_track ht hv hsm
  rw [hsb] at hm1 hm2
  simp only at hm1 hm2
  have hcn : (ids c).Nodup := (hMid.wf.nodup c (by rw [hm1]; exact List.mem_cons_self)).1
  have hclt : ∀ k ∈ ids c, k < nb := by
    intro k hk
    rw [← hm2]
    refine hMid.idlt cs.length k ?_
    rw [hm1]
    exact usedAt_cons_last.2 hk
  have halt : ∀ d ∈ a.corrs, ∀ l ∈ d, l.id < a.currentId := by
    intro d hd l hl
    obtain ⟨k, hk⟩ := List.mem_iff_getElem?.1 (List.mem_reverse.2 hd)
    exact hA.idlt k l.id ⟨l, ⟨d, hk, hl⟩, rfl⟩
  obtain ⟨l0, hl0⟩ : ∃ l0, l0 ∈ la := by
    rcases List.eq_nil_or_concat la with e | ⟨x, y, e⟩
    · exfalso; apply hne; rw [hsa1, e]; rfl
    · exact ⟨y, by rw [e]; simp⟩
  have hcne : ids c ≠ [] := by
    intro e
    have : c.length = 0 := by simpa [ids] using congrArg List.length e
    have := List.length_pos_of_mem hl0
    omega
  obtain ⟨nbMax, hmax⟩ : ∃ x, (ids c).max? = some x := by
    cases h : (ids c).max? with
    | none => rw [List.max?_eq_none_iff] at h; exact absurd h hcne
    | some x => exact ⟨x, rfl⟩
  have hmaxlt : nbMax < nb := hclt _ (List.max?_eq_some_iff.1 hmax).1
  have hcom : ∀ k ∈ ids c, ∃ j, common c la k = some j ∧ j < na := by
    intro k hk
    obtain ⟨l, hl, rfl⟩ := List.mem_map.1 hk
    obtain ⟨r, hr⟩ := List.mem_iff_getElem?.1 hl
    obtain ⟨hrl, _⟩ := List.getElem?_eq_some_iff.1 hr
    have hla : la[r]? = some la[r] := List.getElem?_eq_getElem (by omega)
    refine ⟨_, common_get hlen hcn hr hla, ?_⟩
    rw [← hsa2]
    exact halt la (by rw [hsa1]; exact List.mem_cons_self) _ (List.getElem_mem _)
  obtain ⟨σ, hσ⟩ : ∃ σ : Nat → Nat, σ = fun k => if k < nb then (common c la k).getD 0 else k - nb + na := ⟨_, rfl⟩
  have hσc : ∀ k ∈ ids c, some (σ k) = common c la k := by
    intro k hk
    obtain ⟨j, hj, _⟩ := hcom k hk
    rw [hσ]
    simp only [if_pos (hclt k hk), hj, Option.getD_some]
  have hσn : ∀ j, σ (nb + j) = na + j := by
    intro j
    rw [hσ]
    simp only [if_neg (show ¬ nb + j < nb by omega)]
    omega
  obtain ⟨new, e1, e2, e3, n, e4, e5, e6⟩ := plain_sim cfg.tracking σ post zb (c :: cs) (la :: las) nb na
    (by simp only [List.headD_cons]; exact relabel_common hbare hcn hσc) hσn
  rw [e1] at hb1
  rw [e4] at hb2
  rw [e2] at hsw1
  rw [e5] at hsw2
  simp only [List.headD_cons] at e6
  -- the table of numbers
  have hnewp : ∀ k, nb ≤ k → isNew (common c la) nbMax k = true := by
    intro k hk
    unfold isNew
    rw [common_none hlen (fun h => by have := hclt k h; omega)]
    simp
    omega
  have htc : ∀ k ∈ ids c, trJoint (common c la) nbMax na k = some (σ k) ∧ σ k < na := by
    intro k hk
    obtain ⟨j, hj, hjn⟩ := hcom k hk
    have := hσc k hk
    rw [hj] at this
    rw [Option.some.inj this]
    refine ⟨?_, hjn⟩
    unfold trJoint isNew
    rw [hj]
    simp
  have htn : ∀ k, nb ≤ k → trJoint (common c la) nbMax na k = some (na + (((List.range nb).filter (isNew (common c la) nbMax)).length + (k - nb))) := by
    intro k hk
    unfold trJoint
    rw [if_pos (hnewp k hk), rank_above hnewp hk]
  obtain ⟨r, hr⟩ : ∃ r, ((List.range nb).filter (isNew (common c la) nbMax)).length = r := ⟨_, rfl⟩
  rw [hr] at htn
  have hlast : ∃ q, trJoint (common c la) nbMax na (nb + n - 1) = some q ∧ (0 < n → q + 1 = na + n + r) := by
    by_cases hn0 : 0 < n
    · refine ⟨_, htn (nb + n - 1) (by omega), fun _ => by omega⟩
    · by_cases hin : nb + n - 1 ∈ ids c
      · exact ⟨_, (htc _ hin).1, fun h => absurd h hn0⟩
      · refine ⟨na + ((List.range (nb + n - 1)).filter (isNew (common c la) nbMax)).length, ?_, fun h => absurd h hn0⟩
        unfold trJoint
        rw [if_pos]
        unfold isNew
        rw [common_none hlen hin]
        simp
        omega
  obtain ⟨q, hq, hqn⟩ := hlast
  have hcorrs : (new.reverse.map (fun d => d.map (fun l => l.setId ((trJoint (common c la) nbMax na l.id).getD 4294967295)))).reverse ++ a.corrs =
      renamed (shifted a.currentId r) w.corrs := by
    rw [← List.map_reverse, List.reverse_reverse]
    unfold renamed
    rw [hsw1, List.map_append, List.map_map]
    congr 1
    · refine List.map_congr_left fun d hd => ?_
      simp only [Function.comp, relabel, List.map_map]
      refine List.map_congr_left fun l hl => ?_
      simp only [Function.comp, LinkOf.setId]
      congr 1
      rcases e6 d hd l hl with h | h
      · obtain ⟨t1, t2⟩ := htc _ h
        rw [t1, Option.getD_some, shifted, hsa2, if_pos t2]
      · rw [htn _ h.1, Option.getD_some]
        have := hσn (l.id - nb)
        rw [show nb + (l.id - nb) = l.id by omega] at this
        rw [this, shifted, hsa2, if_neg (by omega)]
        omega
    · rw [← hsa1]
      refine (List.map_id _).symm.trans (List.map_congr_left fun d hd => ?_)
      refine (List.map_id _).symm.trans (List.map_congr_left fun l hl => ?_)
      rw [shifted, if_pos (halt d hd l hl)]
      rfl
  -- the merge
  have hi : (M ++ Q)[M.length - 1]? = M.getLast? := by
    rw [List.getElem?_append_left (by simp at hM; omega), List.getLast?_eq_getElem?]
  obtain ⟨x, hx⟩ : ∃ x, M.getLast? = some x := by
    cases h : M.getLast? with
    | none => rw [List.getLast?_eq_none_iff] at h; rw [h] at hM; simp at hM
    | some x => exact ⟨x, rfl⟩
  have hj := junctions_unique hnd (hi.trans hx)
  have hMl : M.length - 1 = cs.length + 1 := by
    simp only [List.length_cons, List.length_append, List.length_nil] at hM hsblen
    omega
  rw [hMl] at hj
  have hchron : b.corrs.reverse = (c :: cs).reverse ++ new.reverse := by rw [hb1, List.reverse_append]
  have hget : b.corrs.reverse[cs.length]? = some c := by
    rw [hchron, List.getElem?_append_left (by simp), List.reverse_cons, List.getElem?_append_right (by simp)]
    simp
  have hdrop : b.corrs.reverse.drop (cs.length + 1) = new.reverse := by
    rw [hchron]
    exact List.drop_left' (by simp)
  refine ⟨⟨(new.reverse.map (fun d => d.map (fun l => l.setId ((trJoint (common c la) nbMax na l.id).getD 4294967295)))).reverse ++ a.corrs, q + 1,
    P ++ M ++ (M ++ Q).drop (cs.length + 1 + 1), cfg.nbVirtual, linkMax a.corrs⟩, r, ?_, ?_, ?_, ?_, rfl, ?_⟩
  · unfold joinCorr
    have hlastP : (P ++ M).getLast? = some x := by rw [List.getLast?_append, hx]; rfl
    simp only [jointOf, if_true, hlastP, Option.bind_eq_bind, Option.bind_some, hj]
    have hhead : a.corrs.head? = some la := by rw [hsa1]; rfl
    simp only [hhead, Option.bind_some, if_neg (Nat.succ_ne_zero _), Nat.add_sub_cancel, hget, hmax, hdrop]
    rw [if_pos]
    · rw [hsa2, hb2]
      simp only [hq, Option.bind_some]
    · refine ⟨Or.inl hlen, ?_, ?_⟩
      · intro l hl
        have := hclt l.id (List.mem_map.2 ⟨l, hl, rfl⟩)
        omega
      · intro d hd l hl
        rcases e6 d (List.mem_reverse.1 hd) l hl with h | h
        · have := hclt _ h
          omega
        · omega
  · have : cs.length + 1 + 1 = M.length := by
      have := hM
      simp only [List.length_cons, List.length_append, List.length_nil] at this
      omega
    simp only
    rw [this, List.drop_left]
  · exact hcorrs
  · simp only
    rw [hcorrs]
    have e : renamed (shifted a.currentId r) w.corrs = filterRename (fun _ => True) (shifted a.currentId r) w.corrs := by
      unfold renamed filterRename
      refine List.map_congr_left fun d _ => ?_
      rw [List.filter_eq_self.2 (fun _ _ => by simp)]
    rw [e, ← hv]
    exact wf_filterRename (fun i j _ _ h => shifted_inj h) hW.wf
  · intro h
    simp only
    rw [hsa2, hsw2] at h
    rw [hsw2]
    exact hqn (by omega)

theorem length_le_linkMax {h : List (List Link)} {c : List Link} (hc : c ∈ h) : c.length ≤ linkMax h := by
  unfold linkMax
  induction h with
  | nil => cases hc
  | cons d h ih =>
    rw [List.map_cons, List.foldr_cons]
    rcases List.mem_cons.1 hc with rfl | hc
    · exact Nat.le_max_left _ _
    · exact le_trans (ih hc) (Nat.le_max_right _ _)

/-- **C157** the result of the merge can be saved when a track begins after the first tracking and no table is longer than those of the first tracking.
Missing: the other cases (`join_number_wrong`, `join_link_wrong`). -/
theorem join_save_partial {ν : Type} [DecidableEq ν] (cfg : Cfg α δ) (ht : OneToOne cfg.tracking) (hv : cfg.nbVirtual = 0) (pre mid post : List (List α))
    (hmid : 2 ≤ mid.length) (P M Q : List ν) (hM : M.length = mid.length) (hnd : (M ++ Q).Nodup) (a b w : St α δ) (ha : track cfg (pre ++ mid) = some a)
    (hb : track cfg (mid ++ post) = some b) (hw : track cfg (pre ++ mid ++ post) = some w) (hne : a.corrs.head? ≠ some [])
    (hnew : a.currentId < w.currentId) (hlinks : ∀ c ∈ w.corrs, ∃ d ∈ a.corrs, c.length ≤ d.length) :
    ∃ m, joinCorr (jointOf cfg (P ++ M) a) (jointOf cfg (M ++ Q) b) = some m ∧ savable m = true := by
  obtain ⟨m, r, e, _, hc, _, hl, hid⟩ := join_partial cfg ht hv pre mid post hmid P M Q hM hnd a b w ha hb hw hne
  refine ⟨m, e, ?_⟩
  unfold savable
  rw [List.all_eq_true]
  intro c hcm
  rw [hc] at hcm
  obtain ⟨d, hd, rfl⟩ := List.mem_map.1 hcm
  rw [Bool.and_eq_true, List.all_eq_true, decide_eq_true_eq]
  constructor
  · intro l hl'
    obtain ⟨l0, hl0, rfl⟩ := List.mem_map.1 hl'
    rw [decide_eq_true_eq, hid hnew]
    obtain ⟨k, hk⟩ := List.mem_iff_getElem?.1 (List.mem_reverse.2 hd)
    have := (inv_of_track ht hw).idlt k l0.id ⟨l0, ⟨d, hk, hl0⟩, rfl⟩
    simp only [LinkOf.setId, shifted]
    split <;> omega
  · obtain ⟨d', hd', h⟩ := hlinks d hd
    rw [List.length_map, hl]
    exact le_trans h (length_le_linkMax hd')

/-! ### Witnesses -/

/-- The association of `exTracking`, without virtual observations. -/
def exPlain : Cfg Nat Nat := ⟨exTracking, fun _ b => (b, 0), fun o _ => o, 0⟩

/-- The object after the tracking of `files` named `names`. -/
def exJoint (cfg : Cfg Nat Nat) (names : List Nat) (files : List (List Nat)) : Option (Joint Nat) := (track cfg files).map (jointOf cfg names)

/-- The merge of two trackings. -/
def exJoin (a b : Option (Joint Nat)) : Option (Joint Nat) := a.bind (fun a => b.bind (joinCorr a))

/-- Numbers of the tracks at each step, first step first. -/
def numbers (m : Option (Joint Nat)) : Option (List (List Nat)) := m.map (fun m => m.corrs.reverse.map ids)

example : numbers (exJoin (exJoint exPlain [0, 1, 2, 3] [[1, 2], [1, 2], [2, 3], [2, 3]]) (exJoint exPlain [2, 3, 4, 5] [[2, 3], [2, 3], [3, 4], [3, 4]])) =
    some [[0, 1], [1], [1, 2], [2], [2, 3]] := by decide +kernel

/-- Refuted: when no track begins after the junction, the next free number can be one of a track already ended: here 1 while the track 1 exists, and the
result cannot be saved. -/
theorem join_number_wrong : ∃ m, exJoin (exJoint exPlain [0, 1, 2, 3] [[1, 2], [1, 2], [1], [1]]) (exJoint exPlain [2, 3, 4] [[1], [1], [1]]) = some m ∧
    m.corrs.reverse.map ids = [[0, 1], [0], [0], [0]] ∧ m.currentId = 1 ∧ savable m = false := by
  refine ⟨_, rfl, ?_⟩
  decide +kernel

/-- Refuted: merging a third tracking then gives to a new eddy (9) the number of an eddy ended before (2). -/
theorem join_reuse_wrong : numbers (exJoin (exJoin (exJoint exPlain [0, 1, 2, 3] [[1, 2], [1, 2], [1], [1]]) (exJoint exPlain [2, 3, 4] [[1], [1], [1]]))
    (exJoint exPlain [3, 4, 5, 6] [[1], [1], [1, 9], [1, 9]])) = some [[0, 1], [0], [0], [0], [0], [0, 1]] := by decide +kernel

/-- Refuted: the largest number of links is not updated, the result cannot be saved when the second tracking has more links. -/
theorem join_link_wrong : ∃ m, exJoin (exJoint exPlain [0, 1] [[1], [1]]) (exJoint exPlain [0, 1, 2, 3] [[1], [1], [1, 2], [1, 2]]) = some m ∧
    m.corrs.map List.length = [2, 1, 1] ∧ m.nbLinkMax = 1 ∧ savable m = false := by
  refine ⟨_, rfl, ?_⟩
  decide +kernel

/-- Refuted: when the second tracking begins with the last dataset of the first one, the numbers are translated with its last table: the eddy 2 (row 1) gets
the number of the eddy 1. -/
theorem join_end_wrong : (exJoin (exJoint exPlain [0, 1] [[1, 2], [1, 2]]) (exJoint exPlain [1, 2, 3] [[1, 2], [2, 3], [3, 2]])).map
    (fun m => m.corrs.reverse.map (fun c => c.map (fun l => (l.inp, l.out, l.id)))) = some [[(0, 0, 0), (1, 1, 1)], [(1, 0, 0)], [(0, 1, 0), (1, 0, 1)]] := by
  decide +kernel

/-- Refuted: with virtual observations an eddy lost before the second tracking is found again by the whole tracking, not by the merge. -/
theorem join_virtual_wrong : numbers (exJoint exCfg [0, 1, 2, 3, 4] [[1, 2], [1, 2], [1], [1], [1, 2]]) = some [[0, 1], [0], [0], [0, 1]] ∧
    numbers (exJoin (exJoint exCfg [0, 1, 2, 3] [[1, 2], [1, 2], [1], [1]]) (exJoint exCfg [2, 3, 4] [[1], [1], [1, 2]])) = some [[0, 1], [0], [0], [0]] := by
  decide +kernel

/-! ### The names in the file -/

/-- Whatever is given, the same name is written. -/
theorem fileName_const (d : Given) : fileName d = .str "In memory file" := by cases d <;> rfl

/-- **C156** the file keeps the number of datasets (what the continuation of the tracking needs). Missing: their names (`names_wrong`). -/
theorem names_partial (ds : List Given) (h : 2 ≤ ds.length) : ∃ l, loadedNames (savedNames ds) = some l ∧ l.length = ds.length := by
  unfold loadedNames savedNames
  obtain ⟨x, hx⟩ : ∃ x, (ds.tail.map fileName).getLast? = some x := by
    cases h' : (ds.tail.map fileName).getLast? with
    | none =>
      rw [List.getLast?_eq_none_iff] at h'
      have := congrArg List.length h'
      simp at this
      omega
    | some x => exact ⟨x, rfl⟩
  refine ⟨_, by rw [hx]; rfl, ?_⟩
  simp
  omega

/-- Refuted, for all datasets: the names which are read again are all `In memory file`. -/
theorem names_wrong (ds : List Given) {l : List Given} (hl : loadedNames (savedNames ds) = some l) : ∀ d ∈ l, d = .str "In memory file" := by
  unfold loadedNames savedNames at hl
  rw [Option.map_eq_some_iff] at hl
  obtain ⟨o, ho, rfl⟩ := hl
  intro d hd
  rcases List.mem_append.1 hd with hd | hd
  · obtain ⟨d0, _, rfl⟩ := List.mem_map.1 hd
    exact fileName_const d0
  · rw [List.mem_singleton.1 hd]
    obtain ⟨d0, _, rfl⟩ := List.mem_map.1 (List.mem_of_getLast? ho)
    exact fileName_const d0

example : loadedNames (savedNames [.str "a.nc", .str "b.nc", .str "c.nc"]) ≠ some [.str "a.nc", .str "b.nc", .str "c.nc"] := by decide +kernel

/-- Refuted, for all files: two correspondence tables which were saved cannot be merged, whatever they contain. -/
theorem loaded_join_raises (da db : List Given) (ha : 2 ≤ da.length) (hb : 2 ≤ db.length) (a b : Joint Given) (hda : loadedNames (savedNames da) = some a.datasets)
    (hdb : loadedNames (savedNames db) = some b.datasets) : joinCorr a b = none := by
  unfold joinCorr
  by_cases hv : a.nbVirtual = b.nbVirtual
  · rw [if_pos hv]
    obtain ⟨la, ea, hla⟩ := names_partial da ha
    obtain ⟨lb, eb, hlb⟩ := names_partial db hb
    obtain rfl := Option.some.inj (ea.symm.trans hda)
    obtain rfl := Option.some.inj (eb.symm.trans hdb)
    cases hl : a.datasets.getLast? with
    | none => rfl
    | some x =>
      have hx := names_wrong da hda x (List.mem_of_getLast? hl)
      have hj : junctions b.datasets x = List.range b.datasets.length := by
        unfold junctions
        refine List.filter_eq_self.2 fun j hj => ?_
        rw [List.mem_range] at hj
        rw [decide_eq_true_eq, List.getElem?_eq_getElem hj, hx, names_wrong db hdb _ (List.getElem_mem hj)]
      simp only [Option.bind_eq_bind, Option.bind_some, hj]
      obtain ⟨n, hn⟩ : ∃ n, b.datasets.length = n + 2 := ⟨b.datasets.length - 2, by omega⟩
      rw [hn, List.range_succ_eq_map, List.range_succ_eq_map]
      rfl
  · rw [if_neg hv]

end Verif.Tracking
