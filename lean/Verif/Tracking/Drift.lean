import Verif.Tracking.ResumeProps
import Mathlib.Tactic.Ring

/-!
# C153: where the lost tracks are searched

Positions given by `propagate` (src/py_eddy_tracker/observations/observation.py:1128-1178) to the virtual observations, on top of
`Verif.Tracking.Model`.
-/

namespace Verif.Tracking

variable {α δ : Type}

/-! ### Specification -/

/-- Position proposed `g` datasets after the last observation `b` of a track whose position was `a` one dataset before it. -/
def proposed (cfg : Cfg α δ) (a b : α) (g : Nat) : α := (fun p => cfg.prolong p (cfg.extend a b).2)^[g - 1] (cfg.extend a b).1

/-- `a` is the position of the source of a link `l` of the table `k`: the observation of the dataset `k`, or the position proposed for a track which
was lost in the dataset `k`. -/
inductive Source (cfg : Cfg α δ) (files : List (List α)) (h : List (List Link)) : Nat → Link → α → Prop
  | real {k : Nat} {l : Link} {f : List α} {a : α} (hv : l.virt = false) (hf : files[k]? = some f) (ha : f[l.inp]? = some a) : Source cfg files h k l a
  | lost {k : Nat} {l l' : Link} {f : List α} {a b : α} (hv : l.virt = true) (hk : l.vlen < k) (hl : LinkAt h (k - 1 - l.vlen) l') (hi : l'.id = l.id)
      (ha : Source cfg files h (k - 1 - l.vlen) l' a) (hf : files[k - l.vlen]? = some f) (hb : f[l'.out]? = some b) :
      Source cfg files h k l (proposed cfg a b l.vlen)

/-- The virtual observation `v` is on the way of its track: `l` is the last link of the track. -/
structure OnWay (cfg : Cfg α δ) (files : List (List α)) (h : List (List Link)) (v : VObs α δ) (l : Link) (a b : α) : Prop where
  pos : 1 ≤ v.seg
  lt : v.seg < h.length
  link : LinkAt h (h.length - 1 - v.seg) l
  id : l.id = v.track
  source : Source cfg files h (h.length - 1 - v.seg) l a
  target : ∃ f, files[h.length - v.seg]? = some f ∧ f[l.out]? = some b
  obs : v.obs = proposed cfg a b v.seg
  drift : v.drift = (cfg.extend a b).2

/-! ### Proofs -/

theorem Source.mono {cfg : Cfg α δ} {files : List (List α)} {h : List (List Link)} {k : Nat} {l : Link} {a : α} (hs : Source cfg files h k l a)
    (file : List α) (c : List Link) : Source cfg (files ++ [file]) (c :: h) k l a := by
  have hget : ∀ {k : Nat} {f : List α}, files[k]? = some f → (files ++ [file])[k]? = some f := by
    intro k f hf
    rw [List.getElem?_append_left (List.getElem?_eq_some_iff.1 hf).1]; exact hf
  induction hs with
  | real hv hf ha => exact .real hv (hget hf) ha
  | lost hv hk hl hi _ hf hb ih => exact .lost hv hk (linkAt_cons.2 (Or.inr hl)) hi ih (hget hf) hb

/-- What the loop keeps. -/
structure InvW (cfg : Cfg α δ) (files : List (List α)) (s : St α δ) : Prop where
  source : ∀ c h, s.corrs = c :: h → ∀ p, s.previous = some p → ∀ l ∈ c, ∃ a, p[l.inp]? = some a ∧ Source cfg files s.corrs h.length l a
  way : ∀ vs, s.virtualObs = some vs → ∀ v ∈ vs, ∃ l a b, OnWay cfg files s.corrs v l a b

theorem invW_init (cfg : Cfg α δ) (f : List α) : InvW cfg [f] (swap (init : St α δ) f) :=
  ⟨fun c h e => by simp [swap, init] at e, fun vs e => by simp [swap, init] at e⟩

theorem proposed_succ (cfg : Cfg α δ) (a b : α) {g : Nat} (hg : 1 ≤ g) :
    proposed cfg a b (g + 1) = cfg.prolong (proposed cfg a b g) (cfg.extend a b).2 := by
  unfold proposed
  obtain ⟨n, rfl⟩ : ∃ n, g = n + 1 := ⟨g - 1, by omega⟩
  simp only [Nat.add_sub_cancel]
  exact Function.iterate_succ_apply' _ _ _

theorem invW_step (cfg : Cfg α δ) (ht : OneToOne cfg.tracking) (files : List (List α)) (s s' : St α δ) (inv : Inv cfg files s)
    (invr : InvR cfg files s) (invw : InvW cfg files s) (file : List α) (hs : step cfg s file = some s') : InvW cfg (files ++ [file]) s' := by
  have hlen := inv.len
  obtain ⟨real, hreal⟩ : ∃ real, files[s.corrs.length]? = some real := ⟨_, List.getElem?_eq_getElem (by omega)⟩
  have hcur : s.current = some real := by rw [inv.cur, hreal]
  have happ : (files ++ [file])[s.corrs.length]? = some real := by
    rw [List.getElem?_append_left (by omega)]; exact hreal
  cases hc : s.corrs with
  | nil =>
    have hp := inv.prevNone hc
    have hf : s.flg = false := by rw [invr.flg, hc]; simp
    have hvo : s.virtualObs = none := by
      have := invr.vs
      rw [hf] at this
      simpa using this
    have : s' = ⟨[fillNew s.currentId ((cfg.tracking real file).map (rawLink cfg.virtual real.length))],
        s.currentId + (cfg.tracking real file).length, s.virtualObs, s.prevVirtualObs, none, some real, some file, false⟩ := by
      have : step cfg s file = some _ := hs
      simp [step, swap, mergeVirtual, store, hcur, hp, hf, hc] at this
      exact this.symm
    subst this
    refine ⟨fun c h e p ep l hl => ?_, fun vs e => ?_⟩
    · simp only [List.cons.injEq] at e
      obtain ⟨rfl, rfl⟩ := e
      obtain rfl := Option.some.inj ep
      obtain ⟨q, hq, e1, _⟩ := mem_fillNew hl
      obtain ⟨m, hm, rfl⟩ := List.mem_map.1 hq
      have hlt := ((ht real file).2.2 m hm).1
      have e2 : l.inp = m.1 := by rw [e1]; rfl
      have e3 : l.virt = false := by
        rw [e1]
        simp only [LinkOf.setId, rawLink, Bool.and_eq_false_iff, decide_eq_false_iff_not]
        exact Or.inr (by omega)
      refine ⟨real[m.1], by rw [e2]; exact List.getElem?_eq_getElem hlt, .real (f := real) e3 ?_ (by rw [e2]; exact List.getElem?_eq_getElem hlt)⟩
      rw [hc] at happ
      exact happ
    · simp [hvo] at e
  | cons c h =>
    obtain ⟨p, hp, hpin⟩ := inv.prevSome c h hc
    have hl : s.corrs.length = h.length + 1 := by rw [hc]; rfl
    have hmerge : mergeVirtual (swap s file) =
        some ⟨s.corrs, s.currentId, s.virtualObs, s.prevVirtualObs, some p,
          some (real ++ (s.virtualObs.getD []).map (·.obs)), some file, s.flg⟩ := by
      cases hv : s.virtualObs with
      | none =>
        have hf : s.flg = false := by
          have := invr.vs
          rw [hv] at this
          simpa using this.symm
        simp [mergeVirtual, swap, hf, hcur, hp, hv]
      | some vs =>
        have hf : s.flg = true := by
          have := invr.vs
          rw [hv] at this
          simpa using this.symm
        simp [mergeVirtual, swap, hf, hcur, hp, hv]
    have e1 : (swap s file).previous = some real := hcur
    simp only [step, e1, hmerge, Option.bind_eq_bind, Option.bind_some, store, hc, List.head?_cons] at hs
    rw [Option.bind_eq_some_iff] at hs
    obtain ⟨r, hr, hs⟩ := hs
    rw [Option.bind_eq_some_iff] at hr
    obtain ⟨pre, hpre, hr⟩ := hr
    obtain rfl := Option.some.inj hr
    simp only [Bool.false_eq_true, if_false] at hs
    rw [Option.bind_eq_some_iff] at hs
    obtain ⟨t, htt, hs⟩ := hs
    have hway := invw.way
    have hsrc := invw.source c h hc p hp
    rw [hc] at hway hsrc
    rw [hl] at happ
    -- the sources of the new links
    have hnew : ∀ l ∈ fillNew s.currentId pre, ∃ a, (real ++ (s.virtualObs.getD []).map (·.obs))[l.inp]? = some a ∧
        Source cfg (files ++ [file]) (fillNew s.currentId pre :: c :: h) (h.length + 1) l a := by
      intro l hl
      obtain ⟨q, hq, e1, hid⟩ := mem_fillNew hl
      obtain ⟨m, hm, hpm⟩ := mapM_mem hpre hq
      obtain ⟨q1, _, q3, q4⟩ := preLink_some hpm
      have hlt := ((ht _ file).2.2 m hm).1
      have e2 : l.inp = m.1 := by rw [e1, ← q1]; rfl
      have ev : l.virt = q.virt := by rw [e1]; rfl
      rcases q4 with ⟨hv, vs, w, evs, hw, qid, qlen⟩ | ⟨hv, _⟩
      · have hge : real.length ≤ m.1 := by
          rw [q3, Bool.and_eq_true, decide_eq_true_eq] at hv
          exact hv.2
        have eid : l.id = w.track := by
          rcases hid with e | ⟨e, _⟩
          · rw [qid] at e; exact (Option.some.inj e).symm
          · rw [qid] at e; cases e
        have elen : l.vlen = w.seg := by rw [e1, ← qlen]; rfl
        obtain ⟨l', a, b, ow⟩ := hway vs evs w (List.mem_of_getElem? hw)
        refine ⟨w.obs, ?_, ?_⟩
        · rw [e2, List.getElem?_append_right hge, evs]
          simp only [Option.getD_some, List.getElem?_map, hw, Option.map_some]
        · rw [ow.obs, ← elen]
          obtain ⟨f, hf, hb⟩ := ow.target
          have o2 := ow.lt
          simp only [List.length_cons] at o2
          have o3 := ow.link
          have o5 := ow.source
          simp only [List.length_cons, Nat.add_sub_cancel, ← elen] at o3 o5 hf
          refine .lost (l' := l') (f := f) (by rw [ev]; exact hv) (by omega) ?_ (by rw [ow.id, eid]) ?_ ?_ hb
          · simp only [Nat.add_sub_cancel]; exact linkAt_cons.2 (Or.inr o3)
          · simp only [Nat.add_sub_cancel]; exact o5.mono file _
          · rw [List.getElem?_append_left (List.getElem?_eq_some_iff.1 hf).1]; exact hf
      · have hlt' : m.1 < real.length := by
          by_contra hge
          have hvirt : cfg.virtual = false := by
            rw [q3, Bool.and_eq_false_iff, decide_eq_false_iff_not] at hv
            rcases hv with e | e
            · exact e
            · exact absurd (by omega) e
          have hvo : s.virtualObs = none := by
            have := invr.vs
            rw [invr.flg, hvirt] at this
            simpa using this
          rw [hvo] at hlt
          simp at hlt
          omega
        refine ⟨real[m.1], ?_, .real (f := real) (by rw [ev]; exact hv) happ (by rw [e2]; exact List.getElem?_eq_getElem hlt')⟩
        rw [e2, List.getElem?_append_left hlt']
        exact List.getElem?_eq_getElem hlt'
    by_cases hvirt : cfg.virtual = true
    · simp only [recense, hvirt, if_true, Option.bind_eq_bind, Option.bind_some] at htt
      rw [Option.bind_eq_some_iff] at htt
      obtain ⟨dead, hdead, htt⟩ := htt
      obtain rfl := Option.some.inj htt
      simp only [hvirt, if_true, Option.some.injEq] at hs
      subst hs
      refine ⟨fun c' h' e q eq l hl => ?_, fun vs' e v hv => ?_⟩
      · simp only [List.cons.injEq] at e
        obtain ⟨rfl, rfl⟩ := e
        obtain rfl := Option.some.inj eq
        exact hnew l hl
      · obtain rfl := Option.some.inj e
        rcases List.mem_append.1 hv with hv | hv
        · unfold deadVirtual at hdead
          obtain ⟨i, hi, hvi⟩ := mapM_mem hdead hv
          simp only [Option.bind_eq_bind] at hvi
          rw [Option.bind_eq_some_iff] at hvi
          obtain ⟨l, hfind, hvi⟩ := hvi
          rw [Option.bind_eq_some_iff] at hvi
          obtain ⟨a, ha, hvi⟩ := hvi
          rw [Option.bind_eq_some_iff] at hvi
          obtain ⟨b, hb, hvi⟩ := hvi
          obtain rfl := Option.some.inj hvi
          have hlc : l ∈ c := List.mem_of_find?_eq_some hfind
          have hli : l.id = i := by simpa using List.find?_some hfind
          obtain ⟨a', ha', hsa⟩ := hsrc l hlc
          rw [ha] at ha'
          obtain rfl := Option.some.inj ha'
          obtain ⟨⟨f, hf, hlt⟩, _⟩ := inv.sized h.length l (by rw [hc]; exact linkAt_cons_last.2 hlc)
          have : f = real := by
            rw [hl] at hreal
            rw [hreal] at hf
            exact (Option.some.inj hf).symm
          subst this
          rw [List.getElem?_append_left hlt] at hb
          refine ⟨l, a, b, ⟨Nat.le_refl _, by simp, ?_, hli, ?_, ⟨f, ?_, hb⟩, rfl, rfl⟩⟩
          · simp only [List.length_cons]
            exact linkAt_cons.2 (Or.inr (linkAt_cons_last.2 hlc))
          · simp only [List.length_cons]
            exact hsa.mono file _
          · simp only [List.length_cons]
            exact happ
        · cases hvo : s.virtualObs with
          | none => rw [hvo] at hv; simp at hv
          | some vs =>
            rw [hvo] at hv
            simp only [prolonged, List.mem_filterMap, Option.bind_eq_some_iff] at hv
            obtain ⟨i, _, w, hw, hv⟩ := hv
            by_cases hseg : w.seg < cfg.nbVirtual
            · rw [if_pos hseg] at hv
              obtain rfl := Option.some.inj hv
              obtain ⟨l, a, b, ow⟩ := hway vs hvo w (List.mem_of_find?_eq_some hw)
              have o1 := ow.pos
              have o2 := ow.lt
              have o3 := ow.link
              have o5 := ow.source
              obtain ⟨f, hf, hb⟩ := ow.target
              simp only [List.length_cons] at o2 o3 o5 hf
              refine ⟨l, a, b, ⟨by simp, by simp only [List.length_cons]; omega, ?_, ow.id, ?_, ⟨f, ?_, hb⟩, ?_, ow.drift⟩⟩
              · simp only [List.length_cons]
                rw [show h.length + 1 + 1 - 1 - (w.seg + 1) = h.length + 1 - 1 - w.seg by omega]
                exact linkAt_cons.2 (Or.inr o3)
              · simp only [List.length_cons]
                rw [show h.length + 1 + 1 - 1 - (w.seg + 1) = h.length + 1 - 1 - w.seg by omega]
                exact o5.mono file _
              · simp only [List.length_cons]
                rw [show h.length + 1 + 1 - (w.seg + 1) = h.length + 1 - w.seg by omega,
                  List.getElem?_append_left (List.getElem?_eq_some_iff.1 hf).1]
                exact hf
              · simp only
                rw [proposed_succ cfg a b o1, ow.obs, ow.drift]
            · rw [if_neg hseg] at hv
              cases hv
    · have hvirt' : cfg.virtual = false := by simpa using hvirt
      have hvo : s.virtualObs = none := by
        have := invr.vs
        rw [invr.flg, hvirt'] at this
        simpa using this
      simp only [recense, hvirt', Bool.false_eq_true, if_false, Option.some.injEq] at htt
      subst htt
      simp only [hvirt', Bool.false_eq_true, if_false, Option.some.injEq] at hs
      subst hs
      refine ⟨fun c' h' e q eq l hl => ?_, fun vs e => ?_⟩
      · simp only [List.cons.injEq] at e
        obtain ⟨rfl, rfl⟩ := e
        obtain rfl := Option.some.inj eq
        exact hnew l hl
      · simp [hvo] at e

theorem invW_foldl (cfg : Cfg α δ) (ht : OneToOne cfg.tracking) (rest files : List (List α)) (s s' : St α δ)
    (inv : Inv cfg files s) (invr : InvR cfg files s) (invw : InvW cfg files s) (hs : rest.foldlM (step cfg) s = some s') :
    InvW cfg (files ++ rest) s' := by
  induction rest generalizing files s with
  | nil =>
    obtain rfl := Option.some.inj hs
    simpa using invw
  | cons f rest ih =>
    obtain ⟨s1, e1, inv1⟩ := inv_step cfg ht files s inv f
    rw [List.foldlM_cons, e1] at hs
    have := ih (files ++ [f]) s1 inv1 (invR_step cfg files s s1 inv invr f e1) (invW_step cfg ht files s s1 inv invr invw f e1) hs
    simpa using this

theorem invW_of_track {cfg : Cfg α δ} (ht : OneToOne cfg.tracking) {files : List (List α)} {s : St α δ}
    (hs : track cfg files = some s) : InvW cfg files s := by
  cases files with
  | nil => simp [track] at hs
  | cons f rest => exact invW_foldl cfg ht rest [f] _ _ (inv_init cfg f) (invR_init cfg f) (invW_init cfg f) hs

/-- **C153** for any formula: after any number of datasets each virtual observation is, `seg` datasets after the last observation `b` of its track,
the position proposed from `b` and from the source `a` of the last link of the track. -/
theorem virtual_on_way (cfg : Cfg α δ) (ht : OneToOne cfg.tracking) (files : List (List α)) (s : St α δ) (hs : track cfg files = some s)
    (vs : List (VObs α δ)) (hv : s.virtualObs = some vs) (v : VObs α δ) (hm : v ∈ vs) : ∃ l a b, OnWay cfg files s.corrs v l a b :=
  (invW_of_track ht hs).way vs hv v hm

/-- The sources of the links are in all the tables those of the specification; this is where the tracking searched them. -/
theorem source_total (cfg : Cfg α δ) (ht : OneToOne cfg.tracking) (files : List (List α)) (s : St α δ) (hs : track cfg files = some s) (c : List Link)
    (h : List (List Link)) (hc : s.corrs = c :: h) (l : Link) (hl : l ∈ c) : ∃ p a, s.previous = some p ∧ p[l.inp]? = some a ∧
      Source cfg files s.corrs h.length l a := by
  obtain ⟨p, hp, _⟩ := (inv_of_track ht hs).prevSome c h hc
  obtain ⟨a, ha, hsa⟩ := (invW_of_track ht hs).source c h hc p hp l hl
  exact ⟨p, a, hp, ha, hsa⟩

/-! ### Positions -/

/-- A position: longitude and latitude. -/
abbrev Position := Rat × Rat

/-- `dlon`, `dlat` and the position of a track which just died (observation.py:1156-1159). -/
def extendPos (a b : Position) : Position × Position :=
  let d : Position := (b.1 - a.1, b.2 - a.2)
  ((b.1 + d.1, b.2 + d.2), d)

/-- Position of a virtual observation prolonged (observation.py:1172-1173). -/
def prolongPos (p d : Position) : Position := (p.1 + d.1, p.2 + d.2)

/-- The tracking of positions. -/
def posCfg (tracking : List Position → List Position → List (Nat × Nat × Rat)) (nbVirtual : Nat) : Cfg Position Position :=
  ⟨tracking, extendPos, prolongPos, nbVirtual⟩

theorem proposed_pos (tracking : List Position → List Position → List (Nat × Nat × Rat)) (n : Nat) (a b : Position) : ∀ {g : Nat}, 1 ≤ g →
    proposed (posCfg tracking n) a b g = (b.1 + g * (b.1 - a.1), b.2 + g * (b.2 - a.2))
  | 1, _ => by simp [proposed, posCfg, extendPos]
  | g + 2, _ => by
    rw [proposed_succ _ a b (by omega), proposed_pos tracking n a b (g := g + 1) (by omega)]
    simp only [posCfg, prolongPos, extendPos, Prod.mk.injEq]
    push_cast
    constructor <;> ring

/-- **C153** a lost track is searched, `g` datasets after its last observation B, at B + g AB, where A is the position of the track in the dataset before
B: its observation, or the position proposed for it if it was lost in this dataset. -/
theorem virtual_position (tracking : List Position → List Position → List (Nat × Nat × Rat)) (n : Nat) (ht : OneToOne tracking)
    (files : List (List Position)) (s : St Position Position) (hs : track (posCfg tracking n) files = some s) (vs : List (VObs Position Position))
    (hv : s.virtualObs = some vs) (v : VObs Position Position) (hm : v ∈ vs) : ∃ l a b, LinkAt s.corrs (s.corrs.length - 1 - v.seg) l ∧ l.id = v.track ∧
      1 ≤ v.seg ∧ v.seg < s.corrs.length ∧ (∀ j x, s.corrs.length - 1 - v.seg < j → LinkAt s.corrs j x → x.id ≠ v.track) ∧
      (∃ f, files[s.corrs.length - v.seg]? = some f ∧ f[l.out]? = some b) ∧ Source (posCfg tracking n) files s.corrs (s.corrs.length - 1 - v.seg) l a ∧
      v.obs = (b.1 + v.seg * (b.1 - a.1), b.2 + v.seg * (b.2 - a.2)) := by
  obtain ⟨l, a, b, ow⟩ := virtual_on_way (posCfg tracking n) ht files s hs vs hv v hm
  refine ⟨l, a, b, ow.link, ow.id, ow.pos, ow.lt, ?_, ow.target, ow.source, by rw [ow.obs, proposed_pos tracking n a b ow.pos]⟩
  have inv := inv_of_track (cfg := posCfg tracking n) ht hs
  have hf : s.flg = true := by
    by_contra hf
    rw [inv.vnone (by simpa using hf)] at hv
    cases hv
  obtain ⟨vs', ev, vok⟩ := inv.vsome hf
  rw [hv] at ev
  obtain rfl := Option.some.inj ev
  obtain ⟨_, _, _, _, h5⟩ := (vok.iff v.track v.seg).1 ⟨v, hm, rfl, rfl⟩
  exact fun j x hj hx ex => h5 j hj hx.lt ⟨x, hx, ex⟩

/-- When the last link of the track is not virtual, A and B are the two last observations of the track, in consecutive datasets. -/
theorem source_real {cfg : Cfg α δ} {files : List (List α)} {h : List (List Link)} {k : Nat} {l : Link} {a : α} (hs : Source cfg files h k l a)
    (hv : l.virt = false) : ∃ f, files[k]? = some f ∧ f[l.inp]? = some a := by
  cases hs with
  | real _ hf ha => exact ⟨_, hf, ha⟩
  | lost hv' => rw [hv] at hv'; cases hv'

/-- Whole turns of longitude between the two observations change the proposed position by whole turns only. -/
theorem proposed_turn (tracking : List Position → List Position → List (Nat × Nat × Rat)) (n : Nat) (a b : Position) (i j : Int) {g : Nat} (hg : 1 ≤ g) :
    ∃ k : Int, proposed (posCfg tracking n) (a.1 + 360 * i, a.2) (b.1 + 360 * j, b.2) g =
      ((proposed (posCfg tracking n) a b g).1 + 360 * k, (proposed (posCfg tracking n) a b g).2) := by
  refine ⟨j + g * (j - i), ?_⟩
  rw [proposed_pos tracking n _ _ hg, proposed_pos tracking n _ _ hg]
  simp only [Prod.mk.injEq]
  push_cast
  constructor
  · ring
  · trivial

/-! ### The tracker by area -/

/-- `AreaTracker.propagate` (src/py_eddy_tracker/featured_tracking/area_tracker.py:51-65): the position is the one of the default tracker, the contour is
the one of the last observation, then the one of the virtual observation. -/
def areaCfg {κ : Type} (tracking : List (Position × κ) → List (Position × κ) → List (Nat × Nat × Rat)) (nbVirtual : Nat) : Cfg (Position × κ) Position :=
  ⟨tracking, fun a b => (((extendPos a.1 b.1).1, b.2), (extendPos a.1 b.1).2), fun p d => (prolongPos p.1 d, p.2), nbVirtual⟩

theorem proposed_area {κ : Type} (tracking : List (Position × κ) → List (Position × κ) → List (Nat × Nat × Rat)) (n : Nat) (a b : Position × κ) :
    ∀ {g : Nat}, 1 ≤ g →
    proposed (areaCfg tracking n) a b g = ((b.1.1 + g * (b.1.1 - a.1.1), b.1.2 + g * (b.1.2 - a.1.2)), b.2)
  | 1, _ => by simp [proposed, areaCfg, extendPos]
  | g + 2, _ => by
    rw [proposed_succ _ a b (by omega), proposed_area tracking n a b (g := g + 1) (by omega)]
    simp only [areaCfg, prolongPos, extendPos, Prod.mk.injEq]
    push_cast
    refine ⟨⟨?_, ?_⟩, trivial⟩ <;> ring

/-- **C153** with the tracker by area: the position moves, the contour which is compared is always the one of the last observation, at its place. -/
theorem virtual_contour {κ : Type} (tracking : List (Position × κ) → List (Position × κ) → List (Nat × Nat × Rat)) (n : Nat) (ht : OneToOne tracking)
    (files : List (List (Position × κ))) (s : St (Position × κ) Position) (hs : track (areaCfg tracking n) files = some s)
    (vs : List (VObs (Position × κ) Position)) (hv : s.virtualObs = some vs) (v : VObs (Position × κ) Position) (hm : v ∈ vs) :
    ∃ l b f, LinkAt s.corrs (s.corrs.length - 1 - v.seg) l ∧ l.id = v.track ∧ files[s.corrs.length - v.seg]? = some f ∧ f[l.out]? = some b ∧
      v.obs.2 = b.2 ∧ v.obs.1 = (b.1.1 + v.seg * v.drift.1, b.1.2 + v.seg * v.drift.2) := by
  obtain ⟨l, a, b, ow⟩ := virtual_on_way (areaCfg tracking n) ht files s hs vs hv v hm
  obtain ⟨f, hf, hb⟩ := ow.target
  refine ⟨l, b, f, ow.link, ow.id, hf, hb, ?_, ?_⟩
  · rw [ow.obs, proposed_area tracking n a b ow.pos]
  · rw [ow.obs, proposed_area tracking n a b ow.pos, ow.drift]
    rfl

/-! ### A track lost twice -/

/-- A matching of positions nearer than two degrees, the only one of each dataset (for the example). -/
def exNear (p c : List Position) : List (Nat × Nat × Rat) :=
  match p.findIdx? (fun x => c.any (fun y => decide ((x.1 - y.1) ^ 2 ≤ 1))) with
  | none => []
  | some i => match c.findIdx? (fun y => decide (((p.getD i (0, 0)).1 - y.1) ^ 2 ≤ 1)) with
    | none => []
    | some j => [(i, j, 0)]

theorem exNear_oneToOne : OneToOne exNear := by
  intro p c
  unfold exNear
  cases h1 : p.findIdx? (fun x => c.any (fun y => decide ((x.1 - y.1) ^ 2 ≤ 1))) with
  | none => simp
  | some i =>
    simp only
    cases h2 : c.findIdx? (fun y => decide (((p.getD i (0, 0)).1 - y.1) ^ 2 ≤ 1)) with
    | none => simp
    | some j =>
      rw [List.findIdx?_eq_some_iff_getElem] at h1 h2
      refine ⟨by simp, by simp, fun m hm => ?_⟩
      simp only [List.mem_singleton] at hm
      subst hm
      exact ⟨h1.1, h2.1⟩

/-- Observations at 0, 1, none, 5/2, then none twice: the track is searched at 2, found at 5/2, then searched at 3 and 7/2; A is the position proposed. The mean
movement between the two last observations is 3/4 by dataset. -/
theorem gap_source : (track (posCfg exNear 3) [[(0, 0)], [(1, 0)], [(20, 0)], [(5 / 2, 0)], [(30, 0)], [(40, 0)]]).bind (·.virtualObs) =
    some [⟨0, 2, (7 / 2, 0), (1 / 2, 0)⟩] := by decide +kernel

end Verif.Tracking
