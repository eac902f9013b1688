import Verif.Tracking.Order
import Verif.Trackers.Region
import Verif.Trackers.CheltonLocal

/-!
# C216: the order of the rows of the files, for the trackers of the library

The hypothesis of `Verif.Tracking.Order` is shown for the default tracker (src/py_eddy_tracker/observations/observation.py:1524-1546), for the tracker by
area (src/py_eddy_tracker/featured_tracking/area_tracker.py:36-65) and for the tracker of Chelton
(src/py_eddy_tracker/featured_tracking/old_tracker_reference.py:17-76), with the links of `Verif.Trackers.Run` in the loop of
src/py_eddy_tracker/tracking.py:365-403.
-/

namespace Verif.Trackers

open Verif.Poly Verif.Match Verif.Tracking Verif.Tracking.Order Matching

/-! ### Specification -/

/-- At each date of a run the condition `C` holds for the observations searched (real and lost) and the new ones. -/
def EachDate {α δ : Type} (C : List α → List α → Prop) (cfg : Cfg α δ) : St α δ → List (List α) → Prop
  | _, [] => True
  | s, f :: fs => (∀ u p, mergeVirtual (swap s f) = some u → u.previous = some p → C p f) ∧ ∀ s', step cfg s f = some s' → EachDate C cfg s' fs

/-! ### Rows -/

theorem each_date {α δ : Type} {C : List α → List α → Prop} {cfg : Cfg α δ}
    (h : ∀ p c, C p c → OneAt (cfg.tracking p c) p c ∧ OrderFree cfg.tracking p c) : ∀ {fs : List (List α)} {s : St α δ},
    EachDate C cfg s fs → OrderRun cfg s fs
  | [], _, _ => trivial
  | _ :: _, _, hr => ⟨fun u p h1 h2 => h p _ (hr.1 u p h1 h2), fun s' hs => each_date h (hr.2 s' hs)⟩

theorem moved_perm {α : Type} {σ : Nat → Nat} {A A' : List α} (h : Moved σ A A') (hn : A.Nodup) : A.Perm A' := by
  refine List.Subperm.perm_of_length_le (List.Nodup.subperm hn ?_) (le_of_eq h.len)
  intro a ha
  obtain ⟨i, hi⟩ := List.mem_iff_getElem?.1 ha
  rw [← h.get] at hi
  exact List.mem_of_getElem? hi

/-- The rows of the links, when the couples of observations are the same. -/
theorem rows_moved {α β : Type} {A A' : List α} {B B' : List β} {σ τ : Nat → Nat} (hA : A.Nodup) (hB : B.Nodup) (mA : Moved σ A A') (mB : Moved τ B B')
    {links links' : List (Nat × Nat)} (v : ∀ m ∈ links, m.1 < A.length ∧ m.2 < B.length) (v' : ∀ m ∈ links', m.1 < A'.length ∧ m.2 < B'.length)
    (hp : (links'.filterMap (obsOf A' B')).Perm (links.filterMap (obsOf A B))) : links'.Perm (links.map (fun m => (σ m.1, τ m.2))) := by
  classical
  have hA' := (moved_perm mA hA).nodup hA
  have hB' := (moved_perm mB hB).nodup hB
  have hidx : ∀ {γ : Type} [DecidableEq γ] {l : List γ} (_ : l.Nodup) {i : Nat} {x : γ}, l[i]? = some x → l.idxOf x = i := by
    intro γ _ l hl i x hx
    refine nodup_idx hl ?_ hx
    rw [List.getElem?_eq_getElem (List.idxOf_lt_length_of_mem (List.mem_of_getElem? hx)), List.getElem_idxOf]
  have key : ∀ (C : List α) (D : List β) (ρ κ : Nat → Nat), (∀ i : Nat, A'[ρ i]? = C[i]?) → (∀ i : Nat, B'[κ i]? = D[i]?) →
      ∀ L : List (Nat × Nat), (∀ m ∈ L, m.1 < C.length ∧ m.2 < D.length) →
      (L.filterMap (obsOf C D)).map (fun t => (A'.idxOf t.1, B'.idxOf t.2)) = L.map (fun m => (ρ m.1, κ m.2)) := by
    intro C D ρ κ h1 h2 L hL
    induction L with
    | nil => rfl
    | cons m L ih =>
      obtain ⟨k1, k2⟩ := hL m List.mem_cons_self
      have e1 := List.getElem?_eq_getElem k1
      have e2 := List.getElem?_eq_getElem k2
      rw [List.filterMap_cons_some (obsOf_iff (t := (C[m.1], D[m.2])).2 ⟨e1, e2⟩), List.map_cons, List.map_cons,
        ih (fun x hx => hL x (List.mem_cons_of_mem _ hx))]
      congr 1
      exact Prod.ext (hidx hA' ((h1 _).trans e1)) (hidx hB' ((h2 _).trans e2))
  have := hp.map (fun t => (A'.idxOf t.1, B'.idxOf t.2))
  rw [key A B σ τ mA.get mB.get links v, key A' B' id id (fun _ => rfl) (fun _ => rfl) links' v'] at this
  simpa using this

theorem default_snd {κ : Type} [LinearOrder κ] {nr nc : Nat} {cand : Nat → Nat → Bool} {cost : Nat → Nat → Option κ} {links : List (Nat × Nat)}
    (h : trackingDefault nr nc cand cost = .ok links) : (links.map (·.2)).Nodup := by
  unfold trackingDefault at h
  split at h
  · cases h
  · simp only at h
    split at h
    · next hn =>
      injection h with h
      subst h
      exact hn
    · cases h

theorem strict_nodup {l : List (Nat × Nat)} (h : l.Pairwise (fun a b => a.1 < b.1)) : (l.map (·.1)).Nodup := by
  unfold List.Nodup
  rw [List.pairwise_map]
  exact h.imp (fun hab => ne_of_lt hab)

/-- Links with a cost which is a function of the two observations. -/
theorem free_of_rows {α : Type} {tracking : List α → List α → List (Nat × Nat × Rat)} {p c : List α} {base : List (Nat × Nat)} {cost : α → α → Rat}
    (e : tracking p c = base.map (fun l => (l.1, l.2, ((p[l.1]?).bind (fun a => (c[l.2]?).map (cost a))).getD 0)))
    (h : ∀ (p' c' : List α) (σ τ : Nat → Nat), Moved σ p p' → Moved τ c c' → ∃ base' : List (Nat × Nat),
      tracking p' c' = base'.map (fun l => (l.1, l.2, ((p'[l.1]?).bind (fun a => (c'[l.2]?).map (cost a))).getD 0)) ∧
        base'.Perm (base.map (fun m => (σ m.1, τ m.2)))) : OrderFree tracking p c := by
  intro p' c' σ τ hσ hτ
  obtain ⟨base', e', hb⟩ := h p' c' σ τ hσ hτ
  rw [e, e']
  refine (hb.map _).trans (List.Perm.of_eq ?_)
  rw [List.map_map, List.map_map]
  refine List.map_congr_left (fun m _ => ?_)
  simp only [Function.comp, hσ.get, hτ.get]

/-! ### The default tracker -/

theorem default_cfg_rows {round : ℝ → Rat} {n : Nat} {p c : List RObs} {links : List (Nat × Nat)} (e : defaultTracking p c = .ok links) :
    (defaultCfg round n).tracking p c = links.map (fun l => (l.1, l.2, ((p[l.1]?).bind (fun a => (c[l.2]?).map
      (fun b => ((defaultCosts [a] [b] 0 0).map round).getD 0))).getD 0)) := by
  simp only [defaultCfg, e]
  refine List.map_congr_left (fun l _ => ?_)
  simp only [defaultCosts]
  cases p[l.1]? with
  | none => rfl
  | some a =>
    cases c[l.2]? with
    | none => rfl
    | some b => rfl

/-- **C216** the default tracker does not depend on the order of the rows. -/
theorem default_free {round : ℝ → Rat} {n : Nat} {p c : List RObs} (h : Regular p c) :
    OneAt ((defaultCfg round n).tracking p c) p c ∧ OrderFree (defaultCfg round n).tracking p c := by
  obtain ⟨links, e, hl, _⟩ := default_tracking_local h
  obtain ⟨l1, x1, n1, n2, _, _⟩ := default_tracking_partial p c h.lat0 h.lat1 h.size
  rw [e] at x1; cases x1
  obtain ⟨_, v⟩ := default_rows (show trackingDefault _ _ _ _ = .ok links from e)
  refine ⟨?_, free_of_rows (default_cfg_rows e) (fun p' c' σ τ hσ hτ => ?_)⟩
  · rw [default_cfg_rows e]
    refine ⟨by rw [List.map_map]; exact n1, by rw [List.map_map]; exact n2, fun m hm => ?_⟩
    obtain ⟨l, hlm, rfl⟩ := List.mem_map.1 hm
    exact v l hlm
  · obtain ⟨links', e', hp⟩ := hl p' c' (moved_perm hσ h.nodup0) (moved_perm hτ h.nodup1)
    obtain ⟨_, v'⟩ := default_rows (show trackingDefault _ _ _ _ = .ok links' from e')
    exact ⟨links', default_cfg_rows e', rows_moved h.nodup0 h.nodup1 hσ hτ v v' hp⟩

/-- **C216** the default tracking does not depend on the order of the rows of the files. -/
theorem default_order {round : ℝ → Rat} {n : Nat} {f f' : List RObs} {fs fs' : List (List RObs)} (h0 : f.Perm f') (hf : List.Forall₂ List.Perm fs fs')
    (hr : EachDate Regular (defaultCfg round n) (swap init f) fs) :
    ∃ s t ρ, track (defaultCfg round n) (f :: fs) = some s ∧ track (defaultCfg round n) (f' :: fs') = some t ∧ Function.Injective ρ ∧
      (∀ i, i < s.currentId → ρ i < s.currentId) ∧ t.currentId = s.currentId ∧ SameTables ρ (f :: fs) (f' :: fs') s.corrs t.corrs :=
  track_order _ h0 hf (each_date (fun _ _ h => default_free h) hr)

/-! ### The tracker by area -/

theorem area_cfg_rows {g : Areas} {cmin : Rat} {n : Nat} {p c : List (Position × List Pt)} {links : List (Nat × Nat × Option Rat)} {base : List (Nat × Nat)}
    (e : areaTracking g cmin (p.map (·.2)) (c.map (·.2)) = .ok links)
    (b : links = base.map (fun x => (x.1, x.2, areaCosts g cmin (p.map (·.2)) (c.map (·.2)) x.1 x.2))) :
    (areaRunCfg g cmin n).tracking p c = base.map (fun l => (l.1, l.2, ((p[l.1]?).bind (fun a => (c[l.2]?).map
      (fun d => (cell g cmin a.2 d.2).getD 0))).getD 0)) := by
  simp only [areaRunCfg, areaCfg, e, b, List.map_map]
  refine List.map_congr_left (fun l _ => ?_)
  simp only [Function.comp, areaCosts_cell, List.getElem?_map]
  cases p[l.1]? with
  | none => rfl
  | some a =>
    cases c[l.2]? with
    | none => rfl
    | some b => rfl

/-- **C216** the tracker by area does not depend on the order of the rows. -/
theorem area_free {g : Areas} {cmin : Rat} {n : Nat} {p c : List (Position × List Pt)} (h : Plain g cmin (p.map (·.2)) (c.map (·.2))) :
    OneAt ((areaRunCfg g cmin n).tracking p c) p c ∧ OrderFree (areaRunCfg g cmin n).tracking p c := by
  obtain ⟨links, e, hl, _⟩ := area_tracking_local h
  obtain ⟨base, b1, b2, b3, b4⟩ := area_rows e
  have hcon : ∀ (A B : List (List Pt)) (bs : List (Nat × Nat)), ((bs.map (fun p => (p.1, p.2, areaCosts g cmin A B p.1 p.2))).filterMap (contoursOf A B)).map
      (fun t => (t.1, t.2.1)) = bs.filterMap (obsOf A B) := by
    intro A B bs
    rw [List.filterMap_map, List.map_filterMap]
    refine List.filterMap_congr (fun m _ => ?_)
    simp only [Function.comp, contoursOf, obsOf]
    cases A[m.1]? <;> cases B[m.2]? <;> rfl
  refine ⟨?_, free_of_rows (area_cfg_rows e b1) (fun p' c' σ τ hσ hτ => ?_)⟩
  · rw [area_cfg_rows e b1]
    refine ⟨by rw [List.map_map]; exact strict_nodup b2, by rw [List.map_map]; exact default_snd b4, fun m hm => ?_⟩
    obtain ⟨l, hlm, rfl⟩ := List.mem_map.1 hm
    simpa using b3 l hlm
  · have hσ' := hσ.map (fun a : Position × List Pt => a.2)
    have hτ' := hτ.map (fun a : Position × List Pt => a.2)
    obtain ⟨links', e', hp⟩ := hl _ _ (moved_perm hσ' h.nodup0) (moved_perm hτ' h.nodup1)
    obtain ⟨base', b1', b2', b3', b4'⟩ := area_rows e'
    refine ⟨base', area_cfg_rows e' b1', rows_moved h.nodup0 h.nodup1 hσ' hτ' b3 b3' ?_⟩
    rw [← hcon, ← hcon, ← b1, ← b1']
    exact hp.map _

/-- **C216** the tracking by area does not depend on the order of the rows of the files. -/
theorem area_order {g : Areas} {cmin : Rat} {n : Nat} {f f' : List (Position × List Pt)} {fs fs' : List (List (Position × List Pt))} (h0 : f.Perm f')
    (hf : List.Forall₂ List.Perm fs fs')
    (hr : EachDate (fun p c => Plain g cmin (p.map (·.2)) (c.map (·.2))) (areaRunCfg g cmin n) (swap init f) fs) :
    ∃ s t ρ, track (areaRunCfg g cmin n) (f :: fs) = some s ∧ track (areaRunCfg g cmin n) (f' :: fs') = some t ∧ Function.Injective ρ ∧
      (∀ i, i < s.currentId → ρ i < s.currentId) ∧ t.currentId = s.currentId ∧ SameTables ρ (f :: fs) (f' :: fs') s.corrs t.corrs :=
  track_order _ h0 hf (each_date (fun _ _ h => area_free h) hr)

/-! ### The tracker of Chelton -/

/-- **C216** the tracker of Chelton does not depend on the order of the rows. -/
theorem chelton_free {g : Ground} {round : ℝ → Rat} {n : Nat} {p c : List Obs} (h : Clear g p c ∧ p ≠ [] ∧ c ≠ []) :
    OneAt ((cheltonCfg g round n).tracking p c) p c ∧ OrderFree (cheltonCfg g round n).tracking p c := by
  obtain ⟨h, hp0, hc0⟩ := h
  obtain ⟨links, e, s, v, nd, hk⟩ := chelton_links h hp0 hc0
  have ht : ∀ {p c : List Obs} {links : List (Nat × Nat)}, cheltonTracking g p c = some links →
      (cheltonCfg g round n).tracking p c = links.map (fun l => (l.1, l.2, ((p[l.1]?).bind (fun a => (c[l.2]?).map
        (fun b => ((Sphere.gridCell a.lon a.lat b.lon b.lat).map round).getD 0))).getD 0)) := by
    intro p c links e
    simp only [cheltonCfg, e]
    refine List.map_congr_left (fun l _ => ?_)
    cases p[l.1]? with
    | none => rfl
    | some a =>
      cases c[l.2]? with
      | none => rfl
      | some b => rfl
  refine ⟨?_, free_of_rows (ht e) (fun p' c' σ τ hσ hτ => ?_)⟩
  · rw [ht e]
    refine ⟨by rw [List.map_map]; exact strict_nodup s, ?_, fun m hm => ?_⟩
    · rw [List.map_map]
      have hn := strict_nodup s
      refine (List.nodup_map_iff_inj_on (List.Nodup.of_map _ hn)).2 (fun a ha b hb hab => ?_)
      have hab : a.2 = b.2 := hab
      obtain ⟨a1, a2⟩ := v a ha
      obtain ⟨b1, b2⟩ := v b hb
      have e1 := List.getElem?_eq_getElem a1
      obtain ⟨q, e2⟩ : ∃ q, c[a.2]? = some q := ⟨_, List.getElem?_eq_getElem a2⟩
      have e3 := List.getElem?_eq_getElem b1
      have e4 := e2
      rw [hab] at e4
      obtain ⟨x1, x2, x3⟩ := (hk _ _).1 (List.mem_filterMap.2 ⟨a, ha, obsOf_iff (t := (_, _)).2 ⟨e1, e2⟩⟩)
      obtain ⟨y1, y2, y3⟩ := (hk _ _).1 (List.mem_filterMap.2 ⟨b, hb, obsOf_iff (t := (_, _)).2 ⟨e3, e4⟩⟩)
      have hamp := le_antisymm (y3 _ x1 x2) (x3 _ y1 y2)
      have := h.amp _ x1 _ y1 _ x2.1 x2.2.1 y2.2.1 hamp
      rw [← this] at e3
      exact Prod.ext (nodup_idx h.nodup0 e1 e3) hab
    · obtain ⟨l, hlm, rfl⟩ := List.mem_map.1 hm
      exact v l hlm
  · obtain ⟨l1, links', x1, e', hp⟩ := chelton_order h hp0 hc0 (moved_perm hσ h.nodup0) (moved_perm hτ h.nodup1)
    rw [e] at x1
    obtain rfl := Option.some.inj x1
    have hA := moved_perm hσ h.nodup0
    have hB := moved_perm hτ h.nodup1
    have h' : Clear g p' c' := ⟨fun p hp => h.size p (hA.mem_iff.2 hp), hA.nodup h.nodup0, hB.nodup h.nodup1,
      fun p hp q hq q' hq' => h.dist p (hA.mem_iff.2 hp) q (hB.mem_iff.2 hq) q' (hB.mem_iff.2 hq'),
      fun p hp p' hp' q hq => h.amp p (hA.mem_iff.2 hp) p' (hA.mem_iff.2 hp') q (hB.mem_iff.2 hq)⟩
    obtain ⟨l2, x2, _, v', _⟩ := chelton_links h' (fun hn => hp0 (by rw [hn] at hA; exact hA.eq_nil)) (fun hn => hc0 (by rw [hn] at hB; exact hB.eq_nil))
    rw [e'] at x2
    obtain rfl := Option.some.inj x2
    exact ⟨links', ht e', rows_moved h.nodup0 h.nodup1 hσ hτ v v' hp⟩

/-- **C216** the tracking of Chelton does not depend on the order of the rows of the files. -/
theorem chelton_track_order {g : Ground} {round : ℝ → Rat} {n : Nat} {f f' : List Obs} {fs fs' : List (List Obs)} (h0 : f.Perm f')
    (hf : List.Forall₂ List.Perm fs fs') (hr : EachDate (fun p c => Clear g p c ∧ p ≠ [] ∧ c ≠ []) (cheltonCfg g round n) (swap init f) fs) :
    ∃ s t ρ, track (cheltonCfg g round n) (f :: fs) = some s ∧ track (cheltonCfg g round n) (f' :: fs') = some t ∧ Function.Injective ρ ∧
      (∀ i, i < s.currentId → ρ i < s.currentId) ∧ t.currentId = s.currentId ∧ SameTables ρ (f :: fs) (f' :: fs') s.corrs t.corrs :=
  track_order _ h0 hf (each_date (fun _ _ h => chelton_free h) hr)

/-! ### Ties -/

/-- Two contours, and one which meets both. -/
def tieA : List (Position × List Pt) := [((0, 0), [(0, 0), (2, 0), (0, 2)]), ((1, 0), [(1, 0), (3, 0), (1, 2)])]

@[inherit_doc tieA]
def tieB : List (Position × List Pt) := [((1, 1), [(0, 1), (3, 1), (1, 3)])]

/-- The overlaps of the two couples are the same. -/
def tieAreas : Areas := ⟨fun _ => 6, fun _ _ => 3⟩

theorem tie_tables : (track (areaRunCfg tieAreas 0 1) [tieA, tieB]).map (·.corrs) = some [[⟨0, 0, 0, 2 / 3, false, 255⟩]] ∧
    (track (areaRunCfg tieAreas 0 1) [tieA.reverse, tieB]).map (·.corrs) = some [[⟨0, 0, 0, 2 / 3, false, 255⟩]] := by
  constructor <;> decide +kernel

/-- **C216** the condition on the ties is needed: with two couples of the same cost, distinct contours, the order of the rows chooses the eddy which is
followed. -/
theorem area_ties_wrong : ∃ (g : Areas) (f f' c : List (Position × List Pt)) (s t : St (Position × List Pt) Position), f.Perm f' ∧ (f.map (·.2)).Nodup ∧
    track (areaRunCfg g 0 1) [f, c] = some s ∧ track (areaRunCfg g 0 1) [f', c] = some t ∧ ¬ ∃ ρ, SameTables ρ [f, c] [f', c] s.corrs t.corrs := by
  obtain ⟨e1, e2⟩ := tie_tables
  obtain ⟨s, es, hs⟩ := Option.map_eq_some_iff.1 e1
  obtain ⟨t, et, ht⟩ := Option.map_eq_some_iff.1 e2
  refine ⟨tieAreas, tieA, tieA.reverse, tieB, s, t, (List.reverse_perm _).symm, by decide +kernel, es, et, ?_⟩
  rintro ⟨ρ, _, h⟩
  have := h 0 _ _ (by rw [hs]; rfl) (by rw [ht]; rfl)
  have := List.perm_singleton.1 this
  simp [seen, tieA] at this

/-! ### Examples -/

/-- The two eddies of each date, with the rows of the second file exchanged: the hypotheses are met and there is a link. -/
example (round : ℝ → Rat) (n : Nat) : ∃ s t ρ, track (cheltonCfg sea round n) [twoA, twoB] = some s ∧
    track (cheltonCfg sea round n) [twoA, twoB.reverse] = some t ∧ Function.Injective ρ ∧ SameTables ρ [twoA, twoB] [twoA, twoB.reverse] s.corrs t.corrs := by
  obtain ⟨s, t, ρ, e1, e2, h1, _, _, h2⟩ := chelton_track_order (g := sea) (round := round) (n := n) (f := twoA) (f' := twoA) (fs := [twoB])
    (fs' := [twoB.reverse]) (.refl _) (.cons (List.reverse_perm _).symm .nil) ⟨fun u p hu hp => by
      have hu : some (swap (init : St Obs Position) twoA |> fun s => swap s twoB) = some u := hu
      obtain rfl := Option.some.inj hu
      obtain rfl : twoA = p := Option.some.inj hp
      exact ⟨two_clear, by simp [twoA], by simp [twoB]⟩, fun _ _ => trivial⟩
  exact ⟨s, t, ρ, e1, e2, h1, h2⟩

end Verif.Trackers
