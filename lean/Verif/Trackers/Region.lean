import Verif.Tracking.Region
import Verif.Trackers.Run
import Verif.Trackers.Local
import Verif.Trackers.AreaLocal

/-!
# C214: the tracks of a region far from the rest of the ocean, for the trackers of the library

The hypothesis of C213 on the tracker is shown for the default tracker (src/py_eddy_tracker/observations/observation.py:1524-1546) and for the tracker by
area (src/py_eddy_tracker/featured_tracking/area_tracker.py:36-65), with the links of `Verif.Trackers.Run` in the loop of
src/py_eddy_tracker/tracking.py:365-403.
-/

namespace Verif.Trackers

open Verif.Poly Verif.Match Verif.Tracking Verif.Tracking.Region Matching

/-! ### Specification -/

/-- At each date of the tracking of the whole ocean, no observation searched (real or lost) of the region is at less than 125 km of a new one outside and
conversely, the hypotheses of C193 are met, and the lost observations stay in their part of the ocean. -/
def ApartRun (P : RObs → Bool) (round : ℝ → Rat) (n : Nat) : St RObs (ℝ × ℝ) → List (List RObs) → Prop
  | _, [] => True
  | s, f :: fs => (∀ u p, mergeVirtual (swap s f) = some u → u.previous = some p →
        Regular p f ∧ ∀ a ∈ p, ∀ b ∈ f, km a b < 125 → P a = P b) ∧
      ∀ s', step (defaultCfg round n) s f = some s' → (0 < n → StaysAt P (defaultCfg round n) s') ∧ ApartRun P round n s' fs

/-- The same for the tracker by area: no contour of the region would be linked alone with one outside. -/
def ApartAreas (P : Position × List Pt → Bool) (g : Areas) (cmin : Rat) (n : Nat) :
    St (Position × List Pt) Position → List (List (Position × List Pt)) → Prop
  | _, [] => True
  | s, f :: fs => (∀ u p, mergeVirtual (swap s f) = some u → u.previous = some p →
        Plain g cmin (p.map (·.2)) (f.map (·.2)) ∧ ∀ a ∈ p, ∀ b ∈ f, alone g cmin a.2 b.2 ≠ none → P a = P b) ∧
      ∀ s', step (areaRunCfg g cmin n) s f = some s' → (0 < n → StaysAt P (areaRunCfg g cmin n) s') ∧ ApartAreas P g cmin n s' fs

/-! ### Rows -/

/-- Links are given in the order of the rows, inside of the datasets. -/
theorem default_rows {κ : Type} [LinearOrder κ] {nr nc : Nat} {cand : Nat → Nat → Bool} {cost : Nat → Nat → Option κ} {links : List (Nat × Nat)}
    (h : trackingDefault nr nc cand cost = .ok links) :
    links.Pairwise (fun a b => a.1 ≤ b.1) ∧ ∀ m ∈ links, m.1 < nr ∧ m.2 < nc := by
  unfold trackingDefault at h
  split at h
  · cases h
  · next mask e =>
    simp only at h
    split at h
    · injection h with h
      subst h
      refine ⟨?_, fun m hm => ?_⟩
      · unfold whereMask
        rw [List.pairwise_flatMap]
        refine ⟨fun i _ => ?_, ?_⟩
        · rw [List.pairwise_map]
          exact List.pairwise_of_forall (fun _ _ => le_rfl)
        · refine (List.pairwise_lt_range (n := nr)).imp ?_
          intro i j hij x hx y hy
          obtain ⟨_, _, rfl⟩ := List.mem_map.1 hx
          obtain ⟨_, _, rfl⟩ := List.mem_map.1 hy
          exact le_of_lt hij
      · have := mem_whereMask.1 hm
        exact ⟨this.1, this.2.1⟩
    · cases h

theorem strict_rows {l : List (Nat × Nat)} (h : l.Pairwise (fun a b => a.1 ≤ b.1)) (hn : (l.map Prod.fst).Nodup) :
    l.Pairwise (fun a b => a.1 < b.1) := by
  have hn' : l.Pairwise (fun a b => a.1 ≠ b.1) := by
    unfold List.Nodup at hn
    rwa [List.pairwise_map] at hn
  exact (h.and hn').imp (fun hab => lt_of_le_of_ne hab.1 hab.2)

/-- The rows of the links of a part, when the couples of observations are those of the whole. -/
theorem rows_part {α β : Type} {A : List α} {B : List β} {inA : α → Bool} {inB : β → Bool} (hA : A.Nodup) (hB : B.Nodup)
    {links links' : List (Nat × Nat)} (s : links.Pairwise (fun a b => a.1 < b.1)) (s' : links'.Pairwise (fun a b => a.1 < b.1))
    (v : ∀ m ∈ links, m.1 < A.length ∧ m.2 < B.length) (v' : ∀ m ∈ links', m.1 < (A.filter inA).length ∧ m.2 < (B.filter inB).length)
    (hin : ∀ m ∈ links, inR inA A m.1 = inR inB B m.2)
    (hp : (links'.filterMap (obsOf (A.filter inA) (B.filter inB))).Perm ((links.filterMap (obsOf A B)).filter (fun t => inA t.1))) :
    links' = (links.filter (fun m => inR inA A m.1)).map (fun m => (below (inR inA A) m.1, below (inR inB B) m.2)) := by
  have s2 : ((links.filter (fun m => inR inA A m.1)).map (fun m => (below (inR inA A) m.1, below (inR inB B) m.2))).Pairwise
      (fun a b => a.1 < b.1) := by
    rw [List.pairwise_map]
    refine List.Pairwise.imp_of_mem ?_ (s.filter (fun m => inR inA A m.1))
    intro a b ha _ hab
    exact below_lt (p := inR inA A) (List.mem_filter.1 ha).2 hab
  have nd : ∀ {l : List (Nat × Nat)}, l.Pairwise (fun a b => a.1 < b.1) → l.Nodup := fun h => h.imp (fun hab e => by
    rw [e] at hab
    exact lt_irrefl _ hab)
  -- a link of the whole which is in the region
  have hw : ∀ m ∈ links, inR inA A m.1 = true → ∃ a b, A[m.1]? = some a ∧ B[m.2]? = some b ∧ inA a = true ∧ inB b = true := by
    intro m hm hi
    obtain ⟨v1, v2⟩ := v m hm
    have e1 := List.getElem?_eq_getElem v1
    have e2 := List.getElem?_eq_getElem v2
    refine ⟨_, _, e1, e2, ?_, ?_⟩
    · rw [← inR_some (P := inA) e1]; exact hi
    · rw [← inR_some (P := inB) e2, ← hin m hm]; exact hi
  refine List.Perm.eq_of_pairwise (le := fun a b => a.1 < b.1) (fun a b _ _ h1 h2 => absurd (lt_trans h1 h2) (lt_irrefl _)) s' s2 ?_
  rw [List.perm_ext_iff_of_nodup (nd s') (nd s2)]
  rintro ⟨i', j'⟩
  constructor
  · intro hm
    obtain ⟨v1, v2⟩ := v' _ hm
    have e1 := List.getElem?_eq_getElem v1
    have e2 := List.getElem?_eq_getElem v2
    obtain ⟨a, ha⟩ : ∃ a, (A.filter inA)[i']? = some a := ⟨_, e1⟩
    obtain ⟨b, hb⟩ : ∃ b, (B.filter inB)[j']? = some b := ⟨_, e2⟩
    have h1 : (a, b) ∈ links'.filterMap (obsOf (A.filter inA) (B.filter inB)) := List.mem_filterMap.2 ⟨(i', j'), hm, obsOf_iff.2 ⟨ha, hb⟩⟩
    obtain ⟨h2, h3⟩ := List.mem_filter.1 (hp.mem_iff.1 h1)
    obtain ⟨⟨i, j⟩, h4, h5⟩ := List.mem_filterMap.1 h2
    obtain ⟨h6, h7⟩ := obsOf_iff.1 h5
    have hi : inR inA A i = true := by rw [inR_some h6]; exact h3
    have hj : inB b = true := by rw [← inR_some (P := inB) h7, ← hin _ h4]; exact hi
    refine List.mem_map.2 ⟨(i, j), List.mem_filter.2 ⟨h4, hi⟩, ?_⟩
    exact Prod.ext (nodup_idx (hA.filter _) (get_part h6 h3) ha) (nodup_idx (hB.filter _) (get_part h7 hj) hb)
  · intro hm
    obtain ⟨⟨i, j⟩, h1, h2⟩ := List.mem_map.1 hm
    obtain ⟨h3, h4⟩ := List.mem_filter.1 h1
    obtain ⟨a, b, h5, h6, h7, h8⟩ := hw _ h3 h4
    have h9 : (a, b) ∈ links'.filterMap (obsOf (A.filter inA) (B.filter inB)) :=
      hp.mem_iff.2 (List.mem_filter.2 ⟨List.mem_filterMap.2 ⟨(i, j), h3, obsOf_iff.2 ⟨h5, h6⟩⟩, h7⟩)
    obtain ⟨⟨i2, j2⟩, h10, h11⟩ := List.mem_filterMap.1 h9
    obtain ⟨h12, h13⟩ := obsOf_iff.1 h11
    have e1 := nodup_idx (hA.filter _) (get_part h5 h7) h12
    have e2 := nodup_idx (hB.filter _) (get_part h6 h8) h13
    rw [← h2]
    simp only at e1 e2 ⊢
    rw [e1, e2]
    exact h10

/-! ### The default tracker -/

/-- **C214** the default tracker is local when the region is at more than 125 km of the rest. -/
theorem default_local_at {P : RObs → Bool} {round : ℝ → Rat} {n : Nat} {p c : List RObs} (h : Regular p c)
    (hreg : ∀ a ∈ p, ∀ b ∈ c, km a b < 125 → P a = P b) : LocalAt P (defaultCfg round n).tracking p c := by
  obtain ⟨links, e, _, hl⟩ := default_tracking_local h
  obtain ⟨links', e', hp⟩ := hl P P hreg
  obtain ⟨l1, x1, n1, _, hk, _⟩ := default_tracking_partial p c h.lat0 h.lat1 h.size
  rw [e] at x1; cases x1
  obtain ⟨l2, x2, n2, _, _, _⟩ := default_tracking_partial (p.filter P) (c.filter P) (fun a ha => h.lat0 a (List.mem_filter.1 ha).1)
    (fun a ha => h.lat1 a (List.mem_filter.1 ha).1) (fun a ha => h.size a (List.mem_filter.1 ha).1)
  rw [e'] at x2; cases x2
  obtain ⟨s, v⟩ := default_rows (show trackingDefault _ _ _ _ = .ok links from e)
  obtain ⟨s', v'⟩ := default_rows (show trackingDefault _ _ _ _ = .ok links' from e')
  have hin : ∀ m ∈ links, inR P p m.1 = inR P c m.2 := by
    rintro ⟨i, j⟩ hm
    obtain ⟨a, b, ha, hb, hkm⟩ := hk i j hm
    rw [inR_some ha, inR_some hb]
    exact hreg a (List.mem_of_getElem? ha) b (List.mem_of_getElem? hb) hkm
  have hrows := rows_part h.nodup0 h.nodup1 (strict_rows s n1) (strict_rows s' n2) v v' hin hp
  have ht : (defaultCfg round n).tracking p c = links.map (fun l => (l.1, l.2, ((defaultCosts p c l.1 l.2).map round).getD 0)) := by
    simp only [defaultCfg, e]
  refine ⟨?_, ?_, ?_⟩
  · intro m hm
    rw [ht] at hm
    obtain ⟨l, hl, rfl⟩ := List.mem_map.1 hm
    exact (v l hl).2
  · intro m hm
    rw [ht] at hm
    obtain ⟨l, hl, rfl⟩ := List.mem_map.1 hm
    exact hin l hl
  · rw [ht]
    simp only [defaultCfg, e']
    rw [hrows, List.map_map, List.filter_map, List.map_map]
    refine List.map_congr_left (fun l hl => ?_)
    obtain ⟨h1, h2⟩ := List.mem_filter.1 hl
    obtain ⟨a, b, ha, hb, _⟩ := hk l.1 l.2 h1
    have h2 : inR P p l.1 = true := h2
    have pa : P a = true := by rw [← inR_some (P := P) ha]; exact h2
    have pb : P b = true := by rw [← inR_some (P := P) hb, ← hin l h1]; exact h2
    simp only [Function.comp, defaultCosts]
    rw [get_part ha pa, get_part hb pb, ha, hb]

theorem apart_local {P : RObs → Bool} {round : ℝ → Rat} {n : Nat} : ∀ {fs : List (List RObs)} {s : St RObs (ℝ × ℝ)}, ApartRun P round n s fs →
    LocalRun P (defaultCfg round n) s fs
  | [], _, _ => trivial
  | _ :: _, _, h => ⟨fun u p h1 h2 => default_local_at (h.1 u p h1 h2).1 (h.1 u p h1 h2).2,
      fun s' hs => ⟨fun hv => (h.2 s' hs).1 (of_decide_eq_true hv), apart_local (h.2 s' hs).2⟩⟩

/-- **C214** the tracks of a region at more than 125 km of the rest at each date: the default tracking of the files of the region gives the tables of the
whole ocean restricted to the region. -/
theorem default_region {P : RObs → Bool} {round : ℝ → Rat} {n : Nat} {f : List RObs} {rest : List (List RObs)}
    (h : ApartRun P round n (swap init f) rest) {s : St RObs (ℝ × ℝ)} (hs : track (defaultCfg round n) (f :: rest) = some s) :
    ∃ (t : St RObs (ℝ × ℝ)) (G : Nat → Bool) (ctx : List (Ctx RObs)),
      track (defaultCfg round n) ((f :: rest).map (List.filter P)) = some t ∧ Restricted P (f :: rest) s t G ctx :=
  track_region (apart_local h) hs

/-! ### The tracker by area -/

theorem filter_contours {P : Position × List Pt → Bool} : ∀ {p : List (Position × List Pt)}, (p.map (·.2)).Nodup →
    ∃ q : List Pt → Bool, (∀ a ∈ p, q a.2 = P a) ∧ (p.filter P).map (·.2) = (p.map (·.2)).filter q := by
  intro p hn
  classical
  have hq : ∀ a ∈ p, (decide (∃ b ∈ p, b.2 = a.2 ∧ P b = true)) = P a := by
    intro a ha
    cases hPa : P a with
    | true => exact decide_eq_true ⟨a, ha, rfl, hPa⟩
    | false =>
      refine decide_eq_false ?_
      rintro ⟨b, hb, e, hPb⟩
      have := List.inj_on_of_nodup_map hn hb ha e
      rw [this, hPa] at hPb
      cases hPb
  refine ⟨fun c => decide (∃ b ∈ p, b.2 = c ∧ P b = true), hq, ?_⟩
  rw [List.filter_map]
  congr 1
  exact List.filter_congr (fun a ha => (hq a ha).symm)

/-- Rows of the links by area. -/
theorem area_rows {g : Areas} {cmin : Rat} {A B : List (List Pt)} {links : List (Nat × Nat × Option Rat)} (h : areaTracking g cmin A B = .ok links) :
    ∃ base : List (Nat × Nat), links = base.map (fun p => (p.1, p.2, areaCosts g cmin A B p.1 p.2)) ∧ base.Pairwise (fun a b => a.1 < b.1) ∧
      (∀ m ∈ base, m.1 < A.length ∧ m.2 < B.length) ∧
      trackingDefault A.length B.length (fun i j => (areaCosts g cmin A B i j).isSome) (areaCosts g cmin A B) = .ok base := by
  unfold areaTracking at h
  simp only at h
  split at h
  · cases h
  · next base e =>
    injection h with h
    obtain ⟨s, v⟩ := default_rows e
    obtain ⟨l, x, _, n1, _⟩ := tracking_links_one_to_one A.length B.length (fun i j => (areaCosts g cmin A B i j).isSome) (areaCosts g cmin A B)
      (fun i j => areaCosts_lt) (fun i j h => Option.isSome_iff_exists.1 h)
    rw [e] at x; cases x
    exact ⟨base, h.symm, strict_rows s n1, v, e⟩

/-- **C214** the tracker by area is local when no contour of the region would be linked alone with one outside. -/
theorem area_local_at {P : Position × List Pt → Bool} {g : Areas} {cmin : Rat} {n : Nat} {p c : List (Position × List Pt)}
    (h : Plain g cmin (p.map (·.2)) (c.map (·.2))) (hreg : ∀ a ∈ p, ∀ b ∈ c, alone g cmin a.2 b.2 ≠ none → P a = P b) :
    LocalAt P (areaRunCfg g cmin n).tracking p c := by
  obtain ⟨q0, k0, f0⟩ := filter_contours (P := P) h.nodup0
  obtain ⟨q1, k1, f1⟩ := filter_contours (P := P) h.nodup1
  obtain ⟨links, e, _, hl⟩ := area_tracking_local h
  obtain ⟨links', e', hp⟩ := hl q0 q1 (by
    intro x hx y hy hxy
    obtain ⟨a, ha, rfl⟩ := List.mem_map.1 hx
    obtain ⟨b, hb, rfl⟩ := List.mem_map.1 hy
    rw [k0 a ha, k1 b hb]
    exact hreg a ha b hb hxy)
  obtain ⟨l1, x1, hk⟩ := area_tracking_alone g cmin (p.map (·.2)) (c.map (·.2))
  rw [e] at x1; cases x1
  obtain ⟨base, b1, b2, b3, b4⟩ := area_rows e
  obtain ⟨base', b1', b2', b3', b4'⟩ := area_rows e'
  have hR : ∀ (q : List Pt → Bool) (l : List (Position × List Pt)), (∀ a ∈ l, q a.2 = P a) → inR q (l.map (·.2)) = inR P l := by
    intro q l hq
    funext i
    unfold inR
    rw [List.getElem?_map]
    cases hi : l[i]? with
    | none => rfl
    | some a => exact hq a (List.mem_of_getElem? hi)
  have hb : ∀ m ∈ base, ∃ a b, p[m.1]? = some a ∧ c[m.2]? = some b ∧ P a = P b := by
    intro m hm
    obtain ⟨x, y, hx, hy, _, hal⟩ := hk m.1 m.2 _ (by rw [b1]; exact List.mem_map.2 ⟨m, hm, rfl⟩)
    rw [List.getElem?_map] at hx hy
    obtain ⟨a, ha, rfl⟩ := Option.map_eq_some_iff.1 hx
    obtain ⟨b, hb, rfl⟩ := Option.map_eq_some_iff.1 hy
    exact ⟨a, b, ha, hb, hreg a (List.mem_of_getElem? ha) b (List.mem_of_getElem? hb) hal⟩
  have hin : ∀ m ∈ base, inR P p m.1 = inR P c m.2 := by
    intro m hm
    obtain ⟨a, b, ha, hb, hab⟩ := hb m hm
    rw [inR_some ha, inR_some hb, hab]
  have hcon : ∀ (A B : List (List Pt)) (bs : List (Nat × Nat)), ((bs.map (fun p => (p.1, p.2, areaCosts g cmin A B p.1 p.2))).filterMap (contoursOf A B)).map
      (fun t => (t.1, t.2.1)) = bs.filterMap (obsOf A B) := by
    intro A B bs
    rw [List.filterMap_map, List.map_filterMap]
    refine List.filterMap_congr (fun m _ => ?_)
    simp only [Function.comp, contoursOf, obsOf]
    cases A[m.1]? <;> cases B[m.2]? <;> rfl
  have hp2 : (base'.filterMap (obsOf ((p.map (·.2)).filter q0) ((c.map (·.2)).filter q1))).Perm
      ((base.filterMap (obsOf (p.map (·.2)) (c.map (·.2)))).filter (fun t => q0 t.1)) := by
    have hf : ∀ L : List (List Pt × List Pt × Option Rat), (L.map (fun t => (t.1, t.2.1))).filter (fun t => q0 t.1) =
        (L.filter (fun t => q0 t.1)).map (fun t => (t.1, t.2.1)) := fun L => List.filter_map ..
    rw [← hcon, ← hcon, ← b1, ← b1', hf]
    exact hp.map _
  have hrows := rows_part (inA := q0) (inB := q1) h.nodup0 h.nodup1 b2 b2' b3 b3' (by
    intro m hm
    rw [hR q0 p k0, hR q1 c k1]
    exact hin m hm) hp2
  rw [hR q0 p k0, hR q1 c k1] at hrows
  have ht : (areaRunCfg g cmin n).tracking p c = base.map (fun l => (l.1, l.2, (areaCosts g cmin (p.map (·.2)) (c.map (·.2)) l.1 l.2).getD 0)) := by
    simp only [areaRunCfg, areaCfg, e, b1, List.map_map]
    rfl
  refine ⟨?_, ?_, ?_⟩
  · intro m hm
    rw [ht] at hm
    obtain ⟨l, hl, rfl⟩ := List.mem_map.1 hm
    simpa using (b3 l hl).2
  · intro m hm
    rw [ht] at hm
    obtain ⟨l, hl, rfl⟩ := List.mem_map.1 hm
    exact hin l hl
  · rw [ht]
    simp only [areaRunCfg, areaCfg, f0, f1, e', b1', List.map_map]
    rw [hrows, List.map_map, List.filter_map (l := base), List.map_map]
    refine List.map_congr_left (fun l hl => ?_)
    obtain ⟨h1, h2⟩ := List.mem_filter.1 hl
    obtain ⟨a, b, ha, hb, hab⟩ := hb l h1
    have h2 : inR P p l.1 = true := h2
    have pa : P a = true := by rw [← inR_some (P := P) ha]; exact h2
    have pb : P b = true := by rw [← hab]; exact pa
    simp only [Function.comp, areaCosts_cell, ← f0, ← f1, List.getElem?_map]
    rw [get_part ha pa, get_part hb pb, ha, hb]

theorem apart_areas {P : Position × List Pt → Bool} {g : Areas} {cmin : Rat} {n : Nat} : ∀ {fs : List (List (Position × List Pt))}
    {s : St (Position × List Pt) Position}, ApartAreas P g cmin n s fs → LocalRun P (areaRunCfg g cmin n) s fs
  | [], _, _ => trivial
  | _ :: _, _, h => ⟨fun u p h1 h2 => area_local_at (h.1 u p h1 h2).1 (h.1 u p h1 h2).2,
      fun s' hs => ⟨fun hv => (h.2 s' hs).1 (of_decide_eq_true hv), apart_areas (h.2 s' hs).2⟩⟩

/-- **C214** the tracks of a region whose contours meet none outside: the tracking by area of the files of the region gives the tables of the whole ocean
restricted to the region. -/
theorem area_region {P : Position × List Pt → Bool} {g : Areas} {cmin : Rat} {n : Nat} {f : List (Position × List Pt)}
    {rest : List (List (Position × List Pt))} (h : ApartAreas P g cmin n (swap init f) rest) {s : St (Position × List Pt) Position}
    (hs : track (areaRunCfg g cmin n) (f :: rest) = some s) :
    ∃ (t : St (Position × List Pt) Position) (G : Nat → Bool) (ctx : List (Ctx (Position × List Pt))),
      track (areaRunCfg g cmin n) ((f :: rest).map (List.filter P)) = some t ∧ Restricted P (f :: rest) s t G ctx :=
  track_region (apart_areas h) hs

/-! ### Examples -/

/-- Two dates with an eddy at the equator and one at 60 degrees; the amplitude of the second one changes. -/
noncomputable def exFirst : List RObs := [⟨0, 0, 1, 1⟩, ⟨0, 60, 1, 1⟩]

@[inherit_doc exFirst]
noncomputable def exSecond : List RObs := [⟨0, 0, 1, 1⟩, ⟨0, 60, 2, 1⟩]

/-- The north. -/
noncomputable def north (o : RObs) : Bool := by
  classical
  exact decide (30 ≤ o.lat)

theorem km_far {p q : RObs} (hl : p.lon = q.lon) (hd : |q.lat - p.lat| = 60) : ¬ km p q < 125 := by
  rw [← distance_km, hl, Sphere.distance_meridian _ _ _ (by rw [hd]; norm_num), hd]
  have := Real.two_le_pi
  rw [not_lt]
  nlinarith

theorem km_same {p q : RObs} (hl : p.lon = q.lon) (hd : q.lat = p.lat) : km p q = 0 := by
  rw [← distance_km, hl, hd, Sphere.distance_meridian _ _ _ (by simp)]
  simp

theorem ex_near {p q : RObs} (hp : p ∈ exFirst) (hq : q ∈ exSecond) (h : km p q < 125) :
    (p = ⟨0, 0, 1, 1⟩ ∧ q = ⟨0, 0, 1, 1⟩) ∨ (p = ⟨0, 60, 1, 1⟩ ∧ q = ⟨0, 60, 2, 1⟩) := by
  simp only [exFirst, exSecond, List.mem_cons, List.not_mem_nil, or_false] at hp hq
  rcases hp with rfl | rfl <;> rcases hq with rfl | rfl
  · exact Or.inl ⟨rfl, rfl⟩
  · exact absurd h (km_far rfl (by norm_num))
  · exact absurd h (km_far rfl (by norm_num))
  · exact Or.inr ⟨rfl, rfl⟩

theorem ex_regular : Regular exFirst exSecond := by
  refine ⟨?_, ?_, ?_, ?_, ?_, ?_⟩
  · simp only [exFirst, List.mem_cons, List.not_mem_nil, or_false]
    rintro p (rfl | rfl) <;> norm_num
  · simp only [exSecond, List.mem_cons, List.not_mem_nil, or_false]
    rintro p (rfl | rfl) <;> norm_num
  · simp only [exFirst, List.mem_cons, List.not_mem_nil, or_false]
    rintro p (rfl | rfl) <;> norm_num
  · simp [exFirst]
  · simp [exSecond]
  · intro a ha b hb a' ha' b' hb' h1 h2 e
    have c1 : change ⟨0, 0, 1, 1⟩ ⟨0, 0, 1, 1⟩ = 0 := by
      unfold change
      rw [km_same rfl rfl]
      norm_num
    have c2 : change ⟨0, 60, 1, 1⟩ ⟨0, 60, 2, 1⟩ = 1 := by
      unfold change
      rw [km_same (p := ⟨0, 60, 1, 1⟩) (q := ⟨0, 60, 2, 1⟩) rfl rfl]
      norm_num
    rcases ex_near ha hb (near125_iff.1 h1) with ⟨rfl, rfl⟩ | ⟨rfl, rfl⟩ <;>
      rcases ex_near ha' hb' (near125_iff.1 h2) with ⟨rfl, rfl⟩ | ⟨rfl, rfl⟩
    · exact ⟨rfl, rfl⟩
    · rw [c1, c2] at e; norm_num at e
    · rw [c1, c2] at e; norm_num at e
    · exact ⟨rfl, rfl⟩

/-- The north is far from the rest at each date. -/
example (round : ℝ → Rat) : ApartRun north round 2 (swap init exFirst) [exSecond] := by
  refine ⟨fun u p h1 h2 => ?_, fun s' hs => ⟨fun _ => ?_, trivial⟩⟩
  · obtain rfl : swap (swap init exFirst) exSecond = u := Option.some.inj h1
    obtain rfl : exFirst = p := Option.some.inj h2
    refine ⟨ex_regular, fun a ha b hb h => ?_⟩
    rcases ex_near ha hb h with ⟨rfl, rfl⟩ | ⟨rfl, rfl⟩ <;> norm_num [north]
  · have hc : s'.corrs.length = 1 ∧ s'.prevVirtualObs = none := by
      have := Option.some.inj hs
      rw [← this]
      exact ⟨rfl, rfl⟩
    refine ⟨fun c1 c2 rest p2 p h => ?_, fun c1 rest vs _ h => ?_⟩
    · rw [h] at hc
      simp at hc
    · rw [hc.2] at h
      cases h

/-- Two contours at each date, far from one another; the areas say that the contours of the same place have a half in common. -/
def regionAreas : Areas := ⟨fun _ => 6, fun c _ => if c = [(0, 0), (2, 0), (0, 2)] then 4 else 3⟩

def exOld : List (Position × List Pt) := [((0, 0), [(0, 0), (2, 0), (0, 2)]), ((10, 0), [(10, 0), (12, 0), (10, 2)])]

def exNew : List (Position × List Pt) := [((0, 0), [(0, 0), (1, 0), (0, 2)]), ((10, 0), [(10, 0), (11, 0), (10, 2)])]

/-- The tracks of the east are those of the whole ocean: the second track has the number 1 in the ocean and 0 in the region. -/
example : (track (areaRunCfg regionAreas 0 0) [exOld, exNew]).map (fun s => s.corrs.map (fun c => c.map (fun l => (l.inp, l.out, l.id)))) =
      some [[(0, 0, 0), (1, 1, 1)]] ∧
    (track (areaRunCfg regionAreas 0 0) ([exOld, exNew].map (List.filter (fun o => decide (5 ≤ o.1.1))))).map (fun s => s.corrs.map (fun c => c.map
      (fun l => (l.inp, l.out, l.id)))) = some [[(0, 0, 0)]] := by
  constructor <;> decide +kernel

end Verif.Trackers
