import Verif.Trackers.Default
import Verif.Matching.Local

/-!
# C193: the links of the default tracker do not depend on the rows nor on the rest of the ocean

`Verif.Matching.Local` for `EddiesObservations.tracking` (src/py_eddy_tracker/observations/observation.py:1524-1546).
-/

namespace Verif.Trackers

open Matching

/-- At less than 125 km (observation.py:1287-1289). -/
noncomputable def near125 (p q : RObs) : Bool := by
  classical
  exact decide (km p q < 125)

/-- The hypotheses of C105, distinct observations and distinct changes. -/
structure Regular (self_ other : List RObs) : Prop where
  lat0 : ∀ p ∈ self_, |p.lat| ≤ 80
  lat1 : ∀ q ∈ other, |q.lat| ≤ 80
  size : ∀ p ∈ self_, p.amp ≠ 0 ∧ p.rad ≠ 0
  nodup0 : self_.Nodup
  nodup1 : other.Nodup
  distinct : Distinct near125 change self_ other

theorem near125_iff {p q : RObs} : near125 p q = true ↔ km p q < 125 := by simp [near125]

/-- The links of the default tracker are those of C193. -/
theorem default_links {self_ other : List RObs} (h : Regular self_ other) :
    ∃ links couples, defaultTracking self_ other = .ok links ∧ obsTracking near125 change self_ other = .ok couples ∧
      (links.filterMap (obsOf self_ other)).Perm couples := by
  obtain ⟨links, e, n1, n2, hl, hs⟩ := default_tracking_partial self_ other h.lat0 h.lat1 h.size
  obtain ⟨couples, e', n', hu⟩ := obs_best h.nodup0 h.nodup1 h.distinct
  have hm : ∀ p q, (p, q) ∈ links.filterMap (obsOf self_ other) ↔ ∃ i j, (i, j) ∈ links ∧ self_[i]? = some p ∧ other[j]? = some q := by
    intro p q
    rw [List.mem_filterMap]
    constructor
    · rintro ⟨⟨i, j⟩, hp, ho⟩
      exact ⟨i, j, hp, obsOf_iff.1 ho⟩
    · rintro ⟨i, j, hp, ho⟩
      exact ⟨(i, j), hp, obsOf_iff.2 ho⟩
  have inj1 : ∀ i j j', (i, j) ∈ links → (i, j') ∈ links → j = j' := fun i j j' h1 h2 =>
    congrArg Prod.snd (List.inj_on_of_nodup_map n1 h1 h2 rfl)
  have inj2 : ∀ i i' j, (i, j) ∈ links → (i', j) ∈ links → i = i' := fun i i' j h1 h2 =>
    congrArg Prod.fst (List.inj_on_of_nodup_map n2 h1 h2 rfl)
  have hb : Best near125 change self_ other (fun p q => (p, q) ∈ links.filterMap (obsOf self_ other)) := by
    refine ⟨fun p q hpq => ?_, fun p q q' h1 h2 => ?_, fun p p' q h1 h2 => ?_, fun p hp q hq hn _ => ?_⟩
    · obtain ⟨i, j, hij, hi, hj⟩ := (hm p q).1 hpq
      obtain ⟨p', q', hi', hj', hk⟩ := hl i j hij
      rw [hi] at hi'; cases hi'
      rw [hj] at hj'; cases hj'
      exact ⟨List.mem_of_getElem? hi, List.mem_of_getElem? hj, near125_iff.2 hk⟩
    · obtain ⟨i, j, hij, hi, hj⟩ := (hm _ _).1 h1
      obtain ⟨i', j', hij', hi', hj'⟩ := (hm _ _).1 h2
      obtain rfl := nodup_idx h.nodup0 hi hi'
      obtain rfl := inj1 _ _ _ hij hij'
      exact Option.some.inj (hj.symm.trans hj')
    · obtain ⟨i, j, hij, hi, hj⟩ := (hm _ _).1 h1
      obtain ⟨i', j', hij', hi', hj'⟩ := (hm _ _).1 h2
      obtain rfl := nodup_idx h.nodup1 hj hj'
      obtain rfl := inj2 _ _ _ hij hij'
      exact Option.some.inj (hi.symm.trans hi')
    · obtain ⟨i, hi⟩ := List.getElem?_of_mem hp
      obtain ⟨j, hj⟩ := List.getElem?_of_mem hq
      obtain ⟨i', j', p', q', a1, a2, a3, a4, a5⟩ := hs i j p q hi hj (near125_iff.1 hn)
      refine ⟨p', q', (hm _ _).2 ⟨i', j', a1, a2, a3⟩, ?_, a5⟩
      rcases a4 with rfl | rfl
      · exact Or.inl (Option.some.inj (a2.symm.trans hi))
      · exact Or.inr (Option.some.inj (a3.symm.trans hj))
  have hn : (links.filterMap (obsOf self_ other)).Nodup := by
    refine List.Nodup.filterMap ?_ (List.Nodup.of_map _ n1)
    intro x y t hx hy
    obtain ⟨h1, h2⟩ := obsOf_iff.1 hx
    obtain ⟨h3, h4⟩ := obsOf_iff.1 hy
    exact Prod.ext (nodup_idx h.nodup0 h1 h3) (nodup_idx h.nodup1 h2 h4)
  refine ⟨links, couples, e, e', (List.perm_ext_iff_of_nodup hn n').2 fun t => ?_⟩
  exact (hu _).1 hb t.1 t.2

/-- **C193** (default tracker): the couples of observations which are linked do not depend on the order of the rows; in a region such that
no observation inside is at less than 125 km of one outside, they are the couples of the whole ocean which are in the region. -/
theorem default_tracking_local {self_ other : List RObs} (h : Regular self_ other) :
    ∃ links, defaultTracking self_ other = .ok links ∧
      (∀ self' other' : List RObs, self_.Perm self' → other.Perm other' → ∃ links', defaultTracking self' other' = .ok links' ∧
        (links'.filterMap (obsOf self' other')).Perm (links.filterMap (obsOf self_ other))) ∧
      ∀ in0 in1 : RObs → Bool, (∀ p ∈ self_, ∀ q ∈ other, km p q < 125 → in0 p = in1 q) →
        ∃ links', defaultTracking (self_.filter in0) (other.filter in1) = .ok links' ∧
          (links'.filterMap (obsOf (self_.filter in0) (other.filter in1))).Perm
            ((links.filterMap (obsOf self_ other)).filter (fun t => in0 t.1)) := by
  obtain ⟨links, couples, e1, e2, hp⟩ := default_links h
  refine ⟨links, e1, fun self' other' p0 p1 => ?_, fun in0 in1 hreg => ?_⟩
  · have h' : Regular self' other' := ⟨fun p hp => h.lat0 p (p0.mem_iff.2 hp), fun q hq => h.lat1 q (p1.mem_iff.2 hq),
      fun p hp => h.size p (p0.mem_iff.2 hp), p0.nodup_iff.1 h.nodup0, p1.nodup_iff.1 h.nodup1,
      fun a ha x hx a' ha' x' hx' => h.distinct a (p0.mem_iff.2 ha) x (p1.mem_iff.2 hx) a' (p0.mem_iff.2 ha') x' (p1.mem_iff.2 hx')⟩
    obtain ⟨links', couples', e1', e2', hp'⟩ := default_links h'
    obtain ⟨c, c', x1, x2, x3⟩ := tracking_order h.nodup0 h.nodup1 h.distinct p0 p1
    rw [e2] at x1; cases x1
    rw [e2'] at x2; cases x2
    exact ⟨links', e1', (hp'.trans x3.symm).trans hp.symm⟩
  · have h' : Regular (self_.filter in0) (other.filter in1) := ⟨fun p hp => h.lat0 p (List.mem_filter.1 hp).1,
      fun q hq => h.lat1 q (List.mem_filter.1 hq).1, fun p hp => h.size p (List.mem_filter.1 hp).1, h.nodup0.filter _, h.nodup1.filter _,
      fun a ha x hx a' ha' x' hx' => h.distinct a (List.mem_filter.1 ha).1 x (List.mem_filter.1 hx).1 a' (List.mem_filter.1 ha').1 x'
        (List.mem_filter.1 hx').1⟩
    obtain ⟨links', couples', e1', e2', hp'⟩ := default_links h'
    obtain ⟨c, x1, c', x2, x3⟩ := tracking_local h.nodup0 h.nodup1 h.distinct in0 in1 (fun p hp q hq hn => hreg p hp q hq (near125_iff.1 hn))
    rw [e2] at x1; cases x1
    rw [e2'] at x2; cases x2
    exact ⟨links', e1', (hp'.trans x3).trans ((hp.filter _).symm)⟩

/-- One observation at each date. -/
example : Regular [⟨0, 0, 1, 1⟩] [⟨0, 0, 1, 1⟩] := by
  refine ⟨by simp, by simp, by simp, by simp, by simp, ?_⟩
  intro a ha b hb a' ha' b' hb' _ _ _
  rw [List.mem_singleton] at ha hb ha' hb'
  rw [ha, hb, ha', hb']
  exact ⟨rfl, rfl⟩

end Verif.Trackers
