import Verif.Particles.Model
import Verif.Targets.Props
import Verif.Extract.Props
import Verif.Lines.Window

/-!
# Property C95: particles of the eddies
-/

namespace Verif.Particles

open Verif.Targets
open Verif.Poly (Pt winding)
open Classical

/-! ### Specification -/

/-- The first contour of the list which contains the point. -/
def FirstIn (l : List (List Pt)) (q : Pt) (j : Nat) : Prop :=
  ∃ c, l[j]? = some c ∧ Poly.Contains c q ∧ ∀ (j' : Nat) (c' : List Pt), j' < j → l[j']? = some c' → ¬ Poly.Contains c' q

/-- The points of the mesh in a contour. -/
structure IsMesh (step : Rat) (c : List Pt) (pts : List Pt) : Prop where
  nodup : pts.Nodup
  mem : ∀ p, p ∈ pts ↔ Poly.OnMesh step p ∧ winding p c ≠ 0

/-- Number of points whose particle ends in something. -/
noncomputable def landed (flow : Pt → Option Pt) (pts : List Pt) (P : Pt → Prop) : Nat := pts.countP (fun p => decide (∃ q, flow p = some q ∧ P q))

/-! ### Particles -/

theorem firstIn_unique {l : List (List Pt)} {q : Pt} {i j : Nat} (hi : FirstIn l q i) (hj : FirstIn l q j) : i = j := by
  obtain ⟨c, h1, h2, h3⟩ := hi
  obtain ⟨d, k1, k2, k3⟩ := hj
  rcases lt_trichotomy i j with h | h | h
  · exact absurd h2 (k3 i c h h1)
  · exact h
  · exact absurd k2 (h3 j d h k1)

/-- Number of the contour where a particle ends. -/
noncomputable def dest (l : List (List Pt)) (o : Option Pt) : Int := if h : ∃ j : Nat, ∃ q, o = some q ∧ FirstIn l q j then ((Classical.choose h : Nat) : Int) else -1

theorem dest_eq {l : List (List Pt)} {o : Option Pt} (j : Nat) : dest l o = (j : Int) ↔ ∃ q, o = some q ∧ FirstIn l q j := by
  unfold dest
  constructor
  · intro h
    split at h
    · rename_i hex
      have := Classical.choose_spec hex
      have e : Classical.choose hex = j := by omega
      rwa [e] at this
    · omega
  · rintro ⟨q, ho, hj⟩
    have hex : ∃ j : Nat, ∃ q, o = some q ∧ FirstIn l q j := ⟨j, q, ho, hj⟩
    rw [dif_pos hex]
    obtain ⟨q', ho', hj'⟩ := Classical.choose_spec hex
    rw [ho] at ho'
    cases ho'
    rw [firstIn_unique hj' hj]

theorem contains_dest {argsort : List Int → List Nat} (ha : Extract.Sorting argsort) (pts : List (Option Pt)) {l : List (List Pt)}
    (hreg : ∀ c ∈ l, Poly.Regular c) : Extract.contains argsort pts l = some (pts.map (dest l)) := by
  obtain ⟨res, e, hl, h⟩ := Extract.contains_partial ha pts l hreg
  rw [e]
  congr 1
  apply List.ext_getElem?
  intro i
  by_cases hi : i < pts.length
  · have e1 := List.getElem?_eq_getElem hi
    rw [List.getElem?_map, e1, Option.map_some]
    rcases h i _ e1 with ⟨h1, h2⟩ | ⟨p, m, c, ho, h1, h2, h3, h4⟩
    · rw [h1]
      congr 1
      unfold dest
      rw [dif_neg]
      rintro ⟨j, q, ho, c, hc, hc', _⟩
      exact h2 q ho c (List.mem_of_getElem? hc) hc'
    · rw [h1]
      congr 1
      exact ((dest_eq m).2 ⟨p, ho, c, h2, h3, h4⟩).symm
  · rw [List.getElem?_eq_none (by omega), List.getElem?_eq_none (by simp; omega)]

/-- The particles of each first contour are the points of the mesh in it, and they are counted in the first contour which contains them at the end. -/
theorem particles_spec {argsort : List Int → List Nat} (ha : Extract.Sorting argsort) {step : Rat} (hs : 0 < step) (flow : Pt → Option Pt)
    {cs ce : List (List Pt)} (hv : ∀ c ∈ cs, ∃ u ∈ c, ∃ w ∈ c, u ≠ w) (hreg : ∀ c ∈ ce, Poly.Regular c) :
    ∃ parts, particles argsort step flow cs ce = some parts ∧ InRange parts cs.length ce.length ∧
      ∀ (i : Nat) (c : List Pt), cs[i]? = some c → ∃ pts, IsMesh step c pts ∧ started parts i = pts.length ∧
        ∀ j, moved parts i j = landed flow pts (fun q => FirstIn ce q j) := by
  obtain ⟨out, e, nd, hmem⟩ := Poly.meshed_particles_partial hs cs hv
  have hp : particles argsort step flow cs ce = some (out.map (fun x => (x.2, dest ce (flow x.1)))) := by
    unfold particles
    rw [e]
    simp only [Option.bind_some, contains_dest ha _ hreg, Option.map_some, List.map_map]
    rw [List.zip_map']
    rfl
  refine ⟨_, hp, ?_, ?_⟩
  · intro x hx
    obtain ⟨⟨p, i⟩, hpi, rfl⟩ := List.mem_map.1 hx
    obtain ⟨c, hc, _⟩ := (hmem p i).1 hpi
    refine ⟨(List.getElem?_eq_some_iff.1 hc).1, ?_⟩
    simp only
    by_cases hd : ∃ j : Nat, dest ce (flow p) = j
    · obtain ⟨j, hj⟩ := hd
      obtain ⟨q, _, c', hc', _⟩ := (dest_eq j).1 hj
      right
      rw [hj]
      have := (List.getElem?_eq_some_iff.1 hc').1
      omega
    · left
      unfold dest at hd ⊢
      split
      · rename_i hex
        rw [dif_pos hex] at hd
        exact absurd ⟨_, rfl⟩ hd
      · rfl
  · intro i c hc
    have hfm : ∀ (P : Pt → Bool), out.countP (fun x => decide (x.2 = i) && P x.1) = ((out.filter (fun x => decide (x.2 = i))).map (·.1)).countP P := by
      intro P
      rw [List.countP_map, List.countP_filter]
      apply List.countP_congr
      intro x _
      simp only [Function.comp, Bool.and_eq_true, and_comm]
    refine ⟨(out.filter (fun x => decide (x.2 = i))).map (·.1), ⟨?_, ?_⟩, ?_, ?_⟩
    · refine List.Nodup.map_on ?_ (nd.filter _)
      intro x hx y hy hxy
      rw [List.mem_filter, decide_eq_true_eq] at hx hy
      exact Prod.ext hxy (hx.2.trans hy.2.symm)
    · intro p
      rw [List.mem_map]
      constructor
      · rintro ⟨⟨p', i'⟩, hx, rfl⟩
        rw [List.mem_filter, decide_eq_true_eq] at hx
        obtain ⟨c', hc', h1, h2⟩ := (hmem _ _).1 hx.1
        simp only at hx
        rw [hx.2, hc] at hc'
        cases hc'
        exact ⟨h1, h2⟩
      · rintro ⟨h1, h2⟩
        exact ⟨(p, i), List.mem_filter.2 ⟨(hmem p i).2 ⟨c, hc, h1, h2⟩, by simp⟩, rfl⟩
    · unfold started
      rw [List.countP_map, List.length_map, ← List.countP_eq_length_filter]
      rfl
    · intro j
      unfold moved landed
      rw [List.countP_map, ← hfm]
      apply List.countP_congr
      intro x _
      simp only [Function.comp, decide_eq_true_eq, Bool.and_eq_true, dest_eq]

/-! ### Targets in rows of the dataset -/

theorem TopTwo.reindex {st : Rat → Rat} {tr : Nat → Int} {cand cand' : Nat → Prop} {v v' : Nat → Rat} {r : Row} (h : TopTwo st tr cand v r) {f : Nat → Nat}
    (htr : ∀ j, cand j → tr j = (f j : Int)) (h1 : ∀ j, cand j → cand' (f j) ∧ v' (f j) = v j) (h2 : ∀ k, cand' k → ∃ j, cand j ∧ f j = k) :
    TopTwo st (fun k => (k : Int)) cand' v' r := by
  constructor
  · rcases h.first with ⟨a, b, c⟩ | ⟨j, a, b, c, d⟩
    · exact Or.inl ⟨a, b, fun k hk => by obtain ⟨j, hj, _⟩ := h2 k hk; exact c j hj⟩
    · refine Or.inr ⟨f j, by rw [a, htr j b], (h1 j b).1, by rw [c, (h1 j b).2], fun k hk => ?_⟩
      obtain ⟨j', hj', rfl⟩ := h2 k hk
      rw [(h1 j' hj').2]
      exact d j' hj'
  · rcases h.second with ⟨a, b, c⟩ | ⟨j, a, a', b, c, d⟩
    · refine Or.inl ⟨a, b, fun k hk => ?_⟩
      obtain ⟨j', hj', rfl⟩ := h2 k hk
      rw [← htr j' hj']
      exact c j' hj'
    · refine Or.inr ⟨f j, by rw [a, htr j b], a', (h1 j b).1, by rw [c, (h1 j b).2], fun k hk hne => ?_⟩
      obtain ⟨j', hj', rfl⟩ := h2 k hk
      rw [(h1 j' hj').2]
      rw [← htr j' hj'] at hne
      exact d j' hj' hne

/-- Row `k` is the first of the rows `te` whose contour contains the point. -/
def LandsIn (eddies : List Eddy) (te : List Nat) (q : Pt) (k : Nat) : Prop :=
  ∃ (j : Nat) (e : Eddy), te[j]? = some k ∧ eddies[k]? = some e ∧ Poly.Contains e.stop q ∧
    ∀ (j' k' : Nat) (e' : Eddy), j' < j → te[j']? = some k' → eddies[k']? = some e' → ¬ Poly.Contains e'.stop q

/-- The line of a row of the dataset: the two rows of `te` which got most of the particles of its contour, with the percentages, -1 without. -/
def IsTarget (st : Rat → Rat) (step : Rat) (flow : Pt → Option Pt) (eddies : List Eddy) (te : List Nat) (c : List Pt) (r : Row) : Prop :=
  ∃ pts, IsMesh step c pts ∧ TopTwo st (fun k => (k : Int)) (fun k => landed flow pts (fun q => LandsIn eddies te q k) ≠ 0)
    (fun k => (landed flow pts (fun q => LandsIn eddies te q k) : Rat) * 100 / (pts.length : Rat)) r

theorem filterMap_rows {eddies : List Eddy} {rows : List Nat} (h : ∀ k ∈ rows, k < eddies.length) :
    (rows.filterMap (fun k => eddies[k]?)).length = rows.length ∧
      ∀ (j k : Nat), rows[j]? = some k → (rows.filterMap (fun k => eddies[k]?))[j]? = eddies[k]? := by
  induction rows with
  | nil => simp
  | cons a l ih =>
    have ha := List.getElem?_eq_getElem (h a (by simp))
    obtain ⟨h1, h2⟩ := ih (fun k hk => h k (by simp [hk]))
    rw [List.filterMap_cons_some ha]
    refine ⟨by simp [h1], ?_⟩
    intro j k hj
    cases j with
    | zero => simp at hj; subst hj; simp [ha]
    | succ j => simpa using h2 j k (by simpa using hj)

theorem firstIn_lands {eddies : List Eddy} {te : List Nat} (hlt : ∀ k ∈ te, k < eddies.length) {j k : Nat} (hj : te[j]? = some k) (hnd : te.Nodup) (q : Pt) :
    FirstIn (stops eddies te) q j ↔ LandsIn eddies te q k := by
  obtain ⟨_, hm⟩ := filterMap_rows hlt
  have hst : ∀ (j k : Nat), te[j]? = some k → (stops eddies te)[j]? = (eddies[k]?).map (·.stop) := by
    intro j k h
    unfold stops
    rw [List.getElem?_map, hm j k h]
  have hlen : (stops eddies te).length = te.length := by unfold stops; rw [List.length_map]; exact (filterMap_rows hlt).1
  have hu : ∀ j', te[j']? = some k → j' = j := by
    intro j' h
    exact (List.getElem?_inj (List.getElem?_eq_some_iff.1 h).1 hnd).1 (h.trans hj.symm)
  constructor
  · rintro ⟨c, h1, h2, h3⟩
    rw [hst j k hj] at h1
    obtain ⟨e, he, rfl⟩ := Option.map_eq_some_iff.1 h1
    refine ⟨j, e, hj, he, h2, ?_⟩
    intro j' k' e' hlt' hj' he'
    exact h3 j' e'.stop hlt' (by rw [hst j' k' hj', he']; rfl)
  · rintro ⟨j0, e, h0, he, h2, h3⟩
    obtain rfl := hu j0 h0
    refine ⟨e.stop, by rw [hst j0 k hj, he]; rfl, h2, ?_⟩
    intro j' c' hlt' hc'
    have hj'l : j' < te.length := by rw [← hlen]; exact (List.getElem?_eq_some_iff.1 hc').1
    have e1 := List.getElem?_eq_getElem hj'l
    rw [hst j' _ e1] at hc'
    obtain ⟨e', he', rfl⟩ := Option.map_eq_some_iff.1 hc'
    exact h3 j' _ e' hlt' e1 he'

/-- Contours for which the functions are meant. -/
structure Good (eddies : List Eddy) : Prop where
  start : ∀ e ∈ eddies, ∃ u ∈ e.start, ∃ w ∈ e.start, u ≠ w
  stop : ∀ e ∈ eddies, Poly.Regular e.stop

theorem good_starts {eddies : List Eddy} (hg : Good eddies) (rows : List Nat) : ∀ c ∈ starts eddies rows, ∃ u ∈ c, ∃ w ∈ c, u ≠ w := by
  intro c hc
  unfold starts at hc
  obtain ⟨e, he, rfl⟩ := List.mem_map.1 hc
  obtain ⟨k, _, hk⟩ := List.mem_filterMap.1 he
  exact hg.start e (List.mem_of_getElem? hk)

theorem good_stops {eddies : List Eddy} (hg : Good eddies) (rows : List Nat) : ∀ c ∈ stops eddies rows, Poly.Regular c := by
  intro c hc
  unfold stops at hc
  obtain ⟨e, he, rfl⟩ := List.mem_map.1 hc
  obtain ⟨k, _, hk⟩ := List.mem_filterMap.1 he
  exact hg.stop e (List.mem_of_getElem? hk)

/-- From the local line to the rows of the dataset. -/
theorem target_of_local {st : Rat → Rat} {step : Rat} {flow : Pt → Option Pt} {eddies : List Eddy} {te : List Nat} (hlt : ∀ k ∈ te, k < eddies.length) (hnd : te.Nodup)
    {parts : List (Nat × Int)} {i : Nat} {c pts : List Pt} (hm : IsMesh step c pts) (hst : started parts i = pts.length)
    (hmv : ∀ j, moved parts i j = landed flow pts (fun q => FirstIn (stops eddies te) q j)) {r : Row}
    (h : TopTwo st (fun j => ((te.getD j 0 : Nat) : Int)) (fun j => j < te.length ∧ moved parts i j ≠ 0) (share parts i) r) :
    IsTarget st step flow eddies te c r := by
  have hmv' : ∀ (j k : Nat), te[j]? = some k → moved parts i j = landed flow pts (fun q => LandsIn eddies te q k) := by
    intro j k hj
    rw [hmv j]
    unfold landed
    apply List.countP_congr
    intro p _
    simp only [decide_eq_true_eq]
    constructor
    · rintro ⟨q, a, b⟩; exact ⟨q, a, (firstIn_lands hlt hj hnd q).1 b⟩
    · rintro ⟨q, a, b⟩; exact ⟨q, a, (firstIn_lands hlt hj hnd q).2 b⟩
  have hget : ∀ j, j < te.length → te[j]? = some (te.getD j 0) := by
    intro j hj
    rw [List.getD_eq_getElem?_getD, List.getElem?_eq_getElem hj]; rfl
  refine ⟨pts, hm, TopTwo.reindex h (f := fun j => te.getD j 0) (fun j _ => rfl) ?_ ?_⟩
  · rintro j ⟨hj, hne⟩
    have e := hmv' j _ (hget j hj)
    refine ⟨by rw [← e]; exact hne, ?_⟩
    unfold share
    rw [e, hst]
  · intro k hk
    have : ∃ j : Nat, te[j]? = some k := by
      by_contra hno
      apply hk
      unfold landed
      rw [List.countP_eq_zero]
      intro p _
      simp only [decide_eq_true_eq]
      rintro ⟨q, _, j, e, hj, _⟩
      exact hno ⟨j, hj⟩
    obtain ⟨j, hj⟩ := this
    have hjl := (List.getElem?_eq_some_iff.1 hj).1
    have hk' : te.getD j 0 = k := by
      have := hget j hjl
      rw [hj] at this
      exact (Option.some.inj this).symm
    exact ⟨j, ⟨hjl, by rw [hmv' j k hj]; exact hk⟩, hk'⟩

/-! ### particle_candidate -/

theorem mem_rowsAt {eddies : List Eddy} {t : Rat} {k : Nat} : k ∈ rowsAt eddies t ↔ ∃ e, eddies[k]? = some e ∧ e.time = t := by
  unfold rowsAt
  rw [List.mem_filter, List.mem_range, decide_eq_true_eq, Option.map_eq_some_iff]
  exact ⟨fun h => h.2, fun ⟨e, h1, h2⟩ => ⟨(List.getElem?_eq_some_iff.1 h1).1, e, h1, h2⟩⟩

theorem rowsAt_nodup (eddies : List Eddy) (t : Rat) : (rowsAt eddies t).Nodup := List.nodup_range.filter _

theorem rowsAt_lt {eddies : List Eddy} {t : Rat} : ∀ k ∈ rowsAt eddies t, k < eddies.length := by
  intro k hk
  obtain ⟨e, he, _⟩ := mem_rowsAt.1 hk
  exact (List.getElem?_eq_some_iff.1 he).1

theorem starts_get {eddies : List Eddy} {rows : List Nat} (hlt : ∀ k ∈ rows, k < eddies.length) {i k : Nat} {e : Eddy} (hi : rows[i]? = some k)
    (he : eddies[k]? = some e) : (starts eddies rows)[i]? = some e.start := by
  unfold starts
  rw [List.getElem?_map, (filterMap_rows hlt).2 i k hi, he]; rfl

/-- **C95** (`particle_candidate`): the line of a row of the first date holds the two rows of the last date which got most of the particles of its contour,
in row numbers of the dataset, with their percentages; the other lines are not changed. Missing: percentages without their fractions
(`get_matrix_int_wrong` of C55, `st` here), contours of more than 180 degrees or reduced to a point (C36, C78), a duration of zero day (`zero_days`). -/
theorem particle_candidate_partial {argsort : List Int → List Nat} (ha : Extract.Sorting argsort) {st : Rat → Rat} (hst : Store st) {step : Rat} (hs : 0 < step)
    (flow : Pt → Option Pt) {eddies : List Eddy} (hg : Good eddies) (t : Rat) {n : Int} (hn : n ≠ 0) {a : Nat → Row}
    (hinit : ∀ k ∈ rowsAt eddies t, a k = emptyRow) :
    ∃ b, particleCandidate argsort st step flow eddies t n a = some b ∧ ∀ (k : Nat) (e : Eddy), eddies[k]? = some e →
      (e.time = t → IsTarget st step flow eddies (rowsAt eddies (t + n)) e.start (b k)) ∧ (e.time ≠ t → b k = a k) := by
  obtain ⟨parts, hp, hin, hpt⟩ := particles_spec ha hs flow (good_starts hg (rowsAt eddies t)) (good_stops hg (rowsAt eddies (t + n)))
  have l1 : (starts eddies (rowsAt eddies t)).length = (rowsAt eddies t).length := by
    unfold starts; rw [List.length_map]; exact (filterMap_rows rowsAt_lt).1
  have l2 : (stops eddies (rowsAt eddies (t + n))).length = (rowsAt eddies (t + n)).length := by
    unfold stops; rw [List.length_map]; exact (filterMap_rows rowsAt_lt).1
  rw [l1, l2] at hin
  obtain ⟨b, hb, hother, hrow⟩ := get_matrix_partial hst (rowsAt_nodup eddies t) (rowsAt_nodup eddies (t + n)) hin hinit
  refine ⟨b, by unfold particleCandidate; rw [if_neg hn, hp]; exact hb, ?_⟩
  intro k e he
  constructor
  · intro ht
    obtain ⟨i, hi⟩ := List.mem_iff_getElem?.1 (mem_rowsAt.2 ⟨e, he, ht⟩)
    obtain ⟨pts, hm, hs1, hs2⟩ := hpt i _ (starts_get rowsAt_lt hi he)
    exact target_of_local rowsAt_lt (rowsAt_nodup _ _) hm hs1 hs2 (hrow i k hi)
  · intro ht
    apply hother
    intro hk
    obtain ⟨e', he', ht'⟩ := mem_rowsAt.1 hk
    rw [he] at he'
    cases he'
    exact ht ht'

/-- A duration of zero day raises. -/
theorem zero_days (argsort : List Int → List Nat) (st : Rat → Rat) (step : Rat) (flow : Pt → Option Pt) (eddies : List Eddy) (t : Rat) (a : Nat → Row) :
    particleCandidate argsort st step flow eddies t 0 a = none := by
  unfold particleCandidate
  rw [if_pos rfl]

/-! ### segment_coherence_forward, segment_coherence_backward -/

theorem mem_dates {a b t : Int} : t ∈ dates a b ↔ a ≤ t ∧ t < b := by
  unfold dates
  rw [List.mem_map]
  constructor
  · rintro ⟨k, hk, rfl⟩
    rw [List.mem_range] at hk
    omega
  · rintro ⟨h1, h2⟩
    exact ⟨(t - a).toNat, by rw [List.mem_range]; omega, by omega⟩

theorem dates_nodup (a b : Int) : (dates a b).Nodup := by
  refine List.Nodup.map ?_ List.nodup_range
  intro x y h
  simp only at h
  omega

theorem coherenceLoop_spec {argsort : List Int → List Nat} (ha : Extract.Sorting argsort) {step : Rat} (hs : 0 < step) (flow : Int → Pt → Option Pt)
    {eddies : List Eddy} (hg : Good eddies) {n : Int} (hn : n ≠ 0) : ∀ (l : List Int) (a : Nat → Row), l.Nodup →
      (∀ (k : Nat) (e : Eddy) (t : Int), eddies[k]? = some e → t ∈ l → e.time = t → a k = emptyRow) →
      ∃ b, coherenceLoop argsort step flow eddies n l a = some b ∧ ∀ (k : Nat) (e : Eddy), eddies[k]? = some e →
        (∀ t : Int, t ∈ l → e.time = t → IsTarget trunc step (flow t) eddies (rowsAt eddies ((t : Rat) + n)) e.start (b k)) ∧
        ((∀ t : Int, t ∈ l → e.time ≠ t) → b k = a k)
  | [], a, _, _ => ⟨a, rfl, fun k e _ => ⟨fun t ht => by simp at ht, fun _ => rfl⟩⟩
  | t :: l, a, hnd, hinit => by
    rw [List.nodup_cons] at hnd
    obtain ⟨b, hb, hrow⟩ := particle_candidate_partial ha store_trunc hs (flow t) hg (t : Rat) hn (a := a) (by
      intro k hk
      obtain ⟨e, he, ht⟩ := mem_rowsAt.1 hk
      exact hinit k e t he (by simp) ht)
    have hkeep : ∀ (k : Nat) (e : Eddy) (t' : Int), eddies[k]? = some e → t' ∈ l → e.time = t' → b k = a k := by
      intro k e t' he ht' het
      apply (hrow k e he).2
      rw [het]
      intro h
      have : t' = t := by exact_mod_cast h
      rw [this] at ht'
      exact hnd.1 ht'
    obtain ⟨b', hb', hrow'⟩ := coherenceLoop_spec ha hs flow hg hn l b hnd.2 (by
      intro k e t' he ht' het
      rw [hkeep k e t' he ht' het]
      exact hinit k e t' he (by simp [ht']) het)
    refine ⟨b', by rw [coherenceLoop, hb]; exact hb', ?_⟩
    intro k e he
    constructor
    · intro t' ht' het
      rcases List.mem_cons.1 ht' with rfl | ht'
      · have h1 := (hrow k e he).1 het
        have h2 : b' k = b k := by
          apply (hrow' k e he).2
          intro t'' ht'' h
          rw [het] at h
          have : t' = t'' := by exact_mod_cast h
          rw [this] at hnd
          exact hnd.1 ht''
        rw [h2]
        exact h1
      · exact (hrow' k e he).1 t' ht' het
    · intro hno
      rw [(hrow' k e he).2 (fun t' ht' => hno t' (by simp [ht'])), (hrow k e he).2 (hno t (by simp))]

theorem dates_length (a b : Int) : (dates a b).length = (b - a).toNat := by simp [dates]

theorem progress_eq {l : List Int} (h : l.length ≠ 1) (r : Option (Nat → Row)) : progress l r = r := if_neg h

/-- A dataset whose period is exactly `n_days` raises, in both directions: there is one date and the message of progress divides by zero. -/
theorem coherence_single_wrong (argsort : List Int → List Nat) (step : Rat) (flow : Int → Pt → Option Pt) (eddies : List Eddy) {n : Nat} {lo hi : Rat}
    (h : ⌊hi⌋ = ⌊lo⌋ + n) :
    coherenceForward argsort step flow eddies n lo hi = none ∧ coherenceBackward argsort step flow eddies n lo hi = none := by
  constructor
  · exact if_pos (by rw [dates_length]; omega)
  · exact if_pos (by rw [dates_length]; omega)

/-- **C95** (`segment_coherence_forward`): for each row of a whole date at least `n_days` before the end of the dataset, the line holds the two rows `n_days` later which
got most of its particles; there is no target for the other rows. Missing: as for `particle_candidate_partial`, and a period of exactly `n_days` (`coherence_single_wrong`). -/
theorem coherence_forward_partial {argsort : List Int → List Nat} (ha : Extract.Sorting argsort) {step : Rat} (hs : 0 < step) (flow : Int → Pt → Option Pt)
    {eddies : List Eddy} (hg : Good eddies) {n : Nat} (hn : n ≠ 0) {lo hi : Rat} (hlo : ∀ e ∈ eddies, lo ≤ e.time)
    (hone : ⌊hi⌋ ≠ ⌊lo⌋ + n) :
    ∃ b, coherenceForward argsort step flow eddies n lo hi = some b ∧ ∀ (k : Nat) (e : Eddy), eddies[k]? = some e →
      (∀ t : Int, e.time = t → (t : Rat) + n ≤ hi → IsTarget trunc step (flow t) eddies (rowsAt eddies ((t : Rat) + n)) e.start (b k)) ∧
      ((∀ t : Int, e.time = t → hi < (t : Rat) + n) → b k = emptyRow) := by
  obtain ⟨b, hb, h⟩ := coherenceLoop_spec ha hs flow hg (n := (n : Int)) (by omega) (dates ⌊lo⌋ (⌊hi⌋ - n + 1)) (fun _ => emptyRow) (dates_nodup _ _) (fun _ _ _ _ _ _ => rfl)
  refine ⟨b, (progress_eq (by rw [dates_length]; omega) _).trans hb, ?_⟩
  intro k e he
  have hmem : ∀ t : Int, e.time = t → (t ∈ dates ⌊lo⌋ (⌊hi⌋ - n + 1) ↔ (t : Rat) + n ≤ hi) := by
    intro t ht
    rw [mem_dates]
    have h1 : ⌊lo⌋ ≤ t := by
      have := hlo e (List.mem_of_getElem? he)
      rw [ht] at this
      exact Int.floor_le_iff.2 (by linarith)
    have h2 : (t : Rat) + n ≤ hi ↔ t + n ≤ ⌊hi⌋ := by
      rw [Int.le_floor]; push_cast; rfl
    rw [h2]
    omega
  refine ⟨fun t ht hle => ?_, fun hno => ?_⟩
  · have := (h k e he).1 t ((hmem t ht).2 hle) ht
    push_cast at this
    exact this
  · apply (h k e he).2
    intro t htm ht
    have := hno t ht
    have := (hmem t ht).1 htm
    linarith

/-- **C95** (`segment_coherence_backward`): the same with the rows `n_days` before. -/
theorem coherence_backward_partial {argsort : List Int → List Nat} (ha : Extract.Sorting argsort) {step : Rat} (hs : 0 < step) (flow : Int → Pt → Option Pt)
    {eddies : List Eddy} (hg : Good eddies) {n : Nat} (hn : n ≠ 0) {lo hi : Rat} (hhi : ∀ e ∈ eddies, e.time ≤ hi)
    (hone : ⌊hi⌋ ≠ ⌊lo⌋ + n) :
    ∃ b, coherenceBackward argsort step flow eddies n lo hi = some b ∧ ∀ (k : Nat) (e : Eddy), eddies[k]? = some e →
      (∀ t : Int, e.time = t → ((⌊lo⌋ : Int) : Rat) ≤ (t : Rat) - n → IsTarget trunc step (flow t) eddies (rowsAt eddies ((t : Rat) - n)) e.start (b k)) ∧
      ((∀ t : Int, e.time = t → (t : Rat) - n < ((⌊lo⌋ : Int) : Rat)) → b k = emptyRow) := by
  obtain ⟨b, hb, h⟩ := coherenceLoop_spec ha hs flow hg (n := -(n : Int)) (by omega) (dates (⌊lo⌋ + n) (⌊hi⌋ + 1)) (fun _ => emptyRow) (dates_nodup _ _) (fun _ _ _ _ _ _ => rfl)
  refine ⟨b, (progress_eq (by rw [dates_length]; omega) _).trans hb, ?_⟩
  intro k e he
  have hmem : ∀ t : Int, e.time = t → (t ∈ dates (⌊lo⌋ + n) (⌊hi⌋ + 1) ↔ ((⌊lo⌋ : Int) : Rat) ≤ (t : Rat) - n) := by
    intro t ht
    rw [mem_dates]
    have h1 : t ≤ ⌊hi⌋ := by
      have := hhi e (List.mem_of_getElem? he)
      rw [ht] at this
      exact Int.le_floor.2 this
    have h2 : ((⌊lo⌋ : Int) : Rat) ≤ (t : Rat) - n ↔ ⌊lo⌋ ≤ t - n := by
      constructor
      · intro h; exact_mod_cast h
      · intro h; exact_mod_cast h
    rw [h2]
    omega
  refine ⟨fun t ht hle => ?_, fun hno => ?_⟩
  · have := (h k e he).1 t ((hmem t ht).2 hle) ht
    push_cast at this
    rw [sub_eq_add_neg]
    exact this
  · apply (h k e he).2
    intro t htm ht
    have := hno t ht
    have := (hmem t ht).1 htm
    linarith

/-! ### particle_candidate_atlas -/

/-- An order of the rows by date. -/
structure IsOrder (eddies : List Eddy) (order : List Nat) : Prop where
  perm : order.Perm (List.range eddies.length)
  sorted : (order.map (fun k => ((eddies[k]?).map (·.time)).getD 0)).Pairwise (· ≤ ·)

/-- The rows around a date. -/
structure IsWindow (eddies : List Eddy) (t : Int) (rows : List Nat) : Prop where
  nodup : rows.Nodup
  mem : ∀ k, k ∈ rows ↔ ∃ e, eddies[k]? = some e ∧ (t : Rat) - 1 / 2 < e.time ∧ e.time ≤ (t : Rat) + 1 / 2

theorem IsWindow.lt {eddies : List Eddy} {t : Int} {rows : List Nat} (h : IsWindow eddies t rows) : ∀ k ∈ rows, k < eddies.length := by
  intro k hk
  obtain ⟨e, he, _⟩ := (h.mem k).1 hk
  exact (List.getElem?_eq_some_iff.1 he).1

theorem window_rows_spec {eddies : List Eddy} {order : List Nat} (ho : IsOrder eddies order) (garbage : Rat) {lo hi t : Int} (h1 : lo ≤ t) (h2 : t ≤ hi) :
    IsWindow eddies t (windowRows eddies order garbage lo hi t) := by
  have hs : ((dates lo (hi + 1)).map (fun (i : Int) => (i : Rat))).Pairwise (· ≤ ·) := by
    unfold dates
    rw [List.pairwise_map, List.pairwise_map]
    refine (List.pairwise_lt_range).imp ?_
    intro a b hab
    have : lo + (a : Int) ≤ lo + (b : Int) := by omega
    exact_mod_cast this
  obtain ⟨e1, e2⟩ := Lines.window_index_spec hs ho.sorted (h := 1 / 2) (by norm_num) garbage
  have hd : (dates lo (hi + 1))[(t - lo).toNat]? = some t := by
    unfold dates
    rw [List.getElem?_map, List.getElem?_range (by omega), Option.map_some]
    congr 1; omega
  have hw : windowRows eddies order garbage lo hi t =
      order.filter (fun k => decide ((t : Rat) - 1 / 2 < ((eddies[k]?).map (·.time)).getD 0 ∧ ((eddies[k]?).map (·.time)).getD 0 ≤ (t : Rat) + 1 / 2)) := by
    rw [← Lines.slice_sorted _ _ _ order ho.sorted]
    unfold windowRows
    simp only
    rw [e1, e2]
    simp only [List.getD_eq_getElem?_getD, List.getElem?_map, hd, Option.map_some, Option.getD_some]
  rw [hw]
  refine ⟨(ho.perm.nodup_iff.2 List.nodup_range).filter _, ?_⟩
  intro k
  rw [List.mem_filter, ho.perm.mem_iff, List.mem_range, decide_eq_true_eq]
  constructor
  · rintro ⟨hk, h⟩
    rw [List.getElem?_eq_getElem hk] at h
    exact ⟨_, List.getElem?_eq_getElem hk, h⟩
  · rintro ⟨e, he, h⟩
    refine ⟨(List.getElem?_eq_some_iff.1 he).1, ?_⟩
    rw [he]
    exact h

/-- The line of a row without the fractions of the percentages. -/
def IsTarget' (step : Rat) (flow : Pt → Option Pt) (eddies : List Eddy) (te : List Nat) (c : List Pt) (r : Row) : Prop :=
  ∃ q0 q1, r.p0 = trunc q0 ∧ r.p1 = trunc q1 ∧ IsTarget id step flow eddies te c ⟨r.t0, r.t1, q0, q1⟩

theorem mesh_exists {step : Rat} (hs : 0 < step) {c : List Pt} (hv : ∃ u ∈ c, ∃ w ∈ c, u ≠ w) : ∃ pts, IsMesh step c pts := by
  obtain ⟨v, hred, _⟩ := Poly.reduce_of_varied hv
  exact ⟨Poly.meshOne step c v, Poly.meshOne_nodup hs c v, Poly.meshOne_mem hs hred⟩

/-- Without rows at the last date there is no target. -/
theorem target_nil {step : Rat} (hs : 0 < step) (flow : Pt → Option Pt) (eddies : List Eddy) {c : List Pt} (hv : ∃ u ∈ c, ∃ w ∈ c, u ≠ w) :
    IsTarget' step flow eddies [] c emptyRow := by
  obtain ⟨pts, hm⟩ := mesh_exists hs hv
  have hno : ∀ k, ¬ landed flow pts (fun q => LandsIn eddies [] q k) ≠ 0 := by
    intro k h
    apply h
    unfold landed
    rw [List.countP_eq_zero]
    intro p _
    simp only [decide_eq_true_eq]
    rintro ⟨q, _, j, e, hj, _⟩
    simp at hj
  exact ⟨0, 0, by decide +kernel, by decide +kernel, pts, hm, ⟨Or.inl ⟨rfl, rfl, hno⟩, Or.inl ⟨rfl, rfl, fun k hk => absurd hk (hno k)⟩⟩⟩

/-- **C95** (`fill_coherence`): the lines of the rows of origin, in row numbers of the dataset. -/
theorem fill_coherence_spec {argsort : List Int → List Nat} (ha : Extract.Sorting argsort) {step : Rat} (hs : 0 < step) (flow : Pt → Option Pt)
    {eddies : List Eddy} (hg : Good eddies) {origin ends : List Nat} (ho : origin.Nodup) (hol : ∀ k ∈ origin, k < eddies.length) (he : ends.Nodup)
    (hel : ∀ k ∈ ends, k < eddies.length) (a : Nat → Row) :
    ∃ b, fillCoherence argsort step flow eddies origin ends a = some b ∧ ∀ (k : Nat) (e : Eddy), eddies[k]? = some e →
      (k ∈ origin → IsTarget' step flow eddies ends e.start (b k)) ∧ (k ∉ origin → b k = a k) := by
  obtain ⟨parts, hp, hin, hpt⟩ := particles_spec ha hs flow (good_starts hg origin) (good_stops hg ends)
  have l1 : (starts eddies origin).length = origin.length := by
    unfold starts; rw [List.length_map]; exact (filterMap_rows hol).1
  have l2 : (stops eddies ends).length = ends.length := by
    unfold stops; rw [List.length_map]; exact (filterMap_rows hel).1
  rw [l1, l2] at hin
  obtain ⟨rows, hr, hrl, hrow⟩ := step_targets_spec hin
  obtain ⟨hother, hmerge⟩ := merge_result_spec (te := ends) (a := a) ho hrl.symm
  refine ⟨mergeResult ends origin rows a, by unfold fillCoherence; rw [hp, Option.bind_some, hr]; rfl, ?_⟩
  intro k e hk
  refine ⟨fun hko => ?_, fun hko => hother k hko⟩
  obtain ⟨i, hi⟩ := List.mem_iff_getElem?.1 hko
  have hil : i < rows.length := by rw [hrl]; exact (List.getElem?_eq_some_iff.1 hi).1
  have er := List.getElem?_eq_getElem hil
  obtain ⟨q0, q1, hq0, hq1, htop⟩ := hrow i _ er
  obtain ⟨m1, m2, m3, m4, m5, m6⟩ := hmerge i k _ hi er
  obtain ⟨pts, hm, hs1, hs2⟩ := hpt i _ (starts_get hol hi hk)
  have hget : ∀ {i j : Nat}, i < ends.length → j < ends.length → ends.getD i 0 = ends.getD j 0 → i = j := by
    intro i j h1 h2 h
    rw [List.getD_eq_getElem?_getD, List.getD_eq_getElem?_getD, List.getElem?_eq_getElem h1, List.getElem?_eq_getElem h2] at h
    exact (List.Nodup.getElem_inj_iff he).1 (by simpa using h)
  refine ⟨q0, q1, by rw [m1, hq0], by rw [m2, hq1], target_of_local hel he hm hs1 hs2 ?_⟩
  have hcand : ∀ j : Nat, j < ends.length ∧ moved parts i j ≠ 0 → j < ends.length := fun j h => h.1
  have h0 := htop.first
  have h1 := htop.second
  simp only at h0 h1
  constructor
  · rcases h0 with ⟨x, y, z⟩ | ⟨j, x, y, z, w⟩
    · exact Or.inl ⟨m3 x, y, z⟩
    · exact Or.inr ⟨j, m5 j x, y, z, w⟩
  · rcases h1 with ⟨x, y, z⟩ | ⟨j, x, x', y, z, w⟩
    · refine Or.inl ⟨m4 x, y, fun j hj => ?_⟩
      rw [m5 j (z j hj).symm]
    · have hne : ∀ j', (j' < ends.length ∧ moved parts i j' ≠ 0) → ((ends.getD j' 0 : Nat) : Int) ≠ (mergeResult ends origin rows a k).t0 → ((j' : Nat) : Int) ≠ rows[i].t0 := by
        intro j' _ h h'
        exact h (m5 j' h'.symm).symm
      refine Or.inr ⟨j, m6 j x, ?_, y, z, fun j' hj' h => w j' hj' (hne j' hj' h)⟩
      show (mergeResult ends origin rows a k).t1 ≠ (mergeResult ends origin rows a k).t0
      rw [m6 j x]
      rcases h0 with ⟨x0, _, _⟩ | ⟨j0, x0, y0, _, _⟩
      · rw [m3 x0]; omega
      · rw [m5 j0 x0]
        intro h
        have : j = j0 := hget y.1 y0.1 (by exact_mod_cast h)
        apply x'
        rw [x, x0, this]

theorem window_unique {x : Rat} {s t : Int} (hs : (s : Rat) - 1 / 2 < x ∧ x ≤ (s : Rat) + 1 / 2) (ht : (t : Rat) - 1 / 2 < x ∧ x ≤ (t : Rat) + 1 / 2) : s = t := by
  have h1 : (s : Rat) < ((t + 1 : Int) : Rat) := by push_cast; linarith [hs.1, ht.2]
  have h2 : (t : Rat) < ((s + 1 : Int) : Rat) := by push_cast; linarith [ht.1, hs.2]
  have h1 : s < t + 1 := by exact_mod_cast h1
  have h2 : t < s + 1 := by exact_mod_cast h2
  omega

theorem atlasLoop_spec {argsort : List Int → List Nat} (ha : Extract.Sorting argsort) {step : Rat} (hs : 0 < step) (flow : Int → Pt → Option Pt)
    {eddies : List Eddy} (hg : Good eddies) {rows : Int → List Nat} {dt : Int} : ∀ (l : List Int) (a : Nat → Row), l.Nodup →
      (∀ t ∈ l, IsWindow eddies t (rows t) ∧ IsWindow eddies (t + dt) (rows (t + dt))) →
      (∀ k, (∃ t ∈ l, k ∈ rows t) → a k = emptyRow) →
      ∃ b, atlasLoop argsort step flow eddies rows dt l a = some b ∧ ∀ (k : Nat) (e : Eddy), eddies[k]? = some e →
        (∀ t ∈ l, k ∈ rows t → IsTarget' step (flow t) eddies (rows (t + dt)) e.start (b k)) ∧ ((∀ t ∈ l, k ∉ rows t) → b k = a k)
  | [], a, _, _, _ => ⟨a, rfl, fun k e _ => ⟨fun t ht => by simp at ht, fun _ => rfl⟩⟩
  | t :: l, a, hnd, hwin, hinit => by
    rw [List.nodup_cons] at hnd
    have huniq : ∀ (k : Nat) (t' : Int), t' ∈ l → k ∈ rows t → k ∈ rows t' → False := by
      intro k t' ht' h1 h2
      obtain ⟨e, he, b1⟩ := ((hwin t (by simp)).1.mem k).1 h1
      obtain ⟨e', he', b2⟩ := ((hwin t' (by simp [ht'])).1.mem k).1 h2
      rw [he] at he'
      cases he'
      rw [window_unique b1 b2] at hnd
      exact hnd.1 ht'
    have key : ∃ b0, (if rows t = [] ∨ rows (t + dt) = [] then some a
        else fillCoherence argsort step (flow t) eddies (rows t) (rows (t + dt)) a) = some b0 ∧
        ∀ (k : Nat) (e : Eddy), eddies[k]? = some e → (k ∈ rows t → IsTarget' step (flow t) eddies (rows (t + dt)) e.start (b0 k)) ∧ (k ∉ rows t → b0 k = a k) := by
      by_cases hc : rows t = [] ∨ rows (t + dt) = []
      · rw [if_pos hc]
        refine ⟨a, rfl, fun k e he => ⟨fun hk => ?_, fun _ => rfl⟩⟩
        rcases hc with hc | hc
        · rw [hc] at hk; simp at hk
        · rw [hc, hinit k ⟨t, by simp, hk⟩]
          exact target_nil hs (flow t) eddies (hg.start e (List.mem_of_getElem? he))
      · rw [if_neg hc]
        obtain ⟨w1, w2⟩ := hwin t (by simp)
        exact fill_coherence_spec ha hs (flow t) hg w1.nodup w1.lt w2.nodup w2.lt a
    obtain ⟨b0, hb0, hrow0⟩ := key
    obtain ⟨b, hb, hrow⟩ := atlasLoop_spec ha hs flow hg l b0 hnd.2 (fun t' ht' => hwin t' (by simp [ht'])) (by
      rintro k ⟨t', ht', hk⟩
      have hkt : k ∉ rows t := fun h => huniq k t' ht' h hk
      have hkl := (hwin t' (by simp [ht'])).1.lt k hk
      rw [(hrow0 k _ (List.getElem?_eq_getElem hkl)).2 hkt]
      exact hinit k ⟨t', by simp [ht'], hk⟩)
    refine ⟨b, ?_, ?_⟩
    · rw [atlasLoop]
      split
      · rename_i hc
        rw [if_pos hc] at hb0
        cases hb0
        exact hb
      · rename_i hc
        rw [if_neg hc] at hb0
        rw [hb0]
        exact hb
    · intro k e he
      constructor
      · intro t' ht' hk
        rcases List.mem_cons.1 ht' with rfl | ht'
        · rw [(hrow k e he).2 (fun t'' ht'' h => huniq k t'' ht'' hk h)]
          exact (hrow0 k e he).1 hk
        · exact (hrow k e he).1 t' ht' hk
      · intro hno
        rw [(hrow k e he).2 (fun t' ht' => hno t' (by simp [ht'])), (hrow0 k e he).2 (hno t (by simp))]

/-- **C95** (`particle_candidate_atlas`): for each row at most half a day from a date of the loop, the line holds the two rows around the date `dt` days later which got
most of its particles; no target for the other rows. Missing: the last date which has rows `dt` days later, see `atlas_last_wrong`; contours as for
`particle_candidate_partial`. -/
theorem atlas_partial {argsort : List Int → List Nat} (ha : Extract.Sorting argsort) {step : Rat} (hs : 0 < step) (flow : Int → Pt → Option Pt)
    {eddies : List Eddy} (hg : Good eddies) {order : List Nat} (ho : IsOrder eddies order) (garbage lo hi : Rat) (dt : Int) :
    ∃ b, atlas argsort step flow eddies order garbage lo hi dt = some b ∧ ∀ (k : Nat) (e : Eddy), eddies[k]? = some e →
      (∀ t : Int, ⌊lo⌋ ≤ t → ⌊lo⌋ ≤ t + dt → t < ⌊hi⌋ → t + dt < ⌊hi⌋ → (t : Rat) - 1 / 2 < e.time → e.time ≤ (t : Rat) + 1 / 2 →
        ∃ te, IsWindow eddies (t + dt) te ∧ IsTarget' step (flow t) eddies te e.start (b k)) ∧
      ((∀ t : Int, (t : Rat) - 1 / 2 < e.time → e.time ≤ (t : Rat) + 1 / 2 → ¬ (⌊lo⌋ ≤ t ∧ ⌊lo⌋ ≤ t + dt ∧ t < ⌊hi⌋ ∧ t + dt < ⌊hi⌋)) → b k = emptyRow) := by
  have hmem : ∀ t : Int, t ∈ atlasDates ⌊lo⌋ ⌊hi⌋ dt → ⌊lo⌋ ≤ t ∧ ⌊lo⌋ ≤ t + dt ∧ t < ⌊hi⌋ ∧ t + dt < ⌊hi⌋ := by
    intro t ht
    unfold atlasDates at ht
    split at ht <;> rw [mem_dates] at ht <;> omega
  have hmem' : ∀ t : Int, ⌊lo⌋ ≤ t ∧ ⌊lo⌋ ≤ t + dt ∧ t < ⌊hi⌋ ∧ t + dt < ⌊hi⌋ → t ∈ atlasDates ⌊lo⌋ ⌊hi⌋ dt := by
    intro t ht
    unfold atlasDates
    split <;> rw [mem_dates] <;> omega
  have hnd : (atlasDates ⌊lo⌋ ⌊hi⌋ dt).Nodup := by
    unfold atlasDates
    split <;> exact dates_nodup _ _
  have hwin : ∀ t ∈ atlasDates ⌊lo⌋ ⌊hi⌋ dt, IsWindow eddies t (windowRows eddies order garbage ⌊lo⌋ ⌊hi⌋ t) ∧
      IsWindow eddies (t + dt) (windowRows eddies order garbage ⌊lo⌋ ⌊hi⌋ (t + dt)) := by
    intro t ht
    have := hmem t ht
    exact ⟨window_rows_spec ho garbage (by omega) (by omega), window_rows_spec ho garbage (by omega) (by omega)⟩
  obtain ⟨b, hb, h⟩ := atlasLoop_spec ha hs flow hg (rows := windowRows eddies order garbage ⌊lo⌋ ⌊hi⌋) (dt := dt) _ (fun _ => emptyRow) hnd hwin (fun _ _ => rfl)
  refine ⟨b, hb, fun k e he => ⟨?_, ?_⟩⟩
  · intro t h1 h2 h3 h4 h5 h6
    have ht := hmem' t ⟨h1, h2, h3, h4⟩
    exact ⟨_, (hwin t ht).2, (h k e he).1 t ht (((hwin t ht).1.mem k).2 ⟨e, he, h5, h6⟩)⟩
  · intro hno
    apply (h k e he).2
    intro t ht hk
    obtain ⟨e', he', h5, h6⟩ := ((hwin t ht).1.mem k).1 hk
    rw [he] at he'
    cases he'
    exact hno t h5 h6 (hmem t ht)

/-- Contour of the examples. -/
def square : List Pt := [(0, 0), (4, 0), (4, 4), (0, 4), (0, 0)]

/-- Rows with the same contour at the dates 0, 1 and 2, particles which do not move: `particle_candidate_atlas` gives no target to the row before the last one, all its
particles are in the last one for `segment_coherence_forward`. -/
theorem atlas_last_wrong :
    (atlas Bins.stableArgsort 1 (fun _ p => some p) [⟨0, square, square⟩, ⟨1, square, square⟩, ⟨2, square, square⟩] [0, 1, 2] 0 0 2 1).map (fun b => b 1) =
      some ⟨-1, -1, 0, 0⟩ ∧
    (coherenceForward Bins.stableArgsort 1 (fun _ p => some p) [⟨0, square, square⟩, ⟨1, square, square⟩, ⟨2, square, square⟩] 1 0 2).map (fun b => (b 0, b 1, b 2)) =
      some (⟨1, -1, 100, 0⟩, ⟨2, -1, 100, 0⟩, ⟨-1, -1, 0, 0⟩) := by decide +kernel

example : (atlas Bins.stableArgsort 1 (fun _ p => some p) [⟨0, square, square⟩, ⟨1, square, square⟩, ⟨2, square, square⟩] [0, 1, 2] 0 0 2 1).map (fun b => (b 0, b 1)) =
    some (⟨1, -1, 100, 0⟩, ⟨-1, -1, 0, 0⟩) := by decide +kernel

/-- Non-vacuity: the contours of the examples are good. -/
example : Good [⟨0, square, square⟩, ⟨1, square, square⟩] := by
  have h1 : ∃ u ∈ square, ∃ w ∈ square, u ≠ w := ⟨(0, 0), by simp [square], (4, 0), by simp [square], by decide⟩
  have h2 : Poly.Regular square := ⟨h1, by
    intro u hu w hw
    simp [square] at hu hw
    rcases hu with rfl | rfl | rfl | rfl | rfl <;> rcases hw with rfl | rfl | rfl | rfl | rfl <;> norm_num⟩
  constructor
  · intro e he
    simp at he
    rcases he with rfl | rfl <;> exact h1
  · intro e he
    simp at he
    rcases he with rfl | rfl <;> exact h2

end Verif.Particles
