import Verif.Events.Model
import Verif.Index.Props

/-!
# C71: new numbering of segments and networks
-/

namespace Verif.Events

open Verif.Segments

/-- `out` renumbers the groups of the sorted list `l` from `start`, without gap, in the same order. -/
structure Renumbers (start : Nat) (l out : List Nat) : Prop where
  len : out.length = l.length
  order : ∀ (i j a b x y : Nat), l[i]? = some a → l[j]? = some b → out[i]? = some x → out[j]? = some y → (x < y ↔ a < b)
  gapless : ∀ x, x ∈ out → start ≤ x ∧ ∀ v, start ≤ v → v ≤ x → v ∈ out

/-- Two rows have the same new number exactly when they had the same number. -/
theorem Renumbers.same {start : Nat} {l out : List Nat} (h : Renumbers start l out) {i j a b x y : Nat} (h1 : l[i]? = some a)
    (h2 : l[j]? = some b) (h3 : out[i]? = some x) (h4 : out[j]? = some y) : x = y ↔ a = b := by
  have c1 := h.order i j a b x y h1 h2 h3 h4
  have c2 := h.order j i b a y x h2 h1 h4 h3
  omega

theorem renumberLoop_spec (l : List Nat) : ∀ (s0 j : Nat), (s0 :: l).Pairwise (· ≤ ·) →
    (renumberLoop s0 j l).length = l.length ∧
    (∀ (k a x : Nat), l[k]? = some a → (renumberLoop s0 j l)[k]? = some x → j ≤ x ∧ (j < x ↔ s0 < a)) ∧
    (∀ (k k' a b x y : Nat), l[k]? = some a → l[k']? = some b → (renumberLoop s0 j l)[k]? = some x →
      (renumberLoop s0 j l)[k']? = some y → (x < y ↔ a < b)) ∧
    ∀ x, x ∈ renumberLoop s0 j l → ∀ v, j < v → v ≤ x → v ∈ renumberLoop s0 j l := by
  induction l with
  | nil => intro s0 j _; exact ⟨rfl, fun k a x h => by simp at h, fun k k' a b x y h => by simp at h, fun x h => by simp [renumberLoop] at h⟩
  | cons s l ih =>
    intro s0 j hs
    have hs' := List.pairwise_cons.1 hs
    have h0 : s0 ≤ s := hs'.1 s (by simp)
    obtain ⟨i1, i2, i3, i4⟩ := ih s (if s ≠ s0 then j + 1 else j) hs'.2
    have hj : (j < if s ≠ s0 then j + 1 else j) ↔ s0 < s := by split <;> omega
    have hj' : j ≤ if s ≠ s0 then j + 1 else j := by split <;> omega
    have hj2 : (if s ≠ s0 then j + 1 else j) ≤ j + 1 := by split <;> omega
    rw [renumberLoop]
    generalize hJ : (if s ≠ s0 then j + 1 else j) = J at *
    refine ⟨by simp [i1], ?_, ?_, ?_⟩
    · intro k a x h1 h2
      cases k with
      | zero => simp at h1 h2; subst h1 h2; exact ⟨hj', hj⟩
      | succ k =>
        simp only [List.getElem?_cons_succ] at h1 h2
        obtain ⟨c1, c2⟩ := i2 k a x h1 h2
        have := (List.pairwise_cons.1 hs'.2).1 a (List.mem_of_getElem? h1)
        exact ⟨by omega, by omega⟩
    · intro k k' a b x y h1 h2 h3 h4
      cases k with
      | zero =>
        simp at h1 h3; subst h1 h3
        cases k' with
        | zero => simp at h2 h4; subst h2 h4; simp
        | succ k' =>
          simp only [List.getElem?_cons_succ] at h2 h4
          exact (i2 k' b y h2 h4).2
      | succ k =>
        simp only [List.getElem?_cons_succ] at h1 h3
        cases k' with
        | zero =>
          simp at h2 h4; subst h2 h4
          have c1 := (i2 k a x h1 h3).1
          have c2 := (List.pairwise_cons.1 hs'.2).1 a (List.mem_of_getElem? h1)
          omega
        | succ k' =>
          simp only [List.getElem?_cons_succ] at h2 h4
          exact i3 k k' a b x y h1 h2 h3 h4
    · intro x hx v hv hvx
      rcases List.mem_cons.1 hx with rfl | hx
      · have : v = x := by omega
        rw [this]; simp
      · by_cases hc : J < v
        · exact List.mem_cons_of_mem _ (i4 x hx v hc hvx)
        · have : v = J := by omega
          rw [this]; simp

/-- **C71**: `new_numbering` on a sorted array. -/
theorem new_numbering_spec (start : Nat) (l : List Nat) (hne : l ≠ []) (hs : l.Pairwise (· ≤ ·)) :
    ∃ out, newNumbering start l = some out ∧ Renumbers start l out := by
  cases l with
  | nil => exact absurd rfl hne
  | cons s l =>
    have hs2 : (s :: s :: l).Pairwise (· ≤ ·) := by
      rw [List.pairwise_cons]
      refine ⟨fun x hx => ?_, hs⟩
      rcases List.mem_cons.1 hx with rfl | hx
      · exact le_refl _
      · exact (List.pairwise_cons.1 hs).1 x hx
    obtain ⟨i1, i2, i3, i4⟩ := renumberLoop_spec (s :: l) s start hs2
    refine ⟨_, rfl, i1, i3, fun x hx => ⟨?_, fun v h1 h2 => ?_⟩⟩
    · obtain ⟨k, hk⟩ := List.getElem?_of_mem hx
      have hlt : k < (s :: l).length := by rw [← i1]; exact (List.getElem?_eq_some_iff.1 hk).1
      exact (i2 k _ x (List.getElem?_eq_getElem hlt) hk).1
    · rcases Nat.eq_or_lt_of_le h1 with rfl | h1
      · simp [renumberLoop]
      · exact i4 x hx v h1 h2

/-! ### Segments -/

theorem networks_flatten (obs : List Obs) : (networks obs).flatten = obs := by
  induction obs with
  | nil => rfl
  | cons o l ih =>
    rw [networks]
    split
    · rename_i o' g gs he
      rw [he] at ih
      split <;> simp_all
    · rename_i gs _
      simp [ih]

theorem networks_spec (obs : List Obs) (hs : (obs.map (·.track)).Pairwise (· ≤ ·)) :
    (∀ g ∈ networks obs, g ≠ [] ∧ ∀ o ∈ g, ∀ o' ∈ g, o.track = o'.track) ∧
    (networks obs).Pairwise (fun g g' => ∀ o ∈ g, ∀ o' ∈ g', o.track < o'.track) := by
  induction obs with
  | nil => simp [networks]
  | cons o l ih =>
    rw [List.map_cons, List.pairwise_cons] at hs
    have hmem : ∀ g ∈ networks l, ∀ x ∈ g, o.track ≤ x.track := by
      intro g hg x hx
      have : x ∈ (networks l).flatten := List.mem_flatten.2 ⟨g, hg, hx⟩
      rw [networks_flatten] at this
      exact hs.1 _ (List.mem_map.2 ⟨x, this, rfl⟩)
    obtain ⟨i1, i2⟩ := ih hs.2
    rw [networks]
    split
    · rename_i o' g gs he
      rw [he] at i1 i2 hmem
      have j2 := List.pairwise_cons.1 i2
      split
      · rename_i htr
        refine ⟨?_, ?_⟩
        · intro g' hg'
          rcases List.mem_cons.1 hg' with rfl | hg'
          · refine ⟨by simp, ?_⟩
            have hall : ∀ x ∈ o :: o' :: g, x.track = o'.track := by
              intro x hx
              rcases List.mem_cons.1 hx with rfl | hx
              · exact htr.symm
              · exact (i1 _ (by simp)).2 x hx o' (by simp)
            intro x hx y hy
            rw [hall x hx, hall y hy]
          · exact i1 g' (List.mem_cons_of_mem _ hg')
        · rw [List.pairwise_cons]
          refine ⟨fun g' hg' x hx y hy => ?_, j2.2⟩
          rcases List.mem_cons.1 hx with rfl | hx
          · rw [← htr]; exact j2.1 g' hg' o' (by simp) y hy
          · exact j2.1 g' hg' x hx y hy
      · rename_i htr
        refine ⟨?_, ?_⟩
        · intro g' hg'
          rcases List.mem_cons.1 hg' with rfl | hg'
          · refine ⟨by simp, ?_⟩
            intro x hx y hy
            rw [List.mem_singleton] at hx hy
            rw [hx, hy]
          · exact i1 g' hg'
        · rw [List.pairwise_cons]
          refine ⟨fun g' hg' x hx y hy => ?_, i2⟩
          rw [List.mem_singleton] at hx
          subst hx
          have hlt : x.track < o'.track := by
            have := hmem (o' :: g) (by simp) o' (by simp)
            omega
          rcases List.mem_cons.1 hg' with rfl | hg'
          · rw [(i1 _ (by simp)).2 y hy o' (by simp)]; exact hlt
          · exact lt_trans hlt (j2.1 g' hg' o' (by simp) y hy)
    · rename_i gs hgs
      have hempty : networks l = [] := by
        cases hn : networks l with
        | nil => rfl
        | cons g gs' =>
          cases g with
          | nil => exact absurd rfl (i1 [] (by rw [hn]; simp)).1
          | cons a b => exact absurd hn (hgs a b gs')
      rw [hempty]
      refine ⟨?_, by simp⟩
      intro g hg
      rw [List.mem_singleton] at hg
      subst hg
      refine ⟨by simp, ?_⟩
      intro x hx y hy
      rw [List.mem_singleton] at hx hy
      rw [hx, hy]

/-- **C71**: `numbering_segment` renumbers the segments of each network from `start`, without gap, in the same order. -/
theorem numbering_segment_spec (start : Nat) (obs : List Obs) (hs : (obs.map (·.track)).Pairwise (· ≤ ·))
    (hseg : ∀ t, ((obs.filter (fun o => decide (o.track = t))).map (·.seg)).Pairwise (· ≤ ·)) :
    (numberingSegment start obs).length = obs.length ∧
    ∀ t, Renumbers start ((obs.filter (fun o => decide (o.track = t))).map (·.seg))
      (((obs.zip (numberingSegment start obs)).filter (fun p => decide (p.1.track = t))).map (·.2)) := by
  obtain ⟨h1, h2⟩ := networks_spec obs hs
  have key : ∀ gs : List (List Obs), (∀ g ∈ gs, g ≠ [] ∧ ∀ o ∈ g, ∀ o' ∈ g, o.track = o'.track) →
      gs.Pairwise (fun g g' => ∀ o ∈ g, ∀ o' ∈ g', o.track < o'.track) →
      (∀ t, ((gs.flatten.filter (fun o => decide (o.track = t))).map (·.seg)).Pairwise (· ≤ ·)) →
      (gs.flatMap (fun g => (newNumbering start (g.map (·.seg))).getD [])).length = gs.flatten.length ∧
      ∀ t, Renumbers start ((gs.flatten.filter (fun o => decide (o.track = t))).map (·.seg))
        (((gs.flatten.zip (gs.flatMap (fun g => (newNumbering start (g.map (·.seg))).getD []))).filter
          (fun p => decide (p.1.track = t))).map (·.2)) := by
    intro gs
    induction gs with
    | nil =>
      intro _ _ _
      refine ⟨rfl, fun t => ?_⟩
      simp only [List.flatten_nil, List.filter_nil, List.map_nil, List.zip_nil_left]
      exact ⟨rfl, fun i j a b x y h => by simp at h, fun x h => (List.not_mem_nil h).elim⟩
    | cons g gs ih =>
      intro h1 h2 h3
      have h2' := List.pairwise_cons.1 h2
      obtain ⟨hne, hsame⟩ := h1 g (by simp)
      obtain ⟨o, ho⟩ := List.exists_mem_of_ne_nil g hne
      have hrest : ∀ x ∈ gs.flatten, o.track < x.track := by
        intro x hx
        obtain ⟨g', hg', hx'⟩ := List.mem_flatten.1 hx
        exact h2'.1 g' hg' o ho x hx'
      have hfilter_g : ∀ t, g.filter (fun o => decide (o.track = t)) = if o.track = t then g else [] := by
        intro t
        split
        · rename_i ht
          rw [List.filter_eq_self]
          intro x hx
          rw [hsame x hx o ho]; simpa using ht
        · rename_i ht
          rw [List.filter_eq_nil_iff]
          intro x hx
          rw [hsame x hx o ho]; simpa using ht
      have hsorted : (g.map (·.seg)).Pairwise (· ≤ ·) := by
        have := h3 o.track
        rw [List.flatten_cons, List.filter_append, hfilter_g, if_pos rfl, List.map_append] at this
        exact (List.pairwise_append.1 this).1
      obtain ⟨out, e1, e2⟩ := new_numbering_spec start (g.map (·.seg)) (by simpa using hne) hsorted
      have hlen : out.length = g.length := by rw [e2.len, List.length_map]
      obtain ⟨i1, i2⟩ := ih (fun g' hg' => h1 g' (List.mem_cons_of_mem _ hg')) h2'.2 (by
        intro t
        have := h3 t
        rw [List.flatten_cons, List.filter_append, List.map_append] at this
        exact (List.pairwise_append.1 this).2.1)
      rw [List.flatMap_cons, List.flatten_cons, e1, Option.getD_some]
      refine ⟨by rw [List.length_append, List.length_append, i1, hlen], fun t => ?_⟩
      rw [List.zip_append hlen.symm, List.filter_append, List.filter_append, List.map_append, List.map_append, hfilter_g]
      by_cases ht : o.track = t
      · rw [if_pos ht]
        have hr : gs.flatten.filter (fun o => decide (o.track = t)) = [] := by
          rw [List.filter_eq_nil_iff]
          intro x hx
          have := hrest x hx
          simp only [decide_eq_true_eq]
          omega
        have hr' : (gs.flatten.zip (gs.flatMap (fun g => (newNumbering start (g.map (·.seg))).getD []))).filter
            (fun p => decide (p.1.track = t)) = [] := by
          rw [List.filter_eq_nil_iff]
          rintro ⟨x, y⟩ hx
          have := hrest x (List.of_mem_zip hx).1
          simp only [decide_eq_true_eq]
          omega
        have hg' : (g.zip out).filter (fun p => decide (p.1.track = t)) = g.zip out := by
          rw [List.filter_eq_self]
          rintro ⟨x, y⟩ hx
          have := hsame x (List.of_mem_zip hx).1 o ho
          simp only [decide_eq_true_eq]
          omega
        rw [hr, hr', hg', List.map_nil, List.append_nil, List.map_nil, List.append_nil,
          List.map_snd_zip (by omega)]
        exact e2
      · rw [if_neg ht]
        have hg' : (g.zip out).filter (fun p => decide (p.1.track = t)) = [] := by
          rw [List.filter_eq_nil_iff]
          rintro ⟨x, y⟩ hx
          have := hsame x (List.of_mem_zip hx).1 o ho
          simp only [decide_eq_true_eq]
          omega
        rw [hg', List.map_nil, List.nil_append, List.map_nil, List.nil_append]
        exact i2 t
  have := key (networks obs) h1 h2 (by rw [networks_flatten]; exact hseg)
  rw [networks_flatten] at this
  exact this

example : numberingSegment 0 [⟨1, 3, -1, 1⟩, ⟨1, 3, 0, -1⟩, ⟨1, 7, 0, -1⟩, ⟨4, 7, -1, -1⟩] = [0, 0, 1, 0] := by decide

/-! ### Networks -/

/-- **C71**: after `numbering_network` on a dataset whose index was never used, the numbers of the networks are `start`, `start + 1`, …
in the same order, and the slice of a network is exactly its observations. Missing: the index may be out of date, see
`numbering_stale`. -/
theorem numbering_network_partial (start : Nat) (track : List Nat) (hne : track ≠ []) (hs : track.Pairwise (· ≤ ·)) :
    ∃ c, (Cached.mk track none).numberingNetwork start = some c ∧ Renumbers start track c.track ∧
      ∀ id ∈ c.track, ∃ a b, c.networkSlice id = some (a, b) ∧ ∀ k : Nat, c.track[k]? = some id ↔ a ≤ k ∧ k < b := by
  obtain ⟨out, e1, e2⟩ := new_numbering_spec start track hne hs
  refine ⟨⟨out, none⟩, by simp [Cached.numberingNetwork, e1], e2, fun id hid => ?_⟩
  have hsorted : (out.map (fun (k : Nat) => (k : Int))).Pairwise (· ≤ ·) := by
    rw [List.pairwise_map, List.pairwise_iff_getElem]
    intro i j hi hj hij
    have hi' : i < track.length := by rw [← e2.len]; exact hi
    have hj' : j < track.length := by rw [← e2.len]; exact hj
    have h1 := List.pairwise_iff_getElem.1 hs i j hi' hj' hij
    have h2 := e2.order j i _ _ _ _ (List.getElem?_eq_getElem hj') (List.getElem?_eq_getElem hi') (List.getElem?_eq_getElem hj)
      (List.getElem?_eq_getElem hi)
    omega
  have hne' : out.map (fun (k : Nat) => (k : Int)) ≠ [] := by
    intro hc
    have := congrArg List.length hc
    rw [List.length_map, e2.len] at this
    exact hne (List.length_eq_zero_iff.1 this)
  obtain ⟨first, last, i0, hb, ⟨hlen, hrange, hslice⟩, _⟩ := Index.build_index_spec _ hne' hsorted
  obtain ⟨r1, r2⟩ := hrange (id : Int) (List.mem_map.2 ⟨id, hid, rfl⟩)
  obtain ⟨m, hm⟩ := Int.eq_ofNat_of_zero_le (show 0 ≤ (id : Int) - i0 by omega)
  have hml : m < first.length := by omega
  obtain ⟨_, _, h3⟩ := hslice m _ _ (List.getElem?_eq_getElem hml) (List.getElem?_eq_getElem (show m < last.length by omega))
  refine ⟨first[m], last[m]'(by omega), ?_, fun k => ?_⟩
  · unfold Cached.networkSlice Cached.indexNetwork
    simp only [hb, Option.bind_eq_bind, Option.bind_some]
    rw [hm, Py.get_natCast, Py.get_natCast, List.getElem?_eq_getElem hml, List.getElem?_eq_getElem (show m < last.length by omega)]
    rfl
  · rw [← h3 k, List.getElem?_map]
    have hid' : i0 + (m : Int) = (id : Int) := by omega
    rw [hid']
    show out[k]? = some id ↔ _
    cases out[k]? with
    | none => simp
    | some v => simp

/-- The networks 0 and 1 are renumbered 1 and 2 while the index was in use: the slice of the network 1 is then the rows of the new
network 2. -/
theorem numbering_stale :
    let idx := (Cached.mk [0, 0, 1] none).indexNetwork
    ((Cached.mk [0, 0, 1] idx).numberingNetwork 1).map (fun c => (c.track, c.networkSlice 1)) = some ([1, 1, 2], some (2, 3)) := by
  decide

end Verif.Events
