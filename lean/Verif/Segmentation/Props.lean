import Verif.Segmentation.Chain

/-!
# Segmentation of groups (C20)
-/

namespace Verif.Segmentation

/-! ### Specification -/

/-- Overlap restricted to the pairs of one group; group 0 is "no group". -/
def inGroup (grp : Nat → Nat) (ov : Nat → Nat → Rat) (i j : Nat) : Rat :=
  if grp i = grp j ∧ grp i ≠ 0 then ov i j else 0

/-- A link and a cost are those of a search (`-1`: nothing found; the cost is then irrelevant). -/
def Stored : Option (Nat × Rat) → Int → Rat → Prop
  | none, l, _ => l = -1
  | some (t, c), l, c' => l = t ∧ c' = c

/-- A correct segmentation of the observations `0 … T.length - 1` of time steps `T`, groups `grp` and overlaps `ov`. -/
structure Segmented (grp : Nat → Nat) (T : List Int) (ov : Nat → Nat → Rat) (window : Int) (st : St) : Prop where
  /-- observations without group have no segment and no link -/
  outside : ∀ k, k < T.length → grp k = 0 → st.track k = 0 ∧ st.prev k = -1 ∧ st.next k = -1
  /-- every other observation has a segment -/
  numbered : ∀ k, k < T.length → grp k ≠ 0 → 1 ≤ st.track k
  /-- a segment has at most one observation by time step -/
  unique : ∀ i j, i < T.length → j < T.length → grp i = grp j → grp i ≠ 0 → st.track i = st.track j → T[i]? = T[j]? → i = j
  /-- the forward link is the best candidate of the window -/
  forward : ∀ k, k < T.length → grp k ≠ 0 → ∃ r, BestForward T (inGroup grp ov) window k r ∧ Stored r (st.next k) (st.ncost k)
  /-- the backward link is a forward link reversed or the best backward candidate; without backward link there is no
  backward candidate and nothing leads here -/
  backward : ∀ k, k < T.length → grp k ≠ 0 →
    (st.prev k = -1 ∧ BestBackward T (inGroup grp ov) window k none ∧ ∀ i, i < T.length → st.next i ≠ k) ∨
    ∃ p : Nat, st.prev k = p ∧ ((p < T.length ∧ st.next p = k ∧ st.pcost k = ov p k) ∨
      BestBackward T (inGroup grp ov) window k (some (p, st.pcost k)))
  /-- among the observations which lead to one observation, none overlaps it more than the backward link -/
  strongest : ∀ i k : Nat, i < T.length → st.next i = k → k < T.length ∧ ov i k ≤ st.pcost k
  /-- successive observations of a segment are linked in both directions -/
  consecutive : ∀ i j, i < j → j < T.length → grp i = grp j → grp i ≠ 0 → st.track i = st.track j →
    (∀ l, i < l → l < j → grp l = grp i → st.track l ≠ st.track i) → st.next i = j ∧ st.prev j = i

/-! ### One group -/

theorem inGroup_const (ov : Nat → Nat → Rat) : inGroup (fun _ => 1) ov = ov := by
  funext i j
  simp [inGroup]

/-- C20 for one group: `set_tracks` terminates without exception and its result is a correct segmentation. -/
theorem set_tracks_spec (T : List Int) (hne : T ≠ []) (hs : T.Pairwise (· ≤ ·)) (ov : Nat → Nat → Rat)
    (hov : ∀ i j, 0 ≤ ov i j) (window : Int) :
    ∃ st, setTracks ov T window = some st ∧ Segmented (fun _ => 1) T ov window st := by
  obtain ⟨s, e, ref, hb, hI, -, -, -⟩ := Index.build_index_spec T hne hs
  have hN0 := fun i (hi : i < T.length) => getNext_spec T s e ref hI ov hov window i hi
  have hP0 := fun i (hi : i < T.length) => getPrev_spec T s e ref hI ov hov window i hi
  -- total functions
  set nx := getNext ov (fun k => T.getD k 0) (s, e, ref) window with hnx
  set pv := getPrev ov (fun k => T.getD k 0) (s, e, ref) window with hpv
  let N : Nat → Option (Nat × Rat) := fun i => (nx i).getD none
  let P : Nat → Option (Nat × Rat) := fun i => (pv i).getD none
  have hN1 : ∀ i, i < T.length → nx i = some (N i) ∧ BestForward T ov window i (N i) := by
    intro i hi
    obtain ⟨r, h1, h2⟩ := hN0 i hi
    have : N i = r := by simp only [N]; rw [h1]; rfl
    rw [this]; exact ⟨h1, h2⟩
  have hP1 : ∀ i, i < T.length → pv i = some (P i) ∧ BestBackward T ov window i (P i) := by
    intro i hi
    obtain ⟨r, h1, h2⟩ := hP0 i hi
    have : P i = r := by simp only [P]; rw [h1]; rfl
    rw [this]; exact ⟨h1, h2⟩
  have hget : ∀ i, i < T.length → T[i]? = some (T.getD i 0) := by
    intro i hi
    rw [List.getD_eq_getElem?_getD, List.getElem?_eq_getElem hi]; rfl
  have hmono : ∀ i j, i ≤ j → j < T.length → T.getD i 0 ≤ T.getD j 0 := by
    intro i j hij hj
    rcases Nat.lt_or_eq_of_le hij with h | rfl
    · have := List.pairwise_iff_getElem.1 hs i j (by omega) hj h
      rw [List.getD_eq_getElem?_getD, List.getElem?_eq_getElem (by omega), List.getD_eq_getElem?_getD,
        List.getElem?_eq_getElem hj]
      exact this
    · exact le_refl _
  have hFwd : Fwd T.length (fun k => T.getD k 0) N := by
    intro i t c hi h
    have h2 := (hN1 i hi).2
    rw [h] at h2
    obtain ⟨a, b, h3, h4, h5, h6, h7, h8, -⟩ := h2
    have htl : t < T.length := (List.getElem?_eq_some_iff.1 h4).1
    rw [hget i hi] at h3
    rw [hget t htl] at h4
    obtain rfl := Option.some.inj h3
    obtain rfl := Option.some.inj h4
    exact ⟨htl, h5, h8⟩
  obtain ⟨out, h1, h2, h3⟩ := loop_spec (n := T.length) (T := fun k => T.getD k 0) (N := N) (P := P) nx pv
    (fun i hi => (hN1 i hi).1) (fun i hi => (hP1 i hi).1) hFwd hmono T.length (le_refl _)
  refine ⟨out.1, ?_, ?_⟩
  · unfold setTracks
    simp only [Option.bind_eq_bind]
    rw [hb, Option.bind_some, h1, Option.bind_some]
  have hlead : ∀ i k : Nat, i < T.length → out.1.next i = k → ∃ c, N i = some (k, c) ∧ c = ov i k ∧ k < T.length ∧
      c ≤ out.1.pcost k := by
    intro i k hi hk
    rcases hn : N i with _ | ⟨t, c⟩
    · have := h2.ncl i hi (h3 i hi) (Or.inr hn)
      omega
    · obtain ⟨g1, _, _, g4⟩ := h2.nlk i t c hi (h3 i hi) (fun h => h) hn
      rw [hk] at g1
      obtain rfl : k = t := by omega
      have hb := (hN1 i hi).2
      rw [hn] at hb
      obtain ⟨a, b, _, h4, _, _, h7, _⟩ := hb
      exact ⟨c, rfl, h7.symm, (List.getElem?_eq_some_iff.1 h4).1, g4⟩
  refine ⟨fun k _ h => (by cases h), fun k hk _ => (h2.tr k hk (h3 k hk)).1, fun i j hi hj _ _ h5 h6 => ?_,
    fun k hk _ => ⟨N k, by rw [inGroup_const]; exact (hN1 k hk).2, ?_⟩, fun k hk _ => ?_, fun i k hi hk => ?_,
    fun i j hij hj _ _ h5 h6 => ?_⟩
  · refine h2.uniq i j hi hj (h3 i hi) (h3 j hj) h5 ?_
    rw [hget i hi, hget j hj] at h6
    exact Option.some.inj h6
  · rcases hn : N k with _ | ⟨t, c⟩
    · exact h2.ncl k hk (h3 k hk) (Or.inr hn)
    · obtain ⟨g1, _, g3, _⟩ := h2.nlk k t c hk (h3 k hk) (fun h => h) hn
      exact ⟨g1, g3⟩
  · rw [inGroup_const]
    rcases h2.prv k hk (h3 k hk) with ⟨g1, g2, g3⟩ | ⟨p, c, g1, g2, g3 | g3⟩
    · refine Or.inl ⟨g1, ?_, fun i hi hik => ?_⟩
      · have := (hP1 k hk).2
        rw [g3.resolve_left (fun h => h)] at this
        exact this
      · obtain ⟨c, e1, _, _, e4⟩ := hlead i k hi hik
        have := (hFwd i k c hi e1).2.2
        rw [g2] at e4
        linarith
    · refine Or.inr ⟨p, g1, Or.inl ⟨g3.1, ?_, ?_⟩⟩
      · exact (h2.nlk p k c g3.1 (h3 p g3.1) (fun h => h) g3.2.2.2).1
      · have hb := (hN1 p g3.1).2
        rw [g3.2.2.2] at hb
        obtain ⟨a, b, _, _, _, _, h7, _⟩ := hb
        rw [g2, h7]
    · refine Or.inr ⟨p, g1, Or.inr ?_⟩
      have := (hP1 k hk).2
      rw [g3] at this
      rw [g2]
      exact this
  · obtain ⟨c, _, e2, e3, e4⟩ := hlead i k hi hk
    exact ⟨e3, by rw [← e2]; exact e4⟩
  · exact h2.seq i j hij hj (h3 i (by omega)) (h3 j hj) h5 (fun l hl1 hl2 _ => h6 l hl1 hl2 rfl)

/-! ### All groups -/

/-- A slice which is processed. -/
def Processed (groups : List Nat) (p : Nat × Nat) : Prop := p.1 < p.2 ∧ ∃ g, groups[p.1]? = some g ∧ g ≠ 0

/-- The result of a slice has been copied. -/
structure Agrees (st loc : St) (a b : Nat) : Prop where
  track : ∀ k, a ≤ k → k < b → st.track k = loc.track (k - a)
  prev : ∀ k, a ≤ k → k < b → st.prev k = shift a (loc.prev (k - a))
  next : ∀ k, a ≤ k → k < b → st.next k = shift a (loc.next (k - a))
  pcost : ∀ k, a ≤ k → k < b → st.pcost k = loc.pcost (k - a)
  ncost : ∀ k, a ≤ k → k < b → st.ncost k = loc.ncost (k - a)

/-- Two states are equal at one index. -/
def SameAt (st st0 : St) (k : Nat) : Prop :=
  st.track k = st0.track k ∧ st.prev k = st0.prev k ∧ st.next k = st0.next k ∧ st.pcost k = st0.pcost k ∧ st.ncost k = st0.ncost k

theorem groups_fold (groups : List Nat) (ov : Nat → Nat → Rat) (steps : List Int) (window : Int)
    (hov : ∀ i j, 0 ≤ ov i j) (ps : List (Nat × Nat)) :
    ∀ st0 : St, (∀ p ∈ ps, p.1 ≤ p.2 ∧ p.2 ≤ groups.length ∧
        ((steps.drop p.1).take (p.2 - p.1)).Pairwise (· ≤ ·) ∧ (p.1 < p.2 → (steps.drop p.1).take (p.2 - p.1) ≠ [])) →
      ps.Pairwise (fun p q => ∀ k, p.1 ≤ k → k < p.2 → ¬ (q.1 ≤ k ∧ k < q.2)) →
      ∃ st, ps.foldlM (groupStep groups ov steps window) st0 = some st ∧
        (∀ p ∈ ps, Processed groups p → ∃ loc, setTracks (fun i j => ov (p.1 + i) (p.1 + j)) ((steps.drop p.1).take (p.2 - p.1)) window =
            some loc ∧ Segmented (fun _ => 1) ((steps.drop p.1).take (p.2 - p.1))
          (fun i j => ov (p.1 + i) (p.1 + j)) window loc ∧ Agrees st loc p.1 p.2) ∧
        (∀ k, (∀ p ∈ ps, Processed groups p → ¬ (p.1 ≤ k ∧ k < p.2)) → SameAt st st0 k) := by
  induction ps with
  | nil =>
    intro st0 _ _
    exact ⟨st0, rfl, fun p hp => (by cases hp), fun k _ => ⟨rfl, rfl, rfl, rfl, rfl⟩⟩
  | cons p ps ih =>
    intro st0 hps hpw
    obtain ⟨hle, hlen, hsort, hnn⟩ := hps p List.mem_cons_self
    have hps' := fun q hq => hps q (List.mem_cons_of_mem p hq)
    rw [List.pairwise_cons] at hpw
    rw [List.foldlM_cons]
    simp only [Option.bind_eq_bind]
    by_cases hP : Processed groups p
    · obtain ⟨hlt, g, hg, hg0⟩ := id hP
      obtain ⟨loc, h1, h2⟩ := set_tracks_spec _ (hnn hlt) hsort (fun i j => ov (p.1 + i) (p.1 + j)) (fun i j => hov _ _) window
      have hstep : groupStep groups ov steps window st0 p = some (paste st0 loc p.1 p.2) := by
        unfold groupStep
        rw [if_neg (by omega)]
        simp only [Option.bind_eq_bind]
        rw [hg, Option.bind_some, if_neg hg0, h1, Option.bind_some]
      rw [hstep, Option.bind_some]
      obtain ⟨st, g1, g2, g3⟩ := ih (paste st0 loc p.1 p.2) hps' hpw.2
      refine ⟨st, g1, fun q hq hPq => ?_, fun k hk => ?_⟩
      · rcases List.mem_cons.1 hq with rfl | hq
        · have hsame : ∀ k, q.1 ≤ k → k < q.2 → SameAt st (paste st0 loc q.1 q.2) k := by
            intro k hk1 hk2
            refine g3 k (fun q' hq' hP' hc => ?_)
            exact hpw.1 q' hq' k hk1 hk2 hc
          refine ⟨loc, h1, h2, ⟨fun k k1 k2 => ?_, fun k k1 k2 => ?_, fun k k1 k2 => ?_, fun k k1 k2 => ?_, fun k k1 k2 => ?_⟩⟩
          · rw [(hsame k k1 k2).1]; exact if_pos ⟨k1, k2⟩
          · rw [(hsame k k1 k2).2.1]; exact if_pos ⟨k1, k2⟩
          · rw [(hsame k k1 k2).2.2.1]; exact if_pos ⟨k1, k2⟩
          · rw [(hsame k k1 k2).2.2.2.1]; exact if_pos ⟨k1, k2⟩
          · rw [(hsame k k1 k2).2.2.2.2]; exact if_pos ⟨k1, k2⟩
        · exact g2 q hq hPq
      · have hk' := hk p List.mem_cons_self hP
        obtain ⟨e1, e2, e3, e4, e5⟩ := g3 k (fun q hq => hk q (List.mem_cons_of_mem _ hq))
        refine ⟨?_, ?_, ?_, ?_, ?_⟩
        · rw [e1]; exact if_neg hk'
        · rw [e2]; exact if_neg hk'
        · rw [e3]; exact if_neg hk'
        · rw [e4]; exact if_neg hk'
        · rw [e5]; exact if_neg hk'
    · have hstep : groupStep groups ov steps window st0 p = some st0 := by
        unfold groupStep
        by_cases he : p.1 = p.2
        · rw [if_pos he]
        · rw [if_neg he]
          simp only [Option.bind_eq_bind]
          have hg := List.getElem?_eq_getElem (l := groups) (i := p.1) (by omega)
          rw [hg, Option.bind_some]
          split
          · rfl
          · rename_i h0
            exact absurd ⟨by omega, _, hg, h0⟩ hP
      rw [hstep, Option.bind_some]
      obtain ⟨st, g1, g2, g3⟩ := ih st0 hps' hpw.2
      refine ⟨st, g1, fun q hq hPq => ?_, fun k hk => g3 k (fun q hq => hk q (List.mem_cons_of_mem _ hq))⟩
      rcases List.mem_cons.1 hq with rfl | hq
      · exact absurd hPq hP
      · exact g2 q hq hPq

/-- The columns of a result. -/
def cols (rows : List Row) : St where
  track k := (rows[k]?.map (·.track)).getD 0
  prev k := (rows[k]?.map (·.prev)).getD (-1)
  next k := (rows[k]?.map (·.next)).getD (-1)
  pcost k := (rows[k]?.map (·.pcost)).getD 0
  ncost k := (rows[k]?.map (·.ncost)).getD 0
  used _ := true

theorem shift_eq_neg_one {a : Nat} {l : Int} (h : l = -1 ∨ 0 ≤ l) : shift a l = -1 ↔ l = -1 := by
  unfold shift
  split
  · omega
  · simp_all

theorem shift_eq {a k : Nat} {l : Int} (h : l = -1 ∨ 0 ≤ l) : shift a l = k ↔ a ≤ k ∧ l = ((k - a : Nat) : Int) := by
  unfold shift
  split <;> omega

theorem slice_get (steps : List Int) (a b x : Nat) (h : x < b - a) :
    ((steps.drop a).take (b - a))[x]? = steps[a + x]? := by
  rw [List.getElem?_take, if_pos h, List.getElem?_drop]

theorem slice_length (steps : List Int) (a b : Nat) (h : b ≤ steps.length) : ((steps.drop a).take (b - a)).length = b - a := by
  rw [List.length_take, List.length_drop]; omega

/-- Shift of a candidate. -/
def lift (a : Nat) : Option (Nat × Rat) → Option (Nat × Rat)
  | none => none
  | some (t, c) => some (a + t, c)

section
variable {grp : Nat → Nat} {steps : List Int} {ov : Nat → Nat → Rat} {window : Int} {a b k : Nat}

theorem inGroup_loc (hb : b ≤ steps.length) (hgrp : ∀ j, j < steps.length → (grp j = grp k ↔ a ≤ j ∧ j < b)) (h0 : grp k ≠ 0)
    (hk : a ≤ k ∧ k < b) {x : Nat} (hx : x < b - a) : inGroup grp ov k (a + x) = ov (a + (k - a)) (a + x) := by
  unfold inGroup
  rw [if_pos ⟨((hgrp (a + x) (by omega)).2 ⟨by omega, by omega⟩).symm, h0⟩]
  congr 1
  omega

theorem inGroup_out (hgrp : ∀ j, j < steps.length → (grp j = grp k ↔ a ≤ j ∧ j < b)) {j : Nat} (hj : j < steps.length)
    (h : ¬ (a ≤ j ∧ j < b)) : inGroup grp ov k j = 0 := by
  unfold inGroup
  rw [if_neg]
  rintro ⟨h1, _⟩
  exact h ((hgrp j hj).1 h1.symm)

theorem bestForward_lift (hb : b ≤ steps.length) (hgrp : ∀ j, j < steps.length → (grp j = grp k ↔ a ≤ j ∧ j < b))
    (h0 : grp k ≠ 0) (hk : a ≤ k ∧ k < b) {r : Option (Nat × Rat)}
    (h : BestForward ((steps.drop a).take (b - a)) (fun i j => ov (a + i) (a + j)) window (k - a) r) :
    BestForward steps (inGroup grp ov) window k (lift a r) := by
  have hkget : ((steps.drop a).take (b - a))[k - a]? = steps[k]? := by
    rw [slice_get _ _ _ _ (by omega)]; congr 1; omega
  have hlt : ∀ {j : Nat} {y : Int}, steps[j]? = some y → j < steps.length := fun h => (List.getElem?_eq_some_iff.1 h).1
  have hloc : ∀ {t : Nat} {y : Int}, ((steps.drop a).take (b - a))[t]? = some y → t < b - a := by
    intro t y h
    have := (List.getElem?_eq_some_iff.1 h).1
    rw [slice_length _ _ _ hb] at this
    exact this
  rcases r with _ | ⟨t, c⟩
  · intro x y j h1 h2 h3 h4
    by_cases hj : a ≤ j ∧ j < b
    · obtain ⟨z, rfl⟩ := Nat.exists_eq_add_of_le hj.1
      rw [inGroup_loc hb hgrp h0 hk (by omega)]
      exact h x y z (by rw [hkget]; exact h1) (by rw [slice_get _ _ _ _ (by omega)]; exact h2) h3 h4
    · exact inGroup_out hgrp (hlt h2) hj
  · obtain ⟨x, y, h1, h2, h3, h4, h5, h6, h7, h8⟩ := h
    have ht := hloc h2
    refine ⟨x, y, by rw [← hkget]; exact h1, by rw [← slice_get _ _ _ _ ht]; exact h2, h3, h4, ?_, h6, fun j y' g1 g2 g3 => ?_,
      fun j g1 => ?_⟩
    · rw [inGroup_loc hb hgrp h0 hk ht]; exact h5
    · by_cases hj : a ≤ j ∧ j < b
      · obtain ⟨z, rfl⟩ := Nat.exists_eq_add_of_le hj.1
        rw [inGroup_loc hb hgrp h0 hk (by omega)]
        exact h7 z y' (by rw [slice_get _ _ _ _ (by omega)]; exact g1) g2 g3
      · exact inGroup_out hgrp (hlt g1) hj
    · by_cases hj : a ≤ j ∧ j < b
      · obtain ⟨z, rfl⟩ := Nat.exists_eq_add_of_le hj.1
        rw [inGroup_loc hb hgrp h0 hk (by omega)]
        obtain ⟨g2, g3⟩ := h8 z (by rw [slice_get _ _ _ _ (by omega)]; exact g1)
        exact ⟨g2, fun h => g3 (by omega)⟩
      · rw [inGroup_out hgrp (hlt g1) hj]
        exact ⟨le_of_lt h6, fun _ => h6⟩

theorem bestBackward_lift (hb : b ≤ steps.length) (hgrp : ∀ j, j < steps.length → (grp j = grp k ↔ a ≤ j ∧ j < b))
    (h0 : grp k ≠ 0) (hk : a ≤ k ∧ k < b) {r : Option (Nat × Rat)}
    (h : BestBackward ((steps.drop a).take (b - a)) (fun i j => ov (a + i) (a + j)) window (k - a) r) :
    BestBackward steps (inGroup grp ov) window k (lift a r) := by
  have hkget : ((steps.drop a).take (b - a))[k - a]? = steps[k]? := by
    rw [slice_get _ _ _ _ (by omega)]; congr 1; omega
  have hlt : ∀ {j : Nat} {y : Int}, steps[j]? = some y → j < steps.length := fun h => (List.getElem?_eq_some_iff.1 h).1
  have hloc : ∀ {t : Nat} {y : Int}, ((steps.drop a).take (b - a))[t]? = some y → t < b - a := by
    intro t y h
    have := (List.getElem?_eq_some_iff.1 h).1
    rw [slice_length _ _ _ hb] at this
    exact this
  rcases r with _ | ⟨t, c⟩
  · intro x y j h1 h2 h3 h4
    by_cases hj : a ≤ j ∧ j < b
    · obtain ⟨z, rfl⟩ := Nat.exists_eq_add_of_le hj.1
      rw [inGroup_loc hb hgrp h0 hk (by omega)]
      exact h x y z (by rw [hkget]; exact h1) (by rw [slice_get _ _ _ _ (by omega)]; exact h2) h3 h4
    · exact inGroup_out hgrp (hlt h2) hj
  · obtain ⟨x, y, h1, h2, h3, h4, h5, h6, h7, h8⟩ := h
    have ht := hloc h2
    refine ⟨x, y, by rw [← hkget]; exact h1, by rw [← slice_get _ _ _ _ ht]; exact h2, h3, h4, ?_, h6, fun j y' g1 g2 g3 => ?_,
      fun j g1 => ?_⟩
    · rw [inGroup_loc hb hgrp h0 hk ht]; exact h5
    · by_cases hj : a ≤ j ∧ j < b
      · obtain ⟨z, rfl⟩ := Nat.exists_eq_add_of_le hj.1
        rw [inGroup_loc hb hgrp h0 hk (by omega)]
        exact h7 z y' (by rw [slice_get _ _ _ _ (by omega)]; exact g1) g2 g3
      · exact inGroup_out hgrp (hlt g1) hj
    · by_cases hj : a ≤ j ∧ j < b
      · obtain ⟨z, rfl⟩ := Nat.exists_eq_add_of_le hj.1
        rw [inGroup_loc hb hgrp h0 hk (by omega)]
        obtain ⟨g2, g3⟩ := h8 z (by rw [slice_get _ _ _ _ (by omega)]; exact g1)
        exact ⟨g2, fun h => g3 (by omega)⟩
      · rw [inGroup_out hgrp (hlt g1) hj]
        exact ⟨le_of_lt h6, fun _ => h6⟩
end

/-- Only the values at the indices of the dataset matter. -/
theorem Segmented.congr {grp : Nat → Nat} {T : List Int} {ov : Nat → Nat → Rat} {window : Int} {st st' : St}
    (h : Segmented grp T ov window st) (he : ∀ k, k < T.length → SameAt st' st k) : Segmented grp T ov window st' := by
  refine ⟨fun k hk h0 => ?_, fun k hk h0 => ?_, fun i j hi hj h1 h2 h3 h4 => ?_, fun k hk h0 => ?_, fun k hk h0 => ?_,
    fun i k hi hk => ?_, fun i j hij hj h1 h2 h3 h4 => ?_⟩
  · rw [(he k hk).1, (he k hk).2.1, (he k hk).2.2.1]; exact h.outside k hk h0
  · rw [(he k hk).1]; exact h.numbered k hk h0
  · rw [(he i hi).1, (he j hj).1] at h3; exact h.unique i j hi hj h1 h2 h3 h4
  · rw [(he k hk).2.2.1, (he k hk).2.2.2.2]; exact h.forward k hk h0
  · rw [(he k hk).2.1, (he k hk).2.2.2.1]
    rcases h.backward k hk h0 with ⟨g1, g2, g3⟩ | ⟨p, g1, g2 | g2⟩
    · exact Or.inl ⟨g1, g2, fun i hi => by rw [(he i hi).2.2.1]; exact g3 i hi⟩
    · exact Or.inr ⟨p, g1, Or.inl ⟨g2.1, by rw [(he p g2.1).2.2.1]; exact g2.2.1, g2.2.2⟩⟩
    · exact Or.inr ⟨p, g1, Or.inr g2⟩
  · rw [(he i hi).2.2.1] at hk
    obtain ⟨g1, g2⟩ := h.strongest i k hi hk
    exact ⟨g1, by rw [(he k g1).2.2.2.1]; exact g2⟩
  · rw [(he i (by omega)).1, (he j hj).1] at h3
    rw [(he i (by omega)).2.2.1, (he j hj).2.1]
    refine h.consecutive i j hij hj h1 h2 h3 (fun l l1 l2 l3 => ?_)
    have := h4 l l1 l2 l3
    rw [(he i (by omega)).1, (he l (by omega)).1] at this
    exact this

/-- `split_network` slice by slice: the result of each group is the one of `set_tracks` on the slice of the group alone, with its links
moved; the observations without group are left. -/
theorem split_core (groups : List Nat) (hne : groups ≠ []) (hs : groups.Pairwise (· ≤ ·)) (steps : List Int)
    (hlen : steps.length = groups.length) (ov : Nat → Nat → Rat) (hov : ∀ i j, 0 ≤ ov i j) (window : Int)
    (ht : ∀ i j : Nat, i < j → j < groups.length → groups[i]? = groups[j]? → steps.getD i 0 ≤ steps.getD j 0) :
    ∃ st : St, splitNetwork groups ov steps window = some ((List.range groups.length).map (fun k =>
        (⟨groups.getD k 0, steps.getD k 0, st.track k, st.prev k, st.next k, st.pcost k, st.ncost k⟩ : Row))) ∧
      (∀ k, k < steps.length → groups.getD k 0 ≠ 0 → ∃ (a b : Nat) (loc : St), a ≤ k ∧ k < b ∧ b ≤ steps.length ∧
        (∀ j, j < steps.length → (groups.getD j 0 = groups.getD k 0 ↔ a ≤ j ∧ j < b)) ∧
        setTracks (fun i j => ov (a + i) (a + j)) ((steps.drop a).take (b - a)) window = some loc ∧
        Segmented (fun _ => 1) ((steps.drop a).take (b - a)) (fun i j => ov (a + i) (a + j)) window loc ∧ Agrees st loc a b) ∧
      (∀ k, k < steps.length → groups.getD k 0 = 0 → SameAt st init k) := by
  have hs' : (groups.map (fun (g : Nat) => (g : Int))).Pairwise (· ≤ ·) := by
    rw [List.pairwise_map]; exact hs.imp (fun h => by exact_mod_cast h)
  obtain ⟨first, last, i0, hb, ⟨hfl, hrange, hslice⟩, -, -, -⟩ :=
    Index.build_index_spec (groups.map (fun (g : Nat) => (g : Int))) (by simpa using hne) hs'
  rw [List.length_map] at hslice
  have hslice' : ∀ (m a b : Nat), first[m]? = some a → last[m]? = some b →
      a ≤ b ∧ b ≤ groups.length ∧ ∀ k : Nat, (∃ g, groups[k]? = some g ∧ (g : Int) = i0 + m) ↔ a ≤ k ∧ k < b := by
    intro m a b h1 h2
    obtain ⟨s1, s2, s3⟩ := hslice m a b h1 h2
    refine ⟨s1, s2, fun k => ?_⟩
    rw [← s3 k, List.getElem?_map]
    cases groups[k]? with
    | none => simp
    | some v => simp
  have hgetg : ∀ k, k < groups.length → groups[k]? = some (groups.getD k 0) := by
    intro k hk
    rw [List.getD_eq_getElem?_getD, List.getElem?_eq_getElem hk]; rfl
  have hgets : ∀ k, k < steps.length → steps[k]? = some (steps.getD k 0) := by
    intro k hk
    rw [List.getD_eq_getElem?_getD, List.getElem?_eq_getElem hk]; rfl
  -- the slices
  have hzip : ∀ p ∈ first.zip last, ∃ m : Nat, first[m]? = some p.1 ∧ last[m]? = some p.2 := by
    intro p hp
    obtain ⟨m, hm⟩ := List.getElem?_of_mem hp
    exact ⟨m, List.getElem?_zip_eq_some.1 hm⟩
  have hconst : ∀ p ∈ first.zip last, ∀ i j, p.1 ≤ i → i < p.2 → p.1 ≤ j → j < p.2 → groups.getD i 0 = groups.getD j 0 := by
    intro p hp i j h1 h2 h3 h4
    obtain ⟨m, e1, e2⟩ := hzip p hp
    obtain ⟨s1, s2, s3⟩ := hslice' m _ _ e1 e2
    obtain ⟨g, hg, hg'⟩ := (s3 i).2 ⟨h1, h2⟩
    obtain ⟨g2, hg2, hg2'⟩ := (s3 j).2 ⟨h3, h4⟩
    rw [hgetg i (by omega)] at hg
    rw [hgetg j (by omega)] at hg2
    have := Option.some.inj hg
    have := Option.some.inj hg2
    omega
  have hcov : ∀ k, k < groups.length → ∃ p ∈ first.zip last, p.1 ≤ k ∧ k < p.2 ∧
      ∀ j, j < groups.length → groups.getD j 0 = groups.getD k 0 → p.1 ≤ j ∧ j < p.2 := by
    intro k hk
    have hr := hrange (groups.getD k 0) (List.mem_map.2 ⟨_, List.mem_of_getElem? (hgetg k hk), rfl⟩)
    obtain ⟨m, hm⟩ : ∃ m : Nat, ((groups.getD k 0 : Nat) : Int) = i0 + m := ⟨(groups.getD k 0 - i0).toNat, by omega⟩
    have hml : m < first.length := by omega
    have e1 := List.getElem?_eq_getElem hml
    have e2 := List.getElem?_eq_getElem (l := last) (i := m) (by omega)
    obtain ⟨s1, s2, s3⟩ := hslice' m _ _ e1 e2
    have hin := (s3 k).1 ⟨_, hgetg k hk, hm⟩
    refine ⟨(first[m], last[m]'(by omega)), ?_, hin.1, hin.2, fun j hj hjk => ?_⟩
    · exact List.mem_of_getElem? (i := m) (List.getElem?_zip_eq_some.2 ⟨e1, e2⟩)
    · exact (s3 j).1 ⟨_, hgetg j hj, by rw [hjk]; exact hm⟩
  have hgood : ∀ p ∈ first.zip last, p.1 ≤ p.2 ∧ p.2 ≤ groups.length ∧
      ((steps.drop p.1).take (p.2 - p.1)).Pairwise (· ≤ ·) ∧ (p.1 < p.2 → (steps.drop p.1).take (p.2 - p.1) ≠ []) := by
    intro p hp
    obtain ⟨m, e1, e2⟩ := hzip p hp
    obtain ⟨s1, s2, s3⟩ := hslice' m _ _ e1 e2
    have hl := slice_length steps p.1 p.2 (by omega)
    refine ⟨s1, s2, ?_, fun h hc => ?_⟩
    · rw [List.pairwise_iff_getElem]
      intro i j hi hj hij
      rw [hl] at hi hj
      have h1 : ((steps.drop p.1).take (p.2 - p.1))[i]? = steps[p.1 + i]? := slice_get _ _ _ _ hi
      have h2 : ((steps.drop p.1).take (p.2 - p.1))[j]? = steps[p.1 + j]? := slice_get _ _ _ _ hj
      rw [List.getElem?_eq_getElem (by rw [hl]; exact hi), hgets _ (by omega)] at h1
      rw [List.getElem?_eq_getElem (by rw [hl]; exact hj), hgets _ (by omega)] at h2
      rw [Option.some.inj h1, Option.some.inj h2]
      refine ht _ _ (by omega) (by omega) ?_
      rw [hgetg _ (by omega), hgetg _ (by omega), hconst p hp (p.1 + i) (p.1 + j) (by omega) (by omega) (by omega) (by omega)]
    · rw [hc] at hl
      simp at hl
      omega
  have hdisj : (first.zip last).Pairwise (fun p q => ∀ k, p.1 ≤ k → k < p.2 → ¬ (q.1 ≤ k ∧ k < q.2)) := by
    rw [List.pairwise_iff_getElem]
    intro m m' hm hm' hmm k h1 h2 h3
    have e := List.getElem?_zip_eq_some.1 (List.getElem?_eq_getElem hm)
    have e' := List.getElem?_zip_eq_some.1 (List.getElem?_eq_getElem hm')
    obtain ⟨g, hg, hg'⟩ := ((hslice' m _ _ e.1 e.2).2.2 k).2 ⟨h1, h2⟩
    obtain ⟨g2, hg2, hg2'⟩ := ((hslice' m' _ _ e'.1 e'.2).2.2 k).2 h3
    rw [hg] at hg2
    have := Option.some.inj hg2
    omega
  obtain ⟨st, hst, hloc, hout⟩ := groups_fold groups ov steps window hov (first.zip last) init hgood hdisj
  have hrows : splitNetwork groups ov steps window = some ((List.range groups.length).map (fun k =>
      (⟨groups.getD k 0, steps.getD k 0, st.track k, st.prev k, st.next k, st.pcost k, st.ncost k⟩ : Row))) := by
    unfold splitNetwork
    simp only [Option.bind_eq_bind]
    rw [hb, Option.bind_some, hst, Option.bind_some]
  -- every observation of a group lies in the slice of the group
  have main : ∀ k, k < steps.length → groups.getD k 0 ≠ 0 → ∃ (a b : Nat) (loc : St), a ≤ k ∧ k < b ∧ b ≤ steps.length ∧
      (∀ j, j < steps.length → (groups.getD j 0 = groups.getD k 0 ↔ a ≤ j ∧ j < b)) ∧
      setTracks (fun i j => ov (a + i) (a + j)) ((steps.drop a).take (b - a)) window = some loc ∧
      Segmented (fun _ => 1) ((steps.drop a).take (b - a)) (fun i j => ov (a + i) (a + j)) window loc ∧ Agrees st loc a b := by
    intro k hk h0
    obtain ⟨p, hp, h1, h2, h3⟩ := hcov k (by omega)
    have hlb := (hgood p hp).2.1
    obtain ⟨loc, g0, g1, g2⟩ := hloc p hp ⟨by omega, groups.getD p.1 0, hgetg _ (by omega), by
      rw [hconst p hp p.1 k (le_refl _) (by omega) h1 h2]; exact h0⟩
    refine ⟨p.1, p.2, loc, h1, h2, by omega, fun j hj => ⟨fun h => h3 j (by omega) h, fun h => ?_⟩, g0, g1, g2⟩
    exact hconst p hp j k h.1 h.2 h1 h2
  have hzero : ∀ k, k < steps.length → groups.getD k 0 = 0 → SameAt st init k := by
    intro k hk h0
    refine hout k (fun p hp hP hc => ?_)
    obtain ⟨hlt, g, hg, hg0⟩ := hP
    have hlb := (hgood p hp).2.1
    rw [hgetg _ (by omega), hconst p hp p.1 k (le_refl _) hlt hc.1 hc.2, h0] at hg
    exact hg0 (Option.some.inj hg).symm
  exact ⟨st, hrows, main, hzero⟩

/-- C20 for a dataset sorted by group, with the observations of each group in order of time: `split_network` terminates
without exception, keeps the groups and the time steps, and its result is a correct segmentation. -/
theorem split_network_spec (groups : List Nat) (hne : groups ≠ []) (hs : groups.Pairwise (· ≤ ·)) (steps : List Int)
    (hlen : steps.length = groups.length) (ov : Nat → Nat → Rat) (hov : ∀ i j, 0 ≤ ov i j) (window : Int)
    (ht : ∀ i j : Nat, i < j → j < groups.length → groups[i]? = groups[j]? → steps.getD i 0 ≤ steps.getD j 0) :
    ∃ rows, splitNetwork groups ov steps window = some rows ∧ rows.map (·.group) = groups ∧ rows.map (·.time) = steps ∧
      Segmented (fun k => groups.getD k 0) steps ov window (cols rows) := by
  obtain ⟨st, hrows, main0, hzero⟩ := split_core groups hne hs steps hlen ov hov window ht
  have main : ∀ k, k < steps.length → groups.getD k 0 ≠ 0 → ∃ (a b : Nat) (loc : St), a ≤ k ∧ k < b ∧ b ≤ steps.length ∧
      (∀ j, j < steps.length → (groups.getD j 0 = groups.getD k 0 ↔ a ≤ j ∧ j < b)) ∧
      Segmented (fun _ => 1) ((steps.drop a).take (b - a)) (fun i j => ov (a + i) (a + j)) window loc ∧ Agrees st loc a b := by
    intro k hk h0
    obtain ⟨a, b, loc, k1, k2, k3, k4, -, k5, k6⟩ := main0 k hk h0
    exact ⟨a, b, loc, k1, k2, k3, k4, k5, k6⟩
  have hgetg : ∀ k, k < groups.length → groups[k]? = some (groups.getD k 0) := by
    intro k hk
    rw [List.getD_eq_getElem?_getD, List.getElem?_eq_getElem hk]; rfl
  have hgets : ∀ k, k < steps.length → steps[k]? = some (steps.getD k 0) := by
    intro k hk
    rw [List.getD_eq_getElem?_getD, List.getElem?_eq_getElem hk]; rfl
  refine ⟨_, hrows, ?_, ?_, ?_⟩
  · apply List.ext_getElem?
    intro k
    rw [List.map_map, List.getElem?_map]
    by_cases hk : k < groups.length
    · rw [List.getElem?_range hk, hgetg k hk]; rfl
    · rw [List.getElem?_eq_none (by simpa using hk), List.getElem?_eq_none (by omega)]; rfl
  · apply List.ext_getElem?
    intro k
    rw [List.map_map, List.getElem?_map]
    by_cases hk : k < groups.length
    · rw [List.getElem?_range hk, hgets k (by omega)]; rfl
    · rw [List.getElem?_eq_none (by simpa using hk), List.getElem?_eq_none (by omega)]; rfl
  refine Segmented.congr (st := st) ?_ (fun k hk => ?_)
  swap
  · have : k < groups.length := by omega
    refine ⟨?_, ?_, ?_, ?_, ?_⟩ <;> simp [cols, this]
  -- the links of a local result
  have hnl : ∀ {a b : Nat} {loc : St}, b ≤ steps.length → Segmented (fun _ => 1) ((steps.drop a).take (b - a))
      (fun i j => ov (a + i) (a + j)) window loc → ∀ x, x < b - a → loc.next x = -1 ∨ 0 ≤ loc.next x := by
    intro a b loc hbl hS x hx
    obtain ⟨r, _, h2⟩ := hS.forward x (by rw [slice_length _ _ _ hbl]; exact hx) (by simp)
    rcases r with _ | ⟨t, c⟩
    · exact Or.inl h2
    · right; rw [h2.1]; omega
  have hpl : ∀ {a b : Nat} {loc : St}, b ≤ steps.length → Segmented (fun _ => 1) ((steps.drop a).take (b - a))
      (fun i j => ov (a + i) (a + j)) window loc → ∀ x, x < b - a → loc.prev x = -1 ∨ 0 ≤ loc.prev x := by
    intro a b loc hbl hS x hx
    rcases hS.backward x (by rw [slice_length _ _ _ hbl]; exact hx) (by simp) with h | ⟨p, h, _⟩
    · exact Or.inl h.1
    · right; rw [h]; omega
  -- links of observations
  have hnext : ∀ i k : Nat, i < steps.length → st.next i = k → groups.getD i 0 ≠ 0 := by
    intro i k hi hk h0
    have := (hzero i hi h0).2.2.1
    rw [hk] at this
    simp [init] at this
  refine ⟨fun k hk h0 => ?_, fun k hk h0 => ?_, fun i j hi hj h1 h2 h3 h4 => ?_, fun k hk h0 => ?_, fun k hk h0 => ?_,
    fun i k hi hk => ?_, fun i j hij hj h1 h2 h3 h4 => ?_⟩
  · obtain ⟨e1, e2, e3, _⟩ := hzero k hk h0
    exact ⟨e1, e2, e3⟩
  · obtain ⟨a, b, loc, k1, k2, k3, k4, k5, k6⟩ := main k hk h0
    rw [k6.track k k1 k2]
    exact k5.numbered (k - a) (by rw [slice_length _ _ _ k3]; omega) (by simp)
  · obtain ⟨a, b, loc, k1, k2, k3, k4, k5, k6⟩ := main i hi h2
    obtain ⟨j1, j2⟩ := (k4 j hj).1 h1.symm
    rw [k6.track i k1 k2, k6.track j j1 j2] at h3
    have := k5.unique (i - a) (j - a) (by rw [slice_length _ _ _ k3]; omega) (by rw [slice_length _ _ _ k3]; omega) rfl
      (by simp) h3 (by
        rw [slice_get _ _ _ _ (by omega), slice_get _ _ _ _ (by omega)]
        rw [show a + (i - a) = i by omega, show a + (j - a) = j by omega]
        exact h4)
    omega
  · obtain ⟨a, b, loc, k1, k2, k3, k4, k5, k6⟩ := main k hk h0
    obtain ⟨r, h1, h2⟩ := k5.forward (k - a) (by rw [slice_length _ _ _ k3]; omega) (by simp)
    rw [inGroup_const] at h1
    refine ⟨lift a r, bestForward_lift k3 k4 h0 ⟨k1, k2⟩ h1, ?_⟩
    rw [k6.next k k1 k2, k6.ncost k k1 k2]
    rcases r with _ | ⟨t, c⟩
    · exact (shift_eq_neg_one (Or.inl h2)).2 h2
    · refine ⟨?_, h2.2⟩
      rw [h2.1]
      unfold shift
      rw [if_pos (by omega)]
      push_cast; omega
  · obtain ⟨a, b, loc, k1, k2, k3, k4, k5, k6⟩ := main k hk h0
    have hxl : k - a < ((steps.drop a).take (b - a)).length := by rw [slice_length _ _ _ k3]; omega
    rw [k6.prev k k1 k2, k6.pcost k k1 k2]
    rcases k5.backward (k - a) hxl (by simp) with ⟨g1, g2, g3⟩ | ⟨p, g1, g2 | g2⟩
    · rw [inGroup_const] at g2
      refine Or.inl ⟨(shift_eq_neg_one (Or.inl g1)).2 g1, bestBackward_lift k3 k4 h0 ⟨k1, k2⟩ g2, fun i hi hik => ?_⟩
      obtain ⟨a', b', loc', i1, i2, i3, i4, i5, i6⟩ := main i hi (hnext i k hi hik)
      rw [i6.next i i1 i2, shift_eq (hnl i3 i5 _ (by omega))] at hik
      have hs' := i5.strongest (i - a') (k - a') (by rw [slice_length _ _ _ i3]; omega) hik.2
      rw [slice_length _ _ _ i3] at hs'
      have hgk := (i4 k hk).2 ⟨hik.1, by omega⟩
      obtain ⟨i7, i8⟩ := (k4 i hi).1 hgk.symm
      have : st.next i = k := by
        rw [i6.next i i1 i2, shift_eq (hnl i3 i5 _ (by omega))]; exact hik
      rw [k6.next i i7 i8, shift_eq (hnl k3 k5 _ (by omega))] at this
      exact g3 (i - a) (by rw [slice_length _ _ _ k3]; omega) this.2
    · obtain ⟨g3, g4, g5⟩ := g2
      rw [slice_length _ _ _ k3] at g3
      refine Or.inr ⟨a + p, ?_, Or.inl ⟨by omega, ?_, ?_⟩⟩
      · rw [g1]
        unfold shift
        rw [if_pos (by omega)]
        push_cast; omega
      · rw [k6.next (a + p) (by omega) (by omega), show a + p - a = p by omega, g4]
        unfold shift
        rw [if_pos (by omega)]
        omega
      · rw [g5, show a + (k - a) = k by omega]
    · rw [inGroup_const] at g2
      refine Or.inr ⟨a + p, ?_, Or.inr (bestBackward_lift k3 k4 h0 ⟨k1, k2⟩ g2)⟩
      rw [g1]
      unfold shift
      rw [if_pos (by omega)]
      push_cast; omega
  · obtain ⟨a, b, loc, k1, k2, k3, k4, k5, k6⟩ := main i hi (hnext i k hi hk)
    rw [k6.next i k1 k2, shift_eq (hnl k3 k5 _ (by omega))] at hk
    obtain ⟨g1, g2⟩ := k5.strongest (i - a) (k - a) (by rw [slice_length _ _ _ k3]; omega) hk.2
    rw [slice_length _ _ _ k3] at g1
    refine ⟨by omega, ?_⟩
    rw [k6.pcost k hk.1 (by omega)]
    rw [show a + (i - a) = i by omega, show a + (k - a) = k by omega] at g2
    exact g2
  · obtain ⟨a, b, loc, k1, k2, k3, k4, k5, k6⟩ := main i (by omega) h2
    obtain ⟨j1, j2⟩ := (k4 j hj).1 h1.symm
    rw [k6.track i k1 k2, k6.track j j1 j2] at h3
    obtain ⟨g1, g2⟩ := k5.consecutive (i - a) (j - a) (by omega) (by rw [slice_length _ _ _ k3]; omega) rfl
      (by simp) h3 (by
        intro l l1 l2 _
        have := h4 (a + l) (by omega) (by omega) ((k4 (a + l) (by omega)).2 ⟨by omega, by omega⟩)
        rw [k6.track i k1 k2, k6.track (a + l) (by omega) (by omega), show a + l - a = l by omega] at this
        exact this)
    rw [k6.next i k1 k2, k6.prev j j1 j2, g1, g2]
    unfold shift
    rw [if_pos (by omega), if_pos (by omega)]
    constructor <;> omega

end Verif.Segmentation
