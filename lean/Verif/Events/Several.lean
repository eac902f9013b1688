import Verif.Events.Correct

/-!
# C72, C73: networks with several independent events

Property theorems on the model of `Verif.Events.Correct`.
-/

namespace Verif.Events

open Verif.Segments

/-! ### C72 -/

/-- The segment `s` merges in less than `dmax` into a segment which splits from it (numbers of segments, before the loop). -/
def Fires (time : Nat → Int) (P Nx : Nat → Int) (dmax : Int) (sta : Nat → Nat) (s : Nat) : Prop :=
  Nx s ≠ -1 ∧ P (sta (Nx s).toNat) ≠ -1 ∧ sta (P (sta (Nx s).toNat)).toNat = s ∧
    time (Nx s).toNat - time (P (sta (Nx s).toNat)).toNat < dmax

/-- The loop, when a segment which merges starts from no observation, and a segment which receives does not itself merge into a segment
which splits. -/
theorem close_loop (time : Nat → Int) (P Nx : Nat → Int) (dmax : Int) (init : CState) (N L : Nat)
    (hend : ∀ s, s < N → init.seg ((init.slice s).2 - 1) = s)
    (htail : ∀ n r, n < L → n ≤ r → r < (init.slice (init.seg n)).2 → init.seg r = init.seg n)
    (hNx : ∀ s, s < N → Nx s ≠ -1 → (Nx s).toNat < L)
    (h1 : ∀ s, s < N → Fires time P Nx dmax init.seg s → P s = -1)
    (h2 : ∀ s, s < N → Fires time P Nx dmax init.seg s →
      Nx (init.seg (Nx s).toNat) = -1 ∨ P (init.seg (Nx (init.seg (Nx s).toNat)).toNat) = -1) :
    let st := (List.range N).foldl (closeStep time P Nx dmax) init
    (∀ s r, s < N → Fires time P Nx dmax init.seg s → (Nx s).toNat ≤ r → r < (init.slice (init.seg (Nx s).toNat)).2 →
      st.copy r = init.copy ((init.slice s).2 - 1)) ∧
    (∀ r, (∀ s, s < N → Fires time P Nx dmax init.seg s → ¬ ((Nx s).toNat ≤ r ∧ r < (init.slice (init.seg (Nx s).toNat)).2)) →
      st.copy r = init.copy r) ∧
    (∀ s, s < N → Fires time P Nx dmax init.seg s → st.prev (Nx s).toNat = ((init.slice s).2 : Int) - 1) ∧
    (∀ r, (∀ s, s < N → Fires time P Nx dmax init.seg s → r ≠ (Nx s).toNat) → st.prev r = init.prev r) := by
  intro st
  let F := Fires time P Nx dmax init.seg
  let T : Nat → Nat → Prop := fun s r => (Nx s).toNat ≤ r ∧ r < (init.slice (init.seg (Nx s).toNat)).2
  -- a row is in the end of one destination only, whose source is known
  have hdest : ∀ s r, s < N → F s → T s r → init.seg r = init.seg (Nx s).toNat := fun s r hs hF hT =>
    htail _ r (hNx s hs hF.1) hT.1 hT.2
  have hsrc : ∀ s s' r r', s < N → s' < N → F s → F s' → T s r → T s' r' → init.seg r = init.seg r' → s = s' := by
    intro s s' r r' hs hs' hF hF' hT hT' he
    have e1 := hdest s r hs hF hT
    have e2 := hdest s' r' hs' hF' hT'
    have e3 : init.seg (Nx s).toNat = init.seg (Nx s').toNat := by rw [← e1, ← e2, he]
    have a1 := hF.2.2.1
    rw [e3, hF'.2.2.1] at a1
    exact a1.symm
  let Inv : Nat → CState → Prop := fun k st =>
    (∀ s r, s < k → s < N → F s → T s r → st.seg r = s ∧ st.copy r = init.copy ((init.slice s).2 - 1)) ∧
    (∀ r, (∀ s, s < k → s < N → F s → ¬ T s r) → st.seg r = init.seg r ∧ st.copy r = init.copy r) ∧
    (∀ s, s < k → s < N → F s → st.prev (Nx s).toNat = ((init.slice s).2 : Int) - 1) ∧
    (∀ r, (∀ s, s < k → s < N → F s → r ≠ (Nx s).toNat) → st.prev r = init.prev r) ∧
    (∀ a, P a ≠ -1 → st.slice a = init.slice a) ∧ ∀ a, k ≤ a → st.slice a = init.slice a
  have hinv : Inv N st := by
    refine foldl_range_inv (closeStep time P Nx dmax) init Inv N ?_ ?_
    · exact ⟨fun s r h => absurd h (by omega), fun r _ => ⟨rfl, rfl⟩, fun s h => absurd h (by omega), fun r _ => rfl,
        fun a _ => rfl, fun a _ => rfl⟩
    rintro k st hk ⟨i1, i2, i3, i4, i5, i6⟩
    -- nothing to do
    have idle : ¬ F k → Inv (k + 1) st := by
      intro hF
      have hlt : ∀ s, s < k + 1 → F s → s < k := by
        intro s hs hFs
        have : s ≠ k := fun h => hF (h ▸ hFs)
        omega
      exact ⟨fun s r hs hsN hFs => i1 s r (hlt s hs hFs) hsN hFs,
        fun r hr => i2 r (fun s hs => hr s (by omega)), fun s hs hsN hFs => i3 s (hlt s hs hFs) hsN hFs,
        fun r hr => i4 r (fun s hs => hr s (by omega)), i5, fun a ha => i6 a (by omega)⟩
    have hslk := i6 k (le_refl k)
    unfold closeStep
    simp only
    rw [hslk]
    by_cases c1 : Nx k = -1
    · rw [if_pos c1]
      exact idle (fun h => h.1 c1)
    rw [if_neg c1]
    by_cases c2 : ∃ s, s < k ∧ F s ∧ T s (Nx k).toNat
    · -- the row after `k` was already given to its source
      obtain ⟨s, hs, hFs, hTs⟩ := c2
      rw [(i1 s _ hs (by omega) hFs hTs).1, if_pos (h1 s (by omega) hFs)]
      apply idle
      intro hFk
      have e := hdest s _ (by omega) hFs hTs
      have a1 := hFk.2.2.1
      rw [e, hFs.2.2.1] at a1
      omega
    have c2' : st.seg (Nx k).toNat = init.seg (Nx k).toNat :=
      (i2 _ (fun s hs _ hFs hTs => c2 ⟨s, hs, hFs, hTs⟩)).1
    rw [c2']
    by_cases c3 : P (init.seg (Nx k).toNat) = -1
    · rw [if_pos c3]
      exact idle (fun h => h.2.1 c3)
    rw [if_neg c3]
    -- `k` receives nothing
    have hnot : ∀ s r, s < N → F s → T s r → init.seg r ≠ k := by
      intro s r hs hFs hTs hr
      have e := hdest s r hs hFs hTs
      rcases h2 s hs hFs with h | h
      · rw [← e, hr] at h; exact c1 h
      · rw [← e, hr] at h; exact c3 h
    have hsc := i2 ((init.slice k).2 - 1) (fun s _ hs hFs hTs => hnot s _ hs hFs hTs (hend k hk))
    rw [hsc.1, hsc.2, hend k hk]
    have hp : (st.seg (P (init.seg (Nx k).toNat)).toNat = k) ↔ init.seg (P (init.seg (Nx k).toNat)).toNat = k := by
      by_cases c4 : ∃ s, s < k ∧ F s ∧ T s (P (init.seg (Nx k).toNat)).toNat
      · obtain ⟨s, hs, hFs, hTs⟩ := c4
        rw [(i1 s _ hs (by omega) hFs hTs).1]
        constructor
        · intro h; omega
        · intro h; exact absurd h (hnot s _ (by omega) hFs hTs)
      · rw [(i2 _ (fun s hs _ hFs hTs => c4 ⟨s, hs, hFs, hTs⟩)).1]
    by_cases c5 : init.seg (P (init.seg (Nx k).toNat)).toNat = k ∧ time (Nx k).toNat - time (P (init.seg (Nx k).toNat)).toNat < dmax
    · rw [if_pos ⟨hp.2 c5.1, c5.2⟩, i5 _ c3]
      have hFk : F k := ⟨c1, c3, c5.1, c5.2⟩
      have hPk : P k = -1 := h1 k hk hFk
      have hTk : ∀ r, T k r ↔ (Nx k).toNat ≤ r ∧ r < (init.slice (init.seg (Nx k).toNat)).2 := fun r => Iff.rfl
      refine ⟨fun s r hs hsN hFs hTs => ?_, fun r hr => ?_, fun s hs hsN hFs => ?_, fun r hr => ?_, fun a ha => ?_, fun a ha => ?_⟩
      · simp only [Index.sliceSet]
        by_cases hsk : s = k
        · subst hsk
          rw [if_pos hTs, if_pos hTs]
          exact ⟨rfl, rfl⟩
        · have hn : ¬ T k r := fun h => hsk (hsrc s k r r hsN hk hFs hFk hTs h rfl)
          rw [if_neg hn, if_neg hn]
          exact i1 s r (by omega) hsN hFs hTs
      · have hn : ¬ T k r := hr k (by omega) hk hFk
        simp only [Index.sliceSet]
        rw [if_neg hn, if_neg hn]
        exact i2 r (fun s hs => hr s (by omega))
      · simp only
        by_cases hsk : s = k
        · subst hsk
          rw [Function.update_self]
        · rw [Function.update_of_ne]
          · exact i3 s (by omega) hsN hFs
          · intro hc
            have a1 := hFs.2.2.1
            rw [hc, c5.1] at a1
            exact hsk a1.symm
      · simp only
        rw [Function.update_of_ne (hr k (by omega) hk hFk)]
        exact i4 r (fun s hs => hr s (by omega))
      · simp only
        rw [Function.update_of_ne (fun h => ha (by rw [h]; exact hPk))]
        exact i5 a ha
      · simp only
        rw [Function.update_of_ne (by omega)]
        exact i6 a (by omega)
    · rw [if_neg (fun h => c5 ⟨hp.1 h.1, h.2⟩)]
      exact idle (fun h => c5 ⟨h.2.2.1, h.2.2.2⟩)
  obtain ⟨i1, i2, i3, i4, _, _⟩ := hinv
  exact ⟨fun s r hs hF ha hb => (i1 s r hs hs hF ⟨ha, hb⟩).2, fun r hr => (i2 r (fun s _ hs hF hT => hr s hs hF hT)).2,
    fun s hs hF => i3 s hs hs hF, fun r hr => i4 r (fun s _ hs hF => hr s hs hF)⟩

/-- A close event: the segment which ends at the row `e` merges into the row `n`, the segment of `n` splits from the row `p` of the
segment of `e`, the two dates are at less than `dmax`. -/
def CloseEvent (obs : List Obs) (sta : List Nat) (time : List Int) (dmax : Int) (e n p : Nat) : Prop :=
  (∃ oe, Last obs e ∧ obs[e]? = some oe ∧ oe.next = n) ∧
  (∃ (f : Nat) (oF : Obs), First obs f ∧ obs[f]? = some oF ∧ sta[f]? = sta[n]? ∧ oF.prev = p) ∧
  sta[p]? = sta[e]? ∧ time.getD n 0 - time.getD p 0 < dmax

/-- The rows of the segments: bounds, first rows and last rows. -/
theorem segments_rows (obs : List Obs) (hne : obs ≠ []) (sta : List Nat) (hsta : segTrackArray obs = some sta) :
    ∃ first last, bounds obs = some (first, last) ∧ sta.length = obs.length ∧ first.length = last.length ∧
      (∀ k s : Nat, sta[k]? = some s → s < first.length ∧ first.getD s 0 ≤ k ∧ k < last.getD s 0) ∧
      (∀ k s : Nat, s < first.length → first.getD s 0 ≤ k → k < last.getD s 0 → sta[k]? = some s) ∧
      (∀ s, s < first.length → First obs (first.getD s 0) ∧ Last obs (last.getD s 0 - 1) ∧ first.getD s 0 < last.getD s 0) ∧
      (∀ k s : Nat, sta[k]? = some s → First obs k → first.getD s 0 = k) ∧
      ∀ k s : Nat, sta[k]? = some s → Last obs k → last.getD s 0 = k + 1 := by
  obtain ⟨first, last, sta', ⟨hsta', hslen, hsr, hsl⟩, hb, hlen, hpos, _, _, hf, hl, h0, hseg⟩ := bounds_full obs hne
  rw [hsta] at hsta'
  obtain rfl := Option.some.inj hsta'
  have fD : ∀ s (h : s < first.length), first.getD s 0 = first[s] := by
    intro s h; rw [List.getD_eq_getElem?_getD, List.getElem?_eq_getElem h]; rfl
  have lD : ∀ s (h : s < last.length), last.getD s 0 = last[s] := by
    intro s h; rw [List.getD_eq_getElem?_getD, List.getElem?_eq_getElem h]; rfl
  refine ⟨first, last, hb, hslen, hlen, fun k s hk => ?_, fun k s hs h1 h2 => ?_, fun s hs => ?_, fun k s hk hfk => ?_, fun k s hk hlk => ?_⟩
  · have hs := hsr k s hk
    have hs' : s < last.length := by omega
    have := (hsl s _ _ (List.getElem?_eq_getElem hs) (List.getElem?_eq_getElem hs') k).1 hk
    rw [fD s hs, lD s hs']
    exact ⟨hs, this⟩
  · have hs' : s < last.length := by omega
    rw [fD s hs] at h1
    rw [lD s hs'] at h2
    exact (hsl s _ _ (List.getElem?_eq_getElem hs) (List.getElem?_eq_getElem hs') k).2 ⟨h1, h2⟩
  · have hs' : s < last.length := by omega
    obtain ⟨c1, _, _⟩ := hseg s _ _ (List.getElem?_eq_getElem hs) (List.getElem?_eq_getElem hs')
    rw [fD s hs, lD s hs']
    obtain ⟨j, hj, hlj⟩ := (hl _).1 (List.getElem_mem hs')
    exact ⟨(hf _).1 (List.getElem_mem hs), by rw [hj, Nat.add_sub_cancel]; exact hlj, c1⟩
  · obtain ⟨m, hm⟩ := List.getElem?_of_mem ((hf k).2 hfk)
    have hml := (List.getElem?_eq_some_iff.1 hm).1
    have hml' : m < last.length := by omega
    obtain ⟨d1, _, _⟩ := hseg m _ _ hm (List.getElem?_eq_getElem hml')
    have hm2 := (hsl m _ _ hm (List.getElem?_eq_getElem hml') k).2 ⟨le_refl _, d1⟩
    rw [hk] at hm2
    obtain rfl := Option.some.inj hm2
    rw [List.getD_eq_getElem?_getD, hm]; rfl
  · obtain ⟨m, hm⟩ := List.getElem?_of_mem ((hl (k + 1)).2 ⟨k, rfl, hlk⟩)
    have hml := (List.getElem?_eq_some_iff.1 hm).1
    have hml' : m < first.length := by omega
    obtain ⟨d1, _, _⟩ := hseg m _ _ (List.getElem?_eq_getElem hml') hm
    have hm2 := (hsl m _ _ (List.getElem?_eq_getElem hml') hm k).2 ⟨by omega, by omega⟩
    rw [hk] at hm2
    obtain rfl := Option.some.inj hm2
    rw [List.getD_eq_getElem?_getD, hm]; rfl

/-- **C72**, for all networks with any number of close events, when a segment which merges in a close event starts from no observation,
and a segment which receives one does not end by a link to a segment which starts by a link. For each close event, the end of the segment
of `n` gets the number of the segment of `e` and the observation before `n` is `e`; nothing else changes. Missing: chained events, see
`close_events_wrong`. -/
theorem close_events_partial (obs : List Obs) (time : List Int) (hne : obs ≠ []) (hv : Valid obs) (dmax : Int) (sta : List Nat)
    (hsta : segTrackArray obs = some sta)
    (h1 : ∀ e n p, CloseEvent obs sta time dmax e n p → ∀ (f : Nat) o, First obs f → obs[f]? = some o → sta[f]? = sta[e]? → o.prev = -1)
    (h2 : ∀ e n p, CloseEvent obs sta time dmax e n p → ∀ (e' : Nat) o', Last obs e' → obs[e']? = some o' → sta[e']? = sta[n]? →
      o'.next ≠ -1 → ∀ (f : Nat) o, First obs f → obs[f]? = some o → sta[f]? = sta[o'.next.toNat]? → o.prev = -1) :
    ∃ segs prevs, correctClose obs time dmax = some (segs, prevs) ∧
      (∀ (e n p : Nat) oe, CloseEvent obs sta time dmax e n p → obs[e]? = some oe →
        (∀ k : Nat, k < obs.length → sta[k]? = sta[n]? → n ≤ k → segs[k]? = some oe.seg) ∧ prevs[n]? = some (e : Int)) ∧
      ∀ (k : Nat) o, obs[k]? = some o →
        ((∀ e n p, CloseEvent obs sta time dmax e n p → ¬ (sta[k]? = sta[n]? ∧ n ≤ k)) → segs[k]? = some o.seg) ∧
        ((∀ e n p, CloseEvent obs sta time dmax e n p → k ≠ n) → prevs[k]? = some o.prev) := by
  obtain ⟨first, last, hb, hslen, hlen, hin, hinv, hends, hfirst, hlast⟩ := segments_rows obs hne sta hsta
  let init := closeInit obs sta first last
  let P := fun s => init.prev (first.getD s 0)
  let Nx := fun s => (obs.map (·.next)).getD (last.getD s 0 - 1) (-1)
  have hsg : ∀ k, k < obs.length → sta[k]? = some (init.seg k) := by
    intro k hk
    have hk' : k < sta.length := by omega
    show sta[k]? = some (sta.getD k 0)
    rw [List.getD_eq_getElem?_getD, List.getElem?_eq_getElem hk']; rfl
  have hsgv : ∀ (k s : Nat), sta[k]? = some s → init.seg k = s := by
    intro k s hk
    show sta.getD k 0 = s
    rw [List.getD_eq_getElem?_getD, hk]; rfl
  have hstal : ∀ (k s : Nat), sta[k]? = some s → k < obs.length := by
    intro k s hk
    have := (List.getElem?_eq_some_iff.1 hk).1
    omega
  have hP : ∀ (k : Nat) o s, obs[k]? = some o → First obs k → sta[k]? = some s → P s = o.prev := by
    intro k o s ho hfk hk
    show (obs.map (·.prev)).getD (first.getD s 0) (-1) = o.prev
    rw [hfirst k s hk hfk, List.getD_eq_getElem?_getD, List.getElem?_map, ho]; rfl
  have hNx : ∀ (k : Nat) o s, obs[k]? = some o → Last obs k → sta[k]? = some s → Nx s = o.next := by
    intro k o s ho hlk hk
    show (obs.map (·.next)).getD (last.getD s 0 - 1) (-1) = o.next
    rw [hlast k s hk hlk, Nat.add_sub_cancel, List.getD_eq_getElem?_getD, List.getElem?_map, ho]; rfl
  -- first and last rows of a segment
  have hrf : ∀ s, s < first.length → ∃ (f : Nat) (o : Obs), First obs f ∧ obs[f]? = some o ∧ sta[f]? = some s ∧ P s = o.prev := by
    intro s hs
    obtain ⟨a1, _, a3⟩ := hends s hs
    obtain ⟨o, ho, _⟩ := id a1
    have := hinv _ s hs (le_refl _) a3
    exact ⟨_, o, a1, ho, this, hP _ o s ho a1 this⟩
  have hrl : ∀ s, s < first.length → ∃ (e : Nat) (o : Obs), Last obs e ∧ obs[e]? = some o ∧ sta[e]? = some s ∧ Nx s = o.next ∧ last.getD s 0 = e + 1 := by
    intro s hs
    obtain ⟨_, a2, a3⟩ := hends s hs
    obtain ⟨o, ho, _⟩ := id a2
    have := hinv (last.getD s 0 - 1) s hs (by omega) (by omega)
    exact ⟨_, o, a2, ho, this, hNx _ o s ho a2 this, by omega⟩
  -- the two forms of a close event
  have fwd : ∀ s, s < first.length → Fires (fun k => time.getD k 0) P Nx dmax init.seg s →
      CloseEvent obs sta time dmax (last.getD s 0 - 1) (Nx s).toNat (P (init.seg (Nx s).toNat)).toNat := by
    rintro s hs ⟨g1, g2, g3, g4⟩
    obtain ⟨e, oe, c1, c2, c3, c4, c5⟩ := hrl s hs
    have hvn := valid_next hv c2 (by rw [← c4]; exact g1)
    rw [← c4] at hvn
    have hn := hsg (Nx s).toNat (by omega)
    obtain ⟨f, oF, d1, d2, d3, d4⟩ := hrf _ (hin _ _ hn).1
    have hvp := valid_prev hv d2 (by rw [← d4]; exact g2)
    rw [← d4] at hvp
    rw [c5, Nat.add_sub_cancel]
    refine ⟨⟨oe, c1, c2, by omega⟩, ⟨f, oF, d1, d2, by rw [d3, hn], by omega⟩, ?_, g4⟩
    rw [c3, hsg _ (by omega), g3]
  have bwd : ∀ e n p, CloseEvent obs sta time dmax e n p → ∃ s, sta[e]? = some s ∧ s < first.length ∧ Nx s = n ∧
      last.getD s 0 = e + 1 ∧ n < obs.length ∧ Fires (fun k => time.getD k 0) P Nx dmax init.seg s := by
    rintro e n p ⟨⟨oe, c1, c2, c3⟩, ⟨f, oF, d1, d2, d3, d4⟩, hpe, ht⟩
    have hel : e < obs.length := (List.getElem?_eq_some_iff.1 c2).1
    have hfl : f < obs.length := (List.getElem?_eq_some_iff.1 d2).1
    have hse := hsg e hel
    have hNn : Nx (init.seg e) = n := by rw [hNx e oe _ c2 c1 hse, c3]
    have hsf := hsg f hfl
    have hsn : sta[n]? = some (init.seg f) := by rw [← d3, hsf]
    have hPn : P (init.seg n) = p := by rw [hsgv n _ hsn, hP f oF _ d2 d1 hsf, d4]
    refine ⟨init.seg e, hse, (hin _ _ hse).1, hNn, hlast _ _ hse c1, hstal n _ hsn, ?_⟩
    unfold Fires
    rw [hNn, Int.toNat_natCast, hPn, Int.toNat_natCast]
    refine ⟨by omega, by omega, ?_, ht⟩
    exact hsgv p _ (by rw [hpe, hse])
  obtain ⟨l1, l2, l3, l4⟩ := close_loop (fun k => time.getD k 0) P Nx dmax init first.length obs.length
    (fun s hs => by
      obtain ⟨e, oe, c1, c2, c3, c4, c5⟩ := hrl s hs
      show init.seg (last.getD s 0 - 1) = s
      rw [c5, Nat.add_sub_cancel]
      exact hsgv e s c3)
    (fun n r hn hr hr' => by
      have hsn := hsg n hn
      obtain ⟨a1, a2, a3⟩ := hin n _ hsn
      exact hsgv r _ (hinv r _ a1 (by omega) hr'))
    (fun s hs hnx => by
      obtain ⟨e, oe, c1, c2, c3, c4, c5⟩ := hrl s hs
      have hvn := valid_next hv c2 (by rw [← c4]; exact hnx)
      rw [← c4] at hvn
      omega)
    (fun s hs hF => by
      obtain ⟨e, oe, c1, c2, c3, c4, c5⟩ := hrl s hs
      obtain ⟨f, oF, d1, d2, d3, d4⟩ := hrf s hs
      rw [d4]
      have := fwd s hs hF
      rw [c5, Nat.add_sub_cancel] at this
      exact h1 _ _ _ this f oF d1 d2 (by rw [d3, c3]))
    (fun s hs hF => by
      by_cases hc : Nx (init.seg (Nx s).toNat) = -1
      · exact Or.inl hc
      · right
        obtain ⟨e, oe, c1, c2, c3, c4, c5⟩ := hrl s hs
        have hvn := valid_next hv c2 (by rw [← c4]; exact hF.1)
        rw [← c4] at hvn
        have hn := hsg (Nx s).toNat (by omega)
        obtain ⟨e', oe', k1, k2, k3, k4, k5⟩ := hrl _ (hin _ _ hn).1
        have hvn' := valid_next hv k2 (by rw [← k4]; exact hc)
        rw [← k4] at hvn'
        have hn' := hsg (Nx (init.seg (Nx s).toNat)).toNat (by omega)
        obtain ⟨f, oF, d1, d2, d3, d4⟩ := hrf _ (hin _ _ hn').1
        rw [d4]
        exact h2 _ _ _ (fwd s hs hF) e' oe' k1 k2 (by rw [k3, hn]) (by rw [← k4]; exact hc) f oF d1 d2 (by rw [d3, ← k4, hn']))
  refine ⟨(List.range obs.length).map ((List.range first.length).foldl (closeStep (fun k => time.getD k 0) P Nx dmax) init).copy,
    (List.range obs.length).map ((List.range first.length).foldl (closeStep (fun k => time.getD k 0) P Nx dmax) init).prev, ?_, ?_, ?_⟩
  · unfold correctClose
    rw [hsta, hb]
    rfl
  · intro e n p oe hC hoe
    obtain ⟨s, hse, hs, hN, hl, hnl, hF⟩ := bwd e n p hC
    have hNt : (Nx s).toNat = n := by omega
    constructor
    · intro k hk hkn hle
      rw [List.getElem?_map, List.getElem?_range hk, Option.map_some]
      have hsn := hsg n hnl
      rw [hsn] at hkn
      have := l1 s k hs hF (by omega) (by rw [hNt]; exact (hin k _ hkn).2.2)
      rw [this]
      show some ((obs.map (·.seg)).getD (last.getD s 0 - 1) 0) = _
      rw [hl, Nat.add_sub_cancel, List.getD_eq_getElem?_getD, List.getElem?_map, hoe]; rfl
    · rw [List.getElem?_map, List.getElem?_range hnl, Option.map_some]
      have := l3 s hs hF
      rw [hNt] at this
      rw [this]
      show some (((last.getD s 0 : Nat) : Int) - 1) = _
      rw [hl]
      simp
  · intro k o ho
    have hk : k < obs.length := (List.getElem?_eq_some_iff.1 ho).1
    constructor
    · intro hno
      rw [List.getElem?_map, List.getElem?_range hk, Option.map_some, l2 k ?_]
      · show some ((obs.map (·.seg)).getD k 0) = _
        rw [List.getD_eq_getElem?_getD, List.getElem?_map, ho]; rfl
      · rintro s hs hF ⟨t1, t2⟩
        have hC := fwd s hs hF
        obtain ⟨s', _, _, _, _, hnl, _⟩ := bwd _ _ _ hC
        have hsn := hsg _ hnl
        obtain ⟨a1, a2, a3⟩ := hin _ _ hsn
        exact hno _ _ _ hC ⟨by rw [hsn]; exact hinv k _ a1 (by omega) t2, t1⟩
    · intro hno
      rw [List.getElem?_map, List.getElem?_range hk, Option.map_some, l4 k ?_]
      · show some ((obs.map (·.prev)).getD k (-1)) = _
        rw [List.getD_eq_getElem?_getD, List.getElem?_map, ho]; rfl
      · intro s hs hF
        exact hno _ _ _ (fwd s hs hF)

/-- Two independent close events, in two networks. -/
example :
    let obs : List Obs := [⟨1, 1, -1, 1⟩, ⟨1, 1, 0, 3⟩, ⟨1, 2, 0, 3⟩, ⟨1, 2, 2, 4⟩, ⟨1, 2, 3, -1⟩, ⟨2, 1, -1, 6⟩, ⟨2, 1, 5, 8⟩, ⟨2, 2, 5, 8⟩, ⟨2, 2, 7, -1⟩]
    Valid obs ∧ segTrackArray obs = some [0, 0, 1, 1, 1, 2, 2, 3, 3] ∧
      correctClose obs [0, 1, 1, 2, 3, 0, 1, 1, 2] 20 = some ([1, 1, 2, 1, 1, 1, 1, 2, 1], [-1, 0, 0, 1, 3, -1, 5, 5, 6]) := by
  refine ⟨by unfold Valid; decide, by decide, by decide⟩

/-! ### C73 -/

/-- A swap: last row of the main segment before the event, row after it, first row of the secondary segment, last rows of both. -/
structure Swap where
  main : Nat
  after : Nat
  sec : Nat
  lastMain : Nat
  lastSec : Nat

/-- The row is in the secondary segment. -/
def Swap.InSec (e : Swap) (k : Nat) : Prop := e.sec ≤ k ∧ k ≤ e.lastSec
/-- The row is in the end of the main segment. -/
def Swap.InMain (e : Swap) (k : Nat) : Prop := e.after ≤ k ∧ k ≤ e.lastMain

/-- Two swaps share no segment. -/
def Swap.Apart (sta : Nat → Nat) (e e' : Swap) : Prop :=
  sta e.main ≠ sta e'.main ∧ sta e.main ≠ sta e'.sec ∧ sta e.sec ≠ sta e'.main ∧ sta e.sec ≠ sta e'.sec

/-- A swap between two different segments. -/
def Swap.Sound (sta : Nat → Nat) (e : Swap) : Prop :=
  sta e.main ≠ sta e.sec ∧ (∀ k, e.InSec k → sta k = sta e.sec) ∧ (∀ k, e.InMain k → sta k = sta e.main) ∧ e.main < e.after ∧ e.sec ≤ e.lastSec

theorem swap_loop (sta : Nat → Nat) : ∀ (l : List Swap) (seg : Nat → Nat), (∀ e ∈ l, e.Sound sta) → l.Pairwise (Swap.Apart sta) →
    let out := l.foldl (fun s e => swapStep s e.main e.after e.sec e.lastMain e.lastSec) seg
    ∀ k, (∀ e ∈ l, e.InSec k → out k = seg e.main) ∧ (∀ e ∈ l, e.InMain k → out k = seg e.sec) ∧
      ((∀ e ∈ l, ¬ e.InSec k ∧ ¬ e.InMain k) → out k = seg k)
  | [], seg, _, _ => by
    intro out k
    exact ⟨by simp, by simp, fun _ => rfl⟩
  | e :: l, seg, hs, hp => by
    intro out k
    have he := hs e (by simp)
    obtain ⟨hne, hS, hM, hlt, hle⟩ := he
    rw [List.pairwise_cons] at hp
    have hfold : out k = (l.foldl (fun s e => swapStep s e.main e.after e.sec e.lastMain e.lastSec)
        (swapStep seg e.main e.after e.sec e.lastMain e.lastSec)) k := rfl
    have hmain : Index.sliceSet seg e.after (e.lastMain + 1) (seg e.sec) e.main = seg e.main := by
      unfold Index.sliceSet
      rw [if_neg (by omega)]
    have hout : ∀ k, swapStep seg e.main e.after e.sec e.lastMain e.lastSec k =
        if e.sec ≤ k ∧ k < e.lastSec + 1 then seg e.main else if e.after ≤ k ∧ k < e.lastMain + 1 then seg e.sec else seg k := by
      intro k
      unfold swapStep
      rw [hmain]
      rfl
    have hkeep : ∀ k, sta k ≠ sta e.sec → sta k ≠ sta e.main → swapStep seg e.main e.after e.sec e.lastMain e.lastSec k = seg k := by
      intro k h1 h2
      rw [hout, if_neg (fun h => h1 (hS k ⟨h.1, by omega⟩)), if_neg (fun h => h2 (hM k ⟨h.1, by omega⟩))]
    obtain ⟨r1, r2, r3⟩ := swap_loop sta l (swapStep seg e.main e.after e.sec e.lastMain e.lastSec) (fun e' h => hs e' (by simp [h])) hp.2 k
    have hrest : sta k = sta e.sec ∨ sta k = sta e.main → ∀ e' ∈ l, ¬ e'.InSec k ∧ ¬ e'.InMain k := by
      intro hk e' he'
      obtain ⟨a1, a2, a3, a4⟩ := hp.1 e' he'
      obtain ⟨_, hS', hM', _, _⟩ := hs e' (by simp [he'])
      constructor
      · intro h
        have := hS' k h
        rcases hk with g | g <;> rw [g] at this <;> contradiction
      · intro h
        have := hM' k h
        rcases hk with g | g <;> rw [g] at this <;> contradiction
    refine ⟨fun e' h hk => ?_, fun e' h hk => ?_, fun h => ?_⟩
    · rcases List.mem_cons.1 h with rfl | h
      · rw [hfold]
        rw [r3 (hrest (Or.inl (hS k hk))), hout, if_pos ⟨hk.1, Nat.lt_succ_of_le hk.2⟩]
      · obtain ⟨a1, a2, a3, a4⟩ := hp.1 e' h
        rw [hfold]
        rw [r1 e' h hk, hkeep _ (Ne.symm a3) (Ne.symm a1)]
    · rcases List.mem_cons.1 h with rfl | h
      · have hn : ¬ (e'.sec ≤ k ∧ k < e'.lastSec + 1) := by
          rintro ⟨g1, g2⟩
          exact hne (by rw [← hM k hk, hS k ⟨g1, by omega⟩])
        rw [hfold]
        rw [r3 (hrest (Or.inr (hM k hk))), hout, if_neg hn, if_pos ⟨hk.1, Nat.lt_succ_of_le hk.2⟩]
      · obtain ⟨a1, a2, a3, a4⟩ := hp.1 e' h
        rw [hfold]
        rw [r2 e' h hk, hkeep _ (Ne.symm a4) (Ne.symm a2)]
    · have hk := h e (by simp)
      rw [hfold]
      rw [r3 (fun e' he' => h e' (by simp [he'])), hout, if_neg (fun g => hk.1 ⟨g.1, by omega⟩), if_neg (fun g => hk.2 ⟨g.1, by omega⟩)]

/-- The event of the network: the segment which starts at the row `sec` splits from the row `main`, and the swap is asked. -/
def SwapEvent (obs : List Obs) (sta : List Nat) (time : List Int) (pcost : List Rat) (mainMax secMin : Int) (delta : Rat) (e : Swap) : Prop :=
  First obs e.sec ∧ (∃ o, obs[e.sec]? = some o ∧ o.prev = e.main) ∧ (∃ o, obs[e.main]? = some o ∧ o.next = e.after) ∧
    Last obs e.lastMain ∧ sta[e.lastMain]? = sta[e.main]? ∧ Last obs e.lastSec ∧ sta[e.lastSec]? = sta[e.sec]? ∧
    SwapAsked obs time pcost mainMax secMin delta e.main e.after e.sec e.lastMain e.lastSec

/-- **C73**, for all networks with any number of events, when the swaps which are asked share no segment: for each of them the end of the
main segment and the secondary segment exchange their numbers, and the other rows do not change. `hnext`: a segment which splits leaves
an observation with a future, `hin`: the main segment continues after the event. Missing: swaps which share a segment, see `swap_wrong`. -/
theorem swap_events_partial (obs : List Obs) (time : List Int) (pcost : List Rat) (mainMax secMin : Int) (delta : Rat) (hne : obs ≠ [])
    (hv : Valid obs) (ht : time.length = obs.length) (sta : List Nat) (hsta : segTrackArray obs = some sta)
    (hnext : ∀ (s t : Nat) o o', First obs s → obs[s]? = some o → o.prev = t → obs[t]? = some o' → o'.next ≠ -1)
    (hin : ∀ e, SwapEvent obs sta time pcost mainMax secMin delta e →
      e.main < e.after ∧ sta[e.after]? = sta[e.main]? ∧ sta[e.main]? ≠ sta[e.sec]?)
    (hap : ∀ e e', SwapEvent obs sta time pcost mainMax secMin delta e → SwapEvent obs sta time pcost mainMax secMin delta e' →
      e.sec ≠ e'.sec → Swap.Apart (fun k => sta.getD k 0) e e') :
    ∃ out, swapTrack obs time pcost mainMax secMin delta = some out ∧ ∀ (k : Nat) o, obs[k]? = some o →
      (∀ e om, SwapEvent obs sta time pcost mainMax secMin delta e → obs[e.main]? = some om → e.InSec k → out[k]? = some om.seg) ∧
      (∀ e os, SwapEvent obs sta time pcost mainMax secMin delta e → obs[e.sec]? = some os → e.InMain k → out[k]? = some os.seg) ∧
      ((∀ e, SwapEvent obs sta time pcost mainMax secMin delta e → ¬ e.InSec k ∧ ¬ e.InMain k) → out[k]? = some o.seg) := by
  obtain ⟨first, last, hb, hslen, hlen, hrow, hinv, hends, hfirst, hlast⟩ := segments_rows obs hne sta hsta
  obtain ⟨l, hl, hnd, _, hmem⟩ := splitting_triplets obs time hne hv ht
  let sw : Int × Int × Nat → Swap := fun e => ⟨e.1.toNat, e.2.1.toNat, e.2.2, last.getD (sta.getD e.1.toNat 0) 0 - 1, last.getD (sta.getD e.2.2 0) 0 - 1⟩
  let test : Int × Int × Nat → Bool := fun e =>
    swapTest (fun k => time.getD k 0) (fun k => (obs.map (·.next)).getD k (-1)) (fun k => pcost.getD k 0) mainMax secMin delta
      (sw e).main (sw e).after (sw e).sec (sw e).lastMain (sw e).lastSec
  let seg0 : Nat → Nat := fun k => (obs.map (·.seg)).getD k 0
  let A := (l.filter test).map sw
  have hstaD : ∀ (k s : Nat), sta[k]? = some s → sta.getD k 0 = s := by
    intro k s hk
    rw [List.getD_eq_getElem?_getD, hk]; rfl
  have hsg : ∀ k, k < obs.length → sta[k]? = some (sta.getD k 0) := by
    intro k hk
    have hk' : k < sta.length := by omega
    rw [List.getD_eq_getElem?_getD, List.getElem?_eq_getElem hk']; rfl
  have hrun : swapTrack obs time pcost mainMax secMin delta = some ((List.range obs.length).map
      (A.foldl (fun s e => swapStep s e.main e.after e.sec e.lastMain e.lastSec) seg0)) := by
    unfold swapTrack
    rw [hl, hsta, hb]
    simp only [Option.bind_eq_bind, Option.bind_some]
    rw [List.foldl_map, List.foldl_filter]
  have hasked : ∀ (a b c lm ls : Nat) (o : Obs), obs[lm]? = some o →
      ((swapTest (fun k => time.getD k 0) (fun k => (obs.map (·.next)).getD k (-1)) (fun k => pcost.getD k 0) mainMax secMin delta
        a b c lm ls = true) ↔ SwapAsked obs time pcost mainMax secMin delta a b c lm ls) := by
    intro a b c lm ls o ho
    have : (obs.map (·.next)).getD lm (-1) = o.next := by
      rw [List.getD_eq_getElem?_getD, List.getElem?_map, ho]; rfl
    unfold swapTest SwapAsked
    simp only [Bool.and_eq_true, decide_eq_true_eq, this, ho, Option.some.injEq, exists_eq_left', gt_iff_lt]
    tauto
  have hlastrow : ∀ k, k < obs.length → Last obs (last.getD (sta.getD k 0) 0 - 1) ∧ sta[last.getD (sta.getD k 0) 0 - 1]? = sta[k]? := by
    intro k hk
    obtain ⟨a1, a2, a3⟩ := hrow k _ (hsg k hk)
    refine ⟨(hends _ a1).2.1, ?_⟩
    rw [hsg k hk]
    exact hinv _ _ a1 (by omega) (by omega)
  -- the swaps of the loop are the swaps which are asked
  have hA : ∀ e, e ∈ A ↔ SwapEvent obs sta time pcost mainMax secMin delta e := by
    intro e
    constructor
    · intro he
      obtain ⟨⟨t, p, s⟩, hm, rfl⟩ := List.mem_map.1 he
      obtain ⟨hm1, hm2⟩ := List.mem_filter.1 hm
      obtain ⟨g1, o, o', g2, g3, g4, g5, g6⟩ := (hmem t p s).1 hm1
      have hvt := valid_prev hv g2 (by rw [g3]; exact g4)
      rw [g3] at hvt
      have htl : t.toNat < obs.length := by omega
      have hsl : s < obs.length := (List.getElem?_eq_some_iff.1 g2).1
      have hp := hnext s t.toNat o o' g1 g2 (by omega) g5
      have hvp := valid_next hv g5 hp
      obtain ⟨c1, c2⟩ := hlastrow t.toNat htl
      obtain ⟨c3, c4⟩ := hlastrow s hsl
      obtain ⟨ol, hol, _⟩ := id c1
      refine ⟨g1, ⟨o, g2, ?_⟩, ⟨o', g5, ?_⟩, c1, c2, c3, c4, (hasked _ _ _ _ _ ol hol).1 hm2⟩
      · show o.prev = ((t.toNat : Nat) : Int)
        omega
      · show o'.next = ((p.toNat : Nat) : Int)
        omega
    · rintro ⟨g1, ⟨o, g2, g3⟩, ⟨o', g5, g6⟩, c1, c2, c3, c4, hq⟩
      have htl : e.main < obs.length := (List.getElem?_eq_some_iff.1 g5).1
      have hsl : e.sec < obs.length := (List.getElem?_eq_some_iff.1 g2).1
      have e1 : last.getD (sta.getD e.main 0) 0 - 1 = e.lastMain := by
        rw [hlast e.lastMain _ (by rw [c2]; exact hsg _ htl) c1, Nat.add_sub_cancel]
      have e2 : last.getD (sta.getD e.sec 0) 0 - 1 = e.lastSec := by
        rw [hlast e.lastSec _ (by rw [c4]; exact hsg _ hsl) c3, Nat.add_sub_cancel]
      have hsw : sw ((e.main : Int), (e.after : Int), e.sec) = e := by
        show (⟨(e.main : Int).toNat, (e.after : Int).toNat, e.sec, last.getD (sta.getD (e.main : Int).toNat 0) 0 - 1, last.getD (sta.getD e.sec 0) 0 - 1⟩ : Swap) = e
        rw [Int.toNat_natCast, Int.toNat_natCast, e1, e2]
      obtain ⟨ol, hol, _⟩ := id c1
      refine List.mem_map.2 ⟨((e.main : Int), (e.after : Int), e.sec), List.mem_filter.2 ⟨?_, ?_⟩, hsw⟩
      · exact (hmem _ _ _).2 ⟨g1, o, o', g2, g3, by omega, by rw [Int.toNat_natCast]; exact g5, g6⟩
      · show swapTest _ _ _ _ _ _ _ _ _ _ _ = true
        rw [hsw]
        exact (hasked _ _ _ _ _ ol hol).2 hq
  have hseg : ∀ (k : Nat) o, obs[k]? = some o → seg0 k = o.seg := by
    intro k o ho
    show (obs.map (·.seg)).getD k 0 = o.seg
    rw [List.getD_eq_getElem?_getD, List.getElem?_map, ho]; rfl
  have hsound : ∀ e ∈ A, e.Sound (fun k => sta.getD k 0) := by
    intro e he
    have hE := (hA e).1 he
    obtain ⟨q1, q2, q3⟩ := hin e hE
    obtain ⟨g1, ⟨o, g2, g3⟩, ⟨o', g5, g6⟩, c1, c2, c3, c4, hq⟩ := hE
    have htl : e.main < obs.length := (List.getElem?_eq_some_iff.1 g5).1
    have hsl : e.sec < obs.length := (List.getElem?_eq_some_iff.1 g2).1
    obtain ⟨a1, a2, a3⟩ := hrow _ _ (hsg _ htl)
    obtain ⟨b1, b2, b3⟩ := hrow _ _ (hsg _ hsl)
    have l1 := hlast e.lastMain _ (by rw [c2]; exact hsg _ htl) c1
    have l2 := hlast e.lastSec _ (by rw [c4]; exact hsg _ hsl) c3
    refine ⟨fun h => q3 ?_, fun k hk => ?_, fun k hk => ?_, q1, by omega⟩
    · rw [hsg _ htl, hsg _ hsl]
      exact congrArg some h
    · exact hstaD k _ (hinv k (sta.getD e.sec 0) b1 (by have := hk.1; omega) (by have := hk.2; omega))
    · exact hstaD k _ (hinv k (sta.getD e.main 0) a1 (by have := hk.1; omega) (by have := hk.2; omega))
  have hpair : A.Pairwise (Swap.Apart (fun k => sta.getD k 0)) := by
    have h0 : l.Pairwise (fun a b => a.2.2 ≠ b.2.2) := by
      have := hnd
      unfold List.Nodup at this
      rw [List.pairwise_map] at this
      exact this
    have h1 : (l.filter test).Pairwise (fun a b => a.2.2 ≠ b.2.2) := h0.filter _
    rw [List.pairwise_map]
    refine h1.imp_of_mem ?_
    intro a b ha hb' hab
    exact hap (sw a) (sw b) ((hA _).1 (List.mem_map.2 ⟨a, ha, rfl⟩)) ((hA _).1 (List.mem_map.2 ⟨b, hb', rfl⟩)) hab
  refine ⟨_, hrun, fun k o ho => ?_⟩
  have hk : k < obs.length := (List.getElem?_eq_some_iff.1 ho).1
  rw [List.getElem?_map, List.getElem?_range hk, Option.map_some]
  obtain ⟨r1, r2, r3⟩ := swap_loop (fun k => sta.getD k 0) A seg0 hsound hpair k
  refine ⟨fun e om hE hom hS => ?_, fun e os hE hos hM => ?_, fun hno => ?_⟩
  · rw [r1 e ((hA e).2 hE) hS, hseg _ _ hom]
  · rw [r2 e ((hA e).2 hE) hM, hseg _ _ hos]
  · rw [r3 (fun e he => hno e ((hA e).1 he)), hseg _ _ ho]

/-- **C73** (dates), for all networks with any number of events, when the swaps which are asked share no segment: when no two observations
of a segment have the same date before, it is the same after. -/
theorem swap_dates_partial (obs : List Obs) (time : List Int) (pcost : List Rat) (mainMax secMin : Int) (delta : Rat) (hne : obs ≠ [])
    (hv : Valid obs) (ht : time.length = obs.length) (sta : List Nat) (hsta : segTrackArray obs = some sta)
    (hnext : ∀ (s t : Nat) o o', First obs s → obs[s]? = some o → o.prev = t → obs[t]? = some o' → o'.next ≠ -1)
    (hin : ∀ e, SwapEvent obs sta time pcost mainMax secMin delta e →
      e.after = e.main + 1 ∧ sta[e.after]? = sta[e.main]? ∧ sta[e.main]? ≠ sta[e.sec]?)
    (hap : ∀ e e', SwapEvent obs sta time pcost mainMax secMin delta e → SwapEvent obs sta time pcost mainMax secMin delta e' →
      e.sec ≠ e'.sec → Swap.Apart (fun k => sta.getD k 0) e e')
    (hlink : ∀ e om os, SwapEvent obs sta time pcost mainMax secMin delta e → obs[e.main]? = some om → obs[e.sec]? = some os →
      om.track = os.track ∧ time.getD e.main 0 < time.getD e.sec 0)
    (hkey : ∀ (r r' : Nat) o o', obs[r]? = some o → obs[r']? = some o' → o.track = o'.track → (o.seg = o'.seg ↔ sta[r]? = sta[r']?))
    (htrack : ∀ (r r' : Nat) o o', obs[r]? = some o → obs[r']? = some o' → sta[r]? = sta[r']? → o.track = o'.track)
    (hdate : ∀ r r', r < r' → r' < obs.length → sta[r]? = sta[r']? → time.getD r 0 < time.getD r' 0) :
    ∃ out, swapTrack obs time pcost mainMax secMin delta = some out ∧ ∀ (r r' : Nat) o o', obs[r]? = some o → obs[r']? = some o' →
      r ≠ r' → o.track = o'.track → out[r]? = out[r']? → time.getD r 0 ≠ time.getD r' 0 := by
  obtain ⟨first, last, hb, hslen, hlen, hrow, hinv, hends, hfirst, hlast⟩ := segments_rows obs hne sta hsta
  obtain ⟨out, hout, hspec⟩ := swap_events_partial obs time pcost mainMax secMin delta hne hv ht sta hsta hnext
    (fun e he => ⟨by have := (hin e he).1; omega, (hin e he).2⟩) hap
  refine ⟨out, hout, ?_⟩
  have hsg : ∀ k, k < obs.length → sta[k]? = some (sta.getD k 0) := by
    intro k hk
    have hk' : k < sta.length := by omega
    rw [List.getD_eq_getElem?_getD, List.getElem?_eq_getElem hk']; rfl
  have hdiff : ∀ a b, a < obs.length → b < obs.length → a ≠ b → sta[a]? = sta[b]? → time.getD a 0 ≠ time.getD b 0 := by
    intro a b ha hb' hab he
    rcases Nat.lt_or_gt_of_ne hab with h | h
    · have := hdate a b h hb' he; omega
    · have := hdate b a h ha he.symm; omega
  -- rows of the two segments of a swap
  have hrows : ∀ e, SwapEvent obs sta time pcost mainMax secMin delta e → e.main < obs.length ∧ e.sec < obs.length ∧
      (∀ k, sta[k]? = sta[e.sec]? ↔ e.InSec k) ∧ (∀ k, e.InMain k → sta[k]? = sta[e.main]?) ∧
      ∀ k, sta[k]? = sta[e.main]? → ¬ e.InMain k → k ≤ e.main := by
    intro e hE
    obtain ⟨q1, q2, q3⟩ := hin e hE
    obtain ⟨g1, ⟨o, g2, g3⟩, ⟨o', g5, g6⟩, c1, c2, c3, c4, hq⟩ := hE
    have htl : e.main < obs.length := (List.getElem?_eq_some_iff.1 g5).1
    have hsl : e.sec < obs.length := (List.getElem?_eq_some_iff.1 g2).1
    obtain ⟨a1, a2, a3⟩ := hrow _ _ (hsg _ htl)
    obtain ⟨b1, b2, b3⟩ := hrow _ _ (hsg _ hsl)
    have l1 := hlast e.lastMain _ (by rw [c2]; exact hsg _ htl) c1
    have l2 := hlast e.lastSec _ (by rw [c4]; exact hsg _ hsl) c3
    have f2 := hfirst e.sec _ (hsg _ hsl) g1
    refine ⟨htl, hsl, fun k => ⟨fun hk => ?_, fun hk => ?_⟩, fun k hk => ?_, fun k hk hn => ?_⟩
    · rw [hsg _ hsl] at hk
      obtain ⟨_, d2, d3⟩ := hrow _ _ hk
      exact ⟨by omega, by omega⟩
    · rw [hsg _ hsl]
      exact hinv k (sta.getD e.sec 0) b1 (by have := hk.1; omega) (by have := hk.2; omega)
    · rw [hsg _ htl]
      exact hinv k (sta.getD e.main 0) a1 (by have := hk.1; omega) (by have := hk.2; omega)
    · rw [hsg _ htl] at hk
      obtain ⟨_, d2, d3⟩ := hrow _ _ hk
      by_contra hc
      exact hn ⟨by omega, by omega⟩
  -- swaps with a common segment are the same
  have hsame : ∀ e e', SwapEvent obs sta time pcost mainMax secMin delta e → SwapEvent obs sta time pcost mainMax secMin delta e' →
      (sta[e.main]? = sta[e'.main]? ∨ sta[e.sec]? = sta[e'.sec]?) → e.sec = e'.sec ∧ e.main = e'.main := by
    intro e e' hE hE' h
    obtain ⟨m1, s1, _⟩ := hrows e hE
    obtain ⟨m2, s2, _⟩ := hrows e' hE'
    by_cases hs : e.sec = e'.sec
    · refine ⟨hs, ?_⟩
      obtain ⟨_, ⟨o, g2, g3⟩, _⟩ := hE
      obtain ⟨_, ⟨o', g2', g3'⟩, _⟩ := hE'
      rw [hs, g2'] at g2
      obtain rfl := Option.some.inj g2
      omega
    · obtain ⟨a1, _, _, a4⟩ := hap e e' hE hE' hs
      rcases h with h | h
      · rw [hsg _ m1, hsg _ m2] at h
        exact absurd (Option.some.inj h) a1
      · rw [hsg _ s1, hsg _ s2] at h
        exact absurd (Option.some.inj h) a4
  have hcross : ∀ e e', SwapEvent obs sta time pcost mainMax secMin delta e → SwapEvent obs sta time pcost mainMax secMin delta e' →
      sta[e.main]? ≠ sta[e'.sec]? := by
    intro e e' hE hE' h
    by_cases hs : e.sec = e'.sec
    · rw [← hs] at h
      exact (hin e hE).2.2 h
    · obtain ⟨_, a2, _, _⟩ := hap e e' hE hE' hs
      obtain ⟨m1, _, _⟩ := hrows e hE
      obtain ⟨_, s2, _⟩ := hrows e' hE'
      rw [hsg _ m1, hsg _ s2] at h
      exact a2 (Option.some.inj h)
  -- the head of the main segment is before the secondary segment
  have hhead : ∀ e, SwapEvent obs sta time pcost mainMax secMin delta e → ∀ r k, r < obs.length → e.InSec r → sta[k]? = sta[e.main]? →
      ¬ e.InMain k → time.getD k 0 < time.getD r 0 := by
    intro e hE r k hr hS hk hn
    obtain ⟨m1, s1, w1, w2, w3⟩ := hrows e hE
    have t1 : time.getD k 0 ≤ time.getD e.main 0 := by
      rcases Nat.eq_or_lt_of_le (w3 k hk hn) with h | h
      · rw [h]
      · exact le_of_lt (hdate _ _ h m1 hk)
    have t2 : time.getD e.sec 0 ≤ time.getD r 0 := by
      rcases Nat.eq_or_lt_of_le hS.1 with h | h
      · rw [h]
      · exact le_of_lt (hdate _ _ h hr ((w1 r).2 hS).symm)
    have := (hlink e _ _ hE (List.getElem?_eq_getElem m1) (List.getElem?_eq_getElem s1)).2
    omega
  -- each row takes its number from a row of its network
  have howner : ∀ (r : Nat) o, obs[r]? = some o → ∃ (w : Nat) (ow : Obs), obs[w]? = some ow ∧ out[r]? = some ow.seg ∧ ow.track = o.track ∧
      ((∃ e, SwapEvent obs sta time pcost mainMax secMin delta e ∧ e.InSec r ∧ w = e.main) ∨
       (∃ e, SwapEvent obs sta time pcost mainMax secMin delta e ∧ e.InMain r ∧ w = e.sec) ∨
       ((∀ e, SwapEvent obs sta time pcost mainMax secMin delta e → ¬ e.InSec r ∧ ¬ e.InMain r) ∧ w = r)) := by
    intro r o ho
    obtain ⟨r1, r2, r3⟩ := hspec r o ho
    by_cases cS : ∃ e, SwapEvent obs sta time pcost mainMax secMin delta e ∧ e.InSec r
    · obtain ⟨e, hE, hS⟩ := cS
      obtain ⟨m1, s1, w1, w2, w3⟩ := hrows e hE
      have hm := List.getElem?_eq_getElem m1
      have hs := List.getElem?_eq_getElem s1
      refine ⟨e.main, _, hm, r1 e _ hE hm hS, ?_, Or.inl ⟨e, hE, hS, rfl⟩⟩
      rw [(hlink e _ _ hE hm hs).1]
      exact (htrack _ _ _ _ ho hs ((w1 r).2 hS)).symm
    by_cases cM : ∃ e, SwapEvent obs sta time pcost mainMax secMin delta e ∧ e.InMain r
    · obtain ⟨e, hE, hM⟩ := cM
      obtain ⟨m1, s1, w1, w2, w3⟩ := hrows e hE
      have hm := List.getElem?_eq_getElem m1
      have hs := List.getElem?_eq_getElem s1
      refine ⟨e.sec, _, hs, r2 e _ hE hs hM, ?_, Or.inr (Or.inl ⟨e, hE, hM, rfl⟩)⟩
      rw [← (hlink e _ _ hE hm hs).1]
      exact (htrack _ _ _ _ ho hm (w2 r hM)).symm
    · have hno : ∀ e, SwapEvent obs sta time pcost mainMax secMin delta e → ¬ e.InSec r ∧ ¬ e.InMain r :=
        fun e hE => ⟨fun h => cS ⟨e, hE, h⟩, fun h => cM ⟨e, hE, h⟩⟩
      exact ⟨r, o, ho, r3 hno, rfl, Or.inr (Or.inr ⟨hno, rfl⟩)⟩
  intro r r' o o' ho ho' hrr htr heq
  have hr : r < obs.length := (List.getElem?_eq_some_iff.1 ho).1
  have hr' : r' < obs.length := (List.getElem?_eq_some_iff.1 ho').1
  obtain ⟨w, ow, hw, hwo, hwt, hc⟩ := howner r o ho
  obtain ⟨w', ow', hw', hwo', hwt', hc'⟩ := howner r' o' ho'
  have hww : sta[w]? = sta[w']? := by
    rw [hwo, hwo'] at heq
    exact (hkey w w' ow ow' hw hw' (by rw [hwt, hwt', htr])).1 (Option.some.inj heq)
  rcases hc with ⟨e, hE, hI, rfl⟩ | ⟨e, hE, hI, rfl⟩ | ⟨hno, rfl⟩ <;>
    rcases hc' with ⟨e', hE', hI', rfl⟩ | ⟨e', hE', hI', rfl⟩ | ⟨hno', rfl⟩
  · obtain ⟨g1, g2⟩ := hsame e e' hE hE' (Or.inl hww)
    apply hdiff _ _ hr hr' hrr
    rw [((hrows e hE).2.2.1 r).2 hI, ((hrows e' hE').2.2.1 r').2 hI', g1]
  · exact absurd hww (hcross e e' hE hE')
  · have := hhead e hE r w' hr hI hww.symm (hno' e hE).2
    omega
  · exact absurd hww.symm (hcross e' e hE' hE)
  · obtain ⟨g1, g2⟩ := hsame e e' hE hE' (Or.inr hww)
    apply hdiff _ _ hr hr' hrr
    rw [(hrows e hE).2.2.2.1 r hI, (hrows e' hE').2.2.2.1 r' hI', g2]
  · exact absurd (((hrows e hE).2.2.1 w').1 hww.symm) (hno' e hE).1
  · have := hhead e' hE' r' w hr' hI' hww (hno e' hE').2
    omega
  · exact absurd (((hrows e' hE').2.2.1 w).1 hww) (hno e' hE').1
  · exact hdiff _ _ hr hr' hrr hww

/-- Two swaps in two networks. -/
example :
    let obs : List Obs := [⟨1, 0, -1, 1⟩, ⟨1, 0, 0, -1⟩, ⟨1, 1, 0, 3⟩, ⟨1, 1, 2, -1⟩, ⟨2, 0, -1, 5⟩, ⟨2, 0, 4, -1⟩, ⟨2, 1, 4, 7⟩, ⟨2, 1, 6, -1⟩]
    Valid obs ∧ swapTrack obs [0, 1, 1, 2, 0, 1, 1, 2] [1, 1, 1, 1, 1, 1, 1, 1] 2 1 (-1 / 5) = some [0, 1, 0, 0, 0, 1, 0, 0] := by
  refine ⟨by unfold Valid; decide, by decide +kernel⟩

end Verif.Events
