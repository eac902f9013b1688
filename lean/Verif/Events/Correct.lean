import Verif.Events.Props

/-!
# C72, C73: correction of close events and swap of segments

Model of `correct_close_events` and `swap_track` (network.py), before their final sort (property C17). Arrays are functions of the row.
-/

namespace Verif.Events

open Verif.Segments

/-! ### Model -/

/-- State of the loop of `correct_close_events`: `segment`, `segment_copy`, `previous_obs` and the slices of `segments_connexion`. -/
structure CState where
  seg : Nat → Nat
  copy : Nat → Nat
  prev : Nat → Int
  slice : Nat → Nat × Nat

/-- One turn of the loop of `correct_close_events`, network.py:376-405. `P` and `Nx` are the links kept in `segments_connexion`: before
the first row, after the last row of each segment. Links designate rows. -/
def closeStep (time : Nat → Int) (P Nx : Nat → Int) (dmax : Int) (st : CState) (s : Nat) : CState :=
  let stop := (st.slice s).2
  let sc := st.seg (stop - 1)
  let scc := st.copy (stop - 1)
  if Nx s = -1 then st else
  let n := (Nx s).toNat
  let nseg := st.seg n
  if P nseg = -1 then st else
  let p := (P nseg).toNat
  if st.seg p = sc ∧ time n - time p < dmax then
    { seg := Index.sliceSet st.seg n (st.slice nseg).2 sc
      copy := Index.sliceSet st.copy n (st.slice nseg).2 scc
      prev := Function.update st.prev n ((stop : Int) - 1)
      slice := Function.update st.slice sc (n, (st.slice nseg).2) }
  else st

/-- State before the loop, network.py:357-374. -/
def closeInit (obs : List Obs) (sta first last : List Nat) : CState :=
  { seg := fun k => sta.getD k 0
    copy := fun k => (obs.map (·.seg)).getD k 0
    prev := fun k => (obs.map (·.prev)).getD k (-1)
    slice := fun s => (first.getD s 0, last.getD s 0) }

/-- `correct_close_events`, network.py:337-407: segments and links to the past, before the sort. -/
def correctClose (obs : List Obs) (time : List Int) (dmax : Int) : Option (List Nat × List Int) := do
  let sta ← segTrackArray obs
  let b ← bounds obs
  let init := closeInit obs sta b.1 b.2
  let P := fun s => init.prev (b.1.getD s 0)
  let Nx := fun s => (obs.map (·.next)).getD (b.2.getD s 0 - 1) (-1)
  let st := (List.range b.1.length).foldl (closeStep (fun k => time.getD k 0) P Nx dmax) init
  some ((List.range obs.length).map st.copy, (List.range obs.length).map st.prev)

/-- One turn of the loop of `swap_track`, network.py:1904-1934: the rows `i1..lastMain` get the number of `i2`, then the rows
`i2..lastSec` get the number of `iMain`. -/
def swapStep (seg : Nat → Nat) (iMain i1 i2 lastMain lastSec : Nat) : Nat → Nat :=
  let seg' := Index.sliceSet seg i1 (lastMain + 1) (seg i2)
  Index.sliceSet seg' i2 (lastSec + 1) (seg' iMain)

/-- The test of `swap_track`, network.py:1910-1929: durations of the end of the main segment and of the secondary segment, no future
for the main segment, difference of costs. -/
def swapTest (time : Nat → Int) (next : Nat → Int) (pcost : Nat → Rat) (mainMax secMin : Int) (delta : Rat)
    (iMain i1 i2 lastMain lastSec : Nat) : Bool :=
  decide (time lastMain - time iMain ≤ mainMax) && decide (secMin ≤ time lastSec - time i2) && decide (next lastMain = -1) &&
    decide (delta < pcost i2 - pcost i1)

/-- `swap_track`, network.py:1896-1936: numbers of the segments before the sort. The links are not changed. -/
def swapTrack (obs : List Obs) (time : List Int) (pcost : List Rat) (mainMax secMin : Int) (delta : Rat) : Option (List Nat) := do
  let events ← splitting3 obs time
  let sta ← segTrackArray obs
  let b ← bounds obs
  let seg := events.foldl (fun seg e =>
      let iMain := e.1.toNat
      let i1 := e.2.1.toNat
      let lastMain := b.2.getD (sta.getD iMain 0) 0 - 1
      let lastSec := b.2.getD (sta.getD e.2.2 0) 0 - 1
      if swapTest (fun k => time.getD k 0) (fun k => (obs.map (·.next)).getD k (-1)) (fun k => pcost.getD k 0) mainMax secMin delta
        iMain i1 e.2.2 lastMain lastSec then swapStep seg iMain i1 e.2.2 lastMain lastSec else seg)
    (fun k => (obs.map (·.seg)).getD k 0)
  some ((List.range obs.length).map seg)

/-! ### C72 -/

theorem foldl_range_inv {σ : Type} (f : σ → Nat → σ) (init : σ) (Inv : Nat → σ → Prop) (n : Nat) (h0 : Inv 0 init)
    (hs : ∀ k st, k < n → Inv k st → Inv (k + 1) (f st k)) : Inv n ((List.range n).foldl f init) := by
  have : ∀ k, k ≤ n → Inv k ((List.range k).foldl f init) := by
    intro k
    induction k with
    | zero => intro _; exact h0
    | succ k ih =>
      intro hk
      rw [List.range_succ, List.foldl_append]
      exact hs k _ (by omega) (ih (by omega))
  exact this n (le_refl n)

/-- **C72**, for all networks: a link to the past is changed only toward the last observation of a segment which is linked to this
observation, after a segment which starts by a link at less than `dmax`. Missing: the segments, see `close_events_wrong`. -/
theorem close_links_partial (obs : List Obs) (time : List Int) (hne : obs ≠ []) (hv : Valid obs) (dmax : Int) :
    ∃ segs prevs, correctClose obs time dmax = some (segs, prevs) ∧ segs.length = obs.length ∧ prevs.length = obs.length ∧
      ∀ (i : Nat) p o, prevs[i]? = some p → obs[i]? = some o →
        p = o.prev ∨ ((∃ (q : Nat) (o' : Obs), p = q ∧ Last obs q ∧ obs[q]? = some o' ∧ o'.next = i) ∧
          ∃ (f : Nat) (o' : Obs), First obs f ∧ obs[f]? = some o' ∧ o'.prev ≠ -1 ∧
            time.getD i 0 - time.getD o'.prev.toNat 0 < dmax) := by
  obtain ⟨first, last, sta, ⟨hsta, hslen, hsr, hsl⟩, hb, hlen, hpos, _, _, hf, hl, h0, hseg⟩ := bounds_full obs hne
  let init := closeInit obs sta first last
  let P := fun s => init.prev (first.getD s 0)
  let Nx := fun s => (obs.map (·.next)).getD (last.getD s 0 - 1) (-1)
  let Inv : Nat → CState → Prop := fun k st =>
    (∀ s, k ≤ s → st.slice s = init.slice s) ∧ (∀ r, st.seg r = init.seg r ∨ st.seg r < k) ∧
    ∀ (i : Nat) o, obs[i]? = some o → st.prev i = o.prev ∨
      ((∃ (q : Nat) (o' : Obs), st.prev i = q ∧ Last obs q ∧ obs[q]? = some o' ∧ o'.next = i) ∧
        ∃ (f : Nat) (o' : Obs), First obs f ∧ obs[f]? = some o' ∧ o'.prev ≠ -1 ∧
          time.getD i 0 - time.getD o'.prev.toNat 0 < dmax)
  have hinv : Inv first.length ((List.range first.length).foldl (closeStep (fun k => time.getD k 0) P Nx dmax) init) := by
    apply foldl_range_inv _ _ Inv
    · refine ⟨fun s _ => rfl, fun r => Or.inl rfl, fun i o ho => Or.inl ?_⟩
      show (obs.map (·.prev)).getD i (-1) = o.prev
      rw [List.getD_eq_getElem?_getD, List.getElem?_map, ho]; rfl
    · rintro k st hk ⟨i1, i2, i3⟩
      have weaken : Inv (k + 1) st := ⟨fun s hs => i1 s (by omega), fun r => by rcases i2 r with h | h <;> [exact Or.inl h; exact Or.inr (by omega)], i3⟩
      unfold closeStep
      simp only
      split
      · exact weaken
      split
      · exact weaken
      rename_i hnx hpx
      split
      · -- the correction
        rename_i hcond
        have hkl : k < last.length := by omega
        have hsk : st.slice k = (first[k], last[k]) := by
          rw [i1 k (le_refl k)]
          show (first.getD k 0, last.getD k 0) = _
          rw [List.getD_eq_getElem?_getD, List.getD_eq_getElem?_getD, List.getElem?_eq_getElem hk, List.getElem?_eq_getElem hkl]; rfl
        obtain ⟨c1, c2, _⟩ := hseg k _ _ (List.getElem?_eq_getElem hk) (List.getElem?_eq_getElem hkl)
        have hrow : sta[last[k] - 1]? = some k :=
          (hsl k _ _ (List.getElem?_eq_getElem hk) (List.getElem?_eq_getElem hkl) _).2 ⟨by omega, by omega⟩
        have hseg0 : init.seg (last[k] - 1) = k := by
          show sta.getD _ 0 = k
          rw [List.getD_eq_getElem?_getD, hrow]; rfl
        have hsc : st.seg ((st.slice k).2 - 1) ≤ k := by
          rw [hsk]
          rcases i2 (last[k] - 1) with h | h
          · simp only; rw [h, hseg0]
          · simp only; omega
        refine ⟨fun s hs => ?_, fun r => ?_, fun i o ho => ?_⟩
        · simp only
          rw [Function.update_of_ne (by omega)]
          exact i1 s (by omega)
        · simp only [Index.sliceSet]
          split
          · exact Or.inr (by omega)
          · rcases i2 r with h | h
            · exact Or.inl h
            · exact Or.inr (by omega)
        · simp only
          by_cases hi : i = (Nx k).toNat
          · subst hi
            rw [Function.update_self, hsk]
            right
            have hil : (Nx k).toNat < obs.length := (List.getElem?_eq_some_iff.1 ho).1
            have hsegl : st.seg (Nx k).toNat < first.length := by
              rcases i2 (Nx k).toNat with h | h
              · rw [h]
                have hil' : (Nx k).toNat < sta.length := by omega
                show sta.getD _ 0 < _
                rw [List.getD_eq_getElem?_getD, List.getElem?_eq_getElem hil']
                exact hsr _ _ (List.getElem?_eq_getElem hil')
              · omega
            have hff : First obs (first.getD (st.seg (Nx k).toNat) 0) := by
              rw [List.getD_eq_getElem?_getD, List.getElem?_eq_getElem hsegl]
              exact (hf _).1 (List.getElem_mem hsegl)
            obtain ⟨of, hof, _⟩ := id hff
            have hPf : P (st.seg (Nx k).toNat) = of.prev := by
              show (obs.map (·.prev)).getD (first.getD _ 0) (-1) = _
              rw [List.getD_eq_getElem?_getD, List.getElem?_map, hof]; rfl
            refine ⟨?_, _, of, hff, hof, by rw [← hPf]; exact hpx, by rw [← hPf]; exact hcond.2⟩
            obtain ⟨j, hj, hlast⟩ := (hl last[k]).1 (List.getElem_mem hkl)
            have hjl : j < obs.length := by omega
            refine ⟨j, obs[j], by simp only; omega, hlast, List.getElem?_eq_getElem hjl, ?_⟩
            have hnxk : Nx k = obs[j].next := by
              show (obs.map (·.next)).getD (last.getD k 0 - 1) (-1) = _
              rw [List.getD_eq_getElem?_getD (l := last), List.getElem?_eq_getElem hkl, Option.getD_some, hj, Nat.add_sub_cancel,
                List.getD_eq_getElem?_getD, List.getElem?_map, List.getElem?_eq_getElem hjl]
              rfl
            have := valid_next hv (List.getElem?_eq_getElem hjl) (by rw [← hnxk]; exact hnx)
            omega
          · rw [Function.update_of_ne hi]
            exact i3 i o ho
      · exact weaken
  refine ⟨(List.range obs.length).map ((List.range first.length).foldl (closeStep (fun k => time.getD k 0) P Nx dmax) init).copy,
    (List.range obs.length).map ((List.range first.length).foldl (closeStep (fun k => time.getD k 0) P Nx dmax) init).prev, ?_, by simp, by simp, ?_⟩
  · unfold correctClose
    rw [hsta, hb]
    rfl
  · intro i p o hp ho
    have hi : i < obs.length := (List.getElem?_eq_some_iff.1 ho).1
    rw [List.getElem?_map, List.getElem?_range hi] at hp
    have := hinv.2.2 i o ho
    rw [Option.some.inj hp] at this
    exact this

/-- **C72**, for a network with one close event: the segment `A` of the row `n` splits from the row `p` of the segment which ends at the
row `e`, `e` is linked to `n`, the two dates are close; the segment of `e` starts from no observation, and no other segment both ends by a
link and joins a segment which starts by a link. Then the end of `A` from `n` gets the number of the segment of `e`, the observation
before `n` is `e`, and nothing else changes. Missing: several events, see `close_events_wrong`. -/
theorem close_single_partial (obs : List Obs) (time : List Int) (hne : obs ≠ []) (dmax : Int) (sta : List Nat)
    (hsta : segTrackArray obs = some sta) (e n p f fB : Nat) (oe oF oB : Obs)
    (he : Last obs e) (hoe : obs[e]? = some oe) (hen : oe.next = n)
    (hF : First obs f) (hof : obs[f]? = some oF) (hfn : sta[f]? = sta[n]?) (hn : n < obs.length) (hfp : oF.prev = p)
    (hpe : sta[p]? = sta[e]?) (hclose : time.getD n 0 - time.getD p 0 < dmax)
    (hB : First obs fB) (hoB : obs[fB]? = some oB) (hfB : sta[fB]? = sta[e]?) (hBp : oB.prev = -1)
    (hother : ∀ e' o' : _, e' ≠ e → Last obs e' → obs[e']? = some o' → o'.next ≠ -1 →
      ∀ (f' : Nat) o'', First obs f' → obs[f']? = some o'' → sta[f']? = sta[o'.next.toNat]? → o''.prev = -1)
    (hv : Valid obs) :
    ∃ segs prevs, correctClose obs time dmax = some (segs, prevs) ∧
      (∀ (k : Nat) o, obs[k]? = some o → segs[k]? = some (if sta[k]? = sta[n]? ∧ n ≤ k then oe.seg else o.seg)) ∧
      (∀ (k : Nat) o, obs[k]? = some o → prevs[k]? = some (if k = n then (e : Int) else o.prev)) := by
  obtain ⟨first, last, sta', ⟨hsta', hslen, hsr, hsl⟩, hb, hlen, hpos, _, _, hf, hl, h0, hseg⟩ := bounds_full obs hne
  rw [hsta] at hsta'
  obtain rfl := Option.some.inj hsta'
  have hel : e < obs.length := (List.getElem?_eq_some_iff.1 hoe).1
  have hsg : ∀ k, k < obs.length → ∃ s, sta[k]? = some s ∧ s < first.length ∧ sta.getD k 0 = s := by
    intro k hk
    have hk' : k < sta.length := by omega
    refine ⟨sta[k], List.getElem?_eq_getElem hk', hsr k _ (List.getElem?_eq_getElem hk'), ?_⟩
    rw [List.getD_eq_getElem?_getD, List.getElem?_eq_getElem hk']; rfl
  -- bounds of the segment of a row
  have hfirst_of : ∀ (k s : Nat), sta[k]? = some s → First obs k → first.getD s 0 = k := by
    intro k s hk hfk
    have hs := hsr k s hk
    have hs' : s < last.length := by omega
    obtain ⟨c1, _, _⟩ := hseg s _ _ (List.getElem?_eq_getElem hs) (List.getElem?_eq_getElem hs')
    have hin := (hsl s _ _ (List.getElem?_eq_getElem hs) (List.getElem?_eq_getElem hs') k).1 hk
    obtain ⟨m, hm⟩ := List.getElem?_of_mem ((hf k).2 hfk)
    have hml := (List.getElem?_eq_some_iff.1 hm).1
    have hml' : m < last.length := by omega
    obtain ⟨d1, _, _⟩ := hseg m _ _ hm (List.getElem?_eq_getElem hml')
    have hm2 := (hsl m _ _ hm (List.getElem?_eq_getElem hml') k).2 ⟨le_refl _, d1⟩
    rw [hk] at hm2
    obtain rfl := Option.some.inj hm2
    rw [List.getD_eq_getElem?_getD, hm]; rfl
  have hlast_of : ∀ (k s : Nat), sta[k]? = some s → Last obs k → last.getD s 0 = k + 1 := by
    intro k s hk hlk
    obtain ⟨m, hm⟩ := List.getElem?_of_mem ((hl (k + 1)).2 ⟨k, rfl, hlk⟩)
    have hml := (List.getElem?_eq_some_iff.1 hm).1
    have hml' : m < first.length := by omega
    obtain ⟨d1, _, _⟩ := hseg m _ _ (List.getElem?_eq_getElem hml') hm
    have hm2 := (hsl m _ _ (List.getElem?_eq_getElem hml') hm k).2 ⟨by omega, by omega⟩
    rw [hk] at hm2
    obtain rfl := Option.some.inj hm2
    rw [List.getD_eq_getElem?_getD, hm]; rfl
  have hrow_first : ∀ s, s < first.length → First obs (first.getD s 0) ∧ sta[first.getD s 0]? = some s := by
    intro s hs
    have hs' : s < last.length := by omega
    obtain ⟨c1, _, _⟩ := hseg s _ _ (List.getElem?_eq_getElem hs) (List.getElem?_eq_getElem hs')
    rw [List.getD_eq_getElem?_getD, List.getElem?_eq_getElem hs, Option.getD_some]
    exact ⟨(hf _).1 (List.getElem_mem hs), (hsl s _ _ (List.getElem?_eq_getElem hs) (List.getElem?_eq_getElem hs') _).2 ⟨le_refl _, c1⟩⟩
  have hrow_last : ∀ s, s < first.length → Last obs (last.getD s 0 - 1) ∧ sta[last.getD s 0 - 1]? = some s ∧ 0 < last.getD s 0 := by
    intro s hs
    have hs' : s < last.length := by omega
    obtain ⟨c1, _, _⟩ := hseg s _ _ (List.getElem?_eq_getElem hs) (List.getElem?_eq_getElem hs')
    rw [List.getD_eq_getElem?_getD, List.getElem?_eq_getElem hs', Option.getD_some]
    obtain ⟨j, hj, hlj⟩ := (hl _).1 (List.getElem_mem hs')
    refine ⟨by rw [hj, Nat.add_sub_cancel]; exact hlj, (hsl s _ _ (List.getElem?_eq_getElem hs) (List.getElem?_eq_getElem hs') _).2
      ⟨by omega, by omega⟩, by omega⟩
  obtain ⟨s, hse, hsl', hseD⟩ := hsg e hel
  obtain ⟨a, hsn, hal, hsnD⟩ := hsg n hn
  rw [hse] at hpe hfB
  rw [hsn] at hfn
  let init := closeInit obs sta first last
  let P := fun s => init.prev (first.getD s 0)
  let Nx := fun s => (obs.map (·.next)).getD (last.getD s 0 - 1) (-1)
  have hP : ∀ (k : Nat) o s, obs[k]? = some o → First obs k → sta[k]? = some s → P s = o.prev := by
    intro k o s ho hfk hk
    show (obs.map (·.prev)).getD (first.getD s 0) (-1) = o.prev
    rw [hfirst_of k s hk hfk, List.getD_eq_getElem?_getD, List.getElem?_map, ho]; rfl
  have hNx : ∀ (k : Nat) o s, obs[k]? = some o → Last obs k → sta[k]? = some s → Nx s = o.next := by
    intro k o s ho hlk hk
    show (obs.map (·.next)).getD (last.getD s 0 - 1) (-1) = o.next
    rw [hlast_of k s hk hlk, Nat.add_sub_cancel, List.getD_eq_getElem?_getD, List.getElem?_map, ho]; rfl
  have hNs : Nx s = n := by rw [hNx e oe s hoe he hse, hen]
  have hPa : P a = p := by rw [hP f oF a hof hF hfn, hfp]
  have hPs : P s = -1 := by rw [hP fB oB s hoB hB hfB, hBp]
  have hne_as : a ≠ s := by
    rintro rfl
    rw [hPs] at hPa
    omega
  -- the other segments do nothing
  have hidle : ∀ (st : CState) k, k < first.length → k ≠ s → (∀ r, r < obs.length → st.seg r = sta.getD r 0 ∨ st.seg r = s) →
      closeStep (fun k => time.getD k 0) P Nx dmax st k = st := by
    intro st k hk hks hst
    unfold closeStep
    simp only
    split
    · rfl
    rename_i hnx
    obtain ⟨g1, g2, g3⟩ := hrow_last k hk
    obtain ⟨o', ho', _⟩ := id g1
    have hnk : Nx k = o'.next := hNx _ o' k ho' g1 g2
    have hvb := valid_next hv ho' (by rw [← hnk]; exact hnx)
    have hne' : last.getD k 0 - 1 ≠ e := by
      intro hc
      rw [hc, hse] at g2
      exact hks (Option.some.inj g2).symm
    have hz : P (st.seg (Nx k).toNat) = -1 := by
      rcases hst (Nx k).toNat (by omega) with h | h
      · obtain ⟨b, hb1, hb2, hb3⟩ := hsg (Nx k).toNat (by omega)
        rw [h, hb3]
        obtain ⟨q1, q2⟩ := hrow_first b hb2
        obtain ⟨o'', ho'', _⟩ := id q1
        rw [hP _ o'' b ho'' q1 q2]
        exact hother _ o' hne' g1 ho' (by rw [← hnk]; exact hnx) _ o'' q1 ho'' (by rw [q2, ← hnk, hb1])
      · rw [h]; exact hPs
    rw [if_pos hz]
  have hstep : closeStep (fun k => time.getD k 0) P Nx dmax init s =
      { seg := Index.sliceSet init.seg n (last.getD a 0) s
        copy := Index.sliceSet init.copy n (last.getD a 0) oe.seg
        prev := Function.update init.prev n (e : Int)
        slice := Function.update init.slice s (n, last.getD a 0) } := by
    have e1 : (init.slice s).2 = e + 1 := hlast_of e s hse he
    have e2 : init.seg e = s := hseD
    have e3 : init.copy e = oe.seg := by
      show (obs.map (·.seg)).getD e 0 = _
      rw [List.getD_eq_getElem?_getD, List.getElem?_map, hoe]; rfl
    have e4 : init.seg n = a := hsnD
    have e5 : init.seg p = s := by
      show sta.getD p 0 = s
      rw [List.getD_eq_getElem?_getD, hpe]; rfl
    have e6 : (init.slice a).2 = last.getD a 0 := rfl
    unfold closeStep
    simp only
    rw [hNs, if_neg (by omega), Int.toNat_natCast, e4, hPa, if_neg (by omega), Int.toNat_natCast, e5, e1, Nat.add_sub_cancel, e2, e3, e6,
      if_pos ⟨rfl, hclose⟩]
    have : ((e + 1 : Nat) : Int) - 1 = e := by omega
    rw [this]
  have hfinal : (List.range first.length).foldl (closeStep (fun k => time.getD k 0) P Nx dmax) init =
      closeStep (fun k => time.getD k 0) P Nx dmax init s := by
    have := foldl_range_inv (closeStep (fun k => time.getD k 0) P Nx dmax) init
      (fun k st => st = if s < k then closeStep (fun k => time.getD k 0) P Nx dmax init s else init) first.length (by simp) (by
        rintro k st hk rfl
        by_cases h1 : s < k
        · rw [if_pos h1, if_pos (by omega)]
          apply hidle _ k hk (by omega)
          intro r hr
          rw [hstep]
          simp only [Index.sliceSet]
          split
          · exact Or.inr rfl
          · exact Or.inl rfl
        · rw [if_neg h1]
          by_cases h2 : s = k
          · subst h2
            rw [if_pos (by omega)]
          · rw [if_neg (by omega)]
            exact hidle _ k hk (fun hc => h2 hc.symm) (fun r _ => Or.inl rfl))
    rw [if_pos hsl'] at this
    exact this
  refine ⟨(List.range obs.length).map ((List.range first.length).foldl (closeStep (fun k => time.getD k 0) P Nx dmax) init).copy,
    (List.range obs.length).map ((List.range first.length).foldl (closeStep (fun k => time.getD k 0) P Nx dmax) init).prev, ?_, ?_, ?_⟩
  · unfold correctClose
    rw [hsta, hb]
    rfl
  · intro k o ho
    have hk : k < obs.length := (List.getElem?_eq_some_iff.1 ho).1
    rw [List.getElem?_map, List.getElem?_range hk, Option.map_some, hfinal, hstep]
    simp only [Index.sliceSet, Option.some.injEq]
    have hal' : a < last.length := by omega
    have hin := hsl a _ _ (List.getElem?_eq_getElem hal) (List.getElem?_eq_getElem hal') k
    have hinn := (hsl a _ _ (List.getElem?_eq_getElem hal) (List.getElem?_eq_getElem hal') n).1 hsn
    have hD : last.getD a 0 = last[a] := by rw [List.getD_eq_getElem?_getD, List.getElem?_eq_getElem hal']; rfl
    have hiff : (n ≤ k ∧ k < last.getD a 0) ↔ (sta[k]? = sta[n]? ∧ n ≤ k) := by
      rw [hsn, hin, hD]
      constructor
      · rintro ⟨h1, h2⟩; exact ⟨⟨by omega, h2⟩, h1⟩
      · rintro ⟨⟨h1, h2⟩, h3⟩; exact ⟨h3, h2⟩
    by_cases hc : n ≤ k ∧ k < last.getD a 0
    · rw [if_pos hc, if_pos (hiff.1 hc)]
    · rw [if_neg hc, if_neg (fun h => hc (hiff.2 h))]
      show (obs.map (·.seg)).getD k 0 = _
      rw [List.getD_eq_getElem?_getD, List.getElem?_map, ho]; rfl
  · intro k o ho
    have hk : k < obs.length := (List.getElem?_eq_some_iff.1 ho).1
    rw [List.getElem?_map, List.getElem?_range hk, Option.map_some, hfinal, hstep]
    simp only [Option.some.injEq]
    by_cases hc : k = n
    · subst hc
      rw [Function.update_self, if_pos rfl]
    · rw [Function.update_of_ne hc, if_neg hc]
      show (obs.map (·.prev)).getD k (-1) = _
      rw [List.getD_eq_getElem?_getD, List.getElem?_map, ho]; rfl

/-- **C72**: a network where no segment merges in less than `dmax` into a segment which splits from it is not changed. -/
theorem close_none (obs : List Obs) (time : List Int) (hne : obs ≠ []) (dmax : Int) (sta : List Nat) (hv : Valid obs)
    (hsta : segTrackArray obs = some sta)
    (hno : ∀ (e f : Nat) (oe oF : Obs), Last obs e → obs[e]? = some oe → oe.next ≠ -1 → First obs f → obs[f]? = some oF →
      sta[f]? = sta[oe.next.toNat]? → oF.prev ≠ -1 → sta[oF.prev.toNat]? = sta[e]? →
      dmax ≤ time.getD oe.next.toNat 0 - time.getD oF.prev.toNat 0) :
    correctClose obs time dmax = some (obs.map (·.seg), obs.map (·.prev)) := by
  obtain ⟨first, last, sta', ⟨hsta', hslen, hsr, hsl⟩, hb, hlen, hpos, _, _, hf, hl, h0, hseg⟩ := bounds_full obs hne
  rw [hsta] at hsta'
  obtain rfl := Option.some.inj hsta'
  let init := closeInit obs sta first last
  let P := fun s => init.prev (first.getD s 0)
  let Nx := fun s => (obs.map (·.next)).getD (last.getD s 0 - 1) (-1)
  have hfix : (List.range first.length).foldl (closeStep (fun k => time.getD k 0) P Nx dmax) init = init := by
    refine foldl_range_inv (closeStep (fun k => time.getD k 0) P Nx dmax) init (fun _ st => st = init) first.length rfl ?_
    rintro k st hk rfl
    have hk' : k < last.length := by omega
    obtain ⟨c1, _, _⟩ := hseg k _ _ (List.getElem?_eq_getElem hk) (List.getElem?_eq_getElem hk')
    obtain ⟨e, he, hle⟩ := (hl _).1 (List.getElem_mem hk')
    obtain ⟨oe, hoe, _⟩ := id hle
    have hel : e < obs.length := (List.getElem?_eq_some_iff.1 hoe).1
    have hske : sta[e]? = some k := (hsl k _ _ (List.getElem?_eq_getElem hk) (List.getElem?_eq_getElem hk') e).2 ⟨by omega, by omega⟩
    have hlD : last.getD k 0 = e + 1 := by
      rw [List.getD_eq_getElem?_getD, List.getElem?_eq_getElem hk', ← he]; rfl
    have hNk : Nx k = oe.next := by
      show (obs.map (·.next)).getD (last.getD k 0 - 1) (-1) = _
      rw [hlD, Nat.add_sub_cancel, List.getD_eq_getElem?_getD, List.getElem?_map, hoe]; rfl
    have hstop : (init.slice k).2 = e + 1 := hlD
    have hie : init.seg e = k := by
      show sta.getD e 0 = k
      rw [List.getD_eq_getElem?_getD, hske]; rfl
    unfold closeStep
    simp only
    rw [hNk, hstop, Nat.add_sub_cancel, hie]
    split
    · rfl
    rename_i hn1
    have hvn := valid_next hv hoe hn1
    have hnl : oe.next.toNat < sta.length := by omega
    have hin : init.seg oe.next.toNat = sta[oe.next.toNat] := by
      show sta.getD _ 0 = _
      rw [List.getD_eq_getElem?_getD, List.getElem?_eq_getElem hnl]; rfl
    have hsegl := hsr _ _ (List.getElem?_eq_getElem hnl)
    have hsegl' : sta[oe.next.toNat] < last.length := by omega
    obtain ⟨c2, _, _⟩ := hseg _ _ _ (List.getElem?_eq_getElem hsegl) (List.getElem?_eq_getElem hsegl')
    have hff := (hf _).1 (List.getElem_mem hsegl)
    obtain ⟨of, hof, _⟩ := id hff
    have hsf := (hsl _ _ _ (List.getElem?_eq_getElem hsegl) (List.getElem?_eq_getElem hsegl') _).2 ⟨le_refl _, c2⟩
    have hPf : P (init.seg oe.next.toNat) = of.prev := by
      show (obs.map (·.prev)).getD (first.getD (init.seg oe.next.toNat) 0) (-1) = _
      rw [hin, List.getD_eq_getElem?_getD (l := first), List.getElem?_eq_getElem hsegl, Option.getD_some,
        List.getD_eq_getElem?_getD, List.getElem?_map, hof]; rfl
    rw [hPf]
    split
    · rfl
    rename_i hp1
    rw [if_neg]
    rintro ⟨g1, g2⟩
    have hvp := valid_prev hv hof hp1
    have hpl : of.prev.toNat < sta.length := by omega
    have hpe : sta[of.prev.toNat]? = sta[e]? := by
      rw [hske, List.getElem?_eq_getElem hpl]
      have : init.seg of.prev.toNat = sta[of.prev.toNat] := by
        show sta.getD _ 0 = _
        rw [List.getD_eq_getElem?_getD, List.getElem?_eq_getElem hpl]; rfl
      rw [← this, g1]
    have := hno e _ oe of hle hoe hn1 hff hof (by rw [hsf, List.getElem?_eq_getElem hnl]) hp1 hpe
    omega
  have hread : ∀ {α : Type} (l : List α) (d : α), (List.range l.length).map (fun k => l.getD k d) = l := by
    intro α l d
    apply List.ext_getElem (by simp)
    intro i h1 h2
    simp [h2]
  have : correctClose obs time dmax = some ((List.range obs.length).map init.copy, (List.range obs.length).map init.prev) := by
    unfold correctClose
    rw [hsta, hb]
    show some ((List.range obs.length).map ((List.range first.length).foldl (closeStep (fun k => time.getD k 0) P Nx dmax) init).copy,
      (List.range obs.length).map ((List.range first.length).foldl (closeStep (fun k => time.getD k 0) P Nx dmax) init).prev) = _
    rw [hfix]
  rw [this]
  have h1 := hread (obs.map (·.seg)) 0
  have h2 := hread (obs.map (·.prev)) (-1)
  rw [List.length_map] at h1 h2
  show some ((List.range obs.length).map (fun k => (obs.map (·.seg)).getD k 0), (List.range obs.length).map (fun k => (obs.map (·.prev)).getD k (-1))) = _
  rw [h1, h2]

/-- Two close events one after the other: segment 1 splits from segment 0 which then merges into it, segment 0 splits from segment 3 which
then merges into it. Two observations of the segment 3 (rows 1 and 2) then have the same date, and the row 2 of segment 1, between the two
events, has changed. -/
theorem close_events_wrong :
    let obs : List Obs := [⟨1, 0, 5, 1⟩, ⟨1, 0, 0, 3⟩, ⟨1, 1, 0, 3⟩, ⟨1, 1, 2, -1⟩, ⟨1, 2, -1, 1⟩, ⟨1, 3, -1, 6⟩, ⟨1, 3, 5, 1⟩]
    let time : List Int := [5, 6, 6, 7, 5, 4, 5]
    Valid obs ∧ correctClose obs time 20 = some ([0, 3, 3, 3, 2, 3, 3], [5, 6, 0, 1, -1, -1, 5]) := by
  refine ⟨by unfold Valid; decide, by decide⟩

/-- One close event, as in the documentation of the function: the segment 2 splits from the row 0, the segment 1 merges into it. -/
example : correctClose [⟨1, 1, -1, 1⟩, ⟨1, 1, 0, 3⟩, ⟨1, 2, 0, 3⟩, ⟨1, 2, 2, 4⟩, ⟨1, 2, 3, -1⟩] [0, 1, 1, 2, 3] 20 =
    some ([1, 1, 2, 1, 1], [-1, 0, 0, 1, 3]) := by decide

/-! ### C73 -/

/-- **C73**, for one swap: when no two observations of a segment have the same date before the swap, it is the same after. `sta` are the
unique numbers of the segments, `lastMain` and `lastSec` the last rows of the main segment and of the secondary segment. Missing: several
swaps, see `swap_wrong`. -/
theorem swap_single_partial (sta seg : Nat → Nat) (time : Nat → Int) (iMain i1 i2 lastMain lastSec : Nat)
    (hlabel : ∀ r r', seg r = seg r' ↔ sta r = sta r')
    (hdate : ∀ r r', r < r' → sta r = sta r' → time r < time r')
    (h1 : i1 = iMain + 1) (hm : ∀ r, iMain ≤ r → (sta r = sta iMain ↔ r ≤ lastMain))
    (hs : ∀ r, sta r = sta i2 ↔ i2 ≤ r ∧ r ≤ lastSec) (hne : sta i2 ≠ sta iMain) (hlate : time iMain < time i2)
    (r r' : Nat) (hr : swapStep seg iMain i1 i2 lastMain lastSec r = swapStep seg iMain i1 i2 lastMain lastSec r') (hrr : r ≠ r') :
    time r ≠ time r' := by
  have hout : ∀ k, swapStep seg iMain i1 i2 lastMain lastSec k =
      if sta k = sta i2 then seg iMain else if sta k = sta iMain ∧ iMain < k then seg i2 else seg k := by
    intro k
    have hi2 : i2 ≤ lastSec := ((hs i2).1 rfl).2
    have hmain : Index.sliceSet seg i1 (lastMain + 1) (seg i2) iMain = seg iMain := by
      unfold Index.sliceSet
      rw [if_neg (by omega)]
    unfold swapStep
    rw [hmain]
    unfold Index.sliceSet
    by_cases hk : sta k = sta i2
    · rw [if_pos hk, if_pos (by have := (hs k).1 hk; omega)]
    · rw [if_neg hk, if_neg (fun hc => hk ((hs k).2 (by omega)))]
      by_cases hk' : sta k = sta iMain ∧ iMain < k
      · rw [if_pos hk', if_pos (by have := (hm k (by omega)).1 hk'.1; omega)]
      · rw [if_neg hk', if_neg (fun hc => hk' ⟨(hm k (by omega)).2 (by omega), by omega⟩)]
  -- the head of the main segment is before the secondary segment
  have hhead : ∀ k, sta k = sta iMain → ¬ iMain < k → ∀ j, sta j = sta i2 → time k < time j := by
    intro k hk hlt j hj
    have t1 : time k ≤ time iMain := by
      rcases Nat.lt_or_ge k iMain with h | h
      · exact le_of_lt (hdate k iMain h hk)
      · rw [show k = iMain by omega]
    have t2 : time i2 ≤ time j := by
      rcases Nat.eq_or_lt_of_le ((hs j).1 hj).1 with h | h
      · rw [h]
      · exact le_of_lt (hdate i2 j h hj.symm)
    omega
  have hdiff : ∀ a b, a ≠ b → sta a = sta b → time a ≠ time b := by
    intro a b hab he
    rcases Nat.lt_or_gt_of_ne hab with h | h
    · have := hdate a b h he; omega
    · have := hdate b a h he.symm; omega
  rw [hout, hout] at hr
  by_cases c1 : sta r = sta i2
  · rw [if_pos c1] at hr
    by_cases c2 : sta r' = sta i2
    · exact hdiff r r' hrr (by rw [c1, c2])
    · rw [if_neg c2] at hr
      split at hr
      · exact absurd ((hlabel _ _).1 hr).symm hne
      · rename_i c3
        have e := (hlabel _ _).1 hr
        have := hhead r' e.symm (fun h => c3 ⟨e.symm, h⟩) r c1
        omega
  · rw [if_neg c1] at hr
    by_cases c2 : sta r' = sta i2
    · rw [if_pos c2] at hr
      split at hr
      · exact absurd ((hlabel _ _).1 hr) hne
      · rename_i c3
        have e := (hlabel _ _).1 hr
        have := hhead r e (fun h => c3 ⟨e, h⟩) r' c2
        omega
    · rw [if_neg c2] at hr
      split at hr
      · rename_i c3
        split at hr
        · rename_i c4
          exact hdiff r r' hrr (by rw [c3.1, c4.1])
        · exact absurd ((hlabel _ _).1 hr).symm c2
      · split at hr
        · exact absurd ((hlabel _ _).1 hr) c1
        · exact hdiff r r' hrr ((hlabel _ _).1 hr)

/-- The bound of a segment is the row after its last row. -/
theorem last_of (obs : List Obs) (hne : obs ≠ []) : ∃ first last sta, segTrackArray obs = some sta ∧ bounds obs = some (first, last) ∧
    ∀ (k s : Nat), sta[k]? = some s → Last obs k → last.getD s 0 = k + 1 := by
  obtain ⟨first, last, sta, ⟨hsta, hslen, hsr, hsl⟩, hb, hlen, hpos, _, _, hf, hl, h0, hseg⟩ := bounds_full obs hne
  refine ⟨first, last, sta, hsta, hb, fun k s hk hlk => ?_⟩
  obtain ⟨m, hm⟩ := List.getElem?_of_mem ((hl (k + 1)).2 ⟨k, rfl, hlk⟩)
  have hml := (List.getElem?_eq_some_iff.1 hm).1
  have hml' : m < first.length := by omega
  obtain ⟨d1, _, _⟩ := hseg m _ _ (List.getElem?_eq_getElem hml') hm
  have hm2 := (hsl m _ _ (List.getElem?_eq_getElem hml') hm k).2 ⟨by omega, by omega⟩
  rw [hk] at hm2
  obtain rfl := Option.some.inj hm2
  rw [List.getD_eq_getElem?_getD, hm]; rfl

/-- The swap of the event (`iMain`, `i1`, `i2`) is asked: the main segment stops without link at most `mainMax` after the event, the
secondary segment lasts at least `secMin`, and its cost is at most `delta` under the cost of the main segment. -/
def SwapAsked (obs : List Obs) (time : List Int) (pcost : List Rat) (mainMax secMin : Int) (delta : Rat) (iMain i1 i2 lastMain lastSec : Nat) : Prop :=
  time.getD lastMain 0 - time.getD iMain 0 ≤ mainMax ∧ secMin ≤ time.getD lastSec 0 - time.getD i2 0 ∧
    (∃ o, obs[lastMain]? = some o ∧ o.next = -1) ∧ pcost.getD i2 0 - pcost.getD i1 0 > delta

/-- **C73**, for a network with one splitting event: the segments are exchanged exactly when the swap is asked, and the other rows do
not change. With `swap_single_partial`. Missing: several events, see `swap_wrong`. -/
theorem swap_event_partial (obs : List Obs) (time : List Int) (pcost : List Rat) (mainMax secMin : Int) (delta : Rat) (hne : obs ≠ [])
    (sta : List Nat) (hsta : segTrackArray obs = some sta) (iMain i1 i2 lastMain lastSec : Nat)
    (hev : splitting3 obs time = some [((iMain : Int), (i1 : Int), i2)])
    (hlm : Last obs lastMain) (hsm : sta[lastMain]? = sta[iMain]?) (hls : Last obs lastSec) (hss : sta[lastSec]? = sta[i2]?)
    (hm : iMain < i1) (om o2 : Obs) (hom : obs[iMain]? = some om) (ho2 : obs[i2]? = some o2) :
    ∃ out, swapTrack obs time pcost mainMax secMin delta = some out ∧ ∀ (k : Nat) o, obs[k]? = some o →
      (¬ SwapAsked obs time pcost mainMax secMin delta iMain i1 i2 lastMain lastSec → out[k]? = some o.seg) ∧
      (SwapAsked obs time pcost mainMax secMin delta iMain i1 i2 lastMain lastSec →
        out[k]? = some (if i2 ≤ k ∧ k ≤ lastSec then om.seg else if i1 ≤ k ∧ k ≤ lastMain then o2.seg else o.seg)) := by
  obtain ⟨first, last, sta', hsta', hb, hlast⟩ := last_of obs hne
  rw [hsta] at hsta'
  obtain rfl := Option.some.inj hsta'
  have hget : ∀ j : Nat, Last obs j → ∃ s, sta[j]? = some s := by
    intro j hj
    obtain ⟨o, ho, _⟩ := hj
    have hjl : j < obs.length := (List.getElem?_eq_some_iff.1 ho).1
    obtain ⟨_, _, sta'', ⟨hsta'', hslen, _⟩, _⟩ := bounds_full obs hne
    rw [hsta] at hsta''
    obtain rfl := Option.some.inj hsta''
    exact ⟨sta[j]'(by omega), List.getElem?_eq_getElem (by omega)⟩
  obtain ⟨sm, hsm1⟩ := hget lastMain hlm
  obtain ⟨ss, hss1⟩ := hget lastSec hls
  have bm : last.getD (sta.getD iMain 0) 0 - 1 = lastMain := by
    rw [List.getD_eq_getElem?_getD (l := sta), ← hsm, hsm1, Option.getD_some, hlast _ _ hsm1 hlm, Nat.add_sub_cancel]
  have bs : last.getD (sta.getD i2 0) 0 - 1 = lastSec := by
    rw [List.getD_eq_getElem?_getD (l := sta), ← hss, hss1, Option.getD_some, hlast _ _ hss1 hls, Nat.add_sub_cancel]
  have hseg : ∀ (k : Nat) o, obs[k]? = some o → (obs.map (·.seg)).getD k 0 = o.seg := by
    intro k o ho
    rw [List.getD_eq_getElem?_getD, List.getElem?_map, ho]; rfl
  have hasked : (swapTest (fun k => time.getD k 0) (fun k => (obs.map (·.next)).getD k (-1)) (fun k => pcost.getD k 0) mainMax secMin delta
        iMain i1 i2 lastMain lastSec = true) ↔ SwapAsked obs time pcost mainMax secMin delta iMain i1 i2 lastMain lastSec := by
    obtain ⟨o, ho, _⟩ := id hlm
    have : (obs.map (·.next)).getD lastMain (-1) = o.next := by
      rw [List.getD_eq_getElem?_getD, List.getElem?_map, ho]; rfl
    unfold swapTest SwapAsked
    simp only [Bool.and_eq_true, decide_eq_true_eq, this, ho, Option.some.injEq, exists_eq_left', gt_iff_lt]
    tauto
  have hrun : swapTrack obs time pcost mainMax secMin delta = some ((List.range obs.length).map
      (if swapTest (fun k => time.getD k 0) (fun k => (obs.map (·.next)).getD k (-1)) (fun k => pcost.getD k 0) mainMax secMin delta
        iMain i1 i2 lastMain lastSec then swapStep (fun k => (obs.map (·.seg)).getD k 0) iMain i1 i2 lastMain lastSec
        else (fun k => (obs.map (·.seg)).getD k 0))) := by
    unfold swapTrack
    rw [hev, hsta, hb]
    simp only [Option.bind_eq_bind, Option.bind_some, List.foldl_cons, List.foldl_nil, Int.toNat_natCast]
    rw [bm, bs]
  refine ⟨_, hrun, fun k o ho => ?_⟩
  have hk : k < obs.length := (List.getElem?_eq_some_iff.1 ho).1
  rw [List.getElem?_map, List.getElem?_range hk, Option.map_some]
  constructor
  · intro hn
    rw [if_neg (fun h => hn (hasked.1 h)), hseg k o ho]
  · intro hy
    rw [if_pos (hasked.2 hy)]
    unfold swapStep
    have hmain : Index.sliceSet (fun k => (obs.map (·.seg)).getD k 0) i1 (lastMain + 1) ((obs.map (·.seg)).getD i2 0) iMain = om.seg := by
      unfold Index.sliceSet
      rw [if_neg (by omega)]
      exact hseg _ _ hom
    rw [hmain]
    unfold Index.sliceSet
    simp only [Nat.lt_succ_iff, hseg k o ho, hseg _ _ ho2]

/-- Two segments split from the same row of a short segment: both get its number, with two observations at each date. The links are
those of before: after the row 6 the link goes to the row 7, which is no more in the same segment. -/
theorem swap_wrong :
    let obs : List Obs := [⟨1, 0, 6, 1⟩, ⟨1, 0, 0, 2⟩, ⟨1, 0, 1, -1⟩, ⟨1, 1, 6, 4⟩, ⟨1, 1, 3, 5⟩, ⟨1, 1, 4, -1⟩, ⟨1, 2, -1, 7⟩, ⟨1, 2, 6, -1⟩]
    let time : List Int := [3, 4, 5, 3, 4, 5, 2, 3]
    Valid obs ∧ swapTrack obs time [1, 1, 1, 1, 1, 1, 1, 1] 2 2 (-1 / 5) = some [2, 2, 2, 2, 2, 2, 2, 1] := by
  refine ⟨by unfold Valid; decide, by decide +kernel⟩

/-- One swap. -/
example : swapTrack [⟨1, 0, 3, 1⟩, ⟨1, 0, 0, 2⟩, ⟨1, 0, 1, -1⟩, ⟨1, 2, -1, 4⟩, ⟨1, 2, 3, -1⟩] [3, 4, 5, 2, 3] [1, 1, 1, 1, 1] 2 2 (-1 / 5) =
    some [2, 2, 2, 2, 0] := by decide +kernel

end Verif.Events
