import Verif.Tracking.OrderFinal

/-!
# C219: the virtual observations of EddyFinalTracking when the rows of the files are in another order

The flag `virtual` and the fields after `filled_by_interpolation` (src/scripts/EddyFinalTracking:79-83) on the two runs of C216. The interpolation of the code
is along the rows of the whole file, so it is not clear that it does not depend on the order of the tracks.
-/

namespace Verif.Tracking.Order

variable {α δ : Type}

/-! ### Specification -/

/-- A field of the observation at a place (date and row), `default` when there is none. -/
def fieldAt (files : List (List α)) (field : α → Rat) (default : Rat) (x : Nat × Nat) : Rat :=
  (((files[x.1]?).bind (fun f => f[x.2]?)).map field).getD default

/-- The values of a column in the rows of the track `i`. -/
def ofTrack {β : Type} (t : Table) (col : List β) (i : Nat) : List β := ((t.track.zip col).filter (fun x => x.1 == i)).map (·.2)

/-- The tracks of a file after the interpolation: for each one the flags of the virtual observations and the values of the fields. -/
def filledTracks (files : List (List α)) (time : α → Rat) (fields : List (α → Rat)) (t : Table) : List (List Bool × List (List Rat)) :=
  t.track.dedup.map (fun i => (ofTrack t (flags (fieldAt files time 1) t) i,
    fields.map (fun v => ofTrack t (filledColumn (fieldAt files time 1) (fieldAt files v 0) t) i)))

/-! ### Values on a line -/

/-- The value of the row `n` of a track, which may be between two observations. -/
def OnLine (L : List (Option Rat)) (n : Nat) (q : Rat) : Prop :=
  L[n]? = some (some q) ∨ L[n]? = some none ∧ ∃ a b x y, a < n ∧ n < b ∧ L[a]? = some (some x) ∧ L[b]? = some (some y) ∧
    (∀ k, a < k → k < b → L[k]? = some none) ∧ q = x + (y - x) / ((b : Rat) - a) * ((n : Rat) - a)

theorem onLine_unique {L : List (Option Rat)} {n : Nat} {q q' : Rat} (h : OnLine L n q) (h' : OnLine L n q') : q = q' := by
  rcases h with h | ⟨h, a, b, x, y, h1, h2, hx, hy, hm, rfl⟩
  · rcases h' with h' | ⟨h', _⟩
    · rw [h] at h'
      exact Option.some.inj (Option.some.inj h')
    · rw [h] at h'
      cases Option.some.inj h'
  · rcases h' with h' | ⟨_, a', b', x', y', h1', h2', hx', hy', hm', rfl⟩
    · rw [h] at h'
      cases Option.some.inj h'
    · have ea : a = a' := by
        rcases Nat.lt_trichotomy a a' with hlt | rfl | hlt
        · rw [hm a' hlt (by omega)] at hx'
          cases Option.some.inj hx'
        · rfl
        · rw [hm' a hlt (by omega)] at hx
          cases Option.some.inj hx
      have eb : b = b' := by
        rcases Nat.lt_trichotomy b b' with hlt | rfl | hlt
        · rw [hm' b (by omega) hlt] at hy
          cases Option.some.inj hy
        · rfl
        · rw [hm b' (by omega) hlt] at hy'
          cases Option.some.inj hy'
      subst ea eb
      rw [hx] at hx'
      rw [hy] at hy'
      obtain rfl := Option.some.inj (Option.some.inj hx')
      obtain rfl := Option.some.inj (Option.some.inj hy')
      rfl

open Classical in
/-- The value on the line. -/
noncomputable def lineAt (L : List (Option Rat)) (n : Nat) : Rat := if h : ∃ q, OnLine L n q then h.choose else 0

theorem lineAt_eq {L : List (Option Rat)} {n : Nat} {q : Rat} (h : OnLine L n q) : lineAt L n = q := by
  have he : ∃ q, OnLine L n q := ⟨q, h⟩
  unfold lineAt
  rw [dif_pos he]
  exact onLine_unique he.choose_spec h

/-! ### Tables -/

theorem col_track {nb : Nat → Nat} {cid k i : Nat} : (trackColumn nb cid)[k]? = some i ↔ i < cid ∧ ∃ n, n < nb i ∧ k = start nb i + n := by
  have hl : (trackColumn nb cid).length = nbObs nb cid := by simp [trackColumn, nbObs, List.length_flatMap]
  have hz := zip_rows nb id cid
  rw [List.map_id] at hz
  constructor
  · intro h
    have hk : k < nbObs nb cid := by
      rw [← hl]
      exact (List.getElem?_eq_some_iff.1 h).1
    have : (i, k) ∈ (trackColumn nb cid).zip (List.range (nbObs nb cid)) :=
      List.mem_of_getElem? (List.getElem?_zip_eq_some.2 ⟨h, List.getElem?_range hk⟩)
    rw [hz] at this
    obtain ⟨i', hi', hm⟩ := List.mem_flatMap.1 this
    obtain ⟨n, hn, e⟩ := List.mem_map.1 hm
    obtain ⟨rfl, rfl⟩ := Prod.mk.inj e
    exact ⟨List.mem_range.1 hi', n, List.mem_range.1 hn, rfl⟩
  · rintro ⟨hi, n, hn, rfl⟩
    have : (i, start nb i + n) ∈ (trackColumn nb cid).zip (List.range (nbObs nb cid)) := by
      rw [hz]
      exact List.mem_flatMap.2 ⟨i, List.mem_range.2 hi, List.mem_map.2 ⟨n, List.mem_range.2 hn, rfl⟩⟩
    obtain ⟨k, hk⟩ := List.mem_iff_getElem?.1 this
    obtain ⟨h1, h2⟩ := List.getElem?_zip_eq_some.1 hk
    have : k = start nb i + n := by
      have := (List.getElem?_eq_some_iff.1 h2).2
      rwa [List.getElem_range] at this
    rw [← this]
    exact h1

/-- The tables of `merge`, with at least one row for each track. -/
def Shape (t : Table) : Prop := ∃ v nb cid h, (∀ i, 1 ≤ nb i) ∧ t = mergeTable v nb cid h

theorem ofTrack_eq {β : Type} {v : Bool} {nb : Nat → Nat} {cid : Nat} {h : List (List Link)} {col : List β} (hl : col.length = nbObs nb cid) (d : β) {i : Nat}
    (hi : i < cid) : ofTrack (mergeTable v nb cid h) col i = (List.range (nb i)).map (fun n => col.getD (start nb i + n) d) := by
  have e : col = (List.range (nbObs nb cid)).map (fun r => col.getD r d) := by
    refine List.ext_getElem (by simp [hl]) (fun n h1 h2 => ?_)
    simp [List.getD, h1]
  unfold ofTrack
  conv_lhs => rw [e]
  simp only [mergeTable]
  rw [zip_filter nb _ hi, List.map_map]
  rfl

/-- The values of a track of the file before the interpolation. -/
def known (field : α → Rat) (L : List (Option (Nat × Option α))) : List (Option Rat) := L.map (fun r => r.map (fun x => (x.2.map field).getD 0))

theorem filledTracks_eq {files : List (List α)} {time : α → Rat} {fields : List (α → Rat)} {t : Table} (hs : Shape t)
    (hf : ∀ v, Filled (fieldAt files time 1) v t) :
    filledTracks files time fields t = (tracksOf files t).map (fun L => (L.map (fun r => r.isNone),
      fields.map (fun v => (List.range L.length).map (lineAt (known v L))))) := by
  obtain ⟨v, nb, cid, h, h1, rfl⟩ := hs
  unfold filledTracks tracksOf
  rw [List.map_map]
  refine List.map_congr_left (fun i hi => ?_)
  have hic : i < cid := by
    have := List.mem_dedup.1 hi
    obtain ⟨k, hk⟩ := List.mem_iff_getElem?.1 this
    exact (col_track.1 hk).1
  have hrow : ∀ n, n < nb i → (mergeTable v nb cid h).rows[start nb i + n]? = some ((merge v nb h).rows (start nb i + n)) := by
    intro n hn
    have hk := col_track.2 ⟨hic, n, hn, rfl⟩
    have hl : (trackColumn nb cid).length = nbObs nb cid := by simp [trackColumn, nbObs, List.length_flatMap]
    have : start nb i + n < nbObs nb cid := by
      rw [← hl]
      exact (List.getElem?_eq_some_iff.1 hk).1
    simp only [mergeTable, List.getElem?_map, List.getElem?_range this, Option.map_some]
  have hlen : (mergeTable v nb cid h).rows.length = nbObs nb cid := by simp [mergeTable]
  have e0 : ((mergeTable v nb cid h).track.zip (mergeTable v nb cid h).rows).filter (fun x => x.1 == i) =
      (List.range (nb i)).map (fun n => (i, (merge v nb h).rows (start nb i + n))) := by
    simp only [mergeTable]
    exact zip_filter nb _ hic
  simp only [Function.comp, e0, List.map_map, List.length_map, List.length_range]
  refine Prod.ext ?_ ?_
  · simp only
    rw [ofTrack_eq (by simp [flags, hlen]) false hic]
    refine List.map_congr_left (fun n hn => ?_)
    have hn := List.mem_range.1 hn
    have hr := hrow n hn
    simp only [Function.comp]
    cases hg : (merge v nb h).rows (start nb i + n) with
    | none =>
      rw [hg] at hr
      have := ((hf (fun _ => 0)).2 _ hr).1
      simp [List.getD, this, rowSeen]
    | some x =>
      rw [hg] at hr
      have := ((hf (fun _ => 0)).1 _ x hr).1
      simp [List.getD, this, rowSeen]
  · simp only
    refine List.map_congr_left (fun w _ => ?_)
    rw [ofTrack_eq (by simp [filledColumn, Missing.fillField, flags, hlen]) 0 hic]
    refine List.map_congr_left (fun n hn => ?_)
    have hn := List.mem_range.1 hn
    set L := known w ((List.range (nb i)).map ((fun x : Nat × Option (Nat × Nat) => rowSeen files x.2) ∘
      fun n => (i, (merge v nb h).rows (start nb i + n)))) with hL
    have hLn : ∀ n, n < nb i → L[n]? = some (((merge v nb h).rows (start nb i + n)).map (fieldAt files w 0)) := by
      intro n hn
      rw [hL]
      simp only [known, List.map_map, List.getElem?_map, List.getElem?_range hn, Option.map_some, Function.comp, rowSeen, Option.map_map]
      rfl
    have hr := hrow n hn
    symm
    apply lineAt_eq
    cases hg : (merge v nb h).rows (start nb i + n) with
    | some x =>
      rw [hg] at hr
      have := ((hf (fieldAt files w 0)).1 _ x hr).2
      left
      rw [hLn n hn, hg]
      simp [List.getD, this]
    | none =>
      rw [hg] at hr
      obtain ⟨_, a, b, x, y, g1, g2, hx, hy, hm, htr, hq⟩ := (hf (fieldAt files w 0)).2 _ hr
      right
      refine ⟨by rw [hLn n hn, hg]; rfl, ?_⟩
      have ht : (mergeTable v nb cid h).track[start nb i + n]? = some i := col_track.2 ⟨hic, n, hn, rfl⟩
      obtain ⟨_, na, hna, rfl⟩ := col_track.1 (show (trackColumn nb cid)[a]? = some i from (htr a (by omega) (by omega)).trans ht)
      obtain ⟨_, nc, hnc, rfl⟩ := col_track.1 (show (trackColumn nb cid)[b]? = some i from (htr b (by omega) (by omega)).trans ht)
      have back : ∀ k, k < nb i → ∀ z, (mergeTable v nb cid h).rows[start nb i + k]? = some z → L[k]? = some (z.map (fieldAt files w 0)) := by
        intro k hk z hz
        rw [hrow k hk] at hz
        rw [hLn k hk, Option.some.inj hz]
      refine ⟨na, nc, fieldAt files w 0 x, fieldAt files w 0 y, by omega, by omega, back na hna _ hx, back nc hnc _ hy, fun k k1 k2 =>
        back k (by omega) none (hm _ (by omega) (by omega)), ?_⟩
      simp only [List.getD, hq, Option.getD_some]
      push_cast
      ring

theorem final_shape {cfg : Cfg α δ} {files : List (List α)} {s : St α δ} (inv : Inv cfg files s) {sizeMin : Nat} {o : Output}
    (ho : finalTracking cfg.virtual (files.map List.length) s.corrs s.currentId sizeMin = some o) : Shape o.long ∧ Shape o.short := by
  have key : ∀ p : Nat → Bool, Shape (selectionTable cfg.virtual ⟨renumber (keepTracks s.currentId p) s.corrs, (keepTracks s.currentId p).length,
      (keepTracks s.currentId p).map (nbObsByTracks cfg.virtual s.corrs)⟩) := by
    intro p
    obtain ⟨e, w, _, _⟩ := selectionTable_eq inv.wf (keepTracks_sorted s.currentId p)
    exact ⟨_, _, _, _, fun i => nb_pos w i, e⟩
  unfold finalTracking at ho
  simp only [Option.bind_eq_some_iff, Option.map_eq_some_iff] at ho
  obtain ⟨u, _, sel, hsel, rfl⟩ := ho
  constructor
  · show Shape (selectionTable _ ((longerThan _ s.currentId s.corrs sizeMin).getD _))
    unfold longerThan
    simp only
    split
    · exact ⟨_, _, _, _, fun i => nb_pos inv.wf i, whole_table inv.wf inv.idlt⟩
    · exact key _
  · show Shape (selectionTable _ sel)
    unfold shorterThan at hsel
    simp only at hsel
    split at hsel
    · cases hsel
    · obtain rfl := Option.some.inj hsel
      exact key _

/-! ### C219 -/

/-- **C219** (virtual observations): the files hold the same observations in another order. After the interpolation the files of tracks hold the same tracks: the
same flags of virtual observations and the same values of all the fields. The field time is nowhere zero, as in C168. -/
theorem filled_order (cfg : Cfg α δ) {f f' : List α} {fs fs' : List (List α)} (h0 : f.Perm f') (hf : List.Forall₂ List.Perm fs fs')
    (hr : OrderRun cfg (swap init f) fs) (sizeMin : Nat) (time : α → Rat) (ht : ∀ a, time a ≠ 0) (fields : List (α → Rat)) :
    ∃ s t, track cfg (f :: fs) = some s ∧ track cfg (f' :: fs') = some t ∧
      ((finalTracking cfg.virtual ((f :: fs).map List.length) s.corrs s.currentId sizeMin = none ∧
          finalTracking cfg.virtual ((f' :: fs').map List.length) t.corrs t.currentId sizeMin = none) ∨
        ∃ o o', finalTracking cfg.virtual ((f :: fs).map List.length) s.corrs s.currentId sizeMin = some o ∧
          finalTracking cfg.virtual ((f' :: fs').map List.length) t.corrs t.currentId sizeMin = some o' ∧
          (filledTracks (f' :: fs') time fields o'.long).Perm (filledTracks (f :: fs) time fields o.long) ∧
          (filledTracks (f' :: fs') time fields o'.short).Perm (filledTracks (f :: fs) time fields o.short)) := by
  obtain ⟨s1, t1, ρ, x1, x2, _, inv, inv'⟩ := track_sim cfg h0 hf hr
  obtain ⟨s, t, e1, e2, h⟩ := final_order cfg h0 hf hr sizeMin
  rw [e1] at x1
  rw [e2] at x2
  obtain rfl := Option.some.inj x1
  obtain rfl := Option.some.inj x2
  refine ⟨s, t, e1, e2, h.imp_right ?_⟩
  rintro ⟨o, o', ho, ho', hS⟩
  have hz : ∀ (F : List (List α)) x, fieldAt F time 1 x ≠ 0 := by
    intro F x
    unfold fieldAt
    cases (F[x.1]?).bind (fun f => f[x.2]?) with
    | none => simp
    | some a => exact ht a
  have c := final_shape inv ho
  have c' := final_shape inv' ho'
  refine ⟨o, o', ho, ho', ?_, ?_⟩
  · rw [filledTracks_eq c.1 (fun v => (filled_of_inv cfg _ s inv sizeMin o ho _ v (hz _)).1),
      filledTracks_eq c'.1 (fun v => (filled_of_inv cfg _ t inv' sizeMin o' ho' _ v (hz _)).1)]
    exact hS.long.map _
  · rw [filledTracks_eq c.2 (fun v => (filled_of_inv cfg _ s inv sizeMin o ho _ v (hz _)).2),
      filledTracks_eq c'.2 (fun v => (filled_of_inv cfg _ t inv' sizeMin o' ho' _ v (hz _)).2)]
    exact hS.short.map _

/-! ### Examples -/

/-- The tracks of the short file for the class of numbers of `Verif.Tracking.Props`; the only field is the number. -/
def exFilled (time : Nat → Rat) (files : List (List Nat)) : Option (List (List Bool × List (List Rat))) :=
  (track Tracking.exCfg files).bind (fun s => (finalTracking Tracking.exCfg.virtual (files.map List.length) s.corrs s.currentId 6).map (fun o =>
    filledTracks files time [fun x => (x : Rat)] o.short))

/-- The tracks of 5 and 8 have a gap. -/
example : exFilled (fun _ => 1) [[5, 8], [8, 5], [], [5], [8]] =
    some [([false, false, true, false], [[5, 5, 5, 5]]), ([false, false, true, true, false], [[8, 8, 8, 8, 8]])] := by decide +kernel

/-- **C219** the condition on the time is needed: when the observations of an eddy have the time 0, they get the values of the tracks before and after in the
file, which depend on the order of the rows of the files. Without them the tracks are the same for both orders. -/
theorem time_zero_order_wrong : ∃ (files files' : List (List Nat)) (time : Nat → Rat) (a b c d : List (List Bool × List (List Rat))),
    List.Forall₂ List.Perm files files' ∧ exFilled (fun _ => 1) files = some a ∧ exFilled (fun _ => 1) files' = some b ∧ b.Perm a ∧
    exFilled time files = some c ∧ exFilled time files' = some d ∧ ¬ d.Perm c := by
  refine ⟨[[7, 8, 9], [7, 8, 9]], [[8, 7, 9], [8, 7, 9]], fun x => if x = 8 then 0 else 1,
    [([false, false], [[7, 7]]), ([false, false], [[8, 8]]), ([false, false], [[9, 9]])],
    [([false, false], [[8, 8]]), ([false, false], [[7, 7]]), ([false, false], [[9, 9]])],
    [([false, false], [[7, 7]]), ([true, true], [[23 / 3, 25 / 3]]), ([false, false], [[9, 9]])],
    [([true, true], [[7, 7]]), ([false, false], [[7, 7]]), ([false, false], [[9, 9]])],
    .cons (by decide) (.cons (by decide) .nil), ?_, ?_, ?_, ?_, ?_, ?_⟩ <;> decide +kernel

end Verif.Tracking.Order
