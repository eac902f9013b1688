import Verif.Lines.Wrap
import Verif.Bins.Maps

/-!
# C191: paths drawn on a map

Model of `TrackEddiesObservations.plot` (src/py_eddy_tracker/observations/tracking.py:588-605) and `NetworkObservations.plot`
(src/py_eddy_tracker/observations/network.py:1425-1453): the arrays and the colours given to matplotlib. Labels are not modelled. Longitudes and
latitudes are exact numbers.
-/

namespace Verif.Lines

open Verif.Bins (pick groupsOf positions members)
open Verif.Segments (segTrackArray IsNumbering)

/-! ### Model -/

/-- A position as an element of the arrays. -/
def pt (p : Rat × Rat) : VPt := (some p.1, some p.2)

/-- `wrap_longitude(x, y, ref, cut=True)` when `ref` is given (tracking.py:603-604, network.py:1449-1450). -/
def cutAt : Option Rat → List VPt → Option (List VPt)
  | none, l => some l
  | some r, l => wrapCut r l

/-- The arrays of `TrackEddiesObservations.plot` (tracking.py:599-605) for positions with their track. -/
def plotTracks (ref : Option Rat) : List ((Rat × Rat) × Int) → Option (List VPt)
  | [] => some []
  | rows => (splitLine (none, none) (rows.map (fun r => (pt r.1, r.2)))).bind (cutAt ref)

/-- `color_cycle[j % nb_colors]` (network.py:1446-1447): no colour is given for an empty cycle. -/
def cycleAt {C : Type} (cycle : List C) (j : Nat) : Option C := cycle[j % cycle.length]?

/-- One line of `NetworkObservations.plot` (network.py:1446-1451). -/
def plotLine {C : Type} (ref : Option Rat) (cycle : List C) (pos : List (Rat × Rat)) (g : Bins.Group × Nat) : Option (List VPt × Option C) :=
  (cutAt ref ((pick pos g.1.obs).map pt)).map (fun l => (l, cycleAt cycle g.2))

/-- `NetworkObservations.plot` (network.py:1441-1453): a line and its colour for each segment. -/
def plotNetwork {C : Type} (argsort : List Int → List Nat) (ref : Option Rat) (cycle : List C) (obs : List Segments.Obs) (pos : List (Rat × Rat)) :
    Option (List (List VPt × Option C)) := do
  let sta ← segTrackArray obs
  let gs ← groupsOf argsort sta
  ((gs.filter (fun g => !g.obs.isEmpty)).zipIdx).mapM (plotLine ref cycle pos)

/-! ### Specification -/

/-- `t` goes from `a` to `b`, both moved by whole turns, by the short way. -/
def Short (a b : Rat × Rat) (t : VPt × VPt) : Prop := ∃ n m : Int,
  t = (pt (a.1 + 360 * n, a.2), pt (b.1 + 360 * m, b.2)) ∧ |(b.1 + 360 * m) - (a.1 + 360 * n)| ≤ 180

/-- The steps drawn are exactly the steps given, by the short way. -/
def Shown (step : Rat × Rat → Rat × Rat → Prop) (out : List VPt) : Prop :=
  (∀ t ∈ pairs out, t.1.1 ≠ none → t.2.1 ≠ none → ∃ a b, step a b ∧ Short a b t) ∧ ∀ a b, step a b → ∃ t ∈ pairs out, Short a b t

/-- The position is drawn, in the map when `ref` is given. -/
def PointShown (ref : Option Rat) (a : Rat × Rat) (out : List VPt) : Prop := ∃ n : Int, pt (a.1 + 360 * n, a.2) ∈ out ∧
  match ref with
  | none => n = 0
  | some r => r ≤ a.1 + 360 * n ∧ a.1 + 360 * n < r + 360

/-- `a` and `b` are the positions of consecutive observations of a track. -/
def Step (rows : List ((Rat × Rat) × Int)) (a b : Rat × Rat) : Prop := ∃ (k : Nat) (g : Int), rows[k]? = some (a, g) ∧ rows[k + 1]? = some (b, g)

/-- Full statement for the tracks. -/
def PathsDrawn : Prop := ∀ (ref : Option Rat) (rows : List ((Rat × Rat) × Int)), ∃ out, plotTracks ref rows = some out ∧ Shown (Step rows) out ∧
  ∀ r ∈ rows, PointShown ref r.1 out

/-- `a` and `b` are the positions of consecutive observations of the segment numbered `j`. -/
def SegStep (sta : List Nat) (pos : List (Rat × Rat)) (j : Nat) (a b : Rat × Rat) : Prop := ∃ k : Nat, sta[k]? = some j ∧ sta[k + 1]? = some j ∧
  pos[k]? = some a ∧ pos[k + 1]? = some b

/-! ### Proofs -/

theorem mem_pairs {α : Type} {l : List α} {t : α × α} : t ∈ pairs l ↔ ∃ k : Nat, l[k]? = some t.1 ∧ l[k + 1]? = some t.2 := by
  induction l with
  | nil => simp [pairs]
  | cons a l ih =>
    cases l with
    | nil => simp [pairs]
    | cons b l =>
      rw [pairs, List.mem_cons, ih]
      constructor
      · rintro (rfl | ⟨k, h⟩)
        · exact ⟨0, rfl, rfl⟩
        · exact ⟨k + 1, by simpa using h.1, by simpa using h.2⟩
      · rintro ⟨k, h1, h2⟩
        cases k with
        | zero =>
          left
          simp at h1 h2
          rw [h1, h2]
        | succ k => exact Or.inr ⟨k, by simpa using h1, by simpa using h2⟩

/-- The line of the runs. -/
def sepList : List ((Rat × Rat) × Int) → List VPt
  | [] => []
  | [a] => [pt a.1]
  | a :: b :: l => if a.2 ≠ b.2 then pt a.1 :: (none, none) :: sepList (b :: l) else pt a.1 :: sepList (b :: l)

theorem sep_writes : ∀ (l : List ((Rat × Rat) × Int)) (j : Nat), splitWrites (none, none) (l.map (fun r => (pt r.1, r.2))) j = enum (sepList l) j ∧
    jumps (l.map (fun r => (pt r.1, r.2))) + l.length = (sepList l).length
  | [], _ => ⟨rfl, rfl⟩
  | [a], _ => ⟨rfl, rfl⟩
  | a :: b :: l, j => by
    have i1 := sep_writes (b :: l) (j + 2)
    have i2 := sep_writes (b :: l) (j + 1)
    simp only [List.map_cons] at i1 i2 ⊢
    by_cases h : a.2 = b.2
    · simp only [splitWrites, sepList, h, ne_eq, not_true_eq_false, if_false, jumps, sub_self, enum]
      refine ⟨by rw [i2.1], ?_⟩
      have := i2.2
      simp only [List.length_cons] at this ⊢
      omega
    · have h' : b.2 - a.2 ≠ 0 := by omega
      simp only [splitWrites, sepList, h, ne_eq, not_false_eq_true, if_true, jumps, h', enum]
      refine ⟨by rw [i1.1], ?_⟩
      have := i1.2
      simp only [List.length_cons] at this ⊢
      omega

theorem split_sep (l : List ((Rat × Rat) × Int)) : splitLine (none, none) (l.map (fun r => (pt r.1, r.2))) = some (sepList l) := by
  unfold splitLine
  rw [(sep_writes l 0).1, List.length_map, (sep_writes l 0).2, store_enum]

theorem sep_head (b : (Rat × Rat) × Int) (l : List ((Rat × Rat) × Int)) : ∃ m, sepList (b :: l) = pt b.1 :: m := by
  cases l with
  | nil => exact ⟨[], rfl⟩
  | cons c l =>
    unfold sepList
    split
    · exact ⟨_, rfl⟩
    · exact ⟨_, rfl⟩

theorem pairs_cons {α : Type} (a b : α) (l : List α) : pairs (a :: b :: l) = (a, b) :: pairs (b :: l) := rfl

/-- The pairs of the line which are not nan are the steps. -/
theorem sep_pairs : ∀ (l : List ((Rat × Rat) × Int)) (t : VPt × VPt),
    (t ∈ pairs (sepList l) ∧ t.1.1 ≠ none ∧ t.2.1 ≠ none) ↔ ∃ s ∈ pairs l, s.1.2 = s.2.2 ∧ t = (pt s.1.1, pt s.2.1)
  | [], t => by simp [sepList, pairs]
  | [a], t => by simp [sepList, pairs]
  | a :: b :: l, t => by
    have ih := sep_pairs (b :: l) t
    obtain ⟨m, hm⟩ := sep_head b l
    rw [pairs_cons]
    by_cases h : a.2 = b.2
    · have e : sepList (a :: b :: l) = pt a.1 :: sepList (b :: l) := by simp [sepList, h]
      rw [e, hm, pairs_cons, ← hm, List.mem_cons]
      constructor
      · rintro ⟨rfl | h1, h2, h3⟩
        · exact ⟨(a, b), by simp, h, rfl⟩
        · obtain ⟨s, hs, h4⟩ := ih.1 ⟨h1, h2, h3⟩
          exact ⟨s, List.mem_cons_of_mem _ hs, h4⟩
      · rintro ⟨s, hs, h4, h5⟩
        rcases List.mem_cons.1 hs with rfl | hs
        · subst h5
          exact ⟨Or.inl rfl, by simp [pt], by simp [pt]⟩
        · obtain ⟨h1, h2⟩ := ih.2 ⟨s, hs, h4, h5⟩
          exact ⟨Or.inr h1, h2⟩
    · have e : sepList (a :: b :: l) = pt a.1 :: (none, none) :: sepList (b :: l) := by simp [sepList, h]
      rw [e, pairs_cons, hm, pairs_cons, ← hm, List.mem_cons, List.mem_cons]
      constructor
      · rintro ⟨rfl | rfl | h1, h2, h3⟩
        · exact absurd rfl h3
        · exact absurd rfl h2
        · obtain ⟨s, hs, h4⟩ := ih.1 ⟨h1, h2, h3⟩
          exact ⟨s, List.mem_cons_of_mem _ hs, h4⟩
      · rintro ⟨s, hs, h4, h5⟩
        rcases List.mem_cons.1 hs with rfl | hs
        · exact absurd h4 h
        · obtain ⟨h1, h2⟩ := ih.2 ⟨s, hs, h4, h5⟩
          exact ⟨Or.inr (Or.inr h1), h2⟩

theorem sep_mem : ∀ (l : List ((Rat × Rat) × Int)), ∀ r ∈ l, pt r.1 ∈ sepList l
  | [], r, h => by simp at h
  | [a], r, h => by simp at h; subst h; simp [sepList]
  | a :: b :: l, r, h => by
    have ih := sep_mem (b :: l)
    have hm : ∀ r ∈ b :: l, pt r.1 ∈ sepList (a :: b :: l) := by
      intro r hr
      unfold sepList
      split
      · exact List.mem_cons_of_mem _ (List.mem_cons_of_mem _ (ih r hr))
      · exact List.mem_cons_of_mem _ (ih r hr)
    rcases List.mem_cons.1 h with rfl | h
    · unfold sepList
      split <;> simp
    · exact hm r h

/-- A line whose steps between points are short, cut or not. -/
theorem cut_shown (ref : Option Rat) {l : List VPt} (hne : l ≠ []) {step : Rat × Rat → Rat × Rat → Prop} (hshort : ∀ a b, step a b → |b.1 - a.1| ≤ 180)
    (hl : ∀ t : VPt × VPt, (t ∈ pairs l ∧ t.1.1 ≠ none ∧ t.2.1 ≠ none) ↔ ∃ a b, step a b ∧ t = (pt a, pt b)) :
    ∃ out, cutAt ref l = some out ∧ Shown step out ∧ ∀ a, pt a ∈ l → PointShown ref a out := by
  cases ref with
  | none =>
    refine ⟨l, rfl, ⟨fun t ht h1 h2 => ?_, fun a b hab => ?_⟩, fun a ha => ⟨0, by simpa [pt] using ha, rfl⟩⟩
    · obtain ⟨a, b, hab, rfl⟩ := (hl t).1 ⟨ht, h1, h2⟩
      exact ⟨a, b, hab, 0, 0, by simp, by simpa using hshort a b hab⟩
    · exact ⟨_, ((hl (pt a, pt b)).2 ⟨a, b, hab, rfl⟩).1, 0, 0, by simp, by simpa using hshort a b hab⟩
  | some r =>
    obtain ⟨p, m, rfl⟩ := List.exists_cons_of_ne_nil hne
    have hc : Contiguous (p :: m) := by
      intro s hs a b ha hb
      obtain ⟨a', b', hab, rfl⟩ := (hl s).1 ⟨hs, by rw [ha]; simp, by rw [hb]; simp⟩
      have h1 : a'.1 = a := by simpa [pt] using ha
      have h2 : b'.1 = b := by simpa [pt] using hb
      have := hshort a' b' hab
      rw [h1, h2] at this
      linarith
    obtain ⟨out, e, hsub, h1, h2⟩ := wrap_cut_spec r p m hc
    have hmoved : ∀ a b (t : VPt × VPt), step a b → Moved (pt a, pt b) t → Short a b t := by
      intro a b t hab hm
      obtain ⟨x, y, n, hx, hy, ht⟩ := hm
      have hx' : a.1 = x := by simpa [pt] using hx
      have hy' : b.1 = y := by simpa [pt] using hy
      refine ⟨n, n, by rw [ht, hx', hy']; rfl, ?_⟩
      have := hshort a b hab
      rwa [show b.1 + 360 * (n : Rat) - (a.1 + 360 * n) = b.1 - a.1 by ring]
    refine ⟨out, e, ⟨fun t ht g1 g2 => ?_, fun a b hab => ?_⟩, fun a ha => ?_⟩
    · obtain ⟨s, hs, hm⟩ := h1 t ht g1 g2
      have hs' : s.1.1 ≠ none ∧ s.2.1 ≠ none := by
        obtain ⟨x, y, n, hx, hy, _⟩ := hm
        rw [hx, hy]
        simp
      obtain ⟨a, b, hab, rfl⟩ := (hl s).1 ⟨hs, hs'⟩
      exact ⟨a, b, hab, hmoved a b t hab hm⟩
    · obtain ⟨g1, g2, g3⟩ := (hl (pt a, pt b)).2 ⟨a, b, hab, rfl⟩
      obtain ⟨t, ht, hm⟩ := h2 _ g1 g2 g3
      exact ⟨t, ht, hmoved a b t hab hm⟩
    · obtain ⟨w1, w2, n, hn⟩ := wrap_spec r a.1
      refine ⟨n, ?_, by rw [← hn]; exact ⟨w1, w2⟩⟩
      have := hsub.subset (List.mem_map.2 ⟨pt a, ha, rfl⟩)
      rw [← hn]
      exact this

/-- **C191** (tracks): when consecutive observations of a track are at most 180 degrees apart as numbers, the path of each track is drawn step
by step, in the map asked, and nothing is drawn between two tracks. Missing: tracks whose longitudes jump by a turn (`paths_wrong`). -/
theorem tracks_paths_partial (ref : Option Rat) (rows : List ((Rat × Rat) × Int)) (hshort : ∀ a b, Step rows a b → |b.1 - a.1| ≤ 180) :
    ∃ out, plotTracks ref rows = some out ∧ Shown (Step rows) out ∧ ∀ r ∈ rows, PointShown ref r.1 out := by
  cases rows with
  | nil =>
    refine ⟨[], rfl, ⟨fun t ht => by simp [pairs] at ht, fun a b h => ?_⟩, fun r hr => by simp at hr⟩
    obtain ⟨k, g, h, _⟩ := h
    simp at h
  | cons x l =>
    obtain ⟨m, hm⟩ := sep_head x l
    obtain ⟨out, e, h1, h2⟩ := cut_shown ref (l := sepList (x :: l)) (by rw [hm]; simp) hshort (fun t => by
      rw [sep_pairs]
      constructor
      · rintro ⟨s, hs, h4, rfl⟩
        obtain ⟨k, g1, g2⟩ := mem_pairs.1 hs
        exact ⟨s.1.1, s.2.1, ⟨k, s.1.2, g1, by rw [g2, h4]⟩, rfl⟩
      · rintro ⟨a, b, ⟨k, g, g1, g2⟩, rfl⟩
        exact ⟨((a, g), (b, g)), mem_pairs.2 ⟨k, g1, g2⟩, rfl, rfl⟩)
    refine ⟨out, ?_, h1, fun r hr => h2 r.1 (sep_mem _ r hr)⟩
    show (splitLine (none, none) ((x :: l).map (fun r => (pt r.1, r.2)))).bind (cutAt ref) = some out
    rw [split_sep]
    exact e

/-- **C191** is false as stated: a track which goes from 359 to 1 is drawn through the whole map, also on a map which is not cut there. -/
theorem paths_wrong : ¬ PathsDrawn := by
  intro hall
  obtain ⟨out, e, ⟨h, _⟩, _⟩ := hall (some 180) [((359, 10), 0), ((1, 11), 0)]
  have e' : plotTracks (some 180) [((359, 10), 0), ((1, 11), 0)] =
      some [(some 359, some 10), (some 1, some 11), (none, none), (some 719, some 10), (some 361, some 11)] := by decide +kernel
  rw [e', Option.some.injEq] at e
  subst e
  obtain ⟨a, b, _, n, m, ht, hd⟩ := h ((some 359, some 10), (some 1, some 11)) (by simp [pairs]) (by simp) (by simp)
  simp only [pt, Prod.mk.injEq, Option.some.injEq] at ht
  rw [← ht.1.1, ← ht.2.1] at hd
  norm_num [abs_le] at hd

/-- Without `ref` too. -/
theorem paths_wrong_unwrapped : ∃ rows out, plotTracks none rows = some out ∧ ¬ Shown (Step rows) out := by
  refine ⟨[((359, 10), 0), ((1, 11), 0)], [(some 359, some 10), (some 1, some 11)], by decide +kernel, ?_⟩
  rintro ⟨h, _⟩
  obtain ⟨a, b, _, n, m, ht, hd⟩ := h ((some 359, some 10), (some 1, some 11)) (by simp [pairs]) (by simp) (by simp)
  simp only [pt, Prod.mk.injEq, Option.some.injEq] at ht
  rw [← ht.1.1, ← ht.2.1] at hd
  norm_num [abs_le] at hd

/-- Two tracks, the first one across the bound of the map. -/
example : plotTracks (some 0) [((359, 1), 3), ((361, 2), 3), ((10, 5), 4)] =
    some [(some 359, some 1), (some 361, some 2), (none, none), (some (-1), some 1), (some 1, some 2), (none, none), (some 10, some 5)] := by
  decide +kernel

/-! ### Networks -/

theorem members_cons (v w : Nat) (p : Rat × Rat) (sta : List Nat) (pos : List (Rat × Rat)) :
    members (w :: sta) (p :: pos) v = if w = v then p :: members sta pos v else members sta pos v := by
  unfold members
  rw [List.zip_cons_cons, List.filter_cons]
  by_cases h : w = v <;> simp [h]

theorem members_nil_of {v : Nat} {sta : List Nat} (h : ∀ w ∈ sta, v < w) (pos : List (Rat × Rat)) : members sta pos v = [] := by
  unfold members
  rw [List.map_eq_nil_iff, List.filter_eq_nil_iff]
  rintro ⟨w, p⟩ hm
  have := h w (List.of_mem_zip hm).1
  simp
  omega

theorem members_pairs (v : Nat) : ∀ (sta : List Nat) (pos : List (Rat × Rat)), pos.length = sta.length → sta.Pairwise (· ≤ ·) →
    ∀ a b, (a, b) ∈ pairs (members sta pos v) ↔ SegStep sta pos v a b
  | [], [], _, _, a, b => by simp [members, pairs, SegStep]
  | [w], [p], _, _, a, b => by
    by_cases h : w = v <;> simp [members, pairs, SegStep, h]
  | w :: w' :: sta, p :: p' :: pos, hlen, hs, a, b => by
    have hs' := List.pairwise_cons.1 hs
    have ih := members_pairs v (w' :: sta) (p' :: pos) (by simpa using hlen) hs'.2 a b
    have hsucc : SegStep (w :: w' :: sta) (p :: p' :: pos) v a b ↔ (w = v ∧ w' = v ∧ p = a ∧ p' = b) ∨ SegStep (w' :: sta) (p' :: pos) v a b := by
      constructor
      · rintro ⟨k, h1, h2, h3, h4⟩
        cases k with
        | zero => exact Or.inl ⟨by simpa using h1, by simpa using h2, by simpa using h3, by simpa using h4⟩
        | succ k => exact Or.inr ⟨k, by simpa using h1, by simpa using h2, by simpa using h3, by simpa using h4⟩
      · rintro (⟨h1, h2, h3, h4⟩ | ⟨k, h1, h2, h3, h4⟩)
        · exact ⟨0, by simp [h1], by simp [h2], by simp [h3], by simp [h4]⟩
        · exact ⟨k + 1, by simpa using h1, by simpa using h2, by simpa using h3, by simpa using h4⟩
    rw [hsucc, members_cons]
    by_cases hw : w = v
    · rw [if_pos hw]
      by_cases hw' : w' = v
      · rw [members_cons, if_pos hw'] at ih ⊢
        rw [pairs_cons, List.mem_cons, ih]
        constructor
        · rintro (h | h)
          · cases h
            exact Or.inl ⟨hw, hw', rfl, rfl⟩
          · exact Or.inr h
        · rintro (⟨_, _, rfl, rfl⟩ | h)
          · exact Or.inl rfl
          · exact Or.inr h
      · have hnil : members (w' :: sta) (p' :: pos) v = [] := by
          apply members_nil_of
          intro u hu
          have h1 := hs'.1 w' (by simp)
          have h2 : w' ≤ u := by
            rcases List.mem_cons.1 hu with rfl | hu
            · exact le_refl _
            · exact (List.pairwise_cons.1 hs'.2).1 u hu
          omega
        rw [hnil] at ih ⊢
        rw [← ih]
        simp [pairs, hw']
    · rw [if_neg hw, ih]
      simp [hw]

theorem pairs_map {α β : Type} (f : α → β) : ∀ l : List α, pairs (l.map f) = (pairs l).map (fun s => (f s.1, f s.2))
  | [] => rfl
  | [_] => rfl
  | a :: b :: l => by
    have := pairs_map f (b :: l)
    simp only [List.map_cons, pairs_cons] at this ⊢
    rw [this]

/-- **C191** (networks): one line for each segment, in order, with the colours in turn; each line shows the steps of its segment only, when
these are at most 180 degrees apart as numbers. -/
theorem network_paths_partial {C : Type} (argsort : List Int → List Nat) (ref : Option Rat) (cycle : List C) {obs : List Segments.Obs}
    {pos : List (Rat × Rat)} (hne : obs ≠ []) (hlen : pos.length = obs.length) :
    ∃ sta, IsNumbering obs sta ∧ ((∀ j a b, SegStep sta pos j a b → |b.1 - a.1| ≤ 180) →
      ∃ lines, plotNetwork argsort ref cycle obs pos = some lines ∧ (∀ j : Nat, j < lines.length ↔ j ∈ sta) ∧
        ∀ (j : Nat) (line : List VPt × Option C), lines[j]? = some line → line.2 = cycle[j % cycle.length]? ∧ Shown (SegStep sta pos j) line.1 ∧
          ∀ (k : Nat) (a : Rat × Rat), sta[k]? = some j → pos[k]? = some a → PointShown ref a line.1) := by
  obtain ⟨sta, e, hn⟩ := Segments.segTrackArray_spec obs hne
  refine ⟨sta, hn, fun hshort => ?_⟩
  have hs : sta.Pairwise (· ≤ ·) := by
    have := hn.sorted
    rw [List.pairwise_map] at this
    exact this.imp (fun h => by exact_mod_cast h)
  have hsne : sta ≠ [] := by
    intro h
    have := hn.len
    rw [h] at this
    exact hne (List.length_eq_zero_iff.1 this.symm)
  obtain ⟨gs, eg, hlt, hobs, hall⟩ := Bins.groups_spec argsort hsne hs
  have hfull : gs.filter (fun g => !g.obs.isEmpty) = gs := by
    rw [List.filter_eq_self]
    intro g hg
    obtain ⟨v, hv, _, ho⟩ := hobs g hg
    obtain ⟨k, hk⟩ := List.mem_iff_getElem?.1 hv
    have : k ∈ g.obs := by
      rw [ho]
      unfold positions
      have hkl : k < sta.length := (List.getElem?_eq_some_iff.1 hk).1
      exact List.mem_filter.2 ⟨List.mem_range.2 hkl, by simpa using hk⟩
    cases hgo : g.obs with
    | nil => rw [hgo] at this; simp at this
    | cons _ _ => rfl
  -- the group `j` is the segment `j`
  obtain ⟨N, hN⟩ : ∃ N, ∀ j : Nat, j < N ↔ j ∈ sta := by
    obtain ⟨b, hb⟩ : ∃ b, sta.getLast? = some b := by
      cases h : sta.getLast? with
      | none => exact absurd (List.getLast?_eq_none_iff.1 h) hsne
      | some b => exact ⟨b, rfl⟩
    rw [List.getLast?_eq_getElem?] at hb
    refine ⟨b + 1, fun j => ⟨fun hj => ?_, fun hj => ?_⟩⟩
    · obtain ⟨i, _, hi⟩ := hn.attained _ b j hb (by omega)
      exact List.mem_of_getElem? hi
    · obtain ⟨i, hi⟩ := List.mem_iff_getElem?.1 hj
      have hil := (List.getElem?_eq_some_iff.1 hi).1
      have := hn.mono i (sta.length - 1) j b (by omega) hi hb
      omega
  have hlo : gs.map (·.lo) = (List.range N).map (fun (j : Nat) => (j : Rat)) := by
    have h1 : (gs.map (·.lo)).Pairwise (· < ·) := by rw [List.pairwise_map]; exact hlt
    have h2 : ((List.range N).map (fun (j : Nat) => (j : Rat))).Pairwise (· < ·) := by
      rw [List.pairwise_map]
      exact List.pairwise_lt_range.imp (fun h => by exact_mod_cast h)
    refine List.Perm.eq_of_pairwise (le := (· < ·)) (fun a b _ _ h h' => absurd h' (not_lt.2 h.le)) h1 h2 ?_
    refine (List.perm_ext_iff_of_nodup (h1.imp (fun h => ne_of_lt h)) (h2.imp (fun h => ne_of_lt h))).2 (fun x => ?_)
    constructor
    · intro hx
      obtain ⟨g, hg, rfl⟩ := List.mem_map.1 hx
      obtain ⟨v, hv, hv', _⟩ := hobs g hg
      exact List.mem_map.2 ⟨v, List.mem_range.2 ((hN v).2 hv), hv'.symm⟩
    · intro hx
      obtain ⟨j, hj, rfl⟩ := List.mem_map.1 hx
      obtain ⟨g, hg, hgl⟩ := hall j ((hN j).1 (List.mem_range.1 hj))
      exact List.mem_map.2 ⟨g, hg, hgl⟩
  have hgl : gs.length = N := by
    have := congrArg List.length hlo
    simpa using this
  have hgj : ∀ (j : Nat) g, gs[j]? = some g → g.obs = positions sta j := by
    intro j g hg
    have h1 : (gs.map (·.lo))[j]? = some g.lo := by rw [List.getElem?_map, hg]; rfl
    have hjl : j < N := by rw [← hgl]; exact (List.getElem?_eq_some_iff.1 hg).1
    rw [hlo, List.getElem?_map, List.getElem?_range hjl] at h1
    obtain ⟨v, _, hv', ho⟩ := hobs g (List.mem_of_getElem? hg)
    have h2 : (j : Rat) = (v : Rat) := by rw [← hv']; simpa using h1
    have h3 : j = v := by exact_mod_cast h2
    rw [ho, h3]
  have hline : ∀ (j : Nat) g, gs[j]? = some g → ∃ l, plotLine ref cycle pos (g, j) = some (l, cycleAt cycle j) ∧ Shown (SegStep sta pos j) l ∧
      ∀ (k : Nat) (a : Rat × Rat), sta[k]? = some j → pos[k]? = some a → PointShown ref a l := by
    intro j g hg
    have hpl : pos.length = sta.length := by rw [hlen, hn.len]
    have hp : pick pos g.obs = members sta pos j := by rw [hgj j g hg]; exact Bins.pick_positions sta pos hpl j
    have hjm : j ∈ sta := (hN j).1 (by rw [← hgl]; exact (List.getElem?_eq_some_iff.1 hg).1)
    have hmem : ∀ (k : Nat) (a : Rat × Rat), sta[k]? = some j → pos[k]? = some a → a ∈ members sta pos j := by
      intro k a h1 h2
      unfold members
      refine List.mem_map.2 ⟨(j, a), List.mem_filter.2 ⟨List.mem_of_getElem? (i := k) ?_, by simp⟩, rfl⟩
      exact List.getElem?_zip_eq_some.2 ⟨h1, h2⟩
    have hmne : (members sta pos j).map pt ≠ [] := by
      obtain ⟨k, hk⟩ := List.mem_iff_getElem?.1 hjm
      have hkl : k < pos.length := by rw [hpl]; exact (List.getElem?_eq_some_iff.1 hk).1
      have := hmem k pos[k] hk (List.getElem?_eq_getElem hkl)
      intro h
      rw [List.map_eq_nil_iff] at h
      rw [h] at this
      simp at this
    obtain ⟨out, e1, h1, h2⟩ := cut_shown ref hmne (hshort j) (fun t => by
      rw [pairs_map]
      constructor
      · rintro ⟨ht, _, _⟩
        obtain ⟨s, hs1, rfl⟩ := List.mem_map.1 ht
        exact ⟨s.1, s.2, (members_pairs j sta pos hpl hs s.1 s.2).1 hs1, rfl⟩
      · rintro ⟨a, b, hab, rfl⟩
        exact ⟨List.mem_map.2 ⟨(a, b), (members_pairs j sta pos hpl hs a b).2 hab, rfl⟩, by simp [pt], by simp [pt]⟩)
    refine ⟨out, ?_, h1, fun k a hk ha => h2 a (List.mem_map.2 ⟨a, hmem k a hk ha, rfl⟩)⟩
    unfold plotLine
    simp only
    rw [hp, e1]
    rfl
  have hmap : ∀ (l : List (Bins.Group × Nat)), (∀ x ∈ l, gs[x.2]? = some x.1) → ∃ lines, l.mapM (plotLine ref cycle pos) = some lines ∧
      lines.length = l.length ∧ ∀ (i : Nat) x line, l[i]? = some x → lines[i]? = some line → plotLine ref cycle pos x = some line := by
    intro l
    induction l with
    | nil => intro _; exact ⟨[], rfl, rfl, by simp⟩
    | cons x l ih =>
      intro h
      obtain ⟨lines, e1, e2, e3⟩ := ih (fun y hy => h y (by simp [hy]))
      obtain ⟨out, e4, _⟩ := hline x.2 x.1 (h x (by simp))
      refine ⟨(out, cycleAt cycle x.2) :: lines, ?_, by simp [e2], ?_⟩
      · rw [List.mapM_cons, e1, e4]
        rfl
      · intro i y line hy hl
        cases i with
        | zero =>
          simp at hy hl
          subst hy
          rw [← hl]
          exact e4
        | succ i => exact e3 i y line (by simpa using hy) (by simpa using hl)
  have hzip : ∀ x ∈ gs.zipIdx, gs[x.2]? = some x.1 := fun x hx => List.mem_zipIdx_iff_getElem?.1 hx
  obtain ⟨lines, e1, e2, e3⟩ := hmap gs.zipIdx hzip
  refine ⟨lines, ?_, fun j => ?_, fun j line hj => ?_⟩
  · unfold plotNetwork
    rw [e]
    simp only [Option.bind_eq_bind, Option.bind_some]
    rw [eg]
    simp only [Option.bind_some]
    rw [hfull, e1]
  · rw [e2, List.length_zipIdx, hgl, hN]
  · have hjl : j < gs.length := by
      have := (List.getElem?_eq_some_iff.1 hj).1
      rwa [e2, List.length_zipIdx] at this
    have hgs : gs[j]? = some gs[j] := List.getElem?_eq_getElem hjl
    have hz : gs.zipIdx[j]? = some (gs[j], j) := by simp [List.getElem?_zipIdx, hgs]
    have h4 := e3 j _ _ hz hj
    obtain ⟨l, h5, h6, h7⟩ := hline j _ hgs
    rw [h5, Option.some.injEq] at h4
    rw [← h4]
    exact ⟨rfl, h6, h7⟩

/-- Two segments with one colour each. -/
example : plotNetwork Bins.stableArgsort none [7, 8] [⟨1, 0, -1, -1⟩, ⟨1, 0, -1, -1⟩, ⟨1, 1, -1, -1⟩] [((5 : Rat), (0 : Rat)), (6, 0), (9, 1)] =
    some [([(some 5, some 0), (some 6, some 0)], some 7), ([(some 9, some 1)], some 8)] := by decide +kernel

end Verif.Lines
