import Verif.Events.Numbering
import Verif.Links.Props

/-!
# C207: numbers and orders of networks given again

`numbering_segment`, `numbering_network` and `sort` (src/py_eddy_tracker/observations/network.py:409-427, 712-723, 2228-2236) applied after each other, on
the models of C71 and C17.
-/

namespace Verif.Events

open Verif.Segments

/-- The renumbering of groups is unique. -/
theorem Renumbers.unique {start : Nat} {l out out' : List Nat} (h : Renumbers start l out) (h' : Renumbers start l out') : out = out' := by
  have key : ∀ n i : Nat, out[i]? = some n → out'[i]? = some n := by
    intro n
    induction n using Nat.strong_induction_on with
    | _ n ih =>
      intro i hi
      have hil : i < l.length := by rw [← h.len]; exact (List.getElem?_eq_some_iff.1 hi).1
      have hl := List.getElem?_eq_getElem hil
      have hy := List.getElem?_eq_getElem (show i < out'.length by rw [h'.len]; exact hil)
      generalize out'[i]'(by rw [h'.len]; exact hil) = y at hy
      rw [hy]
      rcases Nat.lt_trichotomy y n with c | c | c
      · obtain ⟨j, hj⟩ := List.getElem?_of_mem ((h.gapless n (List.mem_of_getElem? hi)).2 y (h'.gapless y (List.mem_of_getElem? hy)).1 (by omega))
        have hjl := List.getElem?_eq_getElem (show j < l.length by rw [← h.len]; exact (List.getElem?_eq_some_iff.1 hj).1)
        have e := (h'.same hl hjl hy (ih y c j hj)).1 rfl
        have := (h.same hl hjl hi hj).2 e
        omega
      · rw [c]
      · obtain ⟨j, hj⟩ := List.getElem?_of_mem ((h'.gapless y (List.mem_of_getElem? hy)).2 n (h.gapless n (List.mem_of_getElem? hi)).1 (by omega))
        have hjl' : j < l.length := by rw [← h'.len]; exact (List.getElem?_eq_some_iff.1 hj).1
        have hjl := List.getElem?_eq_getElem hjl'
        have hz := List.getElem?_eq_getElem (show j < out.length by rw [h.len]; exact hjl')
        have c1 := (h'.order j i _ _ _ _ hjl hl hj hy).1 c
        have c2 := (h.order j i _ _ _ _ hjl hl hz hi).2 c1
        have := ih _ c2 j hz
        rw [hj] at this
        have := Option.some.inj this
        omega
  apply List.ext_getElem?
  intro i
  by_cases hi : i < out.length
  · rw [key _ i (List.getElem?_eq_getElem hi), List.getElem?_eq_getElem hi]
  · rw [List.getElem?_eq_none (by omega), List.getElem?_eq_none (by rw [h'.len, ← h.len]; omega)]

/-- Two renumberings one after the other. -/
theorem Renumbers.trans {s s' : Nat} {l m n : List Nat} (h : Renumbers s l m) (h' : Renumbers s' m n) : Renumbers s' l n := by
  refine ⟨h'.len.trans h.len, fun i j a b x y ha hb hx hy => ?_, h'.gapless⟩
  have hi : i < m.length := by rw [← h'.len]; exact (List.getElem?_eq_some_iff.1 hx).1
  have hj : j < m.length := by rw [← h'.len]; exact (List.getElem?_eq_some_iff.1 hy).1
  rw [h'.order i j _ _ x y (List.getElem?_eq_getElem hi) (List.getElem?_eq_getElem hj) hx hy]
  exact h.order i j a b _ _ ha hb (List.getElem?_eq_getElem hi) (List.getElem?_eq_getElem hj)

theorem Renumbers.sorted {s : Nat} {l m : List Nat} (h : Renumbers s l m) (hs : l.Pairwise (· ≤ ·)) : m.Pairwise (· ≤ ·) := by
  rw [List.pairwise_iff_getElem] at hs ⊢
  intro i j hi hj hij
  have hi' : i < l.length := by rw [← h.len]; exact hi
  have hj' : j < l.length := by rw [← h.len]; exact hj
  have h1 := hs i j hi' hj' hij
  have h2 := h.order j i _ _ _ _ (List.getElem?_eq_getElem hj') (List.getElem?_eq_getElem hi') (List.getElem?_eq_getElem hj) (List.getElem?_eq_getElem hi)
  omega

/-- **C207** (networks): numbers given twice are the numbers given by the last call alone; the same numbers do not change. -/
theorem new_numbering_again (s s' : Nat) {l : List Nat} (hne : l ≠ []) (hs : l.Pairwise (· ≤ ·)) :
    ∃ m, newNumbering s l = some m ∧ newNumbering s' m = newNumbering s' l ∧ newNumbering s m = some m := by
  obtain ⟨m, e, h⟩ := new_numbering_spec s l hne hs
  have hm : m ≠ [] := fun hm => hne (List.eq_nil_of_length_eq_zero (by rw [← h.len, hm]; rfl))
  have key : ∀ s', newNumbering s' m = newNumbering s' l := by
    intro s'
    obtain ⟨n, e1, h1⟩ := new_numbering_spec s' m hm (h.sorted hs)
    obtain ⟨n', e2, h2⟩ := new_numbering_spec s' l hne hs
    rw [e1, e2, (h.trans h1).unique h2]
  exact ⟨m, e, key s', (key s).trans e⟩

/-- The observations with other numbers of segments. -/
def setSegments (obs : List Obs) (segs : List Nat) : List Obs := List.zipWith (fun o s => { o with seg := s }) obs segs

theorem by_track {obs : List Obs} : ∀ {a b : List Nat}, a.length = obs.length → b.length = obs.length →
    (∀ t, ((obs.zip a).filter (fun p => decide (p.1.track = t))).map (·.2) = ((obs.zip b).filter (fun p => decide (p.1.track = t))).map (·.2)) → a = b := by
  induction obs with
  | nil =>
    intro a b ha hb _
    rw [List.eq_nil_of_length_eq_zero ha, List.eq_nil_of_length_eq_zero hb]
  | cons o obs ih =>
    intro a b ha hb h
    match a, b, ha, hb with
    | x :: a, y :: b, ha, hb =>
      have h0 := h o.track
      simp only [List.zip_cons_cons, List.filter_cons, decide_true, if_true, List.map_cons, List.cons.injEq] at h0
      refine congrArg₂ List.cons h0.1 (ih (by simpa using ha) (by simpa using hb) fun t => ?_)
      by_cases e : o.track = t
      · rw [← e]; exact h0.2
      · have := h t
        simpa only [List.zip_cons_cons, List.filter_cons, e, decide_false, Bool.false_eq_true, if_false] using this

theorem setSegments_filter (t : Nat) : ∀ (obs : List Obs) (segs : List Nat), segs.length = obs.length →
    ((setSegments obs segs).filter (fun o => decide (o.track = t))).map (·.seg) =
      ((obs.zip segs).filter (fun p => decide (p.1.track = t))).map (·.2)
  | [], _, _ => by simp [setSegments]
  | o :: obs, s :: segs, h => by
    have ih := setSegments_filter t obs segs (by simpa using h)
    unfold setSegments at ih ⊢
    simp only [List.zipWith_cons_cons, List.zip_cons_cons, List.filter_cons]
    by_cases e : o.track = t
    · simp only [e, decide_true, if_true, List.map_cons, ih]
    · simp only [e, decide_false, Bool.false_eq_true, if_false, ih]

theorem setSegments_track : ∀ (obs : List Obs) (segs : List Nat), segs.length = obs.length → (setSegments obs segs).map (·.track) = obs.map (·.track)
  | [], _, _ => by simp [setSegments]
  | o :: obs, s :: segs, h => by
    have ih := setSegments_track obs segs (by simpa using h)
    unfold setSegments at ih ⊢
    simp only [List.zipWith_cons_cons, List.map_cons, ih]

theorem zip_filter_track (t : Nat) : ∀ (obs : List Obs) (segs out : List Nat), segs.length = obs.length →
    (((setSegments obs segs).zip out).filter (fun p => decide (p.1.track = t))).map (·.2) =
      ((obs.zip out).filter (fun p => decide (p.1.track = t))).map (·.2)
  | [], _, _, _ => by simp [setSegments]
  | _ :: _, _ :: _, [], _ => by simp
  | o :: obs, s :: segs, x :: out, h => by
    have ih := zip_filter_track t obs segs out (by simpa using h)
    unfold setSegments at ih ⊢
    simp only [List.zipWith_cons_cons, List.zip_cons_cons, List.filter_cons]
    by_cases e : o.track = t
    · simp only [e, decide_true, if_true, List.map_cons, ih]
    · simp only [e, decide_false, Bool.false_eq_true, if_false, ih]

/-- **C207** (segments): numbers of segments given twice are the numbers given by the last call alone; the same numbers do not change. -/
theorem numbering_segment_again (s s' : Nat) (obs : List Obs) (hs : (obs.map (·.track)).Pairwise (· ≤ ·))
    (hseg : ∀ t, ((obs.filter (fun o => decide (o.track = t))).map (·.seg)).Pairwise (· ≤ ·)) :
    numberingSegment s' (setSegments obs (numberingSegment s obs)) = numberingSegment s' obs ∧
      numberingSegment s (setSegments obs (numberingSegment s obs)) = numberingSegment s obs := by
  obtain ⟨l1, h1⟩ := numbering_segment_spec s obs hs hseg
  have key : ∀ s', numberingSegment s' (setSegments obs (numberingSegment s obs)) = numberingSegment s' obs := by
    intro s'
    have hlen : (setSegments obs (numberingSegment s obs)).length = obs.length := by
      unfold setSegments
      rw [List.length_zipWith, l1, Nat.min_self]
    obtain ⟨l2, h2⟩ := numbering_segment_spec s' (setSegments obs (numberingSegment s obs)) (by rw [setSegments_track _ _ l1]; exact hs)
      (fun t => by rw [setSegments_filter t _ _ l1]; exact (h1 t).sorted (hseg t))
    obtain ⟨l3, h3⟩ := numbering_segment_spec s' obs hs hseg
    refine by_track (l2.trans hlen) l3 fun t => ?_
    have a := h2 t
    rw [setSegments_filter t _ _ l1, zip_filter_track t _ _ _ l1] at a
    exact ((h1 t).trans a).unique (h3 t)
  exact ⟨key s', key s⟩

/-- Two networks; the numbers are given from 5, then from 1. -/
example : numberingSegment 5 [⟨0, 3, -1, 1⟩, ⟨0, 8, 0, -1⟩, ⟨2, 4, -1, -1⟩] = [5, 6, 5] ∧
    numberingSegment 1 (setSegments [⟨0, 3, -1, 1⟩, ⟨0, 8, 0, -1⟩, ⟨2, 4, -1, -1⟩] [5, 6, 5]) = [1, 2, 1] := by decide

end Verif.Events

namespace Verif.Links

variable {α : Type}

/-- The rows in order with valid links are left as they are. -/
theorem take_all (rows : List (Row α)) (hv : Valid rows) : take rows (List.range rows.length) = some rows := by
  obtain ⟨out, e, hl, hk⟩ := take_spec rows (List.range rows.length) hv (fun t ht => List.mem_range.1 ht)
  rw [e]
  congr 1
  rw [List.length_range] at hl
  have himg : ∀ p q : Int, -1 ≤ p → p < rows.length → Image (List.range rows.length) p q → q = p := by
    rintro p q h1 h2 (⟨k, t, rfl, hk, rfl⟩ | ⟨rfl, h⟩)
    · have := (List.getElem?_eq_some_iff.1 hk).2
      rw [List.getElem_range] at this
      rw [this]
    · by_contra hn
      exact h p.toNat (List.mem_range.2 (by omega)) (by omega)
  apply List.ext_getElem?
  intro k
  by_cases hlt : k < out.length
  · obtain ⟨i, r0, hi, h0, hd, hp, hn⟩ := hk k _ (List.getElem?_eq_getElem hlt)
    have hik : i = k := by
      have := (List.getElem?_eq_some_iff.1 hi).2
      rw [List.getElem_range] at this
      exact this.symm
    subst hik
    obtain ⟨⟨v1, v2⟩, v3, v4⟩ := hv r0 (List.mem_of_getElem? h0)
    rw [List.getElem?_eq_getElem hlt, h0]
    congr 1
    have ep := himg _ _ v1 v2 hp
    have en := himg _ _ v3 v4 hn
    revert hd ep en
    generalize out[i] = r
    intro hd ep en
    obtain ⟨d, p, n⟩ := r
    obtain ⟨d0, p0, n0⟩ := r0
    simp only at hd ep en
    subst hd ep en
    rfl
  · rw [List.getElem?_eq_none (by omega), List.getElem?_eq_none (by omega)]

/-- **C207** (order): for an order of the fields other than the links, a network sorted twice is the network sorted once. -/
theorem sort_again (key : α → α → Bool) (htot : ∀ a b, key a b = true ∨ key b a = true) (htr : ∀ a b c, key a b = true → key b c = true → key a c = true)
    (rows : List (Row α)) (hv : Valid rows) :
    ∃ out, sort (fun a b => key a.data b.data) rows = some out ∧ sort (fun a b => key a.data b.data) out = some out := by
  obtain ⟨out, idx, e, _, _, hv', _⟩ := sort_links (fun a b => key a.data b.data) rows hv
  refine ⟨out, e, ?_⟩
  have hs := sort_sorted (fun a b : Row α => key a.data b.data) (fun a b => key a b = true) (fun a b h => h) (fun a b => htot _ _)
    (fun a b c => htr _ _ _) rows out hv e
  have ha : argsort (fun a b : Row α => key a.data b.data) out = List.range out.length := by
    unfold argsort
    rw [List.Pairwise.insertionSort_eq, List.zipIdx_map_snd 0 out, ← List.range_eq_range']
    have : (out.zipIdx.map (·.1)).Pairwise (fun a b => key a.data b.data = true) := by
      rw [List.zipIdx_map_fst]
      exact List.pairwise_map.1 hs
    exact List.pairwise_map.1 this
  unfold sort
  rw [ha]
  exact take_all out hv'

/-- Three rows sorted by a number. -/
example : (sort (fun a b => decide (a.data ≤ b.data)) [⟨7, -1, 1⟩, ⟨3, 0, 2⟩, ⟨5, 1, -1⟩]) = some [⟨3, 2, 1⟩, ⟨5, 0, -1⟩, ⟨(7 : Nat), -1, 0⟩] ∧
    (sort (fun a b => decide (a.data ≤ b.data)) [⟨3, 2, 1⟩, ⟨5, 0, -1⟩, ⟨7, -1, 0⟩]) = some [⟨3, 2, 1⟩, ⟨5, 0, -1⟩, ⟨(7 : Nat), -1, 0⟩] := by decide

end Verif.Links
