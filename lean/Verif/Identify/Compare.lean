import Verif.Identify.Props
import Mathlib.Data.Finset.Card
import Mathlib.Data.Fintype.Card
import Mathlib.Algebra.BigOperators.Group.List.Basic

/-!
C172: `EddyNetworkQuickCompare` counts the networks which are in both files.

Model of the first two statistics of `run_compare` (`/repo/src/py_eddy_tracker/appli/network.py:213-226`) on the model of `identify_in`
(C54): a dataset is the list of its networks, a network the list of the positions of its observations.
-/

namespace Verif.Identify

open Verif.Bins

/-! ### Model -/

/-- `same N(N)`, line 225: `m.sum()`. -/
def sameNetworks (R : List (Nat × Int)) : Nat := (R.filter (fun p => decide (p.2 ≠ -1))).length

/-- `same N(Obs)`, line 226: `ref.network_size(ref_id).sum()`. -/
def sameObs (ours : List (List Pos)) (R : List (Nat × Int)) : Nat :=
  ((R.filter (fun p => decide (p.2 ≠ -1))).map (fun p => (ours.getD p.1 []).length)).sum

/-- `ref.identify_in(other, size_min=2)` and the two statistics, lines 222-226. -/
def runCompare (argsort : List Int → List Nat) (order : List Pos → List Nat) (ours other : List (List Pos)) : Option (Nat × Nat) :=
  (identifyIn argsort order ours other 2).map (fun R => (sameNetworks R, sameObs ours R))

/-! ### Specification -/

/-- Each network of the first dataset is in the second one, as many times. -/
def Holds (other ours : List (List Pos)) : Prop :=
  ∃ e : Nat → Nat, (∀ (i : Nat) a, ours[i]? = some a → ∃ b, other[e i]? = some b ∧ a.Perm b) ∧
    ∀ i j, i < ours.length → j < ours.length → e i = e j → i = j

/-! ### Proof -/

theorem fst_inj {R : List (Nat × Int)} (h : (R.map Prod.fst).Nodup) {i : Nat} {t t' : Int} (h1 : (i, t) ∈ R) (h2 : (i, t') ∈ R) : t = t' := by
  have := List.inj_on_of_nodup_map h h1 h2 rfl
  exact congrArg Prod.snd this

theorem sum_sublist {l m : List Nat} (h : l.Sublist m) : l.sum ≤ m.sum := by
  induction h with
  | slnil => exact le_refl _
  | cons a _ ih => rw [List.sum_cons]; omega
  | cons_cons a _ ih => rw [List.sum_cons, List.sum_cons]; omega

/-- When the other dataset holds ours, all the networks are found. -/
theorem all_found {ours other : List (List Pos)} {keep : List Pos → Prop} {R : List (Nat × Int)} (h : Identified ours other keep R)
    (hh : Holds other ours) : ∀ i t, (i, t) ∈ R → t ≠ -1 := by
  classical
  rintro i t hit rfl
  obtain ⟨e, he, hinj⟩ := hh
  obtain ⟨a, ha, hka⟩ := (h.mem i).1 (List.mem_map.2 ⟨_, hit, rfl⟩)
  -- the networks of ours equal to this one
  let I : Finset Nat := (Finset.range ours.length).filter (fun j => ∃ b, ours[j]? = some b ∧ a.Perm b)
  have hI : ∀ j, j ∈ I ↔ ∃ b, ours[j]? = some b ∧ a.Perm b := by
    intro j
    simp only [I, Finset.mem_filter, Finset.mem_range]
    constructor
    · exact fun h => h.2
    · rintro ⟨b, hb, hp⟩
      exact ⟨(List.getElem?_eq_some_iff.1 hb).1, b, hb, hp⟩
  have hφ : ∀ j ∈ I, ∃ i', (i', ((e j : Nat) : Int)) ∈ R := by
    intro j hj
    obtain ⟨b, hb, hp⟩ := (hI j).1 hj
    obtain ⟨c, hc, hp'⟩ := he j b hb
    exact h.max i hit (e j) a c ha hc (hp.trans hp')
  choose! φ hφR using hφ
  have hmaps : ∀ j ∈ I, φ j ∈ I.erase i := by
    intro j hj
    have hR := hφR j hj
    obtain ⟨k, b, c, e1, hb, hc, hbc⟩ := h.sound (φ j) _ hR (by omega)
    have hk : k = e j := by omega
    subst hk
    obtain ⟨b', hb', hp⟩ := (hI j).1 hj
    obtain ⟨c', hc', hp'⟩ := he j b' hb'
    rw [hc] at hc'
    cases hc'
    rw [Finset.mem_erase]
    refine ⟨?_, (hI _).2 ⟨b, hb, (hp.trans hp').trans hbc.symm⟩⟩
    intro e2
    rw [e2] at hR
    have := fst_inj h.nodup hR hit
    omega
  have hinjφ : ∀ j ∈ I, ∀ j' ∈ I, φ j = φ j' → j = j' := by
    intro j hj j' hj' e1
    have h1 := hφR j hj
    have h2 := hφR j' hj'
    rw [e1] at h1
    have := fst_inj h.nodup h1 h2
    apply hinj j j' _ _ (by omega)
    · obtain ⟨b, hb, _⟩ := (hI j).1 hj
      exact (List.getElem?_eq_some_iff.1 hb).1
    · obtain ⟨b, hb, _⟩ := (hI j').1 hj'
      exact (List.getElem?_eq_some_iff.1 hb).1
  have hle := Finset.card_le_card_of_injOn φ hmaps hinjφ
  have hmem : i ∈ I := (hI i).2 ⟨a, ha, List.Perm.refl a⟩
  rw [Finset.card_erase_of_mem hmem] at hle
  have := Finset.card_pos.2 ⟨i, hmem⟩
  omega

theorem map_range_getD (ours : List (List Pos)) (p : List Pos → Bool) :
    ((List.range ours.length).filter (fun i => p (ours.getD i []))).map (fun i => ours.getD i []) = ours.filter p := by
  have e : (List.range ours.length).map (fun i => ours.getD i []) = ours := by
    apply List.ext_getElem?
    intro i
    rw [List.getElem?_map]
    by_cases hi : i < ours.length
    · simp [List.getD, hi]
    · rw [List.getElem?_eq_none (by simpa using hi), List.getElem?_eq_none (by simpa using hi)]
      rfl
  conv_rhs => rw [← e]
  rw [List.filter_map]
  rfl

/-- C172 (partial). When the other file holds each network of the reference, the comparison finds all the networks of two observations
or more, and all their observations; in particular the comparison of a file with itself, or with the same networks in another order.
Missing: the networks of one observation are never compared, see `alone_wrong`; the sizes must decrease somewhere (C54). -/
theorem run_compare_partial {argsort : List Int → List Nat} {order : List Pos → List Nat} (harg : ∀ i, IsArgsort i (argsort i))
    (ho : IsOrder order) {ours other : List (List Pos)} (hd : decreases false (sizes ours) = true) (hone : ∃ a ∈ ours, 2 ≤ a.length)
    (hh : Holds other ours) :
    runCompare argsort order ours other = some ((ours.filter (fun a => decide (2 ≤ a.length))).length,
      ((ours.filter (fun a => decide (2 ≤ a.length))).map List.length).sum) := by
  obtain ⟨e, he, hinj⟩ := id hh
  have hex : ∀ a ∈ ours, ∃ b ∈ other, a.length ≤ b.length := by
    intro a ha
    obtain ⟨i, hi⟩ := List.mem_iff_getElem?.1 ha
    obtain ⟨b, hb, hp⟩ := he i a hi
    exact ⟨b, List.mem_of_getElem? hb, hp.length_eq.le⟩
  obtain ⟨a0, ha0, hl0⟩ := hone
  have hother : other ≠ [] := by
    obtain ⟨b, hb, _⟩ := hex a0 ha0
    rintro rfl
    cases hb
  obtain ⟨R, hR, hid⟩ := identify_in_partial harg ho hother hd (sizeMin := 2) (by omega) ⟨a0, ha0, hl0, hex a0 ha0⟩
  have hfound := all_found hid hh
  have hfil : R.filter (fun p => decide (p.2 ≠ -1)) = R := by
    rw [List.filter_eq_self]
    rintro ⟨i, t⟩ hit
    simpa using hfound i t hit
  have hperm : (R.map Prod.fst).Perm ((List.range ours.length).filter (fun i => decide (2 ≤ (ours.getD i []).length))) := by
    rw [List.perm_ext_iff_of_nodup hid.nodup (List.nodup_range.filter _)]
    intro i
    rw [hid.mem, List.mem_filter, List.mem_range, decide_eq_true_eq]
    constructor
    · rintro ⟨a, ha, h2, _⟩
      have hlt := (List.getElem?_eq_some_iff.1 ha).1
      refine ⟨hlt, ?_⟩
      rw [List.getD, ha]
      exact h2
    · rintro ⟨hlt, h2⟩
      have ha := List.getElem?_eq_getElem hlt
      rw [List.getD, ha] at h2
      exact ⟨_, ha, h2, hex _ (List.getElem_mem hlt)⟩
  have hmap := map_range_getD ours (fun a => decide (2 ≤ a.length))
  unfold runCompare sameNetworks sameObs
  have hR' : identifyIn argsort order ours other 2 = some R := hR
  rw [hR', Option.map_some, hfil]
  congr 2
  · rw [← hmap, List.length_map, ← hperm.length_eq, List.length_map]
  · rw [← hmap, List.map_map]
    have := (hperm.map (fun i => (ours.getD i []).length)).sum_eq
    rw [List.map_map] at this
    exact this

/-- A file holds itself, and the same networks in another order. -/
theorem holds_self (ours : List (List Pos)) : Holds ours ours :=
  ⟨id, fun _ a ha => ⟨a, ha, List.Perm.refl a⟩, fun _ _ _ _ h => h⟩

/-- C172. The statistics never exceed the reference, whatever the other file: each network found is counted once. -/
theorem run_compare_le {argsort : List Int → List Nat} {order : List Pos → List Nat} (harg : ∀ i, IsArgsort i (argsort i))
    (ho : IsOrder order) {ours other : List (List Pos)} (hother : other ≠ []) (hd : decreases false (sizes ours) = true)
    (hone : ∃ a ∈ ours, 2 ≤ a.length ∧ ∃ b ∈ other, a.length ≤ b.length) :
    ∃ n m, runCompare argsort order ours other = some (n, m) ∧ n ≤ ours.length ∧ m ≤ (ours.map List.length).sum ∧
      (n = 0 → ∀ a ∈ ours, 2 ≤ a.length → ∀ b ∈ other, ¬ a.Perm b) := by
  obtain ⟨R, hR, hid⟩ := identify_in_partial harg ho hother hd (sizeMin := 2) (by omega) hone
  have hR' : identifyIn argsort order ours other 2 = some R := hR
  have hsub : ((R.filter (fun p => decide (p.2 ≠ -1))).map Prod.fst).Subperm (List.range ours.length) := by
    apply List.Subperm.trans (List.Sublist.subperm (List.filter_sublist.map Prod.fst))
    apply List.subperm_of_subset hid.nodup
    intro i hi
    obtain ⟨a, ha, _⟩ := (hid.mem i).1 hi
    exact List.mem_range.2 (List.getElem?_eq_some_iff.1 ha).1
  refine ⟨_, _, by unfold runCompare; rw [hR', Option.map_some], ?_, ?_, ?_⟩
  · have := hsub.length_le
    simpa [sameNetworks] using this
  · have hall := map_range_getD ours (fun _ => true)
    rw [List.filter_eq_self.2 (by simp), List.filter_eq_self.2 (by simp)] at hall
    conv_rhs => rw [← hall, List.map_map]
    unfold sameObs
    obtain ⟨l, hl, hs⟩ := hsub
    have h1 := (hl.map (fun i => (ours.getD i []).length)).sum_eq
    have h2 : (l.map (fun i => (ours.getD i []).length)).sum ≤ ((List.range ours.length).map (fun i => (ours.getD i []).length)).sum :=
      sum_sublist (hs.map _)
    rw [List.map_map] at h1
    exact h1 ▸ h2
  · intro h0 a ha h2 b hb hp
    unfold sameNetworks at h0
    rw [List.length_eq_zero_iff, List.filter_eq_nil_iff] at h0
    obtain ⟨i, hi⟩ := List.mem_iff_getElem?.1 ha
    obtain ⟨k, hk⟩ := List.mem_iff_getElem?.1 hb
    obtain ⟨⟨i', t⟩, hit, rfl⟩ := List.mem_map.1 ((hid.mem i).2 ⟨a, hi, h2, b, hb, hp.length_eq.le⟩)
    have ht : t = -1 := by simpa using h0 _ hit
    subst ht
    obtain ⟨i2, hi2⟩ := hid.max i' hit k a b hi hk hp
    have := h0 _ hi2
    simp at this

private def pos (t x y : Rat) : Pos := toLex (t, toLex (x, y))

/-- C172, full statement refuted: the comparison of a file with itself does not find the networks of one observation, though
`display_compare` divides by the number of all the networks. -/
theorem alone_wrong :
    runCompare (fun i => stableArgsort i) sortPos [[pos 0 1 1, pos 1 1 1], [pos 0 2 2]] [[pos 0 1 1, pos 1 1 1], [pos 0 2 2]] =
      some (1, 2) := by
  decide +kernel

/-- C172, full statement refuted: the comparison of a file of networks of one observation with itself raises. -/
theorem all_alone_raises :
    runCompare (fun i => stableArgsort i) sortPos [[pos 0 1 1], [pos 0 2 2]] [[pos 0 1 1], [pos 0 2 2]] = none := by
  decide +kernel

/-- The hypotheses of `run_compare_partial` are met: the same networks, in another order, beside another one. -/
example : Holds [[pos 0 4 4, pos 1 4 4], [pos 0 2 2, pos 1 2 2], [pos 1 1 1, pos 0 1 1, pos 2 1 1]]
    [[pos 0 1 1, pos 1 1 1, pos 2 1 1], [pos 0 2 2, pos 1 2 2]] := by
  refine ⟨fun i => 2 - i, ?_, ?_⟩
  · intro i a h
    match i, h with
    | 0, h => cases h; exact ⟨_, rfl, by decide +kernel⟩
    | 1, h => cases h; exact ⟨_, rfl, by decide +kernel⟩
  · intro i j hi hj h
    simp at hi hj
    have h : 2 - i = 2 - j := h
    omega

example : decreases false (sizes [[pos 0 1 1, pos 1 1 1, pos 2 1 1], [pos 0 2 2, pos 1 2 2]]) = true := by decide +kernel

example : runCompare (fun i => stableArgsort i) sortPos [[pos 0 1 1, pos 1 1 1, pos 2 1 1], [pos 0 2 2, pos 1 2 2]]
    [[pos 0 4 4, pos 1 4 4], [pos 0 2 2, pos 1 2 2], [pos 1 1 1, pos 0 1 1, pos 2 1 1]] = some (2, 5) := by
  decide +kernel

/-- Only one network of the reference is in the other file. -/
example : runCompare (fun i => stableArgsort i) sortPos [[pos 0 1 1, pos 1 1 1, pos 2 1 1], [pos 0 2 2, pos 1 2 2]]
    [[pos 0 4 4, pos 1 4 4], [pos 0 2 2, pos 1 2 2], [pos 0 1 1, pos 1 1 1, pos 3 1 1]] = some (1, 2) := by
  decide +kernel

end Verif.Identify
