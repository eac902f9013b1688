import Verif.App.Model
import Verif.Tracking.SelectProps
import Mathlib.Tactic.Ring

/-!
# C124, C125: the list of files and the files written by EddyTracking
-/

namespace Verif.App

open Verif.Tracking

/-! ### C124: `browse_dataset_in` -/

section Browse

set_option linter.unusedSectionVars false

variable {ν : Type} [LinearOrder ν]

instance : Std.Total (before (ν := ν)) := ⟨by
  intro a b
  unfold before
  rcases lt_trichotomy a.1 b.1 with h | h | h
  · exact Or.inl (Or.inl h)
  · rcases le_total a.2 b.2 with h' | h'
    · exact Or.inl (Or.inr ⟨h, h'⟩)
    · exact Or.inr (Or.inr ⟨h.symm, h'⟩)
  · exact Or.inr (Or.inl h)⟩

instance : IsTrans (Item ν) before := ⟨by
  intro a b c
  unfold before
  rintro (h | ⟨h, h'⟩) (g | ⟨g, g'⟩)
  · exact Or.inl (by omega)
  · exact Or.inl (by omega)
  · exact Or.inl (by omega)
  · exact Or.inr ⟨by omega, h'.trans g'⟩⟩

/-- The files with their dates, in order, at one constant step. -/
structure Listing (date : ν → Option Int) (names : List ν) (s : List (Item ν)) (step : Int) : Prop where
  files : (s.map Prod.snd).Perm names
  dates : ∀ i ∈ s, date i.2 = some i.1
  sorted : s.Pairwise (fun a b => a.1 < b.1 ∨ (a.1 = b.1 ∧ a.2 ≤ b.2))
  steps : ∀ (k : Nat) (a b : Item ν), s[k]? = some a → s[k + 1]? = some b → b.1 = a.1 + step

/-- The `k`-th date. -/
theorem Listing.date_at {date : ν → Option Int} {names : List ν} {s : List (Item ν)} {step : Int} (h : Listing date names s step) {a : Item ν}
    (h0 : s[0]? = some a) : ∀ (k : Nat) (b : Item ν), s[k]? = some b → b.1 = a.1 + k * step
  | 0, b, hb => by
    rw [h0, Option.some.injEq] at hb
    subst hb
    simp
  | k + 1, b, hb => by
    have hk := (List.getElem?_eq_some_iff.1 hb).1
    have e := List.getElem?_eq_getElem (show k < s.length by omega)
    have h1 := Listing.date_at h h0 k _ e
    have h2 := h.steps k _ _ e hb
    rw [h2, h1]
    push_cast
    ring

theorem gaps_mem {l : List (Item ν)} {x : Int} : x ∈ gaps l ↔ ∃ (k : Nat) (a b : Item ν), l[k]? = some a ∧ l[k + 1]? = some b ∧ x = b.1 - a.1 := by
  unfold gaps
  rw [List.mem_dedup, List.mem_iff_getElem?]
  constructor
  · rintro ⟨k, hk⟩
    rw [List.getElem?_zipWith, List.getElem?_tail] at hk
    rcases h1 : l[k]? with _ | a
    · rw [h1] at hk; simp at hk
    · rcases h2 : l[k + 1]? with _ | b
      · rw [h1, h2] at hk; simp at hk
      · rw [h1, h2] at hk
        exact ⟨k, a, b, h1, h2, by simpa using hk.symm⟩
  · rintro ⟨k, a, b, h1, h2, rfl⟩
    exact ⟨k, by rw [List.getElem?_zipWith, List.getElem?_tail, h1, h2]⟩

theorem gaps_one {l : List (Item ν)} : (gaps l).length ≤ 1 ↔ ∃ step : Int, ∀ (k : Nat) (a b : Item ν), l[k]? = some a → l[k + 1]? = some b → b.1 = a.1 + step := by
  have nd : (gaps l).Nodup := List.nodup_dedup _
  constructor
  · intro h
    rcases hg : gaps l with _ | ⟨x, r⟩
    · refine ⟨0, fun k a b ha hb => ?_⟩
      have : b.1 - a.1 ∈ gaps l := gaps_mem.2 ⟨k, a, b, ha, hb, rfl⟩
      rw [hg] at this
      simp at this
    · refine ⟨x, fun k a b ha hb => ?_⟩
      have : b.1 - a.1 ∈ gaps l := gaps_mem.2 ⟨k, a, b, ha, hb, rfl⟩
      rw [hg] at this h
      have hr : r = [] := by
        rw [List.length_cons] at h
        exact List.length_eq_zero_iff.1 (by omega)
      subst hr
      simp at this
      omega
  · rintro ⟨step, h⟩
    by_contra hc
    rcases hg : gaps l with _ | ⟨x, _ | ⟨y, r⟩⟩
    · rw [hg] at hc; simp at hc
    · rw [hg] at hc; simp at hc
    · have one : ∀ z ∈ gaps l, z = step := by
        intro z hz
        obtain ⟨k, a, b, ha, hb, rfl⟩ := gaps_mem.1 hz
        rw [h k a b ha hb]
        ring
      have hx := one x (by rw [hg]; simp)
      have hy := one y (by rw [hg]; simp)
      rw [hg] at nd
      subst hx
      subst hy
      simp at nd

theorem dated_spec {date : ν → Option Int} {junk : Nat → Int} {names : List ν} (h : ∀ n ∈ names, (date n).isSome) :
    (dated date junk names).map Prod.snd = names ∧ ∀ i ∈ dated date junk names, date i.2 = some i.1 := by
  unfold dated
  constructor
  · rw [List.map_map]
    have : (Prod.snd ∘ fun n : ν × Nat => (((date n.1).getD (junk n.2), n.1) : Item ν)) = Prod.fst := rfl
    rw [this, List.zipIdx_map_fst]
  · intro i hi
    obtain ⟨n, hn, rfl⟩ := List.mem_map.1 hi
    have hm : n.1 ∈ names := by
      have := List.mem_map_of_mem (f := Prod.fst) hn
      rwa [List.zipIdx_map_fst] at this
    obtain ⟨d, hd⟩ := Option.isSome_iff_exists.1 (h _ hm)
    simp only [hd, Option.getD_some]

/-- **C124**: with a date for each file, the answer is, in the order of the listing at one constant step, the files at the positions which are
multiples of the sub-sampling and whose date is in the bounds. -/
theorem browse_spec_partial {date : ν → Option Int} {junk : Nat → Int} {names : List ν} (hd : ∀ n ∈ names, (date n).isSome) {step : Nat}
    {start stop : Option Int} {out : List (Item ν)} (h : browse date junk names step start stop = some out) :
    0 < step ∧ ∃ (s : List (Item ν)) (δ : Int), Listing date names s δ ∧ ∃ ks : List Nat, ks.Pairwise (· < ·) ∧
      out = ks.filterMap (fun k => s[k]?) ∧ ∀ k : Nat, k ∈ ks ↔ step ∣ k ∧ ∃ i, s[k]? = some i ∧ (∀ a, start = some a → a ≤ i.1) ∧ (∀ b, stop = some b → i.1 ≤ b) := by
  obtain ⟨d1, d2⟩ := dated_spec (junk := junk) hd
  unfold browse at h
  simp only at h
  obtain ⟨s, hs⟩ : ∃ s, s = (dated date junk names).insertionSort before := ⟨_, rfl⟩
  have hp : s.Perm (dated date junk names) := by rw [hs]; exact List.perm_insertionSort _ _
  rw [← hs] at h
  split_ifs at h with h1 h2
  obtain ⟨δ, hδ⟩ := gaps_one.1 (by omega : (gaps s).length ≤ 1)
  refine ⟨by omega, s, δ, ⟨?_, fun i hi => d2 i (hp.mem_iff.1 hi), ?_, hδ⟩, ?_⟩
  · rw [← d1]; exact hp.map _
  · rw [hs]; exact List.pairwise_insertionSort before _
  · -- the rows kept by a test, with their positions
    have key : ∀ q : Item ν → Bool, ∃ ks : List Nat, ks.Pairwise (· < ·) ∧ (every step s).filter q = ks.filterMap (fun k => s[k]?) ∧
        ∀ k : Nat, k ∈ ks ↔ step ∣ k ∧ ∃ i, s[k]? = some i ∧ q i = true := by
      intro q
      obtain ⟨t, ht⟩ : ∃ t, t = (s.zipIdx.filter (fun p => decide (p.2 % step = 0))).filter (fun p => q p.1) := ⟨_, rfl⟩
      have sub : t.Sublist s.zipIdx := by
        rw [ht]
        exact List.filter_sublist.trans List.filter_sublist
      have hz : ∀ p ∈ t, s[p.2]? = some p.1 := by
        intro p hp
        exact List.mk_mem_zipIdx_iff_getElem?.1 (sub.subset hp)
      refine ⟨t.map Prod.snd, ?_, ?_, ?_⟩
      · have := sub.map Prod.snd
        rw [List.zipIdx_map_snd] at this
        exact List.Pairwise.sublist this (by rw [← List.range_eq_range']; exact List.pairwise_lt_range)
      · unfold every
        rw [List.filter_map]
        have : List.filter (q ∘ Prod.fst) (s.zipIdx.filter (fun p => decide (p.2 % step = 0))) = t := by rw [ht]; rfl
        rw [this]
        clear ht sub this
        induction t with
        | nil => rfl
        | cons p t ih =>
          rw [List.map_cons, List.map_cons, List.filterMap_cons_some (hz p (by simp)), ih (fun p hp => hz p (by simp [hp]))]
      · intro k
        rw [ht, List.mem_map]
        simp only [List.mem_filter, decide_eq_true_eq]
        constructor
        · rintro ⟨p, ⟨⟨h3, h4⟩, h5⟩, rfl⟩
          exact ⟨Nat.dvd_of_mod_eq_zero h4, p.1, List.mk_mem_zipIdx_iff_getElem?.1 h3, h5⟩
        · rintro ⟨h3, i, h4, h5⟩
          exact ⟨(i, k), ⟨⟨List.mk_mem_zipIdx_iff_getElem?.2 h4, Nat.mod_eq_zero_of_dvd h3⟩, h5⟩, rfl⟩
    unfold between at h
    split at h
    · rw [Option.some.injEq] at h
      obtain ⟨ks, k1, k2, k3⟩ := key (fun _ => true)
      refine ⟨ks, k1, ?_, fun k => ?_⟩
      · rw [← k2, List.filter_true, h]
      · rw [k3]
        simp
    · rename_i a b
      split_ifs at h with h3
      rw [Option.some.injEq] at h
      obtain ⟨ks, k1, k2, k3⟩ := key (fun i => decide (a ≤ i.1) && decide (i.1 ≤ b))
      refine ⟨ks, k1, ?_, fun k => ?_⟩
      · rw [← k2, h]
      · rw [k3]
        simp
    · simp at h

/-- When it is refused: two different steps, a sub-sampling of zero, one bound alone, or bounds without file. -/
theorem browse_none_iff {date : ν → Option Int} {junk : Nat → Int} {names : List ν} (hd : ∀ n ∈ names, (date n).isSome) {step : Nat} {start stop : Option Int} :
    browse date junk names step start stop = none ↔ (¬∃ (s : List (Item ν)) (δ : Int), Listing date names s δ) ∨ step = 0 ∨
      (start.isSome ≠ stop.isSome) ∨ (start.isSome ∧ names = []) := by
  obtain ⟨d1, d2⟩ := dated_spec (junk := junk) hd
  obtain ⟨s, hs⟩ : ∃ s, s = (dated date junk names).insertionSort before := ⟨_, rfl⟩
  have hp : s.Perm (dated date junk names) := by rw [hs]; exact List.perm_insertionSort _ _
  have hsort : s.Pairwise before := by rw [hs]; exact List.pairwise_insertionSort before _
  -- the listing is the sorted one
  have hl : (∃ (s : List (Item ν)) (δ : Int), Listing date names s δ) ↔ (gaps s).length ≤ 1 := by
    rw [gaps_one]
    constructor
    · rintro ⟨s', δ, h⟩
      have e : s' = s := by
        refine List.Perm.eq_of_pairwise (le := before) ?_ h.sorted hsort ?_
        rotate_left
        · -- same files with the same dates
          have e1 : ∀ l : List (Item ν), (∀ i ∈ l, date i.2 = some i.1) → l = (l.map Prod.snd).map (fun n => ((date n).getD 0, n)) := by
            intro l hl
            rw [List.map_map]
            conv_lhs => rw [← List.map_id l]
            apply List.map_congr_left
            intro i hi
            simp [hl i hi]
          rw [e1 s' h.dates, e1 s (fun i hi => d2 i (hp.mem_iff.1 hi))]
          apply List.Perm.map
          exact h.files.trans (by rw [← d1]; exact (hp.map _).symm)
        · intro a b _ _ hab hba
          unfold before at hab hba
          rcases hab with hab | ⟨hab, hab'⟩ <;> rcases hba with hba | ⟨hba, hba'⟩
          · omega
          · omega
          · omega
          · exact Prod.ext hab (le_antisymm hab' hba')
      exact ⟨δ, by rw [← e]; exact h.steps⟩
    · rintro ⟨δ, hδ⟩
      exact ⟨s, δ, by rw [← d1]; exact hp.map _, fun i hi => d2 i (hp.mem_iff.1 hi), hsort, hδ⟩
  rw [hl]
  unfold browse
  simp only
  rw [← hs]
  by_cases h1 : 1 < (gaps s).length
  · simp [h1]
  · rw [if_neg h1]
    by_cases h2 : step = 0
    · simp [h2]
    · rw [if_neg h2]
      have hnil : every step s = [] ↔ names = [] := by
        have hlen : s.length = names.length := by rw [hp.length_eq, ← List.length_map (f := Prod.snd), d1]
        constructor
        · intro he
          rcases hs' : s with _ | ⟨i, r⟩
          · rw [hs'] at hlen
            exact List.length_eq_zero_iff.1 hlen.symm
          · rw [hs'] at he
            simp [every, List.zipIdx_cons] at he
        · intro hn
          rw [hn] at hlen
          have : s = [] := List.length_eq_zero_iff.1 hlen
          rw [this]
          rfl
      have h1' : (gaps s).length ≤ 1 := by omega
      unfold between
      rcases start with _ | a <;> rcases stop with _ | b
      · simp [h1', h2]
      · simp
      · simp
      · simp [h1', h2, hnil]

end Browse

/-- The days of two files and the two halves of a third: two steps, refused; three files of the same date are accepted. -/
example : browse (fun n : Nat => some (n : Int)) (fun _ => 0) [20, 0, 10, 30, 40] 2 (some 1) (some 40) = some [(20, 20), (40, 40)] := by decide +kernel
example : browse (fun n : Nat => some (n : Int)) (fun _ => 0) [0, 10, 15] 1 none none = none := by decide +kernel

/-- The claim of one file by date. -/
def OneByDate : Prop := ∀ (date : Nat → Option Int) (names : List Nat) (out : List (Item Nat)), (∀ n ∈ names, (date n).isSome) → names.Nodup →
  browse date (fun _ => 0) names 1 none none = some out → (out.map Prod.fst).Nodup

/-- Refuted: several files of one date have the one step zero. -/
theorem one_by_date_wrong : ¬OneByDate := by
  intro h
  have := h (fun _ => some 5) [1, 2] [(5, 1), (5, 2)] (by simp) (by decide) (by decide +kernel)
  simp at this

/-- The claim that the answer depends on the names only. -/
def OfNames : Prop := ∀ (date : Nat → Option Int) (names : List Nat) (junk junk' : Nat → Int), browse date junk names 1 none none = browse date junk' names 1 none none

/-- Refuted: a file whose name has no date is kept at a date read in the memory. -/
theorem of_names_wrong : ¬OfNames := by
  intro h
  have := h (fun n => if n = 7 then none else some n) [7, 8] (fun _ => 0) (fun _ => 9)
  revert this
  decide +kernel

end Verif.App
