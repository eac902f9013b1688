import Verif.Bins.Model
import Verif.Index.Props

/-!
# Lemmas on bins
-/

namespace Verif.Bins

/-! ### Bin numbers -/

theorem count_sorted {bins : List Rat} (hs : bins.Pairwise (· < ·)) {k : Nat} {b v : Rat} (hk : bins[k]? = some b) :
    b ≤ v ↔ k < bins.countP (fun c => decide (c ≤ v)) := by
  induction bins generalizing k with
  | nil => simp at hk
  | cons c l ih =>
    have hs' := List.pairwise_cons.1 hs
    rw [List.countP_cons]
    cases k with
    | zero =>
      simp at hk; subst hk
      by_cases h : c ≤ v
      · simp [h]
      · have : l.countP (fun d => decide (d ≤ v)) = 0 := by
          rw [List.countP_eq_zero]
          intro d hd
          have := hs'.1 d hd
          simp only [decide_eq_true_eq]; intro h'; exact h (by linarith)
        simp [h, this]
    | succ k =>
      rw [List.getElem?_cons_succ] at hk
      have hcb := hs'.1 b (List.mem_of_getElem? hk)
      rw [ih hs'.2 hk]
      by_cases h : c ≤ v
      · simp [h]
      · have : l.countP (fun d => decide (d ≤ v)) = 0 := by
          rw [List.countP_eq_zero]
          intro d hd
          have := hs'.1 d hd
          simp only [decide_eq_true_eq]; intro h'; exact h (by linarith)
        simp [h, this]

theorem regular_spec {step : Rat} : ∀ {l : List Rat} {prev : Rat}, regular step prev l = true →
    ∀ (k : Nat) (b : Rat), (prev :: l)[k]? = some b → b = prev + k * step
  | [], prev, _, k, b, hk => by
    cases k with
    | zero => simp at hk; simp [hk]
    | succ k => simp at hk
  | c :: l, prev, h, k, b, hk => by
    rw [regular] at h
    split at h
    · cases h
    · rename_i hne
      have hst : step = c - prev := not_not.1 hne
      cases k with
      | zero => simp at hk; simp [hk]
      | succ k =>
        rw [List.getElem?_cons_succ] at hk
        have := regular_spec h k b hk
        rw [this, Nat.cast_succ]; rw [hst]; ring

theorem digitizeRegular_eq {bins : List Rat} {b0 step : Rat} (hs : bins.Pairwise (· < ·)) (hne : bins ≠ [])
    (hfirst : bins[0]? = some b0) (hreg : ∀ (k : Nat) (b : Rat), bins[k]? = some b → b = b0 + k * step) (hpos : 0 < step)
    (v : Rat) : digitizeRegular bins b0 (bins.getLast hne) step v = digitize bins v := by
  have hlen : 0 < bins.length := List.length_pos_of_ne_nil hne
  have hlast : bins[bins.length - 1]? = some (bins.getLast hne) := by
    rw [List.getLast_eq_getElem, List.getElem?_eq_getElem (by omega)]
  have hcl : bins.countP (fun c => decide (c ≤ v)) ≤ bins.length := List.countP_le_length
  unfold digitizeRegular digitize
  by_cases h1 : bins.getLast hne ≤ v
  · rw [if_pos h1]
    have := (count_sorted hs hlast).1 h1
    congr 1; omega
  · rw [if_neg h1]
    have h1' := mt (count_sorted hs hlast).2 h1
    by_cases h2 : v < b0
    · rw [if_pos h2]
      have := mt (count_sorted hs hfirst (v := v)).2 (by linarith)
      omega
    · rw [if_neg h2]
      have hc0 := (count_sorted hs hfirst).1 (not_lt.1 h2)
      generalize hc : bins.countP (fun c => decide (c ≤ v)) = c at *
      rw [Int.floor_eq_iff]
      obtain ⟨bl, hbl⟩ : ∃ b, bins[c - 1]? = some b := ⟨bins[c - 1]'(by omega), List.getElem?_eq_getElem (by omega)⟩
      obtain ⟨bu, hbu⟩ : ∃ b, bins[c]? = some b := ⟨bins[c]'(by omega), List.getElem?_eq_getElem (by omega)⟩
      have e1 := (count_sorted hs hbl (v := v)).2 (by omega)
      have e2 := mt (count_sorted hs hbu (v := v)).1 (by omega)
      have f1 := hreg _ _ hbl
      have f2 := hreg _ _ hbu
      have hcast : ((c - 1 : Nat) : Rat) = (c : Rat) - 1 := by
        rw [Nat.cast_sub (by omega)]; simp
      rw [hcast] at f1
      constructor
      · have : (c : Rat) - 1 ≤ (v - b0) / step := by
          rw [le_div_iff₀ hpos]; linarith
        push_cast; linarith
      · have : (v - b0) / step < c := by
          rw [div_lt_iff₀ hpos]; linarith
        push_cast; linarith

theorem numbaDigitize_eq {values bins : List Rat} (hl : 2 ≤ bins.length) (hs : bins.Pairwise (· < ·)) :
    numbaDigitize values bins = some (values.map (digitize bins)) := by
  match bins, hl, hs with
  | b0 :: b1 :: l, _, hs =>
    unfold numbaDigitize
    simp only
    by_cases h : regular (b1 - b0) b1 l = true
    · rw [if_pos h]
      congr 1
      apply List.map_congr_left
      intro v _
      refine digitizeRegular_eq hs (by simp) rfl (fun k b hk => ?_) ?_ v
      · refine regular_spec (l := b1 :: l) ?_ k b hk
        rw [regular, if_neg (by simp)]; exact h
      · have := (List.pairwise_cons.1 hs).1 b1 (by simp); linarith
    · rw [if_neg h]

/-- The bin number of a value, minus one: the place of the value between the bounds. -/
theorem digit_spec {bins : List Rat} (hs : bins.Pairwise (· < ·)) (v : Rat) {k : Nat} {lo hi : Rat}
    (h0 : bins[k]? = some lo) (h1 : bins[k + 1]? = some hi) : digitize bins v - 1 = (k : Int) ↔ lo ≤ v ∧ v < hi := by
  have e1 := count_sorted hs h0 (v := v)
  have e2 := count_sorted hs h1 (v := v)
  rw [e1, ← not_le (a := hi), e2]
  unfold digitize
  omega

theorem digit_range {bins : List Rat} (hs : bins.Pairwise (· < ·)) (hne : bins ≠ []) (v : Rat) :
    -1 ≤ digitize bins v - 1 ∧ digitize bins v - 1 ≤ (bins.length : Int) - 1 ∧
    (digitize bins v - 1 = -1 ↔ v < bins.head hne) ∧
    (digitize bins v - 1 = (bins.length : Int) - 1 ↔ bins.getLast hne ≤ v) := by
  have hlen : 0 < bins.length := List.length_pos_of_ne_nil hne
  have hlast : bins[bins.length - 1]? = some (bins.getLast hne) := by
    rw [List.getLast_eq_getElem, List.getElem?_eq_getElem (by omega)]
  have hfirst : bins[0]? = some (bins.head hne) := by
    rw [List.head_eq_getElem, List.getElem?_eq_getElem (by omega)]
  have hcl : bins.countP (fun c => decide (c ≤ v)) ≤ bins.length := List.countP_le_length
  rw [← not_le, count_sorted hs hfirst, count_sorted hs hlast]
  unfold digitize
  omega

/-! ### Slices of `build_index` -/

theorem runs_spec {s : List Int} (hne : s ≠ []) (hs : s.Pairwise (· ≤ ·)) :
    ∃ r, Index.buildIndex s = some r ∧
      (∀ p ∈ slices r.1 r.2.1, p.1 < p.2 ∧ p.2 ≤ s.length ∧ ∃ g, ∀ k : Nat, s[k]? = some g ↔ p.1 ≤ k ∧ k < p.2) ∧
      (∀ k, k < s.length → ∃ p ∈ slices r.1 r.2.1, p.1 ≤ k ∧ k < p.2) ∧
      (slices r.1 r.2.1).Pairwise (fun p q => p.2 ≤ q.1) := by
  obtain ⟨first, last, i0, h1, ⟨hl, hr, hi⟩, _⟩ := Index.build_index_spec s hne hs
  refine ⟨_, h1, ?_, ?_, ?_⟩
  · intro p hp
    rw [slices, List.mem_filter] at hp
    obtain ⟨hp1, hp2⟩ := hp
    obtain ⟨m, hm⟩ := List.mem_iff_getElem?.1 hp1
    rw [List.getElem?_zip_eq_some] at hm
    obtain ⟨e1, e2, e3⟩ := hi m _ _ hm.1 hm.2
    have : p.1 ≠ p.2 := by simpa using hp2
    exact ⟨by omega, e2, i0 + m, e3⟩
  · intro k hk
    have hg := List.getElem?_eq_getElem hk
    obtain ⟨g1, g2⟩ := hr _ (List.getElem_mem hk)
    have hm : (s[k] - i0).toNat < first.length := by omega
    have ha := List.getElem?_eq_getElem hm
    have hb := List.getElem?_eq_getElem (show (s[k] - i0).toNat < last.length by omega)
    obtain ⟨e1, e2, e3⟩ := hi _ _ _ ha hb
    have := (e3 k).1 (by rw [hg]; congr 1; omega)
    refine ⟨(first[(s[k] - i0).toNat], last[(s[k] - i0).toNat]), ?_, this⟩
    rw [slices, List.mem_filter]
    refine ⟨List.mem_iff_getElem?.2 ⟨(s[k] - i0).toNat, List.getElem?_zip_eq_some.2 ⟨ha, hb⟩⟩, ?_⟩
    have : first[(s[k] - i0).toNat] ≠ last[(s[k] - i0).toNat] := by omega
    simpa using this
  · unfold slices
    rw [List.pairwise_filter, List.pairwise_iff_getElem]
    intro m m' hm hm' hlt hp hq
    simp only [List.length_zip] at hm hm'
    simp only [List.getElem_zip] at hp hq ⊢
    have hp' : first[m]'(by omega) ≠ last[m]'(by omega) := by simpa using hp
    have hq' : first[m']'(by omega) ≠ last[m']'(by omega) := by simpa using hq
    obtain ⟨e1, e2, e3⟩ := hi m _ _ (List.getElem?_eq_getElem (by omega)) (List.getElem?_eq_getElem (by omega))
    obtain ⟨f1, f2, f3⟩ := hi m' _ _ (List.getElem?_eq_getElem (by omega)) (List.getElem?_eq_getElem (by omega))
    by_contra hcon
    have g1 := (e3 (last[m]'(by omega) - 1)).2 (by omega)
    have g2 := (f3 (first[m']'(by omega))).2 (by omega)
    obtain ⟨k1, g1'⟩ := List.getElem?_eq_some_iff.1 g1
    obtain ⟨k2, g2'⟩ := List.getElem?_eq_some_iff.1 g2
    rw [List.pairwise_iff_getElem] at hs
    rcases Nat.lt_or_ge (first[m']'(by omega)) (last[m]'(by omega) - 1) with hlt' | hge
    · have := hs _ _ k2 k1 hlt'
      rw [g1', g2'] at this; omega
    · have : first[m']'(by omega) = last[m]'(by omega) - 1 := by omega
      rw [this] at g2; rw [g1] at g2
      have := Option.some.inj g2
      omega

end Verif.Bins
