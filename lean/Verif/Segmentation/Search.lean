import Verif.Segmentation.Model
import Verif.Index.Props

/-!
# What the searches of `get_next_obs` and `get_previous_obs` find
-/

namespace Verif.Segmentation

/-! ### Specification -/

/-- Best forward candidate of `i` (time steps `T`): on the first later step of the window where something overlaps, the
first observation of greatest overlap. -/
def BestForward (T : List Int) (ov : Nat → Nat → Rat) (window : Int) (i : Nat) : Option (Nat × Rat) → Prop
  | none => ∀ (a b : Int) (k : Nat), T[i]? = some a → T[k]? = some b → a < b → b ≤ a + window → ov i k = 0
  | some (j, c) => ∃ a b : Int, T[i]? = some a ∧ T[j]? = some b ∧ a < b ∧ b ≤ a + window ∧ ov i j = c ∧ 0 < c ∧
      (∀ (k : Nat) (b' : Int), T[k]? = some b' → a < b' → b' < b → ov i k = 0) ∧
      (∀ k : Nat, T[k]? = some b → ov i k ≤ c ∧ (k < j → ov i k < c))

/-- Best backward candidate of `i`. -/
def BestBackward (T : List Int) (ov : Nat → Nat → Rat) (window : Int) (i : Nat) : Option (Nat × Rat) → Prop
  | none => ∀ (a b : Int) (k : Nat), T[i]? = some a → T[k]? = some b → b < a → a ≤ b + window → ov i k = 0
  | some (j, c) => ∃ a b : Int, T[i]? = some a ∧ T[j]? = some b ∧ b < a ∧ a ≤ b + window ∧ ov i j = c ∧ 0 < c ∧
      (∀ (k : Nat) (b' : Int), T[k]? = some b' → b < b' → b' < a → ov i k = 0) ∧
      (∀ k : Nat, T[k]? = some b → ov i k ≤ c ∧ (k < j → ov i k < c))

/-! ### Proofs -/

theorem argmaxFrom_spec (f : Nat → Rat) (l : List Nat) :
    ∀ b, (b :: l).Pairwise (· < ·) → argmaxFrom f b l ∈ b :: l ∧
      ∀ x ∈ b :: l, f x ≤ f (argmaxFrom f b l) ∧ (x < argmaxFrom f b l → f x < f (argmaxFrom f b l)) := by
  induction l with
  | nil => intro b _; simp [argmaxFrom]
  | cons y l ih =>
    intro b h
    rw [argmaxFrom]
    have hby : b < y := (List.pairwise_cons.1 h).1 y List.mem_cons_self
    have h' := (List.pairwise_cons.1 h).2
    by_cases hc : f b < f y
    · rw [if_pos hc]
      obtain ⟨h1, h2⟩ := ih y h'
      refine ⟨List.mem_cons_of_mem _ h1, fun x hx => ?_⟩
      rcases List.mem_cons.1 hx with rfl | hx
      · have := (h2 y List.mem_cons_self).1
        exact ⟨by linarith, fun _ => by linarith⟩
      · exact h2 x hx
    · rw [if_neg hc]
      have hs : (b :: l).Pairwise (· < ·) := by
        rw [List.pairwise_cons]
        refine ⟨fun z hz => (List.pairwise_cons.1 h).1 z (List.mem_cons_of_mem _ hz), (List.pairwise_cons.1 h').2⟩
      obtain ⟨h1, h2⟩ := ih b hs
      have hb := h2 b List.mem_cons_self
      refine ⟨?_, fun x hx => ?_⟩
      · rcases List.mem_cons.1 h1 with h1 | h1
        · rw [h1]; exact List.mem_cons_self
        · exact List.mem_cons_of_mem _ (List.mem_cons_of_mem _ h1)
      · rcases List.mem_cons.1 hx with rfl | hx
        · exact hb
        · rcases List.mem_cons.1 hx with rfl | hx
          · refine ⟨by linarith, fun hlt => ?_⟩
            have := hb.2 (by omega)
            linarith
          · exact h2 x (List.mem_cons_of_mem _ hx)

/-- Result of a search over the steps `ts`. -/
def Found (T : List Int) (ref : Int) (f : Nat → Rat) (ts : List Int) : Option (Nat × Rat) → Prop
  | none => ∀ t ∈ ts, ∀ k : Nat, T[k]? = some (ref + t) → f k = 0
  | some (j, c) => ∃ (l1 : List Int) (t : Int) (l2 : List Int), ts = l1 ++ t :: l2 ∧ T[j]? = some (ref + t) ∧ f j = c ∧ 0 < c ∧
      (∀ k : Nat, T[k]? = some (ref + t) → f k ≤ c ∧ (k < j → f k < c)) ∧
      ∀ t' ∈ l1, ∀ k : Nat, T[k]? = some (ref + t') → f k = 0

theorem found_skip {T : List Int} {ref : Int} {f : Nat → Rat} {t : Int} {ts : List Int} {r : Option (Nat × Rat)}
    (h0 : ∀ k : Nat, T[k]? = some (ref + t) → f k = 0) (h : Found T ref f ts r) : Found T ref f (t :: ts) r := by
  rcases r with _ | ⟨j, c⟩
  · intro t' ht'
    rcases List.mem_cons.1 ht' with rfl | ht'
    · exact h0
    · exact h t' ht'
  · obtain ⟨l1, t1, l2, e, h1, h2, h3, h4, h5⟩ := h
    refine ⟨t :: l1, t1, l2, by rw [e]; rfl, h1, h2, h3, h4, fun t' ht' => ?_⟩
    rcases List.mem_cons.1 ht' with rfl | ht'
    · exact h0
    · exact h5 t' ht'

theorem search_spec (T : List Int) (s e : List Nat) (ref : Int) (hI : Index.IsIndex T s e ref) (f : Nat → Rat)
    (hf : ∀ k, 0 ≤ f k) (ts : List Int) (hts : ∀ t ∈ ts, 0 ≤ t ∧ t < s.length) :
    ∃ r, search f s e ts = some r ∧ Found T ref f ts r := by
  induction ts with
  | nil => exact ⟨none, rfl, fun t ht => by cases ht⟩
  | cons t ts ih =>
    obtain ⟨r, hr, hF⟩ := ih (fun t ht => hts t (List.mem_cons_of_mem _ ht))
    obtain ⟨h0, h1⟩ := hts t List.mem_cons_self
    obtain ⟨m, rfl⟩ : ∃ m : Nat, t = m := ⟨t.toNat, by omega⟩
    have hm : m < s.length := by omega
    have e1 := List.getElem?_eq_getElem hm
    have e2 := List.getElem?_eq_getElem (l := e) (i := m) (by rw [← hI.1]; exact hm)
    obtain ⟨hab, hbn, hk⟩ := hI.2.2 m _ _ e1 e2
    generalize s[m] = a at *
    generalize e[m]'(by rw [← hI.1]; exact hm) = b at *
    unfold search
    simp only [Option.bind_eq_bind]
    rw [Py.get_natCast, e1, Option.bind_some, Py.get_natCast, e2, Option.bind_some]
    by_cases heq : a = b
    · rw [if_pos heq]
      refine ⟨r, hr, found_skip (fun k hk' => ?_) hF⟩
      have := (hk k).1 hk'
      omega
    · rw [if_neg heq]
      have hpw : (a :: List.range' (a + 1) (b - a - 1)).Pairwise (· < ·) := by
        have : a :: List.range' (a + 1) (b - a - 1) = List.range' a (b - a) := by
          rw [← List.range'_succ]; congr 1; omega
        rw [this]; exact List.pairwise_lt_range'
      obtain ⟨g1, g2⟩ := argmaxFrom_spec f (List.range' (a + 1) (b - a - 1)) a hpw
      generalize argmaxFrom f a (List.range' (a + 1) (b - a - 1)) = j at *
      have hmem : ∀ x, x ∈ a :: List.range' (a + 1) (b - a - 1) ↔ a ≤ x ∧ x < b := by
        intro x
        rw [List.mem_cons, List.mem_range'_1]
        omega
      by_cases hz : f j = 0
      · rw [if_pos hz]
        refine ⟨r, hr, found_skip (fun k hk' => ?_) hF⟩
        have h1 := (g2 k ((hmem k).2 ((hk k).1 hk'))).1
        have h2 := hf k
        rw [hz] at h1
        exact le_antisymm h1 h2
      · rw [if_neg hz]
        refine ⟨_, rfl, [], m, ts, rfl, (hk j).2 ((hmem j).1 g1), rfl, lt_of_le_of_ne (hf j) (Ne.symm hz), fun k hk' => ?_,
          fun t ht => by cases ht⟩
        exact g2 k ((hmem k).2 ((hk k).1 hk'))

theorem mem_rangeUp (a b t : Int) : t ∈ rangeUp a b ↔ a ≤ t ∧ t < b := by
  unfold rangeUp
  rw [List.mem_map]
  constructor
  · rintro ⟨k, hk, rfl⟩
    rw [List.mem_range] at hk
    omega
  · rintro ⟨h1, h2⟩
    exact ⟨(t - a).toNat, List.mem_range.2 (by omega), by omega⟩

theorem mem_rangeDown (a b t : Int) : t ∈ rangeDown a b ↔ t ≤ a ∧ b < t := by
  unfold rangeDown
  rw [List.mem_map]
  constructor
  · rintro ⟨k, hk, rfl⟩
    rw [List.mem_range] at hk
    omega
  · rintro ⟨h1, h2⟩
    exact ⟨(a - t).toNat, List.mem_range.2 (by omega), by omega⟩

theorem rangeUp_sorted (a b : Int) : (rangeUp a b).Pairwise (· < ·) := by
  unfold rangeUp
  rw [List.pairwise_map]
  exact List.pairwise_lt_range.imp (fun h => by omega)

theorem rangeDown_sorted (a b : Int) : (rangeDown a b).Pairwise (· > ·) := by
  unfold rangeDown
  rw [List.pairwise_map]
  exact List.pairwise_lt_range.imp (fun h => by omega)

/-- Elements before one element of a list which increases for `R`. -/
theorem mem_before {R : Int → Int → Prop} (hasym : ∀ a b, R a b → ¬ R b a) {l1 l2 : List Int} {t x : Int}
    (h : (l1 ++ t :: l2).Pairwise R) (hx : x ∈ l1 ++ t :: l2) (hxt : R x t) : x ∈ l1 := by
  rw [List.pairwise_append, List.pairwise_cons] at h
  rcases List.mem_append.1 hx with hx | hx
  · exact hx
  · rcases List.mem_cons.1 hx with rfl | hx
    · exact absurd hxt (hasym _ _ hxt)
    · exact absurd hxt (hasym _ _ (h.2.1.1 x hx))

theorem getNext_spec (T : List Int) (s e : List Nat) (ref : Int) (hI : Index.IsIndex T s e ref) (ov : Nat → Nat → Rat)
    (hov : ∀ i j, 0 ≤ ov i j) (window : Int) (i : Nat) (hi : i < T.length) :
    ∃ r, getNext ov (fun k => T.getD k 0) (s, e, ref) window i = some r ∧ BestForward T ov window i r := by
  have ha : T[i]? = some (T.getD i 0) := by
    rw [List.getD_eq_getElem?_getD, List.getElem?_eq_getElem hi]; rfl
  have hr := hI.2.1 _ (List.mem_of_getElem? ha)
  have hl := hI.1
  unfold getNext
  simp only
  generalize T.getD i 0 = a at *
  have hrange : ∀ (k : Nat) (b : Int), T[k]? = some b → ref ≤ b ∧ b < ref + s.length :=
    fun k b hk => hI.2.1 b (List.mem_of_getElem? hk)
  by_cases h0 : a + 1 - ref > (e.length : Int) - 1
  · rw [if_pos h0]
    refine ⟨none, rfl, fun a' b k h1 h2 h3 _ => ?_⟩
    rw [ha] at h1
    obtain rfl := Option.some.inj h1
    have := hrange k b h2
    omega
  · rw [if_neg h0]
    obtain ⟨r, hr', hF⟩ := search_spec T s e ref hI (ov i) (hov i)
      (rangeUp (a + 1 - ref) (min (a + window - ref) ((e.length : Int) - 1) + 1)) (by
        intro t ht
        rw [mem_rangeUp] at ht
        omega)
    refine ⟨r, hr', ?_⟩
    rcases r with _ | ⟨j, c⟩
    · intro a' b k h1 h2 h3 h4
      rw [ha] at h1
      obtain rfl := Option.some.inj h1
      have := hrange k b h2
      refine hF (b - ref) ?_ k (by rw [h2]; congr 1; omega)
      rw [mem_rangeUp]
      omega
    · obtain ⟨l1, t, l2, e1, g1, g2, g3, g4, g5⟩ := hF
      have hs := rangeUp_sorted (a + 1 - ref) (min (a + window - ref) ((e.length : Int) - 1) + 1)
      have ht : t ∈ rangeUp (a + 1 - ref) (min (a + window - ref) ((e.length : Int) - 1) + 1) := by rw [e1]; simp
      rw [mem_rangeUp] at ht
      refine ⟨a, ref + t, ha, g1, by omega, by omega, g2, g3, fun k b' hk h1 h2 => ?_, g4⟩
      refine g5 (b' - ref) ?_ k (by rw [hk]; congr 1; omega)
      have hm : b' - ref ∈ rangeUp (a + 1 - ref) (min (a + window - ref) ((e.length : Int) - 1) + 1) := by
        rw [mem_rangeUp]; omega
      rw [e1] at hm hs
      exact mem_before (fun a b h => by omega) hs hm (by omega)

theorem getPrev_spec (T : List Int) (s e : List Nat) (ref : Int) (hI : Index.IsIndex T s e ref) (ov : Nat → Nat → Rat)
    (hov : ∀ i j, 0 ≤ ov i j) (window : Int) (i : Nat) (hi : i < T.length) :
    ∃ r, getPrev ov (fun k => T.getD k 0) (s, e, ref) window i = some r ∧ BestBackward T ov window i r := by
  have ha : T[i]? = some (T.getD i 0) := by
    rw [List.getD_eq_getElem?_getD, List.getElem?_eq_getElem hi]; rfl
  have hr := hI.2.1 _ (List.mem_of_getElem? ha)
  have hl := hI.1
  unfold getPrev
  simp only
  generalize T.getD i 0 = a at *
  have hrange : ∀ (k : Nat) (b : Int), T[k]? = some b → ref ≤ b ∧ b < ref + s.length :=
    fun k b hk => hI.2.1 b (List.mem_of_getElem? hk)
  obtain ⟨r, hr', hF⟩ := search_spec T s e ref hI (ov i) (hov i)
    (rangeDown (a - 1 - ref) (max (a - window - ref) 0 - 1)) (by
      intro t ht
      rw [mem_rangeDown] at ht
      omega)
  refine ⟨r, hr', ?_⟩
  rcases r with _ | ⟨j, c⟩
  · intro a' b k h1 h2 h3 h4
    rw [ha] at h1
    obtain rfl := Option.some.inj h1
    have := hrange k b h2
    refine hF (b - ref) ?_ k (by rw [h2]; congr 1; omega)
    rw [mem_rangeDown]
    omega
  · obtain ⟨l1, t, l2, e1, g1, g2, g3, g4, g5⟩ := hF
    have hs := rangeDown_sorted (a - 1 - ref) (max (a - window - ref) 0 - 1)
    have ht : t ∈ rangeDown (a - 1 - ref) (max (a - window - ref) 0 - 1) := by rw [e1]; simp
    rw [mem_rangeDown] at ht
    refine ⟨a, ref + t, ha, g1, by omega, by omega, g2, g3, fun k b' hk h1 h2 => ?_, g4⟩
    refine g5 (b' - ref) ?_ k (by rw [hk]; congr 1; omega)
    have hm : b' - ref ∈ rangeDown (a - 1 - ref) (max (a - window - ref) 0 - 1) := by
      rw [mem_rangeDown]; omega
    rw [e1] at hm hs
    exact mem_before (R := (· > ·)) (fun a b h => by omega) hs hm (by omega)

end Verif.Segmentation
