import Verif.Targets.Model
import Mathlib.Tactic.Linarith
import Mathlib.Tactic.Ring
import Mathlib.Tactic.Positivity
import Mathlib.Tactic.NormNum

/-!
# C55: the two best targets of each observation
-/

namespace Verif.Targets

/-! ### Specification -/

/-- Number of particles from `i` to `j`. -/
def moved (parts : List (Nat × Int)) (i j : Nat) : Nat := parts.countP (fun p => decide (p.1 = i ∧ p.2 = (j : Int)))

/-- Number of particles from `i`. -/
def started (parts : List (Nat × Int)) (i : Nat) : Nat := parts.countP (fun p => decide (p.1 = i))

/-- Percentage of the particles of `i` which are in `j` at the end. -/
def share (parts : List (Nat × Int)) (i j : Nat) : Rat := (moved parts i j : Rat) * 100 / (started parts i : Rat)

/-- Every particle is in known contours. -/
def InRange (parts : List (Nat × Int)) (nbStart nbEnd : Nat) : Prop :=
  ∀ p ∈ parts, p.1 < nbStart ∧ (p.2 = -1 ∨ (0 ≤ p.2 ∧ p.2 < nbEnd))

/-- The line holds the two candidates with the largest values, the values seen through `st`; -1 when there is no candidate. -/
structure TopTwo (st : Rat → Rat) (tr : Nat → Int) (cand : Nat → Prop) (v : Nat → Rat) (r : Row) : Prop where
  first : (r.t0 = -1 ∧ r.p0 = 0 ∧ ∀ j, ¬ cand j) ∨
    ∃ j0, r.t0 = tr j0 ∧ cand j0 ∧ r.p0 = st (v j0) ∧ ∀ j, cand j → st (v j) ≤ r.p0
  second : (r.t1 = -1 ∧ r.p1 = 0 ∧ ∀ j, cand j → tr j = r.t0) ∨
    ∃ j1, r.t1 = tr j1 ∧ r.t1 ≠ r.t0 ∧ cand j1 ∧ r.p1 = st (v j1) ∧ ∀ j, cand j → tr j ≠ r.t0 → st (v j) ≤ r.p1

/-! ### Counting -/

theorem countLoop_spec {nbStart nbEnd : Nat} : ∀ (parts : List (Nat × Int)) (c : Counts), InRange parts nbStart nbEnd →
    ∃ c', countLoop nbStart nbEnd parts c = some c' ∧ (∀ i j, c'.counts i j = c.counts i j + moved parts i j) ∧
      ∀ i, c'.ref i = c.ref i + started parts i
  | [], c, _ => ⟨c, rfl, fun _ _ => rfl, fun _ => rfl⟩
  | (s, e) :: l, c, h => by
    obtain ⟨h1, h2⟩ := h (s, e) (by simp)
    have hl : InRange l nbStart nbEnd := fun p hp => h p (List.mem_cons_of_mem _ hp)
    have href : ∀ i, Function.update c.ref s (c.ref s + 1) i + started l i = c.ref i + started ((s, e) :: l) i := by
      intro i
      unfold started
      rw [List.countP_cons]
      by_cases hi : i = s
      · subst hi
        rw [Function.update_self]; simp; omega
      · rw [Function.update_of_ne hi, if_neg (by simpa using fun h => hi h.symm)]
        rfl
    rw [countLoop, if_pos h1]
    split
    · rename_i he
      obtain ⟨c', k1, k2, k3⟩ := countLoop_spec l ⟨c.counts, Function.update c.ref s (c.ref s + 1)⟩ hl
      refine ⟨c', k1, ?_, fun i => by rw [k3, href]⟩
      intro i j
      rw [k2]
      unfold moved
      rw [List.countP_cons, if_neg]
      · rfl
      · simp only [decide_eq_true_eq]; rintro ⟨_, hj⟩; omega
    · rename_i he
      have h2' : 0 ≤ e ∧ e < nbEnd := by
        rcases h2 with h2 | h2
        · exact absurd h2 he
        · exact h2
      rw [if_pos h2']
      obtain ⟨c', k1, k2, k3⟩ := countLoop_spec l _ hl
      refine ⟨c', k1, ?_, fun i => by rw [k3, href]⟩
      intro i j
      rw [k2]
      unfold moved
      rw [List.countP_cons]
      simp only
      by_cases hi : i = s
      · subst hi
        rw [Function.update_self]
        by_cases hj : j = e.toNat
        · subst hj
          rw [Function.update_self, if_pos (by simp; omega)]
          omega
        · rw [Function.update_of_ne hj, if_neg (by simp; omega)]
          rfl
      · rw [Function.update_of_ne hi, if_neg (by simp; omega)]
        rfl

theorem countLoop_outside {nbStart nbEnd : Nat} : ∀ (parts : List (Nat × Int)) (c : Counts), ¬ InRange parts nbStart nbEnd →
    countLoop nbStart nbEnd parts c = none
  | [], c, h => absurd (fun p hp => by cases hp) h
  | (s, e) :: l, c, h => by
    rw [countLoop]
    by_cases hl : InRange l nbStart nbEnd
    · have hp : ¬ (s < nbStart ∧ (e = -1 ∨ (0 ≤ e ∧ e < nbEnd))) := by
        intro hp
        apply h
        intro p hpm
        rcases List.mem_cons.1 hpm with rfl | hpm
        · exact hp
        · exact hl p hpm
      split
      · rename_i hs
        rw [if_neg (fun he => hp ⟨hs, Or.inl he⟩), if_neg (fun he => hp ⟨hs, Or.inr he⟩)]
      · rfl
    · split
      · split
        · exact countLoop_outside l _ hl
        · split
          · exact countLoop_outside l _ hl
          · rfl
      · rfl

/-! ### One line -/

/-- Conversions to the type of the array: exact, or without the fraction. -/
structure Store (st : Rat → Rat) : Prop where
  mono : ∀ x y, x ≤ y → st x ≤ st y
  idem : ∀ x, st (st x) = st x

theorem store_id : Store id := ⟨fun _ _ h => h, fun _ => rfl⟩

theorem store_trunc : Store trunc := by
  constructor
  · intro x y h
    unfold trunc
    have : x.floor ≤ y.floor := by rw [Rat.le_floor_iff]; exact le_trans (Rat.floor_le x) h
    exact_mod_cast this
  · intro x
    unfold trunc
    rw [Rat.floor_intCast]

theorem rowStep_spec {st : Rat → Rat} (hst : Store st) {tr : Nat → Int} {cand : Nat → Prop} {cnt : Nat → Nat} {ref : Nat} {s : Row}
    {j : Nat} (hs : TopTwo st tr cand (fun j => percent (cnt j) ref) s) (hj : ¬ cand j) (href : cnt j ≠ 0 → 0 < ref)
    (hinj : ∀ k, cand k → tr k ≠ tr j) :
    TopTwo st tr (fun k => cand k ∨ (k = j ∧ cnt k ≠ 0)) (fun j => percent (cnt j) ref) (rowStep st tr cnt ref s j) := by
  unfold rowStep
  by_cases h0 : cnt j = 0
  · rw [if_pos h0]
    have he : (fun k => cand k ∨ (k = j ∧ cnt k ≠ 0)) = cand := by
      funext k
      apply propext
      constructor
      · rintro (h | ⟨rfl, h⟩)
        · exact h
        · exact absurd h0 h
      · exact Or.inl
    rw [he]
    exact hs
  · rw [if_neg h0]
    have hpos : 0 < percent (cnt j) ref := by
      unfold percent
      have h1 : (0 : Rat) < (cnt j : Rat) := by exact_mod_cast Nat.pos_of_ne_zero h0
      have h2 : (0 : Rat) < (ref : Rat) := by exact_mod_cast href h0
      positivity
    split
    · rename_i hgt
      constructor
      · right
        refine ⟨j, rfl, Or.inr ⟨rfl, h0⟩, rfl, ?_⟩
        rintro k (hk | ⟨rfl, _⟩)
        · rcases hs.first with ⟨_, _, h⟩ | ⟨j0, a1, a2, a3, a4⟩
          · exact absurd hk (h k)
          · have := hst.mono _ _ (le_of_lt hgt)
            rw [a3, hst.idem] at this
            exact le_trans (a4 k hk) (by rw [a3]; exact this)
        · exact le_refl _
      · rcases hs.first with ⟨a1, a2, h⟩ | ⟨j0, a1, a2, a3, a4⟩
        · left
          refine ⟨a1, a2, ?_⟩
          rintro k (hk | ⟨rfl, _⟩)
          · exact absurd hk (h k)
          · rfl
        · right
          refine ⟨j0, a1, ?_, Or.inl a2, a3, ?_⟩
          · rw [a1]; exact hinj j0 a2
          · rintro k (hk | ⟨rfl, _⟩) hne
            · exact a4 k hk
            · exact absurd rfl hne
    · rename_i hle
      have hle := not_lt.1 hle
      obtain ⟨j0, a1, a2, a3, a4⟩ : ∃ j0, s.t0 = tr j0 ∧ cand j0 ∧ s.p0 = st (percent (cnt j0) ref) ∧
          ∀ j, cand j → st (percent (cnt j) ref) ≤ s.p0 := by
        rcases hs.first with ⟨_, a2, _⟩ | h
        · linarith
        · exact h
      have hje : st (percent (cnt j) ref) ≤ s.p0 := by
        have := hst.mono _ _ hle
        rwa [a3, hst.idem, ← a3] at this
      split
      · rename_i hgt
        constructor
        · right
          refine ⟨j0, a1, Or.inl a2, a3, ?_⟩
          rintro k (hk | ⟨rfl, _⟩)
          · exact a4 k hk
          · exact hje
        · right
          refine ⟨j, rfl, ?_, Or.inr ⟨rfl, h0⟩, rfl, ?_⟩
          · show tr j ≠ s.t0
            rw [a1]; exact fun h => hinj j0 a2 h.symm
          · rintro k (hk | ⟨rfl, _⟩) hne
            · rcases hs.second with ⟨_, _, h⟩ | ⟨j1, b1, b2, b3, b4, b5⟩
              · exact absurd (h k hk) hne
              · have := hst.mono _ _ (le_of_lt hgt)
                rw [b4, hst.idem, ← b4] at this
                exact le_trans (b5 k hk hne) this
            · exact le_refl _
      · rename_i hle1
        have hle1 := not_lt.1 hle1
        constructor
        · right
          refine ⟨j0, a1, Or.inl a2, a3, ?_⟩
          rintro k (hk | ⟨rfl, _⟩)
          · exact a4 k hk
          · exact hje
        · rcases hs.second with ⟨_, h, _⟩ | ⟨j1, b1, b2, b3, b4, b5⟩
          · linarith
          · right
            refine ⟨j1, b1, b2, Or.inl b3, b4, ?_⟩
            rintro k (hk | ⟨rfl, _⟩) hne
            · exact b5 k hk hne
            · have := hst.mono _ _ hle1
              rwa [b4, hst.idem, ← b4] at this

theorem rowLoop_spec {st : Rat → Rat} (hst : Store st) {tr : Nat → Int} {cnt : Nat → Nat} {ref nbEnd : Nat}
    (href : ∀ j, cnt j ≠ 0 → 0 < ref) (hinj : ∀ j k, j < nbEnd → k < nbEnd → tr j = tr k → j = k) :
    TopTwo st tr (fun j => j < nbEnd ∧ cnt j ≠ 0) (fun j => percent (cnt j) ref) (rowLoop st tr cnt ref nbEnd emptyRow) := by
  unfold rowLoop
  have key : ∀ n, n ≤ nbEnd → TopTwo st tr (fun j => j < n ∧ cnt j ≠ 0) (fun j => percent (cnt j) ref)
      ((List.range n).foldl (rowStep st tr cnt ref) emptyRow) := by
    intro n
    induction n with
    | zero =>
      intro _
      exact ⟨Or.inl ⟨rfl, rfl, fun j h => by omega⟩, Or.inl ⟨rfl, rfl, fun j h => by omega⟩⟩
    | succ n ih =>
      intro hn
      rw [List.range_succ, List.foldl_append, List.foldl_cons, List.foldl_nil]
      have := rowStep_spec hst (ih (by omega)) (j := n) (fun h => by omega) (href n)
        (fun k hk he => by have := hinj k n (by omega) (by omega) he; omega)
      have he : (fun k => (k < n ∧ cnt k ≠ 0) ∨ (k = n ∧ cnt k ≠ 0)) = (fun j => j < n + 1 ∧ cnt j ≠ 0) := by
        funext k
        apply propext
        constructor
        · rintro (⟨h1, h2⟩ | ⟨h1, h2⟩)
          · exact ⟨by omega, h2⟩
          · exact ⟨by omega, h2⟩
        · rintro ⟨h1, h2⟩
          rcases Nat.lt_or_eq_of_le (Nat.lt_succ_iff.1 h1) with h | h
          · exact Or.inl ⟨h, h2⟩
          · exact Or.inr ⟨h, h2⟩
      rw [he] at this
      exact this
  exact key nbEnd (le_refl _)

theorem moved_le_started (parts : List (Nat × Int)) (i j : Nat) : moved parts i j ≤ started parts i := by
  apply List.countP_mono_left
  intro p _ h
  simp only [decide_eq_true_eq] at h ⊢
  exact h.1

theorem percent_eq_share (parts : List (Nat × Int)) (i j : Nat) :
    percent (moved parts i j) (started parts i) = share parts i j := by
  unfold percent share; ring

/-- **C55** (`get_targets`): each line holds the two last contours with the largest percentages of the particles of the first
contour, in decreasing order, and -1 without particle. -/
theorem get_targets_spec {parts : List (Nat × Int)} {nbStart nbEnd : Nat} (h : InRange parts nbStart nbEnd) :
    ∃ rows, getTargets parts nbStart nbEnd (fun _ => emptyRow) = some rows ∧ rows.length = nbStart ∧
      ∀ (i : Nat) (r : Row), rows[i]? = some r →
        TopTwo id (fun j => (j : Int)) (fun j => j < nbEnd ∧ moved parts i j ≠ 0) (share parts i) r := by
  obtain ⟨c, h1, h2, h3⟩ := countLoop_spec parts ⟨fun _ _ => 0, fun _ => 0⟩ h
  refine ⟨_, by unfold getTargets; rw [h1]; rfl, by simp, ?_⟩
  intro i r hr
  rw [List.getElem?_map] at hr
  obtain ⟨i', hi', rfl⟩ := Option.map_eq_some_iff.1 hr
  have hii : i' = i := by
    have := (List.getElem?_eq_some_iff.1 hi').2
    simpa using this.symm
  subst hii
  have hc : c.counts i' = moved parts i' := by funext j; rw [h2]; simp
  have hr' : c.ref i' = started parts i' := by rw [h3]; simp
  rw [hc, hr']
  have hsh : share parts i' = fun j => percent (moved parts i' j) (started parts i') := by
    funext j; rw [percent_eq_share]
  rw [hsh]
  apply rowLoop_spec store_id
  · intro j hj
    have := moved_le_started parts i' j
    omega
  · intro j k _ _ he
    simpa using he

/-- **C55** (order): the second percentage is not larger than the first one. -/
theorem TopTwo.decreasing {st : Rat → Rat} {tr : Nat → Int} {cand : Nat → Prop} {v : Nat → Rat} {r : Row} (h : TopTwo st tr cand v r)
    (hp : ∀ j, cand j → 0 ≤ st (v j)) : 0 ≤ r.p1 ∧ r.p1 ≤ r.p0 := by
  rcases h.second with ⟨_, b2, _⟩ | ⟨j1, _, _, b3, b4, _⟩
  · rcases h.first with ⟨_, a2, _⟩ | ⟨j0, _, a2, a3, _⟩
    · rw [b2, a2]; exact ⟨le_refl _, le_refl _⟩
    · rw [b2, a3]; exact ⟨le_refl _, hp j0 a2⟩
  · rcases h.first with ⟨_, _, a3⟩ | ⟨j0, _, _, _, a4⟩
    · exact absurd b3 (a3 j1)
    · exact ⟨by rw [b4]; exact hp j1 b3, by rw [b4]; exact a4 j1 b3⟩

/-- The shares of two different contours are at most 100 together. -/
theorem share_two {parts : List (Nat × Int)} {i j k : Nat} (hjk : j ≠ k) : share parts i j + share parts i k ≤ 100 := by
  have hc : moved parts i j + moved parts i k ≤ started parts i := by
    unfold moved started
    induction parts with
    | nil => simp
    | cons p l ih =>
      rw [List.countP_cons, List.countP_cons, List.countP_cons]
      by_cases h1 : p.1 = i
      · by_cases h2 : p.2 = (j : Int)
        · have h3 : ¬ p.2 = (k : Int) := by omega
          simp [h1, h2]
          have h4 : ¬ (j : Int) = (k : Int) := by omega
          have h5 : ¬ j = k := hjk
          simp only [h5]
          simp at ih
          simp
          omega
        · simp [h1, h2]
          simp at ih
          split <;> omega
      · simp [h1]
        simpa using ih
  unfold share
  rcases Nat.eq_zero_or_pos (started parts i) with h0 | h0
  · rw [h0]; simp
  · have hp : (0 : Rat) < (started parts i : Rat) := by exact_mod_cast h0
    rw [← add_div, div_le_iff₀ hp]
    have : ((moved parts i j : Rat) + (moved parts i k : Rat)) ≤ (started parts i : Rat) := by exact_mod_cast hc
    linarith

/-- **C55** (`particle_candidate_step`): the targets of `get_targets`, the percentages without their fraction. -/
theorem step_targets_spec {parts : List (Nat × Int)} {nbStart nbEnd : Nat} (h : InRange parts nbStart nbEnd) :
    ∃ rows, stepTargets parts nbStart nbEnd = some rows ∧ rows.length = nbStart ∧
      ∀ (i : Nat) (r : Row), rows[i]? = some r → ∃ q0 q1, r.p0 = trunc q0 ∧ r.p1 = trunc q1 ∧
        TopTwo id (fun j => (j : Int)) (fun j => j < nbEnd ∧ moved parts i j ≠ 0) (share parts i) ⟨r.t0, r.t1, q0, q1⟩ := by
  obtain ⟨rows, h1, h2, h3⟩ := get_targets_spec h
  refine ⟨_, by unfold stepTargets; rw [h1]; rfl, by simpa using h2, ?_⟩
  intro i r hr
  rw [List.getElem?_map] at hr
  obtain ⟨r', hr', rfl⟩ := Option.map_eq_some_iff.1 hr
  exact ⟨r'.p0, r'.p1, rfl, rfl, h3 i r' hr'⟩

/-! ### get_matrix -/

theorem matrixLoop_other {st : Rat → Rat} {ts te : List Nat} {c : Counts} : ∀ (l : List Nat) (a : Nat → Row) (k : Nat),
    (∀ i ∈ l, ts.getD i 0 ≠ k) → matrixLoop st ts te c l a k = a k
  | [], a, k, _ => rfl
  | i :: l, a, k, h => by
    rw [matrixLoop, matrixLoop_other l _ k (fun i hi => h i (List.mem_cons_of_mem _ hi)),
      Function.update_of_ne (fun he => h i (by simp) he.symm)]

theorem matrixLoop_row {st : Rat → Rat} {ts te : List Nat} {c : Counts} : ∀ (l : List Nat) (a : Nat → Row) (i : Nat), l.Nodup →
    i ∈ l → (∀ j ∈ l, ts.getD j 0 = ts.getD i 0 → j = i) →
    matrixLoop st ts te c l a (ts.getD i 0) =
      rowLoop st (fun j => ((te.getD j 0 : Nat) : Int)) (c.counts i) (c.ref i) te.length (a (ts.getD i 0))
  | i' :: l, a, i, hn, hi, hu => by
    rw [List.nodup_cons] at hn
    rw [matrixLoop]
    by_cases he : i' = i
    · subst he
      rw [matrixLoop_other l _ _ (fun j hj he => by
        have := hu j (List.mem_cons_of_mem _ hj) he
        exact hn.1 (this ▸ hj)), Function.update_self]
    · have hi' : i ∈ l := by
        rcases List.mem_cons.1 hi with h | h
        · exact absurd h.symm he
        · exact h
      rw [matrixLoop_row l _ i hn.2 hi' (fun j hj => hu j (List.mem_cons_of_mem _ hj)),
        Function.update_of_ne (fun h => he (hu i' (by simp) h.symm))]

/-- **C55** (`get_matrix`), for any type of the array: the lines of the observations at the start hold the two targets with the
largest stored percentages, the other lines are not changed. Missing for the whole property: in an array of integers, which is
what `segment_coherence_backward` and `segment_coherence_forward` give, the stored percentages have no fraction and two targets
with the same integer part may be exchanged (`get_matrix_int_wrong`). -/
theorem get_matrix_partial {st : Rat → Rat} (hst : Store st) {parts : List (Nat × Int)} {ts te : List Nat} (hts : ts.Nodup)
    (hte : te.Nodup) (h : InRange parts ts.length te.length) {a : Nat → Row} (ha : ∀ o ∈ ts, a o = emptyRow) :
    ∃ b, getMatrix st parts ts te a = some b ∧ (∀ k, k ∉ ts → b k = a k) ∧
      ∀ (i o : Nat), ts[i]? = some o →
        TopTwo st (fun j => ((te.getD j 0 : Nat) : Int)) (fun j => j < te.length ∧ moved parts i j ≠ 0) (share parts i) (b o) := by
  obtain ⟨c, h1, h2, h3⟩ := countLoop_spec parts ⟨fun _ _ => 0, fun _ => 0⟩ h
  have hget : ∀ {l : List Nat} {i : Nat} (hi : i < l.length), l.getD i 0 = l[i] := by
    intro l i hi
    rw [List.getD_eq_getElem?_getD, List.getElem?_eq_getElem hi]; rfl
  have hinj : ∀ {l : List Nat}, l.Nodup → ∀ i j, i < l.length → j < l.length → l.getD i 0 = l.getD j 0 → i = j := by
    intro l hl i j hi hj he
    rw [hget hi, hget hj] at he
    exact (List.Nodup.getElem_inj_iff hl).1 he
  refine ⟨_, by unfold getMatrix; rw [h1]; rfl, ?_, ?_⟩
  · intro k hk
    apply matrixLoop_other
    intro i hi he
    apply hk
    rw [← he, hget (List.mem_range.1 hi)]
    exact List.getElem_mem _
  · intro i o ho
    obtain ⟨hi, ho'⟩ := List.getElem?_eq_some_iff.1 ho
    have ho2 : ts.getD i 0 = o := by rw [hget hi, ho']
    have hrow := matrixLoop_row (st := st) (te := te) (c := c) (List.range ts.length) a i List.nodup_range (List.mem_range.2 hi)
      (fun j hj he => hinj hts j i (List.mem_range.1 hj) hi he)
    rw [ho2, ha o (ho' ▸ List.getElem_mem _)] at hrow
    show TopTwo _ _ _ _ (matrixLoop st ts te c (List.range ts.length) a o)
    rw [hrow]
    have hc : c.counts i = moved parts i := by funext j; rw [h2]; simp
    have hr' : c.ref i = started parts i := by rw [h3]; simp
    rw [hc, hr']
    have hsh : share parts i = fun j => percent (moved parts i j) (started parts i) := by
      funext j; rw [percent_eq_share]
    rw [hsh]
    apply rowLoop_spec hst
    · intro j hj
      have := moved_le_started parts i j
      omega
    · intro j k hj hk he
      exact hinj hte j k hj hk (by simpa using he)

/-- **Disagreement with C55**: with an array of integers (`i1`, as in `segment_coherence_backward` and
`segment_coherence_forward`), the first target is not the one with the most particles: among 201 particles, 84 (41.8 %) are in the
observation 8 and 83 (41.3 %) in the observation 9, the targets are 9 and then 8. -/
theorem get_matrix_int_wrong :
    (getMatrix trunc (List.replicate 84 (0, 0) ++ List.replicate 83 (0, 1) ++ List.replicate 34 (0, -1)) [5] [8, 9]
      (fun _ => emptyRow)).map (fun b => b 5) = some ⟨9, 8, 41, 41⟩ := by decide +kernel

/-- With floats the same particles give the right order. -/
example : (getMatrix id (List.replicate 84 (0, 0) ++ List.replicate 83 (0, 1) ++ List.replicate 34 (0, -1)) [5] [8, 9]
      (fun _ => emptyRow)).map (fun b => b 5) = some ⟨8, 9, 2800 / 67, 8300 / 201⟩ := by decide +kernel

example : stepTargets [(0, 2), (0, 2), (0, 1), (0, -1), (0, 1), (0, 2), (1, 0)] 3 4 =
    some [⟨2, 1, 50, 33⟩, ⟨0, -1, 100, 0⟩, ⟨-1, -1, 0, 0⟩] := by decide +kernel

example : InRange [(0, 2), (0, 2), (0, 1), (0, -1), (0, 1), (0, 2), (1, 0)] 3 4 := by
  unfold InRange; decide

/-! ### merge_particle_result -/

/-- **C55** (`merge_particle_result`): the line of each observation of `origin` holds its local targets in global numbers, the other
lines are not changed. -/
theorem merge_result_spec {te : List Nat} : ∀ {origin : List Nat} {rows : List Row} {a : Nat → Row}, origin.Nodup →
    origin.length = rows.length → (∀ k, k ∉ origin → mergeResult te origin rows a k = a k) ∧
    ∀ (i o : Nat) (r : Row), origin[i]? = some o → rows[i]? = some r →
      (mergeResult te origin rows a o).p0 = r.p0 ∧ (mergeResult te origin rows a o).p1 = r.p1 ∧
      (r.t0 = -1 → (mergeResult te origin rows a o).t0 = -1) ∧ (r.t1 = -1 → (mergeResult te origin rows a o).t1 = -1) ∧
      (∀ j : Nat, r.t0 = j → (mergeResult te origin rows a o).t0 = ((te.getD j 0 : Nat) : Int)) ∧
      (∀ j : Nat, r.t1 = j → (mergeResult te origin rows a o).t1 = ((te.getD j 0 : Nat) : Int))
  | [], rows, a, _, _ => ⟨fun k _ => rfl, fun i o r ho => by simp at ho⟩
  | o :: origin, [], a, _, hl => by simp at hl
  | o :: origin, r :: rows, a, hn, hl => by
    rw [List.nodup_cons] at hn
    obtain ⟨h1, h2⟩ := merge_result_spec (te := te) (a := Function.update a o
      ⟨if r.t0 ≠ -1 then ((te.getD r.t0.toNat 0 : Nat) : Int) else -1,
        if r.t1 ≠ -1 then ((te.getD r.t1.toNat 0 : Nat) : Int) else -1, r.p0, r.p1⟩) hn.2 (by simpa using hl)
    rw [mergeResult]
    constructor
    · intro k hk
      rw [List.mem_cons, not_or] at hk
      rw [h1 k hk.2, Function.update_of_ne hk.1]
    · intro i o' r' ho hr
      cases i with
      | zero =>
        simp only [List.getElem?_cons_zero, Option.some.injEq] at ho hr
        subst ho; subst hr
        rw [h1 o hn.1, Function.update_self]
        refine ⟨rfl, rfl, fun h => by simp [h], fun h => by simp [h], ?_, ?_⟩
        · intro j hj
          simp only [hj, Int.toNat_natCast]
          rw [if_pos (by omega)]
        · intro j hj
          simp only [hj, Int.toNat_natCast]
          rw [if_pos (by omega)]
      | succ i =>
        simp only [List.getElem?_cons_succ] at ho hr
        exact h2 i o' r' ho hr

example : mergeResult [10, 20, 30] [4, 7] [⟨2, -1, 50, 0⟩, ⟨0, 1, 60, 20⟩] (fun _ => emptyRow) 7 = ⟨10, 20, 60, 20⟩ := by
  decide +kernel

end Verif.Targets
