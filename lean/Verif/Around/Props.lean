import Verif.Around.Model
import Verif.Boxes.Props
import Mathlib.Data.List.Sort
import Mathlib.Tactic.IntervalCases

/-!
# C120: statistics of coherence around an event
-/

namespace Verif.Around

/-! ### Specification -/

/-- The row is in the segment and at less than `window` of the time. -/
def Cond (n : Net) (t0 : Rat) (s0 : Int) (window : Nat) (k : Nat) : Prop :=
  ∃ t, n.time[k]? = some t ∧ |t - t0| < window ∧ n.segment[k]? = some s0

/-- The rows met from a row along the links, as long as they fulfil the condition. -/
inductive Run (n : Net) (t0 : Rat) (s0 : Int) (window : Nat) : Int → List Nat → Prop
  | stop (i : Int) (h : ∀ k : Nat, i = k → ¬Cond n t0 s0 window k) : Run n t0 s0 window i []
  | step (k : Nat) (b : Int) (rows : List Nat) (h : Cond n t0 s0 window k) (hb : n.follow[k]? = some b) (hr : Run n t0 s0 window b rows) :
      Run n t0 s0 window k (k :: rows)

/-- The percent when the target is an observation of the segment. -/
def pick (segment : List Int) (target : Int) (e : Int × Rat) : Option Rat :=
  if 0 ≤ e.1 ∧ segment[e.1.toNat]? = some target then some e.2 else none

/-- The percents of a row whose target is an observation of the segment. -/
def rowValues (n : Net) (target : Int) (k : Nat) : List Rat :=
  ((n.indexs.getD k []).zip (n.percents.getD k [])).filterMap (pick n.segment target)

/-- A network and its coherence: links and targets designate rows, a link is one day or more, in one direction of time; one target at most by
row for each segment. -/
structure Daily (n : Net) (σ : Rat) : Prop where
  sign : σ = 1 ∨ σ = -1
  size : n.segment.length = n.time.length ∧ n.follow.length = n.time.length ∧ n.indexs.length = n.time.length ∧ n.percents.length = n.time.length
  links : ∀ b ∈ n.follow, b = -1 ∨ ∃ k : Nat, b = k ∧ k < n.time.length
  days : ∀ (a b : Nat) (ta tb : Rat), n.follow[a]? = some (b : Int) → n.time[a]? = some ta → n.time[b]? = some tb → σ * ta + 1 ≤ σ * tb
  targets : ∀ l ∈ n.indexs, ∀ x ∈ l, x = -1 ∨ ∃ k : Nat, x = k ∧ k < n.time.length
  one : ∀ (target : Int) (k : Nat), (rowValues n target k).length ≤ 1

/-! ### Proofs -/

theorem pushRow_spec {segment : List Int} {target : Int} {window : Nat} : ∀ (l : List (Int × Rat)) (acc : List Rat),
    (∀ e ∈ l, e.1 = -1 ∨ ∃ k : Nat, e.1 = k ∧ k < segment.length) →
    acc.length + (l.filterMap (pick segment target)).length ≤ window →
    pushRow segment target window l acc =
      some (acc ++ l.filterMap (pick segment target))
  | [], acc, _, _ => by simp [pushRow]
  | (x, p) :: l, acc, hv, hl => by
    have ih := fun acc => pushRow_spec (segment := segment) (target := target) (window := window) l acc (fun e he => hv e (by simp [he]))
    rw [pushRow]
    rcases hv (x, p) (by simp) with h | ⟨k, hk, hk'⟩
    · simp only at h
      subst h
      rw [List.filterMap_cons_none (by simp [pick])] at hl ⊢
      rw [if_pos rfl, ih acc hl]
    · simp only at hk
      subst hk
      rw [if_neg (by omega), Py.get_natCast, List.getElem?_eq_getElem hk']
      simp only
      by_cases hs : segment[k] = target
      · have e : pick segment target ((k : Int), p) = some p := by
          rw [pick, if_pos]
          simp [List.getElem?_eq_getElem hk', hs]
        rw [List.filterMap_cons_some e] at hl ⊢
        rw [List.length_cons] at hl
        rw [if_pos hs, if_pos (by omega), ih (acc ++ [p]) (by rw [List.length_append, List.length_singleton]; omega)]
        simp
      · have e : pick segment target ((k : Int), p) = none := by
          rw [pick, if_neg]
          simp [List.getElem?_eq_getElem hk', hs]
        rw [List.filterMap_cons_none e] at hl ⊢
        rw [if_neg hs, ih acc hl]

theorem get_last {α : Type} (l : List α) (h : 0 < l.length) : ∃ x, Py.get l (-1) = some x := by
  refine ⟨l[l.length - 1], ?_⟩
  unfold Py.get Py.idx
  rw [if_neg (by omega), if_pos (by omega)]
  simp only [Option.bind_some]
  have : ((-1 : Int) + (l.length : Int)).toNat = l.length - 1 := by omega
  rw [this, List.getElem?_eq_getElem]

theorem walk_spec {n : Net} {σ : Rat} (h : Daily n σ) (t0 : Rat) (s0 target : Int) (window : Nat) : ∀ (fuel d i : Nat) (acc : List Rat) (ti : Rat),
    n.time[i]? = some ti → σ * t0 + d ≤ σ * ti → acc.length ≤ d → window < fuel + d → (0 < fuel) →
    ∃ rows, Run n t0 s0 window i rows ∧ walk n t0 s0 target window fuel i acc = some (acc ++ rows.flatMap (rowValues n target))
  | 0, _, _, _, _, _, _, _, _, hf => absurd hf (lt_irrefl 0)
  | fuel + 1, d, i, acc, ti, ht, hd, ha, hw, _ => by
    have hi : i < n.time.length := (List.getElem?_eq_some_iff.1 ht).1
    obtain ⟨z1, z2, z3, z4⟩ := h.size
    have habs : (d : Rat) ≤ |ti - t0| := by
      rcases h.sign with e | e
      · rw [e] at hd; exact (by linarith : (d : Rat) ≤ ti - t0).trans (le_abs_self _)
      · rw [e] at hd; exact (by linarith : (d : Rat) ≤ -(ti - t0)).trans (neg_le_abs _)
    rw [walk, Py.get_natCast, ht]
    simp only [Option.bind_eq_bind, Option.bind_some]
    by_cases hc : |ti - t0| < window
    · rw [if_pos ⟨by rw [abs_sub_comm]; exact hc, by omega⟩, Py.get_natCast, List.getElem?_eq_getElem (by omega : i < n.segment.length)]
      simp only [Option.bind_some]
      by_cases hs : s0 = n.segment[i]
      · have cond : Cond n t0 s0 window i := ⟨ti, ht, hc, by rw [List.getElem?_eq_getElem (by omega : i < n.segment.length), hs]⟩
        have hdw : d < window := by
          have : (d : Rat) < window := lt_of_le_of_lt habs hc
          exact_mod_cast this
        have e1 : n.indexs[i]? = some (n.indexs.getD i []) := by
          rw [List.getD_eq_getElem?_getD, List.getElem?_eq_getElem (by omega : i < n.indexs.length)]; rfl
        have e2 : n.percents[i]? = some (n.percents.getD i []) := by
          rw [List.getD_eq_getElem?_getD, List.getElem?_eq_getElem (by omega : i < n.percents.length)]; rfl
        have hone := h.one target i
        have hp := pushRow_spec (segment := n.segment) (target := target) (window := window) ((n.indexs.getD i []).zip (n.percents.getD i [])) acc
          (fun e he => by
            rw [z1]
            exact h.targets _ (List.mem_of_getElem? e1) e.1 (List.of_mem_zip he).1)
          (by unfold rowValues at hone; omega)
        rw [if_pos hs, Py.get_natCast, Py.get_natCast, e1, e2]
        simp only [Option.bind_some]
        rw [hp]
        simp only [Option.bind_some]
        have hfl : i < n.follow.length := by omega
        rw [Py.get_natCast, List.getElem?_eq_getElem hfl]
        simp only [Option.bind_some]
        obtain ⟨b, hb⟩ : ∃ b, n.follow[i] = b := ⟨_, rfl⟩
        have hfb : n.follow[i]? = some b := by rw [List.getElem?_eq_getElem hfl, hb]
        rw [hb]
        rcases h.links b (List.mem_of_getElem? hfb) with e | ⟨k, e, hk⟩
        · subst e
          have hfuel : 0 < fuel := by omega
          obtain ⟨f, rfl⟩ : ∃ f, fuel = f + 1 := ⟨fuel - 1, by omega⟩
          refine ⟨[i], Run.step i (-1) [] cond hfb (Run.stop _ (fun k hk => by omega)), ?_⟩
          obtain ⟨x, hx⟩ := get_last n.time (by omega)
          rw [walk, hx]
          simp [rowValues]
        · subst e
          have htk : n.time[k]? = some n.time[k] := List.getElem?_eq_getElem hk
          have hday := h.days i k ti _ hfb ht htk
          have hrow : (rowValues n target i).length ≤ 1 := hone
          obtain ⟨rows, r1, r2⟩ := walk_spec h t0 s0 target window fuel (d + 1) k (acc ++ rowValues n target i) _ htk
            (by push_cast; linarith) (by rw [List.length_append]; omega) (by omega) (by omega)
          refine ⟨i :: rows, Run.step i k rows cond hfb r1, ?_⟩
          rw [show (acc ++ List.filterMap (pick n.segment target)
            ((n.indexs.getD i []).zip (n.percents.getD i []))) = acc ++ rowValues n target i from rfl, r2]
          simp
      · rw [if_neg hs]
        refine ⟨[], Run.stop _ ?_, by simp⟩
        rintro k hk ⟨t, _, _, hk'⟩
        have : i = k := by exact_mod_cast hk
        subst this
        rw [List.getElem?_eq_getElem (by omega : i < n.segment.length), Option.some.injEq] at hk'
        exact hs hk'.symm
    · rw [if_neg (fun hx => hc (by rw [abs_sub_comm]; exact hx.1))]
      refine ⟨[], Run.stop _ ?_, by simp⟩
      rintro k hk ⟨t, hk', hk'', _⟩
      have : i = k := by exact_mod_cast hk
      subst this
      rw [ht, Option.some.injEq] at hk'
      subst hk'
      exact hc hk''

/-- The rows which are met are determined. -/
theorem Run.unique {n : Net} {t0 : Rat} {s0 : Int} {window : Nat} {i : Int} {rows rows' : List Nat} (h : Run n t0 s0 window i rows)
    (h' : Run n t0 s0 window i rows') : rows = rows' := by
  induction h generalizing rows' with
  | stop i h =>
    cases h' with
    | stop => rfl
    | step k b r hc _ _ => exact absurd hc (h k rfl)
  | step k b rows hc hb hr ih =>
    generalize hi : (k : Int) = i at h'
    cases h' with
    | stop _ h => exact absurd hc (h k hi.symm)
    | step k' b' r hc' hb' hr' =>
      have : k = k' := by exact_mod_cast hi
      subst this
      rw [hb, Option.some.injEq] at hb'
      subst hb'
      rw [ih hr']

/-- The rows of a run: they start at the row, stay in the segment and in the window, each one is the link of the one before. -/
theorem Run.rows {n : Net} {t0 : Rat} {s0 : Int} {window : Nat} {i : Int} {rows : List Nat} (h : Run n t0 s0 window i rows) :
    (∀ k ∈ rows, Cond n t0 s0 window k) ∧ (∀ k ∈ rows.head?, i = k) ∧ ∀ (j a b : Nat), rows[j]? = some a → rows[j + 1]? = some b →
      n.follow[a]? = some (b : Int) := by
  induction h with
  | stop => exact ⟨by simp, by simp, by simp⟩
  | step k b rows hc hb hr ih =>
    obtain ⟨h1, h2, h3⟩ := ih
    refine ⟨?_, ?_, ?_⟩
    · intro x hx
      rcases List.mem_cons.1 hx with rfl | hx
      · exact hc
      · exact h1 x hx
    · intro x hx
      simp only [List.head?_cons, Option.mem_def, Option.some.injEq] at hx
      rw [hx]
    · intro j a c ha hcc
      cases j with
      | zero =>
        simp only [List.getElem?_cons_zero, Option.some.injEq] at ha
        subst ha
        simp only [Nat.zero_add, List.getElem?_cons_succ] at hcc
        have := h2 c (by rw [List.head?_eq_getElem?]; exact hcc)
        rw [hb, this]
      | succ j =>
        simp only [List.getElem?_cons_succ] at ha hcc
        exact h3 j a c ha hcc

/-- **C120**: the statistic is the percentile of the percents of the rows met, in the segment and the window, towards the segment of the target;
nan when there are not enough. -/
theorem on_following_spec {n : Net} {σ : Rat} (h : Daily n σ) {fuel i j window nbMin : Nat} {q t0 : Rat} {s0 target : Int} (hf : window < fuel)
    (ht : n.time[i]? = some t0) (hs : n.segment[i]? = some s0) (hj : n.segment[j]? = some target) :
    ∃ rows, Run n t0 s0 window i rows ∧ onFollowing n fuel i j window q nbMin =
      some (if (rows.flatMap (rowValues n target)).length < nbMin ∨ rows.flatMap (rowValues n target) = [] then none
        else some (Boxes.percentile q (rows.flatMap (rowValues n target)))) := by
  obtain ⟨rows, r1, r2⟩ := walk_spec h t0 s0 target window fuel 0 i [] t0 ht (by simp) (by simp) (by omega) (by omega)
  refine ⟨rows, r1, ?_⟩
  unfold onFollowing
  rw [Py.get_natCast, Py.get_natCast, Py.get_natCast, ht, hs, hj]
  simp only [Option.bind_eq_bind, Option.bind_some]
  rw [r2]
  simp only [Option.bind_some, List.nil_append]
  split_ifs <;> rfl

theorem mapM_eq {α β : Type} {f : α → Option β} {l : List α} {r : List β} (h : l.mapM f = some r) : r.length = l.length ∧
    ∀ (k : Nat) (a : α), l[k]? = some a → r[k]? = f a := by
  induction l generalizing r with
  | nil =>
    simp at h
    subst h
    simp
  | cons a l ih =>
    rw [List.mapM_cons] at h
    simp only [Option.bind_eq_bind, Option.bind_eq_some_iff, Option.pure_def, Option.some.injEq] at h
    obtain ⟨b, hb, r', hr', rfl⟩ := h
    obtain ⟨i1, i2⟩ := ih hr'
    refine ⟨by simp [i1], ?_⟩
    intro k x hx
    cases k with
    | zero =>
      simp only [List.getElem?_cons_zero, Option.some.injEq] at hx ⊢
      rw [← hx, hb]
    | succ k =>
      simp only [List.getElem?_cons_succ] at hx ⊢
      exact i2 k x hx

/-- Each event has its two statistics: of the target along the path of the event for the parents, of the event along the paths of the
origins otherwise. -/
theorem around_event_spec {n : Net} {fuel : Nat} {events : List (Int × Int × Int)} {window nbMin : Nat} {parent : Bool} {q : Rat}
    {out : List (Option Rat × Option Rat)} (h : aroundEvent n fuel events window parent q nbMin = some out) : out.length = events.length ∧
    ∀ (k : Nat) (i i1 i2 : Int), events[k]? = some (i, i1, i2) → ∃ a b, out[k]? = some (a, b) ∧
      onFollowing n fuel (if parent then i else i1) (if parent then i1 else i) window q nbMin = some a ∧
      onFollowing n fuel (if parent then i else i2) (if parent then i2 else i) window q nbMin = some b := by
  obtain ⟨h1, h2⟩ := mapM_eq h
  refine ⟨h1, ?_⟩
  intro k i i1 i2 hk
  have e := h2 k _ hk
  have hlt : k < out.length := by rw [h1]; exact (List.getElem?_eq_some_iff.1 hk).1
  rw [List.getElem?_eq_getElem hlt] at e
  cases parent
  · simp only [Bool.false_eq_true, if_false, Option.bind_eq_bind] at e ⊢
    obtain ⟨a, ha, e⟩ := Option.bind_eq_some_iff.1 e.symm
    obtain ⟨b, hb, e⟩ := Option.bind_eq_some_iff.1 e
    exact ⟨a, b, by rw [List.getElem?_eq_getElem hlt]; exact e.symm, ha, hb⟩
  · simp only [if_true, Option.bind_eq_bind] at e ⊢
    obtain ⟨a, ha, e⟩ := Option.bind_eq_some_iff.1 e.symm
    obtain ⟨b, hb, e⟩ := Option.bind_eq_some_iff.1 e
    exact ⟨a, b, by rw [List.getElem?_eq_getElem hlt]; exact e.symm, ha, hb⟩

/-! ### The percentile -/

theorem sorted_getD {s : List Rat} (hs : s.Pairwise (· ≤ ·)) {i j : Nat} (hij : i ≤ j) (hj : j < s.length) (d e : Rat) : s.getD i d ≤ s.getD j e := by
  rw [List.getD_eq_getElem?_getD, List.getD_eq_getElem?_getD, List.getElem?_eq_getElem (by omega : i < s.length), List.getElem?_eq_getElem hj]
  simp only [Option.getD_some]
  rcases Nat.lt_or_eq_of_le hij with h | h
  · exact List.pairwise_iff_getElem.1 hs i j _ _ h
  · subst h; exact le_refl _

/-- The percentile is between two values of the list which follow each other in order; no value is strictly between them and the parts below and
above are those of `q`. -/
theorem percentile_rank {q : Rat} (h0 : 0 ≤ q) (h1 : q ≤ 100) {l : List Rat} (hl : l ≠ []) : ∃ (s : List Rat) (k : Nat) (w a b : Rat),
    s.Perm l ∧ s.Pairwise (· ≤ ·) ∧ s[k]? = some a ∧ (s[k + 1]? = some b ∨ (b = a ∧ k + 1 = s.length)) ∧ 0 ≤ w ∧ w < 1 ∧ a ≤ b ∧
    (k : Rat) + w = q / 100 * ((l.length : Rat) - 1) ∧ Boxes.percentile q l = a + w * (b - a) := by
  obtain ⟨s, hs⟩ : ∃ s, s = l.insertionSort (· ≤ ·) := ⟨_, rfl⟩
  have perm : s.Perm l := by rw [hs]; exact List.perm_insertionSort _ _
  have sorted : s.Pairwise (· ≤ ·) := by rw [hs]; exact List.pairwise_insertionSort _ _
  have len : s.length = l.length := perm.length_eq
  have pos : 0 < l.length := List.length_pos_iff.2 hl
  obtain ⟨r, hr⟩ : ∃ r, r = q / 100 * ((l.length : Rat) - 1) := ⟨_, rfl⟩
  have c1 : (1 : Rat) ≤ l.length := by exact_mod_cast pos
  have r0 : 0 ≤ r := by rw [hr]; exact mul_nonneg (by linarith) (by linarith)
  have r1 : r ≤ (l.length : Rat) - 1 := by
    rw [hr]
    have : q / 100 ≤ 1 := by linarith
    nlinarith
  have hfl : 0 ≤ ⌊r⌋ := Int.floor_nonneg.2 r0
  obtain ⟨k, hk⟩ : ∃ k : Nat, ⌊r⌋ = k := ⟨⌊r⌋.toNat, by omega⟩
  have hk1 : (k : Rat) ≤ r := by
    have := Int.floor_le r
    rw [hk] at this
    exact_mod_cast this
  have hk2 : r < (k : Rat) + 1 := by
    have := Int.lt_floor_add_one r
    rw [hk] at this
    exact_mod_cast this
  have hkl : k < s.length := by
    rw [len]
    have : (k : Rat) < l.length := by linarith
    exact_mod_cast this
  have e : Boxes.percentile q l = s.getD k 0 + (r - k) * (s.getD (k + 1) (s.getD k 0) - s.getD k 0) := by
    unfold Boxes.percentile
    simp only
    rw [← hs, len, ← hr, hk]
    rfl
  refine ⟨s, k, r - k, s.getD k 0, s.getD (k + 1) (s.getD k 0), perm, sorted, ?_, ?_, by linarith, by linarith, ?_, by linarith, e⟩
  · rw [List.getD_eq_getElem?_getD, List.getElem?_eq_getElem hkl]; rfl
  · by_cases h : k + 1 < s.length
    · left
      rw [List.getD_eq_getElem?_getD, List.getElem?_eq_getElem h]; rfl
    · right
      rw [List.getD_eq_getElem?_getD, List.getElem?_eq_none (by omega)]
      exact ⟨rfl, by omega⟩
  · by_cases h : k + 1 < s.length
    · exact sorted_getD sorted (by omega) h _ _
    · conv_rhs => rw [List.getD_eq_getElem?_getD, List.getElem?_eq_none (by omega)]
      exact le_refl _

/-- The percentile is between the values. -/
theorem percentile_between {q lo hi : Rat} (h0 : 0 ≤ q) (h1 : q ≤ 100) {l : List Rat} (hl : l ≠ []) (hlo : ∀ x ∈ l, lo ≤ x) (hhi : ∀ x ∈ l, x ≤ hi) :
    lo ≤ Boxes.percentile q l ∧ Boxes.percentile q l ≤ hi := by
  obtain ⟨s, k, w, a, b, perm, _, ha, hb, w0, w1, hab, _, e⟩ := percentile_rank h0 h1 hl
  have ma : a ∈ l := perm.mem_iff.1 (List.mem_of_getElem? ha)
  have mb : b ∈ l := by
    rcases hb with hb | ⟨rfl, _⟩
    · exact perm.mem_iff.1 (List.mem_of_getElem? hb)
    · exact ma
  rw [e]
  have := hlo a ma
  have := hhi b mb
  constructor <;> nlinarith

/-! ### Examples -/

/-- Four days of a segment 1, then a segment 2; the particles of the rows of the segment 1 go to the rows of the segment 2. -/
def sample : Net where
  time := [0, 1, 2, 3, 4]
  segment := [1, 1, 1, 2, 2]
  follow := [1, 2, 3, 4, -1]
  indexs := [[3, -1], [2, 4], [4, 3], [4, -1], [-1, -1]]
  percents := [[50, 0], [10, 80], [20, 0], [90, 0], [0, 0]]

example : onFollowing { sample with indexs := [[3, -1], [2, 4], [4, -1], [4, -1], [-1, -1]] } 11 0 3 10 50 1 = some (some 50) := by decide +kernel

example : Run sample 0 1 2 0 [0, 1] := by
  have c : ∀ k : Nat, k < 2 → Cond sample 0 1 2 k := by
    intro k hk
    interval_cases k
    · exact ⟨0, rfl, by norm_num, rfl⟩
    · exact ⟨1, rfl, by norm_num, rfl⟩
  refine Run.step 0 1 _ (c 0 (by omega)) rfl (Run.step 1 2 _ (c 1 (by omega)) rfl (Run.stop _ ?_))
  rintro k hk ⟨t, ht, hw, _⟩
  have : k = 2 := by omega
  subst this
  have : t = 2 := by
    have : sample.time[2]? = some 2 := rfl
    rw [this] at ht
    exact (Option.some.inj ht).symm
  subst this
  norm_num at hw

/-- Two days of a segment whose particles go to another one. -/
def twoDays : Net := ⟨[0, 1, 3], [1, 1, 2], [1, -1, -1], [[2], [2], [-1]], [[40], [60], [0]]⟩

example : Daily twoDays 1 where
  sign := Or.inl rfl
  size := ⟨rfl, rfl, rfl, rfl⟩
  links := by
    intro b hb
    simp only [twoDays, List.mem_cons, List.not_mem_nil, or_false] at hb
    rcases hb with rfl | rfl | rfl
    · exact Or.inr ⟨1, rfl, by decide⟩
    · exact Or.inl rfl
    · exact Or.inl rfl
  days := by
    intro a b ta tb h1 h2 h3
    match a, h1, h2 with
    | 0, h1, h2 =>
      simp only [twoDays, List.getElem?_cons_zero, Option.some.injEq] at h1 h2
      have : b = 1 := by omega
      subst this h2
      simp only [twoDays, List.getElem?_cons_succ, List.getElem?_cons_zero, Option.some.injEq] at h3
      rw [← h3]; norm_num
    | 1, h1, h2 => simp [twoDays] at h1
    | 2, h1, h2 => simp [twoDays] at h1
    | (k + 3), h1, h2 => simp [twoDays] at h2
  targets := by
    intro l hl x hx
    simp only [twoDays, List.mem_cons, List.not_mem_nil, or_false] at hl
    rcases hl with rfl | rfl | rfl
    · simp only [List.mem_cons, List.not_mem_nil, or_false] at hx; subst hx; exact Or.inr ⟨2, rfl, by decide⟩
    · simp only [List.mem_cons, List.not_mem_nil, or_false] at hx; subst hx; exact Or.inr ⟨2, rfl, by decide⟩
    · simp only [List.mem_cons, List.not_mem_nil, or_false] at hx; subst hx; exact Or.inl rfl
  one := by
    intro target k
    unfold rowValues
    refine (List.length_filterMap_le _ _).trans ?_
    match k with
    | 0 => simp [twoDays]
    | 1 => simp [twoDays]
    | 2 => simp [twoDays]
    | (k + 3) => simp [twoDays]

example : onFollowing twoDays 11 0 2 10 50 1 = some (some 50) := by decide +kernel

/-- The whole statement without the day: links in one direction of time, whatever the steps. -/
def AnyStep : Prop := ∀ (n : Net) (fuel i j window nbMin : Nat) (q : Rat), n.segment.length = n.time.length → n.follow.length = n.time.length →
    n.indexs.length = n.time.length → n.percents.length = n.time.length → (∀ b ∈ n.follow, b = -1 ∨ ∃ k : Nat, b = k ∧ k < n.time.length) →
    (∀ (a b : Nat) (ta tb : Rat), n.follow[a]? = some (b : Int) → n.time[a]? = some ta → n.time[b]? = some tb → ta < tb) →
    (∀ l ∈ n.indexs, ∀ x ∈ l, x = -1 ∨ ∃ k : Nat, x = k ∧ k < n.time.length) → (∀ (target : Int) (k : Nat), (rowValues n target k).length ≤ 1) →
    i < n.time.length → j < n.time.length → n.time.length < fuel → ∃ r, onFollowing n fuel i j window q nbMin = some r

/-- Two rows of the same day: the array has one place for each day of the window. -/
theorem any_step_wrong : ¬AnyStep := by
  intro h
  obtain ⟨r, hr⟩ := h ⟨[0, 1 / 2, 3], [1, 1, 2], [1, -1, -1], [[2], [2], [-1]], [[40], [60], [0]]⟩ 5 0 2 1 1 50 rfl rfl rfl rfl
    (by
      intro b hb
      simp only [List.mem_cons, List.not_mem_nil, or_false] at hb
      rcases hb with rfl | rfl | rfl
      · exact Or.inr ⟨1, rfl, by decide⟩
      · exact Or.inl rfl
      · exact Or.inl rfl)
    (by
      intro a b ta tb h1 h2 h3
      match a, h1, h2 with
      | 0, h1, h2 =>
        simp only [List.getElem?_cons_zero, Option.some.injEq] at h1 h2
        have : b = 1 := by omega
        subst this h2
        simp only [List.getElem?_cons_succ, List.getElem?_cons_zero, Option.some.injEq] at h3
        rw [← h3]; norm_num
      | 1, h1, h2 => simp at h1
      | 2, h1, h2 => simp at h1
      | (k + 3), h1, h2 => simp at h2)
    (by
      intro l hl x hx
      simp only [List.mem_cons, List.not_mem_nil, or_false] at hl
      rcases hl with rfl | rfl | rfl
      · simp only [List.mem_cons, List.not_mem_nil, or_false] at hx; subst hx; exact Or.inr ⟨2, rfl, by decide⟩
      · simp only [List.mem_cons, List.not_mem_nil, or_false] at hx; subst hx; exact Or.inr ⟨2, rfl, by decide⟩
      · simp only [List.mem_cons, List.not_mem_nil, or_false] at hx; subst hx; exact Or.inl rfl)
    (by
      intro target k
      unfold rowValues
      refine (List.length_filterMap_le _ _).trans ?_
      match k with
      | 0 => simp
      | 1 => simp
      | 2 => simp
      | (k + 3) => simp)
    (by decide) (by decide) (by decide)
  revert hr
  have : onFollowing ⟨[0, 1 / 2, 3], [1, 1, 2], [1, -1, -1], [[2], [2], [-1]], [[40], [60], [0]]⟩ 5 (0 : Nat) (2 : Nat) 1 50 1 = none := by decide +kernel
  rw [this]
  intro hr
  cases hr

end Verif.Around
