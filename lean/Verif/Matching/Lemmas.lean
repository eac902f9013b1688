import Verif.Matching.Model
import Mathlib.Tactic.Common
import Mathlib.Order.Basic
import Mathlib.Data.List.Nodup

/-! Helper lemmas for `Verif.Matching.Props`. -/

namespace Verif.Matching

variable {κ : Type} [LinearOrder κ]

/-- `x` is not more expensive than `y`. -/
def cle (x y : Option κ) : Prop := clt y x = false

theorem cle_refl (x : Option κ) : cle x x := by cases x <;> simp [cle, clt]

theorem cle_trans {x y z : Option κ} (h : cle x y) (h' : cle y z) : cle x z := by
  cases x <;> cases y <;> cases z <;> simp_all [cle, clt]
  exact le_trans h h'

theorem cle_of_clt {x y : Option κ} (h : clt x y = true) : cle x y := by
  cases x <;> cases y <;> simp_all [cle, clt]
  exact le_of_lt h

theorem cle_none_left {y : Option κ} (h : cle none y) : y = none := by
  cases y <;> simp_all [cle, clt]

theorem argmin_eq_none {l : List (Option κ)} : argmin l = none ↔ l = [] := by
  cases l with
  | nil => simp [argmin]
  | cons x xs =>
    simp only [argmin, reduceCtorEq, iff_false]
    split
    · simp
    · split
      · split <;> simp
      · simp

theorem argmin_spec {l : List (Option κ)} {k : Nat} (h : argmin l = some k) :
    ∃ v, l[k]? = some v ∧ ∀ (m : Nat) w, l[m]? = some w → cle v w := by
  induction l generalizing k with
  | nil => simp [argmin] at h
  | cons x xs ih =>
    simp only [argmin] at h
    split at h
    · rename_i hn
      rw [argmin_eq_none] at hn
      subst hn
      simp only [Option.some.injEq] at h
      subst h
      refine ⟨x, rfl, ?_⟩
      intro m w hm
      cases m with
      | zero => simp at hm; subst hm; exact cle_refl _
      | succ m => simp at hm
    · rename_i k' hk'
      obtain ⟨v, hv, hmin⟩ := ih hk'
      rw [hv] at h
      simp only at h
      split at h
      · rename_i hlt
        simp only [Option.some.injEq] at h
        subst h
        refine ⟨v, by simpa using hv, ?_⟩
        intro m w hm
        cases m with
        | zero => simp at hm; subst hm; exact cle_of_clt hlt
        | succ m => exact hmin m w (by simpa using hm)
      · rename_i hlt
        simp only [Option.some.injEq] at h
        subst h
        refine ⟨x, rfl, ?_⟩
        intro m w hm
        cases m with
        | zero => simp at hm; subst hm; exact cle_refl _
        | succ m =>
          refine cle_trans (y := v) ?_ (hmin m w (by simpa using hm))
          simpa [cle] using hlt

theorem countP_lt {α : Type} {p q : α → Bool} {l : List α} (hpq : ∀ x ∈ l, p x = true → q x = true)
    {x : α} (hx : x ∈ l) (hq : q x = true) (hp : p x = false) : l.countP p < l.countP q := by
  induction l with
  | nil => simp at hx
  | cons y ys ih =>
    have hle : ys.countP p ≤ ys.countP q := by
      clear ih hx
      induction ys with
      | nil => simp
      | cons z zs ih =>
        have h1 := ih (fun x hx => hpq x (by
          rcases List.mem_cons.1 hx with rfl | hx
          · exact List.mem_cons_self
          · exact List.mem_cons_of_mem _ (List.mem_cons_of_mem _ hx)))
        have h2 := hpq z (by simp)
        rw [List.countP_cons, List.countP_cons]
        by_cases hz : p z = true
        · simp [hz, h2 hz]; exact h1
        · simp [hz]; split <;> omega
    rw [List.countP_cons, List.countP_cons]
    rcases List.mem_cons.1 hx with rfl | hx
    · simp [hq, hp]; omega
    · have h1 := ih (fun x hx => hpq x (List.mem_cons_of_mem _ hx)) hx
      have h2 := hpq y (by simp)
      by_cases hz : p y = true
      · simp [hz, h2 hz]; exact h1
      · simp [hz]; split <;> omega

/-- A count of at most one means the satisfying element is unique. -/
theorem unique_of_countP_le_one {n : Nat} {p : Nat → Bool} (h : ¬ 1 < (List.range n).countP p) {a b : Nat}
    (ha : a < n) (hb : b < n) (pa : p a = true) (pb : p b = true) : a = b := by
  by_contra hne
  apply h
  have hsub : (List.range n).countP (fun x => p x && decide (x = a)) < (List.range n).countP p := by
    apply countP_lt (x := b)
    · intro x _ hx; simp at hx; exact hx.1
    · simpa using hb
    · exact pb
    · simp [pb, Ne.symm hne]
  have h1 : 0 < (List.range n).countP (fun x => p x && decide (x = a)) := by
    rw [List.countP_pos_iff]
    exact ⟨a, by simpa using ha, by simp [pa]⟩
  omega

/-! ### The conflict matrix -/

theorem mem_selfKeep {nr nc mask a} : a ∈ selfKeep nr nc mask ↔
    a < nr ∧ ((∃ j, j < nc ∧ 1 < colSum nr mask j ∧ mask a j = true) ∨ 1 < rowSum nc mask a) := by
  simp [selfKeep]

theorem mem_otherKeep {nr nc mask b} : b ∈ otherKeep nr nc mask ↔
    b < nc ∧ ((∃ i, i < nr ∧ 1 < rowSum nc mask i ∧ mask i b = true) ∨ 1 < colSum nr mask b) := by
  simp [otherKeep]

/-- A candidate is either entirely inside or entirely outside the conflict matrix. -/
theorem keep_iff {nr nc mask} (hdom : ∀ i j, mask i j = true → i < nr ∧ j < nc) {a b} (h : mask a b = true) :
    a ∈ selfKeep nr nc mask ↔ b ∈ otherKeep nr nc mask := by
  obtain ⟨ha, hb⟩ := hdom a b h
  rw [mem_selfKeep, mem_otherKeep]
  constructor
  · rintro ⟨_, h1⟩
    refine ⟨hb, ?_⟩
    by_cases hs : 1 < rowSum nc mask a
    · exact Or.inl ⟨a, ha, hs, h⟩
    · rcases h1 with ⟨j, hj, hc, hm⟩ | h1
      · have : b = j := unique_of_countP_le_one (p := fun j => mask a j) hs hb hj h hm
        exact Or.inr (this ▸ hc)
      · exact absurd h1 hs
  · rintro ⟨_, h1⟩
    refine ⟨ha, ?_⟩
    by_cases hs : 1 < colSum nr mask b
    · exact Or.inl ⟨b, hb, hs, h⟩
    · rcases h1 with ⟨i, hi, hc, hm⟩ | h1
      · have : a = i := unique_of_countP_le_one (p := fun i => mask i b) hs ha hi h hm
        exact Or.inr (this ▸ hc)
      · exact absurd h1 hs

theorem selfKeep_nodup (nr nc mask) : (selfKeep nr nc mask).Nodup := (List.nodup_range).filter _
theorem otherKeep_nodup (nr nc mask) : (otherKeep nr nc mask).Nodup := (List.nodup_range).filter _

theorem get_inj {l : List Nat} (h : l.Nodup) {i j a : Nat} (hi : l[i]? = some a) (hj : l[j]? = some a) : i = j := by
  obtain ⟨h1, e1⟩ := List.getElem?_eq_some_iff.1 hi
  obtain ⟨h2, e2⟩ := List.getElem?_eq_some_iff.1 hj
  exact (List.Nodup.getElem_inj_iff h).1 (e1.trans e2.symm)

/-- The entry (a, b) of the original matrix is still unmasked in the conflict matrix. -/
def Live (S O : List Nat) (s : LState) (a b : Nat) : Prop :=
  ∃ i j, S[i]? = some a ∧ O[j]? = some b ∧ s.red i j = false

/-- Invariant of the resolution loop; `B a' b' a b` says that the selected link (a', b') excuses the loss of the
candidate (a, b). -/
structure RInv (S O : List Nat) (M : Nat → Nat → Bool) (B : Nat → Nat → Nat → Nat → Prop) (s : LState) : Prop where
  live : ∀ a b, Live S O s a b → s.mask a b = true
  sub : ∀ a b, s.mask a b = true → M a b = true
  uniq : ∀ a b, s.mask a b = true → a ∈ S → ¬ Live S O s a b →
    (∀ b', s.mask a b' = true → b' = b) ∧ (∀ a', s.mask a' b = true → a' = a)
  blocked : ∀ a b, M a b = true → s.mask a b = false → ∃ a' b', s.mask a' b' = true ∧ ¬ Live S O s a' b' ∧ a' ∈ S ∧
    B a' b' a b

theorem choose_mask_true {s a b i j x y} : (choose s a b i j true).mask x y = true ↔
    (x = a ∧ y = b) ∨ (x ≠ a ∧ y ≠ b ∧ s.mask x y = true) := by
  simp only [choose]
  by_cases h1 : x = a <;> by_cases h2 : y = b <;> simp [h1, h2]

theorem choose_red_false {s a b i j x y} : (choose s a b i j true).red x y = false ↔
    (x ≠ i ∧ y ≠ j ∧ s.red x y = false) := by
  simp only [choose]
  by_cases h1 : x = i <;> by_cases h2 : y = j <;> simp [h1, h2]

theorem choose_live {S O : List Nat} (hS : S.Nodup) (hO : O.Nodup) {s a b i j}
    (hi : S[i]? = some a) (hj : O[j]? = some b) {x y} :
    Live S O (choose s a b i j true) x y ↔ (x ≠ a ∧ y ≠ b ∧ Live S O s x y) := by
  constructor
  · rintro ⟨i', j', h1, h2, h3⟩
    rw [choose_red_false] at h3
    refine ⟨?_, ?_, i', j', h1, h2, h3.2.2⟩
    · rintro rfl; exact h3.1 (get_inj hS h1 hi)
    · rintro rfl; exact h3.2.1 (get_inj hO h2 hj)
  · rintro ⟨n1, n2, i', j', h1, h2, h3⟩
    refine ⟨i', j', h1, h2, choose_red_false.2 ⟨?_, ?_, h3⟩⟩
    · rintro rfl; rw [hi] at h1; exact n1 (Option.some.inj h1).symm
    · rintro rfl; rw [hj] at h2; exact n2 (Option.some.inj h2).symm

theorem choose_inv {S O : List Nat} (hS : S.Nodup) (hO : O.Nodup) {M : Nat → Nat → Bool}
    {B : Nat → Nat → Nat → Nat → Prop}
    (hM : ∀ a b, M a b = true → (a ∈ S ↔ b ∈ O)) {s a b i j} (h : RInv S O M B s)
    (hi : S[i]? = some a) (hj : O[j]? = some b) (hlive : s.red i j = false)
    (hmin : ∀ x y, Live S O s x y → (x = a ∨ y = b) → B a b x y) : RInv S O M B (choose s a b i j true) := by
  have hab : Live S O s a b := ⟨i, j, hi, hj, hlive⟩
  have ha : a ∈ S := List.mem_of_getElem? hi
  refine ⟨?_, ?_, ?_, ?_⟩
  · intro x y hl
    rw [choose_live hS hO hi hj] at hl
    exact choose_mask_true.2 (Or.inr ⟨hl.1, hl.2.1, h.live x y hl.2.2⟩)
  · intro x y hm
    rcases choose_mask_true.1 hm with ⟨rfl, rfl⟩ | ⟨_, _, hm⟩
    · exact h.sub _ _ (h.live _ _ hab)
    · exact h.sub _ _ hm
  · intro x y hm hx hl
    rw [choose_live hS hO hi hj] at hl
    rcases choose_mask_true.1 hm with ⟨rfl, rfl⟩ | ⟨n1, n2, hm⟩
    · constructor
      · intro y' hy
        rcases choose_mask_true.1 hy with ⟨_, e⟩ | ⟨n, _⟩
        · exact e
        · exact absurd rfl n
      · intro x' hx'
        rcases choose_mask_true.1 hx' with ⟨e, _⟩ | ⟨_, n, _⟩
        · exact e
        · exact absurd rfl n
    · have hnl : ¬ Live S O s x y := fun hl' => hl ⟨n1, n2, hl'⟩
      have hu := h.uniq x y hm hx hnl
      constructor
      · intro y' hy
        rcases choose_mask_true.1 hy with ⟨e, _⟩ | ⟨_, _, hy⟩
        · exact absurd e n1
        · exact hu.1 y' hy
      · intro x' hx'
        rcases choose_mask_true.1 hx' with ⟨_, e⟩ | ⟨_, _, hx'⟩
        · exact absurd e n2
        · exact hu.2 x' hx'
  · intro x y hMxy hm
    by_cases hold : s.mask x y = true
    · -- removed now: blocked by (a, b)
      have hxy : x = a ∨ y = b := by
        by_contra hn
        push Not at hn
        have := choose_mask_true (i := i) (j := j).2 (Or.inr ⟨hn.1, hn.2, hold⟩)
        rw [this] at hm
        exact absurd hm (by simp)
      have hxS : x ∈ S := by
        rcases hxy with rfl | rfl
        · exact ha
        · exact (hM x y hMxy).2 (List.mem_of_getElem? hj)
      have hl : Live S O s x y := by
        by_contra hnl
        have hu := h.uniq x y hold hxS hnl
        have hmab := h.live a b hab
        rcases hxy with rfl | rfl
        · rw [hu.1 b hmab] at hab; exact hnl hab
        · rw [hu.2 a hmab] at hab; exact hnl hab
      refine ⟨a, b, choose_mask_true.2 (Or.inl ⟨rfl, rfl⟩), ?_, ha, hmin x y hl hxy⟩
      rw [choose_live hS hO hi hj]; simp
    · obtain ⟨a', b', h1, h2, h3, h4⟩ := h.blocked x y hMxy (by simpa using hold)
      have hu := h.uniq a' b' h1 h3 h2
      have hmab := h.live a b hab
      refine ⟨a', b', choose_mask_true.2 (Or.inr ⟨?_, ?_, h1⟩), ?_, h3, h4⟩
      · rintro rfl; rw [← hu.1 b hmab] at h2; exact h2 hab
      · rintro rfl; rw [← hu.2 a hmab] at h2; exact h2 hab
      · rw [choose_live hS hO hi hj]; exact fun h => h2 h.2.2

theorem anyLive_iff {r c red} : anyLive r c red = true ↔ ∃ i j, i < r ∧ j < c ∧ red i j = false := by
  simp only [anyLive, List.any_eq_true, List.mem_range, Bool.not_eq_eq_eq_not, Bool.not_true]
  constructor
  · rintro ⟨i, hi, j, hj, h⟩; exact ⟨i, j, hi, hj, h⟩
  · rintro ⟨i, j, hi, hj, h⟩; exact ⟨i, hi, j, hj, h⟩

/-- Number of rows of the conflict matrix that still hold an unmasked entry. -/
def liveRows (r c : Nat) (red : Nat → Nat → Bool) : Nat :=
  (List.range r).countP fun i => (List.range c).any fun j => !red i j

omit [LinearOrder κ] in
theorem filled_get {S O : List Nat} {cost : Nat → Nat → Option κ} {red} {i j a b}
    (hi : S[i]? = some a) (hj : O[j]? = some b) :
    (filled S O cost red)[i * O.length + j]? = some (if red i j then none else cost a b) := by
  have hi' := (List.getElem?_eq_some_iff.1 hi).1
  have hj' := (List.getElem?_eq_some_iff.1 hj).1
  have hlt : i * O.length + j < S.length * O.length := by
    calc i * O.length + j < i * O.length + O.length := by omega
      _ = (i + 1) * O.length := by rw [Nat.succ_mul]
      _ ≤ S.length * O.length := Nat.mul_le_mul_right _ hi'
  have hd : (i * O.length + j) / O.length = i := by
    rw [Nat.add_comm, Nat.add_mul_div_right _ _ (by omega), Nat.div_eq_of_lt hj']; omega
  have hm : (i * O.length + j) % O.length = j := by
    rw [Nat.add_comm, Nat.add_mul_mod_self_right, Nat.mod_eq_of_lt hj']
  simp [filled, entry, hlt, hd, hm, hi, hj]

/-- Excuse used by the simultaneous resolution: a link of the same row or column that is not more expensive. -/
def BSim (cost : Nat → Nat → Option κ) (a' b' a b : Nat) : Prop := (a' = a ∨ b' = b) ∧ cle (cost a' b') (cost a b)

theorem resolve_spec {S O : List Nat} (hS : S.Nodup) (hO : O.Nodup) {M : Nat → Nat → Bool}
    {cost : Nat → Nat → Option κ} (hM : ∀ a b, M a b = true → (a ∈ S ↔ b ∈ O))
    (hfin : ∀ a b, M a b = true → cost a b ≠ none) : ∀ (fuel : Nat) (s : LState), RInv S O M (BSim cost) s →
    liveRows S.length O.length s.red ≤ fuel →
    ∃ s', resolve S O cost fuel s = .ok s' ∧ RInv S O M (BSim cost) s' ∧ ∀ a b, ¬ Live S O s' a b := by
  intro fuel
  induction fuel with
  | zero =>
    intro s h hf
    have hn : anyLive S.length O.length s.red = false := by
      by_contra hn
      simp only [Bool.not_eq_false] at hn
      obtain ⟨i, j, hi, hj, hr⟩ := anyLive_iff.1 hn
      have : 0 < liveRows S.length O.length s.red := by
        rw [liveRows, List.countP_pos_iff]
        exact ⟨i, by simpa using hi, by simpa using ⟨j, hj, hr⟩⟩
      omega
    refine ⟨s, by rw [resolve]; simp [hn], h, ?_⟩
    rintro a b ⟨i, j, h1, h2, h3⟩
    have : anyLive S.length O.length s.red = true := anyLive_iff.2
      ⟨i, j, (List.getElem?_eq_some_iff.1 h1).1, (List.getElem?_eq_some_iff.1 h2).1, h3⟩
    rw [hn] at this; exact absurd this (by simp)
  | succ fuel ih =>
    intro s h hf
    by_cases hn : anyLive S.length O.length s.red = true
    · obtain ⟨i0, j0, hi0, hj0, hr0⟩ := anyLive_iff.1 hn
      obtain ⟨a0, ha0⟩ : ∃ a, S[i0]? = some a := ⟨S[i0], by simp⟩
      obtain ⟨b0, hb0⟩ : ∃ b, O[j0]? = some b := ⟨O[j0], by simp⟩
      have hget0 := filled_get (cost := cost) (red := s.red) ha0 hb0
      rw [hr0] at hget0
      simp only [Bool.false_eq_true, if_false] at hget0
      cases hk : argmin (filled S O cost s.red) with
      | none =>
        rw [argmin_eq_none] at hk; rw [hk] at hget0; simp at hget0
      | some k =>
        obtain ⟨v, hv, hmin⟩ := argmin_spec hk
        have hklt : k < S.length * O.length := by
          have := (List.getElem?_eq_some_iff.1 hv).1; simpa [filled] using this
        have hOpos : 0 < O.length := by omega
        have hi : k / O.length < S.length := Nat.div_lt_of_lt_mul (by rw [Nat.mul_comm]; exact hklt)
        have hj : k % O.length < O.length := Nat.mod_lt _ hOpos
        obtain ⟨a, ha⟩ : ∃ a, S[k / O.length]? = some a := ⟨S[k / O.length], by simp⟩
        obtain ⟨b, hb⟩ : ∃ b, O[k % O.length]? = some b := ⟨O[k % O.length], by simp⟩
        have hgk := filled_get (cost := cost) (red := s.red) ha hb
        rw [Nat.mul_comm, Nat.div_add_mod] at hgk
        rw [hgk] at hv
        have hv := Option.some.inj hv
        have hfin0 : cost a0 b0 ≠ none := hfin _ _ (h.sub _ _ (h.live _ _ ⟨i0, j0, ha0, hb0, hr0⟩))
        have hle0 := hmin _ _ hget0
        have hred : s.red (k / O.length) (k % O.length) = false := by
          by_contra hr
          simp only [Bool.not_eq_false] at hr
          rw [hr] at hv
          simp only [if_true] at hv
          rw [← hv] at hle0
          exact hfin0 (cle_none_left hle0)
        rw [hred] at hv
        simp only [Bool.false_eq_true, if_false] at hv
        have hstep : resolve S O cost (fuel + 1) s =
            resolve S O cost fuel (choose s a b (k / O.length) (k % O.length) true) := by
          rw [resolve]; simp [hn, hk, ha, hb]
        rw [hstep]
        apply ih
        · apply choose_inv hS hO hM h ha hb hred
          rintro x y ⟨i', j', h1, h2, h3⟩ hxy
          refine ⟨hxy.imp Eq.symm Eq.symm, ?_⟩
          have := filled_get (cost := cost) (red := s.red) h1 h2
          rw [h3] at this
          simp only [Bool.false_eq_true, if_false] at this
          rw [hv]
          exact hmin _ _ this
        · have : liveRows S.length O.length (choose s a b (k / O.length) (k % O.length) true).red <
              liveRows S.length O.length s.red := by
            apply countP_lt (x := k / O.length)
            · intro x _ hx
              simp only [List.any_eq_true, List.mem_range, Bool.not_eq_eq_eq_not, Bool.not_true] at hx ⊢
              obtain ⟨y, hy, hr⟩ := hx
              exact ⟨y, hy, (choose_red_false.1 hr).2.2⟩
            · simpa using hi
            · simp only [List.any_eq_true, List.mem_range, Bool.not_eq_eq_eq_not, Bool.not_true]
              exact ⟨_, hj, hred⟩
            · simp [choose]
          omega
    · refine ⟨s, by rw [resolve]; simp [hn], h, ?_⟩
      rintro a b ⟨i, j, h1, h2, h3⟩
      exact hn (anyLive_iff.2
        ⟨i, j, (List.getElem?_eq_some_iff.1 h1).1, (List.getElem?_eq_some_iff.1 h2).1, h3⟩)

theorem liveRows_le (r c red) : liveRows r c red ≤ r := by
  have := List.countP_le_length (p := fun i => (List.range c).any fun j => !red i j) (l := List.range r)
  simpa [liveRows] using this

theorem init_live {S O : List Nat} {M : Nat → Nat → Bool} {a b} (hMd : ∀ a b, M a b = true → (a ∈ S ↔ b ∈ O)) :
    Live S O { mask := M, red := initRed S O M } a b ↔ a ∈ S ∧ M a b = true := by
  constructor
  · rintro ⟨i, j, h1, h2, h3⟩
    simp only [initRed, h1, h2, Bool.not_eq_eq_eq_not, Bool.not_false] at h3
    exact ⟨List.mem_of_getElem? h1, h3⟩
  · rintro ⟨ha, hm⟩
    obtain ⟨i, hi⟩ := List.mem_iff_getElem?.1 ha
    obtain ⟨j, hj⟩ := List.mem_iff_getElem?.1 ((hMd a b hm).1 ha)
    exact ⟨i, j, hi, hj, by simp [initRed, hi, hj, hm]⟩

theorem init_rinv {S O : List Nat} {M : Nat → Nat → Bool} {B : Nat → Nat → Nat → Nat → Prop}
    (hM : ∀ a b, M a b = true → (a ∈ S ↔ b ∈ O)) : RInv S O M B { mask := M, red := initRed S O M } where
  live a b h := ((init_live hM).1 h).2
  sub _ _ h := h
  uniq a b h ha hl := absurd ((init_live hM).2 ⟨ha, h⟩) hl
  blocked a b h h' := by simp only at h'; rw [h] at h'; exact absurd h' (by simp)

/-- What the invariant says when nothing is left to resolve. -/
theorem RInv.final {nr nc} {M : Nat → Nat → Bool} {B} {s : LState}
    (hdom : ∀ i j, M i j = true → i < nr ∧ j < nc)
    (h : RInv (selfKeep nr nc M) (otherKeep nr nc M) M B s)
    (hl : ∀ a b, ¬ Live (selfKeep nr nc M) (otherKeep nr nc M) s a b) :
    (∀ i j, s.mask i j = true → M i j = true) ∧
    (∀ i j j', s.mask i j = true → s.mask i j' = true → j = j') ∧
    (∀ i i' j, s.mask i j = true → s.mask i' j = true → i = i') ∧
    (∀ i j, M i j = true → s.mask i j = false → ∃ i' j', s.mask i' j' = true ∧ B i' j' i j) := by
  have hrow : ∀ i j j', s.mask i j = true → s.mask i j' = true → j = j' := by
    intro i j j' h1 h2
    by_cases hi : i ∈ selfKeep nr nc M
    · exact ((h.uniq i j h1 hi (hl _ _)).1 j' h2).symm
    · have m1 := h.sub _ _ h1
      have m2 := h.sub _ _ h2
      have d1 := hdom _ _ m1
      have d2 := hdom _ _ m2
      rw [mem_selfKeep] at hi
      refine unique_of_countP_le_one (p := fun j => M i j) (n := nc) ?_ d1.2 d2.2 m1 m2
      intro hc
      exact hi ⟨d1.1, Or.inr hc⟩
  have hcol : ∀ i i' j, s.mask i j = true → s.mask i' j = true → i = i' := by
    intro i i' j h1 h2
    have m1 := h.sub _ _ h1
    have m2 := h.sub _ _ h2
    by_cases hi : i ∈ selfKeep nr nc M
    · exact ((h.uniq i j h1 hi (hl _ _)).2 i' h2).symm
    · have hj : j ∉ otherKeep nr nc M := fun hj => hi ((keep_iff hdom m1).2 hj)
      have d1 := hdom _ _ m1
      have d2 := hdom _ _ m2
      rw [mem_otherKeep] at hj
      refine unique_of_countP_le_one (p := fun i => M i j) (n := nr) ?_ d1.1 d2.1 m1 m2
      intro hc
      exact hj ⟨d1.2, Or.inr hc⟩
  refine ⟨h.sub, hrow, hcol, ?_⟩
  intro i j h1 h2
  obtain ⟨a', b', h3, _, _, h4⟩ := h.blocked i j h1 h2
  exact ⟨a', b', h3, h4⟩

theorem not_conflict {nr nc} {M : Nat → Nat → Bool} (hdom : ∀ i j, M i j = true → i < nr ∧ j < nc)
    (h : conflict nr nc M = false) :
    (∀ i j j', M i j = true → M i j' = true → j = j') ∧ (∀ i i' j, M i j = true → M i' j = true → i = i') := by
  simp only [conflict, Bool.or_eq_false_iff, List.any_eq_false, List.mem_range, decide_eq_true_eq] at h
  constructor
  · intro i j j' h1 h2
    exact unique_of_countP_le_one (p := fun j => M i j) (n := nc) (h.1 i (hdom _ _ h1).1) (hdom _ _ h1).2
      (hdom _ _ h2).2 h1 h2
  · intro i i' j h1 h2
    exact unique_of_countP_le_one (p := fun i => M i j) (n := nr) (h.2 j (hdom _ _ h1).2) (hdom _ _ h1).1
      (hdom _ _ h2).1 h1 h2

/-- Everything known about the result of `solveSimultaneous`. -/
theorem solveSimultaneous_spec (nr nc : Nat) (M : Nat → Nat → Bool) (cost : Nat → Nat → Option κ)
    (hdom : ∀ i j, M i j = true → i < nr ∧ j < nc) (hfin : ∀ i j, M i j = true → cost i j ≠ none) :
    ∃ R, solveSimultaneous nr nc M cost = .ok R ∧
    (∀ i j, R i j = true → M i j = true) ∧
    (∀ i j j', R i j = true → R i j' = true → j = j') ∧
    (∀ i i' j, R i j = true → R i' j = true → i = i') ∧
    (∀ i j, M i j = true → R i j = false → ∃ i' j', R i' j' = true ∧ BSim cost i' j' i j) := by
  by_cases h0 : nr * nc = 0
  · have hempty : ∀ i j, M i j = false := by
      intro i j
      by_contra hm
      have := hdom i j (by simpa using hm)
      have : 0 < nr * nc := Nat.mul_pos (by omega) (by omega)
      omega
    exact ⟨M, by simp [solveSimultaneous, h0], by simp [hempty]⟩
  · by_cases hc : conflict nr nc M = true
    · obtain ⟨s, e, hinv, hl⟩ := resolve_spec (selfKeep_nodup nr nc M) (otherKeep_nodup nr nc M) (cost := cost)
        (fun a b => keep_iff hdom) hfin (max (selfKeep nr nc M).length (otherKeep nr nc M).length + 1) _
        (init_rinv (fun a b => keep_iff hdom)) (Nat.le_trans (liveRows_le _ _ _) (Nat.le_trans (Nat.le_max_left _ _) (Nat.le_succ _)))
      refine ⟨s.mask, ?_, hinv.final hdom hl⟩
      simp only [solveSimultaneous, h0, if_false, hc, if_true]
      rw [e]
    · have hc : conflict nr nc M = false := by simpa using hc
      have := not_conflict hdom hc
      refine ⟨M, by simp [solveSimultaneous, h0, hc], fun _ _ h => h, this.1, this.2, ?_⟩
      intro i j h1 h2; rw [h1] at h2; simp at h2

/-! ### solve_first -/

omit [LinearOrder κ] in
theorem row_get {S O : List Nat} {cost : Nat → Nat → Option κ} {red : Nat → Nat → Bool} {i j a b}
    (hi : S[i]? = some a) (hj : O[j]? = some b) :
    (rowView S O cost red i)[j]? = some (if red i j then none else cost a b) := by
  have hj' := (List.getElem?_eq_some_iff.1 hj).1
  have hj2 : O[j] = b := (List.getElem?_eq_some_iff.1 hj).2
  simp [rowView, entry, hj', hi, hj2]

/-- One row of `solve_first`: either nothing in the row was available and nothing changes, or a cheapest available entry
is chosen. -/
theorem firstStep_cases {S O : List Nat} {cost : Nat → Nat → Option κ} {ml : Bool} {s : LState} {i a : Nat}
    (hi : S[i]? = some a) (hO : O ≠ [])
    (hfin : ∀ j b, O[j]? = some b → s.red i j = false → cost a b ≠ none) :
    (firstStep S O cost ml s i = .ok s ∧ ∀ j b, O[j]? = some b → s.red i j = true) ∨
    ∃ j b, O[j]? = some b ∧ s.red i j = false ∧ firstStep S O cost ml s i = .ok (choose s a b i j (!ml)) ∧
      ∀ j' b', O[j']? = some b' → s.red i j' = false → cle (cost a b) (cost a b') := by
  generalize hrow : rowView S O cost s.red i = row
  have hget : ∀ j b, O[j]? = some b → row[j]? = some (if s.red i j then none else cost a b) := by
    intro j b hj; rw [← hrow]; exact row_get hi hj
  have hlen : row.length = O.length := by rw [← hrow]; simp [rowView]
  cases hk : argmin row with
  | none =>
    rw [argmin_eq_none] at hk
    rw [hk] at hlen
    exact absurd (List.eq_nil_of_length_eq_zero hlen.symm) hO
  | some j =>
    obtain ⟨v, hv, hmin⟩ := argmin_spec hk
    have hj : j < O.length := hlen ▸ (List.getElem?_eq_some_iff.1 hv).1
    obtain ⟨b, hb⟩ : ∃ b, O[j]? = some b := ⟨O[j], by simp⟩
    have hgj := hget j b hb
    rw [hv] at hgj
    have hgj := Option.some.inj hgj
    by_cases hr : s.red i j = true
    · left
      refine ⟨by simp only [firstStep, hrow, hk, hr, if_true], ?_⟩
      intro j' b' hb'
      by_contra hr'
      simp only [Bool.not_eq_true] at hr'
      have := hmin j' _ (hget j' b' hb')
      rw [hgj, hr, hr'] at this
      simp only [if_true, Bool.false_eq_true, if_false] at this
      exact hfin j' b' hb' hr' (cle_none_left this)
    · right
      simp only [Bool.not_eq_true] at hr
      refine ⟨j, b, hb, hr, by simp only [firstStep, hrow, hk, hr, Bool.false_eq_true, if_false, hi, hb], ?_⟩
      intro j' b' hb' hr'
      have := hmin j' _ (hget j' b' hb')
      rw [hgj, hr, hr'] at this
      simpa using this

/-- Excuse used by the sequential resolution: the target is taken by an earlier row, or the row has a link that is not
more expensive. -/
def BFirst (cost : Nat → Nat → Option κ) (a' b' a b : Nat) : Prop :=
  (a' < a ∧ b' = b) ∨ (a' = a ∧ cle (cost a' b') (cost a b))

theorem foldlM_first {S O : List Nat} (hS : S.Pairwise (· < ·)) (hO : O.Nodup) (hOne : S ≠ [] → O ≠ [])
    {M : Nat → Nat → Bool} {cost : Nat → Nat → Option κ} (hM : ∀ a b, M a b = true → (a ∈ S ↔ b ∈ O))
    (hfin : ∀ a b, M a b = true → cost a b ≠ none) (n : Nat) (hn : n ≤ S.length) :
    ∃ s', (List.range n).foldlM (firstStep S O cost false) { mask := M, red := initRed S O M } = .ok s' ∧
      RInv S O M (BFirst cost) s' ∧ ∀ i j, i < n → j < O.length → s'.red i j = true := by
  induction n with
  | zero => exact ⟨_, rfl, init_rinv hM, by omega⟩
  | succ n ih =>
    obtain ⟨s, e, h, hdead⟩ := ih (by omega)
    obtain ⟨a, ha⟩ : ∃ a, S[n]? = some a := ⟨S[n], by simp⟩
    have hSn : S.Nodup := hS.imp (fun h => Nat.ne_of_lt h)
    have hOne' : O ≠ [] := hOne (by rintro rfl; simp at ha)
    rw [List.range_succ, List.foldlM_append, e]
    rcases firstStep_cases (cost := cost) (ml := false) (s := s) ha hOne' (fun j b hb hr =>
        hfin _ _ (h.sub _ _ (h.live _ _ ⟨n, j, ha, hb, hr⟩))) with ⟨e1, hall⟩ | ⟨j, b, hb, hr, e1, hmin⟩
    · refine ⟨s, by simp [e1, bind, Except.bind, pure, Except.pure], h, ?_⟩
      intro i j hi hj
      rcases Nat.lt_succ_iff_lt_or_eq.1 hi with hi | rfl
      · exact hdead i j hi hj
      · exact hall j O[j] (by simp)
    · refine ⟨choose s a b n j true, by simp [e1, bind, Except.bind, pure, Except.pure], ?_, ?_⟩
      · apply choose_inv hSn hO hM h ha hb hr
        rintro x y ⟨i', j', h1, h2, h3⟩ hxy
        by_cases hxa : x = a
        · subst hxa
          obtain rfl := get_inj hSn h1 ha
          exact Or.inr ⟨rfl, hmin j' y h2 h3⟩
        · left
          refine ⟨?_, (hxy.resolve_left hxa).symm⟩
          have hi' : n < i' := by
            rcases Nat.lt_trichotomy n i' with h' | rfl | h'
            · exact h'
            · rw [ha] at h1; exact absurd (Option.some.inj h1).symm hxa
            · have := hdead i' j' h' (List.getElem?_eq_some_iff.1 h2).1
              rw [this] at h3; exact absurd h3 (by simp)
          obtain ⟨l1, e1⟩ := List.getElem?_eq_some_iff.1 ha
          obtain ⟨l2, e2⟩ := List.getElem?_eq_some_iff.1 h1
          rw [← e1, ← e2]
          exact List.pairwise_iff_getElem.1 hS n i' l1 l2 hi'
      · intro i j' hi hj'
        rcases Nat.lt_succ_iff_lt_or_eq.1 hi with hi | rfl
        · have := hdead i j' hi hj'
          simp [choose, this]
        · simp [choose]

theorem selfKeep_sorted (nr nc mask) : (selfKeep nr nc mask).Pairwise (· < ·) :=
  (List.pairwise_lt_range).filter _

/-- Rows and columns of the conflict matrix come together. -/
theorem otherKeep_ne_nil {nr nc} {M : Nat → Nat → Bool} (h : selfKeep nr nc M ≠ []) : otherKeep nr nc M ≠ [] := by
  obtain ⟨a, ha⟩ := List.exists_mem_of_ne_nil _ h
  have hex : ∃ b, b ∈ otherKeep nr nc M := by
    rw [mem_selfKeep] at ha
    rcases ha with ⟨h1, ⟨j, hj, hc, hm⟩ | hr⟩
    · exact ⟨j, mem_otherKeep.2 ⟨hj, Or.inr hc⟩⟩
    · have : 0 < (List.range nc).countP fun j => M a j := by unfold rowSum at hr; omega
      rw [List.countP_pos_iff] at this
      obtain ⟨j, hj, hm⟩ := this
      exact ⟨j, mem_otherKeep.2 ⟨by simpa using hj, Or.inl ⟨a, h1, hr, hm⟩⟩⟩
  obtain ⟨b, hb⟩ := hex
  exact List.ne_nil_of_mem hb

theorem solveFirst_spec (nr nc : Nat) (M : Nat → Nat → Bool) (cost : Nat → Nat → Option κ) (hnr : 0 < nr) (hnc : 0 < nc)
    (hdom : ∀ i j, M i j = true → i < nr ∧ j < nc) (hfin : ∀ i j, M i j = true → cost i j ≠ none) :
    ∃ R, solveFirst nr nc M cost false = .ok R ∧
    (∀ i j, R i j = true → M i j = true) ∧
    (∀ i j j', R i j = true → R i j' = true → j = j') ∧
    (∀ i i' j, R i j = true → R i' j = true → i = i') ∧
    (∀ i j, M i j = true → R i j = false → ∃ i' j', R i' j' = true ∧ BFirst cost i' j' i j) := by
  have h0 : ¬ (nr = 0 ∨ nc = 0) := by omega
  by_cases hc : conflict nr nc M = true
  · obtain ⟨s, e, hinv, hdead⟩ := foldlM_first (selfKeep_sorted nr nc M) (otherKeep_nodup nr nc M) otherKeep_ne_nil
      (fun a b => keep_iff hdom) hfin _ (Nat.le_refl _)
    refine ⟨s.mask, ?_, hinv.final hdom ?_⟩
    · simp only [solveFirst, h0, if_false, hc, if_true]
      rw [e]
    · rintro a b ⟨i, j, h1, h2, h3⟩
      have := hdead i j (List.getElem?_eq_some_iff.1 h1).1 (List.getElem?_eq_some_iff.1 h2).1
      rw [this] at h3
      exact absurd h3 (by simp)
  · have hc : conflict nr nc M = false := by simpa using hc
    have := not_conflict hdom hc
    refine ⟨M, by simp [solveFirst, h0, hc], fun _ _ h => h, this.1, this.2, ?_⟩
    intro i j h1 h2; rw [h1] at h2; simp at h2

/-- Invariant of `solve_first(multiple_link=True)` after the first `n` rows of the conflict matrix. -/
structure MInv (S O : List Nat) (M : Nat → Nat → Bool) (cost : Nat → Nat → Option κ) (n : Nat) (s : LState) : Prop where
  sub : ∀ a b, s.mask a b = true → M a b = true
  todo : ∀ a, (∀ i, i < n → S[i]? ≠ some a) → ∀ b, s.mask a b = M a b
  red : ∀ i j, n ≤ i → s.red i j = initRed S O M i j
  done : ∀ i a, i < n → S[i]? = some a → (∃ b, M a b = true) →
    ∃ b, s.mask a b = true ∧ (∀ b', s.mask a b' = true → b' = b) ∧ ∀ b', M a b' = true → cle (cost a b) (cost a b')

theorem foldlM_multi {S O : List Nat} (hS : S.Nodup) (hOne : S ≠ [] → O ≠ [])
    {M : Nat → Nat → Bool} {cost : Nat → Nat → Option κ} (hM : ∀ a b, M a b = true → (a ∈ S ↔ b ∈ O))
    (hfin : ∀ a b, M a b = true → cost a b ≠ none) (n : Nat) (hn : n ≤ S.length) :
    ∃ s', (List.range n).foldlM (firstStep S O cost true) { mask := M, red := initRed S O M } = .ok s' ∧
      MInv S O M cost n s' := by
  induction n with
  | zero => exact ⟨_, rfl, fun _ _ h => h, fun _ _ _ => rfl, fun _ _ _ => rfl, by omega⟩
  | succ n ih =>
    obtain ⟨s, e, h⟩ := ih (by omega)
    obtain ⟨a, ha⟩ : ∃ a, S[n]? = some a := ⟨S[n], by simp⟩
    have haS : a ∈ S := List.mem_of_getElem? ha
    have hOne' : O ≠ [] := hOne (by rintro rfl; simp at ha)
    have hrow : ∀ b, s.mask a b = M a b := h.todo a (fun i hi hia => by
      have := get_inj hS hia ha; omega)
    have hredn : ∀ j b, O[j]? = some b → s.red n j = !M a b := by
      intro j b hb
      rw [h.red n j (Nat.le_refl _)]; simp [initRed, ha, hb]
    rw [List.range_succ, List.foldlM_append, e]
    rcases firstStep_cases (cost := cost) (ml := true) (s := s) ha hOne' (fun j b hb hr => by
        rw [hredn j b hb] at hr; exact hfin _ _ (by simpa using hr)) with ⟨e1, hall⟩ | ⟨j, b, hb, hr, e1, hmin⟩
    · refine ⟨s, by simp [e1, bind, Except.bind, pure, Except.pure], h.sub, ?_, ?_, ?_⟩
      · intro x hx; exact h.todo x (fun i hi => hx i (by omega))
      · intro i j hi; exact h.red i j (by omega)
      · intro i x hi hx hex
        rcases Nat.lt_succ_iff_lt_or_eq.1 hi with hi | rfl
        · exact h.done i x hi hx hex
        · exfalso
          rw [ha] at hx
          obtain rfl := Option.some.inj hx
          obtain ⟨b, hb⟩ := hex
          obtain ⟨j, hj⟩ := List.mem_iff_getElem?.1 ((hM a b hb).1 haS)
          have h1 := hall j b hj
          rw [hredn j b hj, hb] at h1
          simp at h1
    · have hMab : M a b = true := by rw [hredn j b hb] at hr; simpa using hr
      have hm : ∀ x y, (choose s a b n j false).mask x y = true ↔
          (x = a ∧ y = b) ∨ (x ≠ a ∧ s.mask x y = true) := by
        intro x y
        simp only [choose]
        by_cases h1 : x = a <;> by_cases h2 : y = b <;> simp [h1, h2]
      refine ⟨choose s a b n j false, by simp [e1, bind, Except.bind, pure, Except.pure], ?_, ?_, ?_, ?_⟩
      · intro x y hxy
        rcases (hm x y).1 hxy with ⟨rfl, rfl⟩ | ⟨_, h'⟩
        · exact hMab
        · exact h.sub _ _ h'
      · intro x hx y
        have hxa : x ≠ a := by rintro rfl; exact hx n (by omega) ha
        have := h.todo x (fun i hi => hx i (by omega)) y
        rw [← this]
        simp [choose, hxa]
      · intro i j' hi
        have : i ≠ n := by omega
        simp only [choose, this, if_false, Bool.false_and, Bool.false_eq_true]
        exact h.red i j' (by omega)
      · intro i x hi hx hex
        by_cases hin : i = n
        · subst hin
          rw [ha] at hx
          obtain rfl := Option.some.inj hx
          refine ⟨b, (hm _ _).2 (Or.inl ⟨rfl, rfl⟩), ?_, ?_⟩
          · intro b' hb'
            rcases (hm _ _).1 hb' with ⟨_, e⟩ | ⟨n, _⟩
            · exact e
            · exact absurd rfl n
          · intro b' hb'
            obtain ⟨j', hj'⟩ := List.mem_iff_getElem?.1 ((hM a b' hb').1 haS)
            exact hmin j' b' hj' (by rw [hredn j' b' hj', hb']; rfl)
        · obtain ⟨b1, h1, h2, h3⟩ := h.done i x (by omega) hx hex
          have hxa : x ≠ a := by rintro rfl; exact hin (get_inj hS hx ha)
          refine ⟨b1, (hm _ _).2 (Or.inr ⟨hxa, h1⟩), ?_, h3⟩
          intro b' hb'
          rcases (hm _ _).1 hb' with ⟨e, _⟩ | ⟨_, h'⟩
          · exact absurd e hxa
          · exact h2 b' h'

theorem solveFirst_multi_spec (nr nc : Nat) (M : Nat → Nat → Bool) (cost : Nat → Nat → Option κ) (hnr : 0 < nr)
    (hnc : 0 < nc) (hdom : ∀ i j, M i j = true → i < nr ∧ j < nc) (hfin : ∀ i j, M i j = true → cost i j ≠ none) :
    ∃ R, solveFirst nr nc M cost true = .ok R ∧
    (∀ i j, R i j = true → M i j = true) ∧
    (∀ i, (∃ j, M i j = true) → ∃ j, R i j = true ∧ (∀ j', R i j' = true → j' = j) ∧
      ∀ j', M i j' = true → cle (cost i j) (cost i j')) := by
  have h0 : ¬ (nr = 0 ∨ nc = 0) := by omega
  by_cases hc : conflict nr nc M = true
  · obtain ⟨s, e, h⟩ := foldlM_multi (selfKeep_nodup nr nc M) otherKeep_ne_nil
      (fun a b => keep_iff hdom) hfin _ (Nat.le_refl _)
    refine ⟨s.mask, ?_, h.sub, ?_⟩
    · simp only [solveFirst, h0, if_false, hc, if_true]
      rw [e]
    · intro i hex
      by_cases hi : i ∈ selfKeep nr nc M
      · obtain ⟨k, hk⟩ := List.mem_iff_getElem?.1 hi
        exact h.done k i (List.getElem?_eq_some_iff.1 hk).1 hk hex
      · have hrow := h.todo i (fun k _ hk => hi (List.mem_of_getElem? hk))
        obtain ⟨j, hj⟩ := hex
        have huniq : ∀ j', M i j' = true → j' = j := by
          intro j' hj'
          rw [mem_selfKeep] at hi
          refine unique_of_countP_le_one (p := fun j => M i j) (n := nc) ?_ (hdom _ _ hj').2 (hdom _ _ hj).2 hj' hj
          intro hcc; exact hi ⟨(hdom _ _ hj).1, Or.inr hcc⟩
        refine ⟨j, by rw [hrow]; exact hj, fun j' hj' => huniq j' (by rw [← hrow]; exact hj'), ?_⟩
        intro j' hj'
        rw [huniq j' hj']
        exact cle_refl _
  · have hc : conflict nr nc M = false := by simpa using hc
    have := not_conflict hdom hc
    refine ⟨M, by simp [solveFirst, h0, hc], fun _ _ h => h, ?_⟩
    rintro i ⟨j, hj⟩
    refine ⟨j, hj, fun j' hj' => this.1 _ _ _ hj' hj, ?_⟩
    intro j' hj'
    rw [this.1 _ _ _ hj' hj]
    exact cle_refl _

/-! ### post_process_link -/

theorem argmax_eq_none {l : List κ} : argmax l = none ↔ l = [] := by
  cases l with
  | nil => simp [argmax]
  | cons x xs =>
    simp only [argmax, reduceCtorEq, iff_false]
    split
    · simp
    · split
      · split <;> simp
      · simp

theorem argmax_spec {l : List κ} {k : Nat} (h : argmax l = some k) :
    ∃ v, l[k]? = some v ∧ ∀ (m : Nat) w, l[m]? = some w → w ≤ v := by
  induction l generalizing k with
  | nil => simp [argmax] at h
  | cons x xs ih =>
    simp only [argmax] at h
    split at h
    · rename_i hn
      rw [argmax_eq_none] at hn
      subst hn
      simp only [Option.some.injEq] at h
      subst h
      refine ⟨x, rfl, ?_⟩
      intro m w hm
      cases m with
      | zero => simp at hm; subst hm; exact le_refl _
      | succ m => simp at hm
    · rename_i k' hk'
      obtain ⟨v, hv, hmin⟩ := ih hk'
      rw [hv] at h
      simp only at h
      split at h
      · rename_i hlt
        simp only [Option.some.injEq] at h
        subst h
        refine ⟨v, by simpa using hv, ?_⟩
        intro m w hm
        cases m with
        | zero => simp at hm; subst hm; exact le_of_lt hlt
        | succ m => exact hmin m w (by simpa using hm)
      · rename_i hlt
        simp only [Option.some.injEq] at h
        subst h
        refine ⟨x, rfl, ?_⟩
        intro m w hm
        cases m with
        | zero => simp at hm; subst hm; exact le_refl _
        | succ m => exact le_trans (hmin m w (by simpa using hm)) (not_lt.1 hlt)

theorem keepPos_spec (amp : Nat → κ) (links : List ((Nat × Nat) × Nat)) (t : Nat)
    (h : ∃ e ∈ links, e.1.2 = t) : ∃ e ∈ links, e.1.2 = t ∧ keepPos amp links t = some e.2 ∧
      ∀ e' ∈ links, e'.1.2 = t → amp e'.1.1 ≤ amp e.1.1 := by
  generalize hsel : (links.filter fun e => decide (e.1.2 = t)) = sel
  have hmem : ∀ e, e ∈ sel ↔ e ∈ links ∧ e.1.2 = t := by intro e; rw [← hsel]; simp
  cases hk : argmax (sel.map fun e => amp e.1.1) with
  | none =>
    rw [argmax_eq_none, List.map_eq_nil_iff] at hk
    obtain ⟨e, he, ht⟩ := h
    have := (hmem e).2 ⟨he, ht⟩
    rw [hk] at this; simp at this
  | some k =>
    obtain ⟨v, hv, hmax⟩ := argmax_spec hk
    simp only [List.getElem?_map, Option.map_eq_some_iff] at hv
    obtain ⟨e, he, rfl⟩ := hv
    have he' := (hmem e).1 (List.mem_of_getElem? he)
    refine ⟨e, he'.1, he'.2, by simp [keepPos, hsel, hk, he], ?_⟩
    intro e' h1 h2
    obtain ⟨m, hm⟩ := List.mem_iff_getElem?.1 ((hmem e').2 ⟨h1, h2⟩)
    exact hmax m _ (by simp [hm])

theorem foldl_dropLinks (amp : Nat → κ) (links : List ((Nat × Nat) × Nat)) (ts : List Nat) (mask : Nat → Bool) (p : Nat) :
    ts.foldl (dropLinks amp links) mask p = true ↔
      mask p = true ∧ ∀ t ∈ ts, (∃ e ∈ links, e.2 = p ∧ e.1.2 = t) → keepPos amp links t = some p := by
  induction ts generalizing mask with
  | nil => simp
  | cons t ts ih =>
    rw [List.foldl_cons, ih]
    simp only [List.mem_cons, forall_eq_or_imp]
    have : dropLinks amp links mask t p = true ↔
        mask p = true ∧ ((∃ e ∈ links, e.2 = p ∧ e.1.2 = t) → keepPos amp links t = some p) := by
      simp only [dropLinks]
      by_cases h1 : ∃ e ∈ links, e.2 = p ∧ e.1.2 = t
      · have h1' : (links.any fun e => decide (e.2 = p) && decide (e.1.2 = t)) = true := by
          simpa using h1
        by_cases h2 : keepPos amp links t = some p
        · simp [h1', h2]
        · have h2' : ¬ (some p = keepPos amp links t) := fun e => h2 e.symm
          simp only [h1', Bool.true_and, bne_iff_ne, ne_eq, h2', not_false_eq_true, if_true, Bool.false_eq_true,
            false_iff, not_and]
          exact fun _ hc => h2 (hc h1)
      · have h1' : (links.any fun e => decide (e.2 = p) && decide (e.1.2 = t)) = false := by
          rw [← Bool.not_eq_true]; simpa using h1
        simp only [h1', Bool.false_and, Bool.false_eq_true, if_false]
        exact ⟨fun h => ⟨h, fun h' => absurd h' h1⟩, fun h => h.1⟩
    rw [this]; tauto

theorem le_foldl_max (l : List Nat) (x : Nat) (m : Nat) (h : x ∈ l ∨ x ≤ m) : x ≤ l.foldl max m := by
  induction l generalizing m with
  | nil => simpa using h
  | cons y ys ih =>
    rw [List.foldl_cons]
    apply ih
    rcases h with h | h
    · rcases List.mem_cons.1 h with rfl | h
      · right; exact Nat.le_max_right _ _
      · exact Or.inl h
    · right; exact Nat.le_trans h (Nat.le_max_left _ _)

end Verif.Matching
