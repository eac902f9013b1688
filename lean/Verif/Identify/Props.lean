import Verif.Identify.Model
import Verif.Bins.Align
import Mathlib.Data.List.Pairwise

/-!
# C54: same_position and identify_in
-/

namespace Verif.Identify

open Bins

/-! ### The matching -/

theorem findTarget_some {test used : Nat → Bool} : ∀ {l : List Nat} {j : Nat}, findTarget test used l = some j →
    j ∈ l ∧ test j = true ∧ used j = false
  | k :: l, j, h => by
    rw [findTarget] at h
    split at h
    · obtain ⟨h1, h2⟩ := findTarget_some h
      exact ⟨List.mem_cons_of_mem _ h1, h2⟩
    · rename_i hu
      split at h
      · rename_i ht
        obtain rfl := Option.some.inj h
        exact ⟨by simp, ht, by simpa using hu⟩
      · obtain ⟨h1, h2⟩ := findTarget_some h
        exact ⟨List.mem_cons_of_mem _ h1, h2⟩

theorem findTarget_none {test used : Nat → Bool} : ∀ {l : List Nat}, findTarget test used l = none →
    ∀ j ∈ l, test j = true → used j = true
  | k :: l, h, j, hj, ht => by
    rw [findTarget] at h
    split at h
    · rename_i hu
      rcases List.mem_cons.1 hj with rfl | hj
      · exact hu
      · exact findTarget_none h j hj ht
    · split at h
      · cases h
      · rename_i hn
        rcases List.mem_cons.1 hj with rfl | hj
        · exact absurd ht hn
        · exact findTarget_none h j hj ht

/-- Specification of a matching of the items of `js` with `0, …, nb1 - 1`. -/
structure Matching (test : Nat → Nat → Bool) (nb1 : Nat) (js : List Nat) (used : Nat → Bool) (out : List Int) : Prop where
  length : out.length = js.length
  sound : ∀ (m j0 : Nat) (t : Int), js[m]? = some j0 → out[m]? = some t → t ≠ -1 →
    ∃ j1 : Nat, t = j1 ∧ j1 < nb1 ∧ test j0 j1 = true ∧ used j1 = false
  inj : ∀ (m m' : Nat) (t : Int), out[m]? = some t → out[m']? = some t → t ≠ -1 → m = m'
  max : ∀ (m j0 : Nat), js[m]? = some j0 → out[m]? = some (-1) → ∀ j1, j1 < nb1 → test j0 j1 = true →
    used j1 = true ∨ ∃ m', m' < m ∧ out[m']? = some (j1 : Int)

theorem targetLoop_spec (test : Nat → Nat → Bool) (nb1 : Nat) : ∀ (js : List Nat) (used : Nat → Bool),
    Matching test nb1 js used (targetLoop test nb1 js used)
  | [], used => ⟨rfl, fun m j0 t h => by simp at h, fun m m' t h => by simp [targetLoop] at h, fun m j0 h => by simp at h⟩
  | j :: js, used => by
    rw [targetLoop]
    cases hf : findTarget (test j) used (List.range nb1) with
    | none =>
      have ih := targetLoop_spec test nb1 js used
      refine ⟨by simp [ih.length], ?_, ?_, ?_⟩
      · intro m j0 t h1 h2 h3
        cases m with
        | zero => simp only [List.getElem?_cons_zero, Option.some.injEq] at h2; exact absurd h2.symm h3
        | succ m => exact ih.sound m j0 t (by simpa using h1) (by simpa using h2) h3
      · intro m m' t h1 h2 h3
        cases m with
        | zero => simp only [List.getElem?_cons_zero, Option.some.injEq] at h1; exact absurd h1.symm h3
        | succ m =>
          cases m' with
          | zero => simp only [List.getElem?_cons_zero, Option.some.injEq] at h2; exact absurd h2.symm h3
          | succ m' => rw [ih.inj m m' t (by simpa using h1) (by simpa using h2) h3]
      · intro m j0 h1 h2 j1 hj1 ht
        cases m with
        | zero =>
          simp only [List.getElem?_cons_zero, Option.some.injEq] at h1
          subst h1
          exact Or.inl (findTarget_none hf j1 (List.mem_range.2 hj1) ht)
        | succ m =>
          rcases ih.max m j0 (by simpa using h1) (by simpa using h2) j1 hj1 ht with h | ⟨m', hm', h⟩
          · exact Or.inl h
          · exact Or.inr ⟨m' + 1, by omega, by simpa using h⟩
    | some k =>
      obtain ⟨f1, f2, f3⟩ := findTarget_some hf
      have ih := targetLoop_spec test nb1 js (Function.update used k true)
      have hne : ∀ (m : Nat) (t : Int), (targetLoop test nb1 js (Function.update used k true))[m]? = some t → t ≠ -1 → t ≠ k := by
        intro m t hm h3 he
        have hml : m < js.length := by rw [← ih.length]; exact (List.getElem?_eq_some_iff.1 hm).1
        obtain ⟨j1, a1, _, _, a4⟩ := ih.sound m _ t (List.getElem?_eq_getElem hml) hm h3
        have : j1 = k := by omega
        rw [this, Function.update_self] at a4
        cases a4
      refine ⟨by simp [ih.length], ?_, ?_, ?_⟩
      · intro m j0 t h1 h2 h3
        cases m with
        | zero =>
          simp only [List.getElem?_cons_zero, Option.some.injEq] at h1 h2
          subst h1
          exact ⟨k, h2.symm, List.mem_range.1 f1, f2, f3⟩
        | succ m =>
          obtain ⟨j1, a1, a2, a3, a4⟩ := ih.sound m j0 t (by simpa using h1) (by simpa using h2) h3
          refine ⟨j1, a1, a2, a3, ?_⟩
          by_cases he : j1 = k
          · rw [he]; exact f3
          · rwa [Function.update_of_ne he] at a4
      · intro m m' t h1 h2 h3
        cases m with
        | zero =>
          simp only [List.getElem?_cons_zero, Option.some.injEq] at h1
          cases m' with
          | zero => rfl
          | succ m' => exact absurd h1.symm (hne m' t (by simpa using h2) h3)
        | succ m =>
          cases m' with
          | zero =>
            simp only [List.getElem?_cons_zero, Option.some.injEq] at h2
            exact absurd h2.symm (hne m t (by simpa using h1) h3)
          | succ m' => rw [ih.inj m m' t (by simpa using h1) (by simpa using h2) h3]
      · intro m j0 h1 h2 j1 hj1 ht
        cases m with
        | zero => simp only [List.getElem?_cons_zero, Option.some.injEq] at h2; omega
        | succ m =>
          rcases ih.max m j0 (by simpa using h1) (by simpa using h2) j1 hj1 ht with h | ⟨m', hm', h⟩
          · by_cases he : j1 = k
            · exact Or.inr ⟨0, by omega, by rw [he]; rfl⟩
            · rw [Function.update_of_ne he] at h
              exact Or.inl h
          · exact Or.inr ⟨m' + 1, by omega, by simpa using h⟩

/-! ### The test -/

/-- What is known of `argsort(order=["time", "lon", "lat"])`. -/
def IsOrder (order : List Pos → List Nat) : Prop :=
  ∀ l, (order l).Perm (List.range l.length) ∧ ((order l).filterMap (fun k => l[k]?)).Pairwise (· ≤ ·)

theorem filterMap_range {α : Type} (l : List α) : (List.range l.length).filterMap (fun k => l[k]?) = l := by
  induction l with
  | nil => rfl
  | cons a l ih =>
    rw [List.length_cons, List.range_succ_eq_map, List.filterMap_cons]
    simp only [List.getElem?_cons_zero]
    rw [List.filterMap_map]
    have : ((fun k => (a :: l)[k]?) ∘ Nat.succ) = fun k => l[k]? := by funext k; simp
    rw [this, ih]

theorem order_perm {order : List Pos → List Nat} (h : IsOrder order) (l : List Pos) :
    ((order l).filterMap (fun k => l[k]?)).Perm l := by
  have := (h l).1.filterMap (fun k => l[k]?)
  rwa [filterMap_range] at this

theorem sorted_perm_eq {l m : List Pos} (hl : l.Pairwise (· ≤ ·)) (hm : m.Pairwise (· ≤ ·)) (h : l.Perm m) : l = m :=
  h.eq_of_pairwise (fun _ _ _ _ h1 h2 => le_antisymm h1 h2) hl hm

theorem starts_get : ∀ (s : List (List Pos)) (k j : Nat) (l : List Pos), s[j]? = some l →
    ∃ b, (starts s k)[j]? = some (k + b) ∧ ∀ i, i < l.length → s.flatten[i + b]? = l[i]?
  | [], _, j, l, h => by simp at h
  | a :: s, k, 0, l, h => by
    simp only [List.getElem?_cons_zero, Option.some.injEq] at h
    subst h
    refine ⟨0, by simp [starts], fun i hi => ?_⟩
    rw [List.flatten_cons, Nat.add_zero, List.getElem?_append_left hi]
  | a :: s, k, j + 1, l, h => by
    rw [List.getElem?_cons_succ] at h
    obtain ⟨b, h1, h2⟩ := starts_get s (k + a.length) j l h
    refine ⟨a.length + b, by rw [starts, List.getElem?_cons_succ, h1]; congr 1; omega, fun i hi => ?_⟩
    rw [List.flatten_cons, List.getElem?_append_right (by omega), ← h2 i hi]
    congr 1; omega

theorem starts_length : ∀ (s : List (List Pos)) (k : Nat), (starts s k).length = s.length
  | [], _ => rfl
  | a :: s, k => by rw [starts, List.length_cons, starts_length s, List.length_cons]

theorem sameItem_iff {order : List Pos → List Nat} (ho : IsOrder order) {a0 a1 l m : List Pos} {b0 b1 : Nat}
    (h0 : ∀ i, i < l.length → a0[i + b0]? = l[i]?) (h1 : ∀ i, i < m.length → a1[i + b1]? = m[i]?) (hlen : l.length = m.length) :
    sameItem a0 a1 b0 b1 (order l) (order m) = true ↔ l.Perm m := by
  have hl := order_perm ho l
  have hm := order_perm ho m
  have mem : ∀ (l : List Pos) k, k ∈ order l → k < l.length := fun l k hk => List.mem_range.1 ((ho l).1.mem_iff.1 hk)
  have hol : (order l).length = (order m).length := by
    rw [(ho l).1.length_eq, (ho m).1.length_eq, List.length_range, List.length_range, hlen]
  -- the test compares the sorted items
  have key : ∀ (x y : List Nat), (∀ k ∈ x, k < l.length) → (∀ k ∈ y, k < m.length) → x.length = y.length →
      ((x.zip y).all (fun p => decide (a0[p.1 + b0]? = a1[p.2 + b1]?)) = true ↔
        x.filterMap (fun k => l[k]?) = y.filterMap (fun k => m[k]?)) := by
    intro x
    induction x with
    | nil =>
      intro y _ _ hy
      have : y = [] := List.length_eq_zero_iff.1 (by simpa using hy.symm)
      subst this
      simp
    | cons k x ih =>
      intro y hx hy hxy
      cases y with
      | nil => simp at hxy
      | cons k' y =>
        have ih' := ih y (fun k hk => hx k (List.mem_cons_of_mem _ hk)) (fun k hk => hy k (List.mem_cons_of_mem _ hk))
          (by simpa using hxy)
        have hk := hx k (by simp)
        have hk' := hy k' (by simp)
        rw [List.zip_cons_cons, List.all_cons, Bool.and_eq_true, ih', List.filterMap_cons, List.filterMap_cons]
        simp only [decide_eq_true_eq]
        rw [h0 k hk, h1 k' hk', List.getElem?_eq_getElem hk, List.getElem?_eq_getElem hk']
        simp
  unfold sameItem
  rw [key _ _ (mem l) (mem m) hol]
  constructor
  · intro he
    rw [he] at hl
    exact hl.symm.trans hm
  · intro hp
    exact sorted_perm_eq (ho l).2 (ho m).2 (hl.trans (hp.trans hm.symm))

/-! ### Specification of a set of couples -/

/-- The couples `R` match the networks of size `n`. -/
structure Good (ours other : List (List Pos)) (n : Nat) (R : List (Nat × Int)) : Prop where
  nodup : (R.map Prod.fst).Nodup
  mem : ∀ i, i ∈ R.map Prod.fst ↔ ∃ a, ours[i]? = some a ∧ a.length = n
  sound : ∀ i t, (i, t) ∈ R → t ≠ -1 → ∃ (k : Nat) (a b : List Pos), t = k ∧ ours[i]? = some a ∧ other[k]? = some b ∧ a.Perm b
  inj : ∀ i i' t, (i, t) ∈ R → (i', t) ∈ R → t ≠ -1 → i = i'
  max : ∀ i, (i, (-1 : Int)) ∈ R → ∀ (k : Nat) (a b : List Pos), ours[i]? = some a → other[k]? = some b → a.Perm b →
    ∃ i', (i', (k : Int)) ∈ R

theorem getD_map {α β : Type} (f : α → β) (d : β) {l : List α} {i : Nat} {a : α} (h : l[i]? = some a) : (l.map f).getD i d = f a := by
  rw [List.getD_eq_getElem?_getD, List.getElem?_map, h]; rfl

theorem identifyGroup_good {order : List Pos → List Nat} (ho : IsOrder order) {ours other : List (List Pos)} {n : Nat}
    {idsS idsO : List Nat} (hS : idsS.Nodup) (hO : idsO.Nodup)
    (mS : ∀ i, i ∈ idsS ↔ ∃ a, ours[i]? = some a ∧ a.length = n) (mO : ∀ i, i ∈ idsO ↔ ∃ a, other[i]? = some a ∧ a.length = n) :
    Good ours other n (identifyGroup order ours other idsS idsO) := by
  -- names
  unfold identifyGroup
  simp only
  generalize hs : idsS.map (fun i => ours.getD i []) = s
  generalize hob : idsO.map (fun i => other.getD i []) = o
  have gs : ∀ (j i : Nat), idsS[j]? = some i → ∃ a, ours[i]? = some a ∧ a.length = n ∧ s[j]? = some a := by
    intro j i hj
    obtain ⟨a, h1, h2⟩ := (mS i).1 (List.mem_of_getElem? hj)
    refine ⟨a, h1, h2, ?_⟩
    rw [← hs, List.getElem?_map, hj, Option.map_some, List.getD_eq_getElem?_getD, h1]; rfl
  have go : ∀ (j i : Nat), idsO[j]? = some i → ∃ a, other[i]? = some a ∧ a.length = n ∧ o[j]? = some a := by
    intro j i hj
    obtain ⟨a, h1, h2⟩ := (mO i).1 (List.mem_of_getElem? hj)
    refine ⟨a, h1, h2, ?_⟩
    rw [← hob, List.getElem?_map, hj, Option.map_some, List.getD_eq_getElem?_getD, h1]; rfl
  have ls : (starts s 0).length = idsS.length := by rw [starts_length, ← hs, List.length_map]
  have lo : (starts o 0).length = idsO.length := by rw [starts_length, ← hob, List.length_map]
  have htest : ∀ (j0 j1 i k : Nat) (a b : List Pos), idsS[j0]? = some i → idsO[j1]? = some k → ours[i]? = some a →
      other[k]? = some b → (sameItem s.flatten o.flatten ((starts s 0).getD j0 0) ((starts o 0).getD j1 0) ((s.map order).getD j0 [])
        ((o.map order).getD j1 []) = true ↔ a.Perm b) := by
    intro j0 j1 i k a b h0 h1 ha hb
    obtain ⟨a', ha', la, sa⟩ := gs j0 i h0
    obtain ⟨b', hb', lb, sb⟩ := go j1 k h1
    rw [ha] at ha'; obtain rfl := Option.some.inj ha'
    rw [hb] at hb'; obtain rfl := Option.some.inj hb'
    obtain ⟨c0, e0, f0⟩ := starts_get s 0 j0 a sa
    obtain ⟨c1, e1, f1⟩ := starts_get o 0 j1 b sb
    rw [getD_map order [] sa, getD_map order [] sb]
    have e0' : (starts s 0).getD j0 0 = c0 := by rw [List.getD_eq_getElem?_getD, e0]; simp
    have e1' : (starts o 0).getD j1 0 = c1 := by rw [List.getD_eq_getElem?_getD, e1]; simp
    rw [e0', e1']
    exact sameItem_iff ho f0 f1 (by rw [la, lb])
  have hM := targetLoop_spec (fun j0 j1 => sameItem s.flatten o.flatten ((starts s 0).getD j0 0) ((starts o 0).getD j1 0)
    ((s.map order).getD j0 []) ((o.map order).getD j1 [])) (starts o 0).length (List.range (starts s 0).length) (fun _ => false)
  have hout : samePosition s.flatten o.flatten (starts s 0) (starts o 0) (s.map order) (o.map order) =
    targetLoop (fun j0 j1 => sameItem s.flatten o.flatten ((starts s 0).getD j0 0) ((starts o 0).getD j1 0)
      ((s.map order).getD j0 []) ((o.map order).getD j1 [])) (starts o 0).length (List.range (starts s 0).length)
      (fun _ => false) := rfl
  rw [hout]
  generalize targetLoop (fun j0 j1 => sameItem s.flatten o.flatten ((starts s 0).getD j0 0) ((starts o 0).getD j1 0)
      ((s.map order).getD j0 []) ((o.map order).getD j1 [])) (starts o 0).length (List.range (starts s 0).length)
      (fun _ => false) = out at hM
  have hlen : out.length = idsS.length := by rw [hM.length, List.length_range, ls]
  rw [ls, lo] at hM
  -- elements of the result
  have hmem : ∀ i t, (i, t) ∈ idsS.zip (out.map (fun (t : Int) => if t = -1 then -1 else ((idsO.getD t.toNat 0 : Nat) : Int))) ↔
      ∃ (j : Nat) (u : Int), idsS[j]? = some i ∧ out[j]? = some u ∧
        t = if u = -1 then -1 else ((idsO.getD u.toNat 0 : Nat) : Int) := by
    intro i t
    rw [List.mem_iff_getElem?]
    constructor
    · rintro ⟨j, hj⟩
      rw [List.getElem?_zip_eq_some] at hj
      obtain ⟨h1, h2⟩ := hj
      rw [List.getElem?_map] at h2
      obtain ⟨u, hu, rfl⟩ := Option.map_eq_some_iff.1 h2
      exact ⟨j, u, h1, hu, rfl⟩
    · rintro ⟨j, u, h1, h2, rfl⟩
      exact ⟨j, by rw [List.getElem?_zip_eq_some]; exact ⟨h1, by rw [List.getElem?_map, h2]; rfl⟩⟩
  have hrange : ∀ (j i : Nat), idsS[j]? = some i → (List.range idsS.length)[j]? = some j := by
    intro j i h
    rw [List.getElem?_range (List.getElem?_eq_some_iff.1 h).1]
  -- positions of the two sides of a couple
  have hsnd : ∀ (j i : Nat) (u : Int), idsS[j]? = some i → out[j]? = some u → u ≠ -1 →
      ∃ (j1 k : Nat) (a b : List Pos), u = j1 ∧ idsO[j1]? = some k ∧ ours[i]? = some a ∧ other[k]? = some b ∧ a.Perm b := by
    intro j i u h1 h2 h3
    obtain ⟨j1, a1, a2, a3, _⟩ := hM.sound j j u (hrange j i h1) h2 h3
    obtain ⟨a, ha, _, _⟩ := gs j i h1
    have hk := List.getElem?_eq_getElem a2
    obtain ⟨b, hb, _, _⟩ := go j1 _ hk
    exact ⟨j1, _, a, b, a1, hk, ha, hb, (htest j j1 i _ a b h1 hk ha hb).1 a3⟩
  have hfst : (idsS.zip (out.map (fun (t : Int) => if t = -1 then -1 else ((idsO.getD t.toNat 0 : Nat) : Int)))).map Prod.fst = idsS :=
    List.map_fst_zip (by simp [hlen])
  refine ⟨by rw [hfst]; exact hS, fun i => by rw [hfst]; exact mS i, ?_, ?_, ?_⟩
  · intro i t hit ht
    obtain ⟨j, u, h1, h2, rfl⟩ := (hmem i t).1 hit
    by_cases hu : u = -1
    · simp [hu] at ht
    · obtain ⟨j1, k, a, b, rfl, hk, ha, hb, hp⟩ := hsnd j i u h1 h2 hu
      rw [if_neg hu]
      refine ⟨k, a, b, ?_, ha, hb, hp⟩
      rw [Int.toNat_natCast, List.getD_eq_getElem?_getD, hk]; rfl
  · intro i i' t hit hit' ht
    obtain ⟨j, u, h1, h2, e1⟩ := (hmem i t).1 hit
    obtain ⟨j', u', h1', h2', e2⟩ := (hmem i' t).1 hit'
    by_cases hu : u = -1
    · simp [hu] at e1; exact absurd e1 ht
    by_cases hu' : u' = -1
    · simp [hu'] at e2; exact absurd e2 ht
    obtain ⟨j1, k, _, _, rfl, hk, _, _, _⟩ := hsnd j i u h1 h2 hu
    obtain ⟨j1', k', _, _, rfl, hk', _, _, _⟩ := hsnd j' i' u' h1' h2' hu'
    rw [if_neg hu, Int.toNat_natCast, List.getD_eq_getElem?_getD, hk] at e1
    rw [if_neg hu', Int.toNat_natCast, List.getD_eq_getElem?_getD, hk'] at e2
    have hkk : k = k' := by
      rw [e1] at e2
      simpa using e2
    subst hkk
    obtain ⟨q1, q2⟩ := List.getElem?_eq_some_iff.1 hk
    obtain ⟨q1', q2'⟩ := List.getElem?_eq_some_iff.1 hk'
    have hj1 : j1 = j1' := (List.Nodup.getElem_inj_iff hO).1 (q2.trans q2'.symm)
    subst hj1
    have hjj := hM.inj j j' _ h2 h2' hu
    subst hjj
    rw [h1] at h1'
    exact Option.some.inj h1'
  · intro i hi k a b ha hb hp
    obtain ⟨j, u, h1, h2, e1⟩ := (hmem i (-1)).1 hi
    have hu : u = -1 := by
      by_contra hu
      rw [if_neg hu] at e1
      omega
    subst hu
    have hla : a.length = n := by
      obtain ⟨a', ha', la, _⟩ := gs j i h1
      rw [ha] at ha'; obtain rfl := Option.some.inj ha'
      exact la
    have hkO : k ∈ idsO := (mO k).2 ⟨b, hb, by rw [← hp.length_eq]; exact hla⟩
    obtain ⟨j1, hj1⟩ := List.mem_iff_getElem?.1 hkO
    rcases hM.max j j (hrange j i h1) h2 j1 (List.getElem?_eq_some_iff.1 hj1).1 ((htest j j1 i k a b h1 hj1 ha hb).2 hp) with
      h | ⟨m', hm', h⟩
    · cases h
    · have hml : m' < idsS.length := by rw [← hlen]; exact (List.getElem?_eq_some_iff.1 h).1
      refine ⟨idsS[m'], (hmem _ _).2 ⟨m', j1, List.getElem?_eq_getElem hml, h, ?_⟩⟩
      rw [if_neg (by omega), Int.toNat_natCast, List.getD_eq_getElem?_getD, hj1]; rfl

/-! ### The groups of sizes -/

theorem emit_items {α β : Type} {f : β → Option (Option α)} : ∀ {l : List β} {y : α}, y ∈ (emit f l).items → ∃ x ∈ l, f x = some (some y)
  | x :: l, y, h => by
    rw [emit] at h
    split at h
    · cases h
    · obtain ⟨x', hx', he⟩ := emit_items h
      exact ⟨x', List.mem_cons_of_mem _ hx', he⟩
    · rename_i z hz
      rcases List.mem_cons.1 h with rfl | h
      · exact ⟨x, by simp, hz⟩
      · obtain ⟨x', hx', he⟩ := emit_items h
        exact ⟨x', List.mem_cons_of_mem _ hx', he⟩

theorem iterOn_arr {argsort : List Int → List Nat} {x bins : List Rat} (hd : decreases false x = true) :
    ∀ g ∈ (iterOn argsort false x bins).items, g.arr = true := by
  intro g hg
  unfold iterOn at hg
  rw [if_pos hd] at hg
  split at hg
  · cases hg
  · obtain ⟨p, _, hp⟩ := emit_items hg
    unfold bodySorted at hp
    simp only [Option.bind_eq_bind, Option.bind_eq_some_iff] at hp
    obtain ⟨k, _, b, _, hp⟩ := hp
    split at hp
    · cases hp
    · simp only [Option.bind_eq_some_iff, Option.some.injEq] at hp
      obtain ⟨lo, _, hi, _, rfl⟩ := hp
      rfl

/-- The groups of `iter_on` on sizes: one for each size, with all the networks of this size. -/
theorem sizes_groups {argsort : List Int → List Nat} (harg : ∀ i, IsArgsort i (argsort i)) {l : List (List Pos)} (hne : l ≠ []) :
    (iterOnDefault argsort false (sizes l)).ok = true ∧
    (iterOnDefault argsort false (sizes l)).items.Pairwise (fun g h => g.lo < h.lo) ∧
    (∀ g ∈ (iterOnDefault argsort false (sizes l)).items, ∃ n : Nat, g.lo = n ∧ g.obs.Nodup ∧ g.obs ≠ [] ∧
      ∀ j, j ∈ g.obs ↔ ∃ a, l[j]? = some a ∧ a.length = n) ∧
    ∀ (j : Nat) (a : List Pos), l[j]? = some a → ∃ g ∈ (iterOnDefault argsort false (sizes l)).items, g.lo = a.length := by
  have hx : sizes l ≠ [] := by unfold sizes; simpa using hne
  obtain ⟨bins, hb, hc, hcov⟩ := iter_on_default harg hx
  have hint : ∀ v ∈ sizes l, ∃ n : Nat, v = n := by
    intro v hv
    unfold sizes at hv
    obtain ⟨a, _, rfl⟩ := List.mem_map.1 hv
    exact ⟨a.length, rfl⟩
  -- the bounds are integers with a step of one
  have hbins : ∃ z : Int, ∀ (k : Nat) (c : Rat), bins[k]? = some c → c = z + k := by
    unfold defaultBins extent at hb
    cases hs : sizes l with
    | nil => exact absurd hs hx
    | cons v vs =>
      rw [hs] at hb
      simp only [Option.map_some, Option.some.injEq] at hb
      have hmin : ∃ m : Nat, vs.foldl min v = m := by
        have : ∀ (vs : List Rat) (v : Rat), (∃ n : Nat, v = n) → (∀ w ∈ vs, ∃ n : Nat, w = n) → ∃ m : Nat, vs.foldl min v = m := by
          intro vs
          induction vs with
          | nil => intro v hv _; exact hv
          | cons w vs ih =>
            intro v hv hw
            rw [List.foldl_cons]
            apply ih
            · rcases min_choice v w with h | h <;> rw [h]
              · exact hv
              · exact hw w (by simp)
            · exact fun w hw' => hw w (List.mem_cons_of_mem _ hw')
        exact this vs v (hint v (by rw [hs]; simp)) (fun w hw => hint w (by rw [hs]; simp [hw]))
      obtain ⟨m, hm⟩ := hmin
      refine ⟨m, fun k c hk => ?_⟩
      rw [← hb, hm] at hk
      unfold arange at hk
      rw [List.getElem?_map] at hk
      obtain ⟨q, hq, rfl⟩ := Option.map_eq_some_iff.1 hk
      have := (List.getElem?_eq_some_iff.1 hq).2
      simp only [List.getElem_range] at this
      rw [← this]; push_cast; rfl
  obtain ⟨z, hz⟩ := hbins
  have hgrp : ∀ g ∈ (iterOnDefault argsort false (sizes l)).items, ∃ n : Nat, g.lo = n ∧ ∀ (j : Nat) (a : List Pos), l[j]? = some a →
      (j ∈ g.obs ↔ a.length = n) := by
    intro g hg
    obtain ⟨k, k1, k2⟩ := hc.bounds g hg
    have e1 := hz k _ k1
    have e2 := hz (k + 1) _ k2
    have hmem : ∀ (j : Nat) (a : List Pos), l[j]? = some a → (j ∈ g.obs ↔ (a.length : Int) = z + k) := by
      intro j a hja
      rw [hc.mem g hg j]
      unfold InBin
      have hv : (sizes l)[j]? = some (a.length : Rat) := by unfold sizes; rw [List.getElem?_map, hja]; rfl
      rw [hv]
      simp only [Option.some.injEq, exists_eq_left', e1, e2]
      constructor
      · rintro ⟨p1, p2⟩
        have q1 : ((z + k : Int) : Rat) ≤ ((a.length : Int) : Rat) := by push_cast; exact p1
        have q2 : ((a.length : Int) : Rat) < ((z + k + 1 : Int) : Rat) := by push_cast at p2 ⊢; linarith
        have q1 : z + k ≤ (a.length : Int) := by exact_mod_cast q1
        have q2 : (a.length : Int) < z + k + 1 := by exact_mod_cast q2
        omega
      · intro h
        have : ((a.length : Int) : Rat) = ((z + k : Int) : Rat) := by rw [h]
        push_cast at this ⊢
        constructor <;> linarith
    obtain ⟨j, hj⟩ := List.exists_mem_of_ne_nil _ (hc.nonempty g hg)
    obtain ⟨v, hv, _⟩ := (hc.mem g hg j).1 hj
    unfold sizes at hv
    rw [List.getElem?_map] at hv
    obtain ⟨a, ha, _⟩ := Option.map_eq_some_iff.1 hv
    have hza := (hmem j a ha).1 hj
    refine ⟨a.length, ?_, ?_⟩
    · rw [e1]
      have : ((a.length : Int) : Rat) = ((z + k : Int) : Rat) := by rw [hza]
      push_cast at this
      exact this.symm
    · intro j' a' ha'
      rw [hmem j' a' ha', ← hza]
      omega
  refine ⟨hc.ok, hc.ordered, ?_, ?_⟩
  · intro g hg
    obtain ⟨n, h1, h2⟩ := hgrp g hg
    refine ⟨n, h1, hc.nodup g hg, hc.nonempty g hg, fun j => ?_⟩
    constructor
    · intro hj
      obtain ⟨v, hv, _⟩ := (hc.mem g hg j).1 hj
      unfold sizes at hv
      rw [List.getElem?_map] at hv
      obtain ⟨a, ha, _⟩ := Option.map_eq_some_iff.1 hv
      exact ⟨a, ha, (h2 j a ha).1 hj⟩
    · rintro ⟨a, ha, hla⟩
      exact (h2 j a ha).2 hla
  · intro j a ha
    have hj : j < (sizes l).length := by
      unfold sizes; rw [List.length_map]; exact (List.getElem?_eq_some_iff.1 ha).1
    obtain ⟨g, hg, hjg⟩ := hcov j hj
    obtain ⟨n, h1, h2⟩ := hgrp g hg
    exact ⟨g, hg, by rw [h1, (h2 j a ha).1 hjg]⟩

theorem inOrder_spec {l : List (List Pos)} {ids : List Nat} {n : Nat} (h : ∀ j, j ∈ ids ↔ ∃ a, l[j]? = some a ∧ a.length = n) :
    (inOrder l.length ids).Nodup ∧ ∀ j, j ∈ inOrder l.length ids ↔ ∃ a, l[j]? = some a ∧ a.length = n := by
  unfold inOrder
  refine ⟨List.nodup_range.filter _, fun j => ?_⟩
  rw [List.mem_filter, List.mem_range, decide_eq_true_eq, h]
  constructor
  · exact fun h => h.2
  · rintro ⟨a, ha, hl⟩
    exact ⟨(List.getElem?_eq_some_iff.1 ha).1, a, ha, hl⟩

/-- Specification of `identify_in`: couples of networks with the same observations. -/
structure Identified (ours other : List (List Pos)) (keep : List Pos → Prop) (R : List (Nat × Int)) : Prop where
  /-- every network to identify is in the result exactly once -/
  nodup : (R.map Prod.fst).Nodup
  mem : ∀ i, i ∈ R.map Prod.fst ↔ ∃ a, ours[i]? = some a ∧ keep a
  /-- coupled networks have the same observations -/
  sound : ∀ i t, (i, t) ∈ R → t ≠ -1 → ∃ (k : Nat) (a b : List Pos), t = k ∧ ours[i]? = some a ∧ other[k]? = some b ∧ a.Perm b
  /-- no network of the other dataset is used twice -/
  inj : ∀ i i' t, (i, t) ∈ R → (i', t) ∈ R → t ≠ -1 → i = i'
  /-- a network is left alone only when every equal network is used -/
  max : ∀ i, (i, (-1 : Int)) ∈ R → ∀ (k : Nat) (a b : List Pos), ours[i]? = some a → other[k]? = some b → a.Perm b →
    ∃ i', (i', (k : Int)) ∈ R

theorem flatten_good {ours other : List (List Pos)} : ∀ (L : List (Nat × List (Nat × Int))), L.Pairwise (fun p q => p.1 < q.1) →
    (∀ p ∈ L, Good ours other p.1 p.2) →
    Identified ours other (fun a => ∃ p ∈ L, p.1 = a.length) (L.map Prod.snd).flatten := by
  intro L hL hG
  have hmem : ∀ x, x ∈ (L.map Prod.snd).flatten ↔ ∃ p ∈ L, x ∈ p.2 := by
    intro x; rw [List.mem_flatten]; constructor
    · rintro ⟨l, hl, hx⟩; obtain ⟨p, hp, rfl⟩ := List.mem_map.1 hl; exact ⟨p, hp, hx⟩
    · rintro ⟨p, hp, hx⟩; exact ⟨p.2, List.mem_map_of_mem hp, hx⟩
  have hfst : ∀ i, i ∈ (L.map Prod.snd).flatten.map Prod.fst ↔ ∃ p ∈ L, i ∈ p.2.map Prod.fst := by
    intro i
    rw [List.mem_map]
    constructor
    · rintro ⟨x, hx, rfl⟩
      obtain ⟨p, hp, hxp⟩ := (hmem x).1 hx
      exact ⟨p, hp, List.mem_map_of_mem hxp⟩
    · rintro ⟨p, hp, hi⟩
      obtain ⟨x, hx, rfl⟩ := List.mem_map.1 hi
      exact ⟨x, (hmem x).2 ⟨p, hp, hx⟩, rfl⟩
  have hsize : ∀ p ∈ L, ∀ i t, (i, t) ∈ p.2 → ∃ a, ours[i]? = some a ∧ a.length = p.1 := by
    intro p hp i t hx
    exact ((hG p hp).mem i).1 (List.mem_map_of_mem (f := Prod.fst) hx)
  have huniq : ∀ p ∈ L, ∀ q ∈ L, p.1 = q.1 → p = q := by
    intro p hp q hq he
    by_contra hne
    have hpw : L.Pairwise (fun p q => p.1 ≠ q.1) := hL.imp (fun h => by omega)
    have : Std.Symm (fun p q : Nat × List (Nat × Int) => p.1 ≠ q.1) := ⟨fun _ _ h => h.symm⟩
    exact hpw.forall hp hq hne he
  refine ⟨?_, ?_, ?_, ?_, ?_⟩
  · -- numbers of different groups have different sizes
    rw [List.map_flatten, List.map_map, List.nodup_flatten]
    constructor
    · intro l hl
      obtain ⟨p, hp, rfl⟩ := List.mem_map.1 hl
      exact (hG p hp).nodup
    · rw [List.pairwise_map]
      refine hL.imp_of_mem ?_
      intro p q hp hq hpq i hi hi'
      obtain ⟨a, ha, la⟩ := ((hG p hp).mem i).1 hi
      obtain ⟨b, hb, lb⟩ := ((hG q hq).mem i).1 hi'
      rw [ha] at hb
      obtain rfl := Option.some.inj hb
      omega
  · intro i
    rw [hfst]
    constructor
    · rintro ⟨p, hp, hi⟩
      obtain ⟨a, ha, la⟩ := ((hG p hp).mem i).1 hi
      exact ⟨a, ha, p, hp, la.symm⟩
    · rintro ⟨a, ha, p, hp, la⟩
      exact ⟨p, hp, ((hG p hp).mem i).2 ⟨a, ha, la.symm⟩⟩
  · intro i t hx ht
    obtain ⟨p, hp, hxp⟩ := (hmem _).1 hx
    exact (hG p hp).sound i t hxp ht
  · intro i i' t hx hx' ht
    obtain ⟨p, hp, hxp⟩ := (hmem _).1 hx
    obtain ⟨q, hq, hxq⟩ := (hmem _).1 hx'
    obtain ⟨k, a, b, e, ha, hb, hab⟩ := (hG p hp).sound i t hxp ht
    obtain ⟨k', a', b', e', ha', hb', hab'⟩ := (hG q hq).sound i' t hxq ht
    have hk : k = k' := by omega
    subst hk
    rw [hb] at hb'
    obtain rfl := Option.some.inj hb'
    obtain ⟨c, hc, lc⟩ := hsize p hp i t hxp
    obtain ⟨c', hc', lc'⟩ := hsize q hq i' t hxq
    rw [ha] at hc; obtain rfl := Option.some.inj hc
    rw [ha'] at hc'; obtain rfl := Option.some.inj hc'
    have hpq : p = q := huniq p hp q hq (by rw [← lc, ← lc', hab.length_eq, hab'.length_eq])
    subst hpq
    exact (hG p hp).inj i i' t hxp hxq ht
  · intro i hx k a b ha hb hab
    obtain ⟨p, hp, hxp⟩ := (hmem _).1 hx
    obtain ⟨i', hi'⟩ := (hG p hp).max i hxp k a b ha hb hab
    exact ⟨i', (hmem _).2 ⟨p, hp, hi'⟩⟩

/-- **C54** (`identify_in`, networks): the couples are networks with the same observations, no network of the other dataset is used
twice, and a network is left alone only when every equal network is used by another one. Missing for the whole property: the
networks which are larger than every network of the other dataset are not in the result (`identify_in_drops`), and a dataset with
networks in increasing order of size may raise (`identify_in_raises`). -/
theorem identify_in_partial {argsort : List Int → List Nat} {order : List Pos → List Nat} (harg : ∀ i, IsArgsort i (argsort i))
    (ho : IsOrder order) {ours other : List (List Pos)} (hother : other ≠ []) (hd : decreases false (sizes ours) = true)
    {sizeMin : Nat} (hmin : 1 ≤ sizeMin) (hone : ∃ a ∈ ours, sizeMin ≤ a.length ∧ ∃ b ∈ other, a.length ≤ b.length) :
    ∃ R, identifyIn argsort order ours other sizeMin = some R ∧
      Identified ours other (fun a => sizeMin ≤ a.length ∧ ∃ b ∈ other, a.length ≤ b.length) R := by
  have hself : ours ≠ [] := by rintro rfl; obtain ⟨a, ha, _⟩ := hone; cases ha
  obtain ⟨s1, s2, s3, s4⟩ := sizes_groups harg hself
  obtain ⟨o1, o2, o3, o4⟩ := sizes_groups harg hother
  have hoI : (iterOnDefault argsort false (sizes other)).items ≠ [] := by
    obtain ⟨b, hb⟩ := List.exists_mem_of_ne_nil _ hother
    obtain ⟨k, hk⟩ := List.mem_iff_getElem?.1 hb
    obtain ⟨g, hg, _⟩ := o4 k b hk
    exact List.ne_nil_of_mem hg
  have harr : ∀ g ∈ (iterOnDefault argsort false (sizes ours)).items, g.arr = true := by
    intro g hg
    unfold iterOnDefault at hg
    split at hg
    · cases hg
    · exact iterOn_arr hd g hg
  have hal := align_eq (allRef := true) s1 o1 s2 o2 hoI (fun _ => harr)
  simp only [if_true] at hal
  -- result of one group
  have hpair : ∀ g ∈ (iterOnDefault argsort false (sizes ours)).items, ∃ (n : Nat) (R : List (Nat × Int)), g.lo = n ∧
      identifyStep order ours other sizeMin (pairRef (iterOnDefault argsort false (sizes other)).items g) = some R ∧
      (n < sizeMin → R = []) ∧ (sizeMin ≤ n → Good ours other n R) := by
    intro g hg
    obtain ⟨n, hn, hnd, hnonempty, hmem⟩ := s3 g hg
    unfold identifyStep pairRef
    simp only
    by_cases hlt : n < sizeMin
    · have : g.lo < (sizeMin : Rat) := by rw [hn]; exact_mod_cast hlt
      exact ⟨n, [], hn, by rw [if_pos this], fun _ => rfl, fun h => absurd h (by omega)⟩
    · have hnlt : ¬ g.lo < (sizeMin : Rat) := by rw [hn]; exact_mod_cast hlt
      rw [if_neg hnlt]
      have hn1 : ¬ g.lo < 1 := by
        rw [hn]
        have : (1 : Rat) ≤ (n : Rat) := by exact_mod_cast (by omega : 1 ≤ n)
        linarith
      cases hp : partner (iterOnDefault argsort false (sizes other)).items g with
      | none =>
        rw [show (Option.elim (none : Option Group) [] (·.obs)) = [] from rfl, if_pos rfl]
        refine ⟨n, _, hn, rfl, fun h => absurd h hlt, fun _ => ?_⟩
        have hf : (g.obs.map (fun i => (i, (-1 : Int)))).map Prod.fst = g.obs := by
          rw [List.map_map]; exact List.map_id _
        refine ⟨by rw [hf]; exact hnd, fun i => by rw [hf]; exact hmem i, ?_, ?_, ?_⟩
        · intro i t hx ht
          obtain ⟨_, _, he⟩ := List.mem_map.1 hx
          cases he
          exact absurd rfl ht
        · intro i i' t hx _ ht
          obtain ⟨_, _, he⟩ := List.mem_map.1 hx
          cases he
          exact absurd rfl ht
        · intro i hx k a b ha hb hab
          obtain ⟨j, hj, he⟩ := List.mem_map.1 hx
          cases he
          obtain ⟨a', ha', la⟩ := (hmem i).1 hj
          rw [ha] at ha'; obtain rfl := Option.some.inj ha'
          obtain ⟨q, hq, hql⟩ := o4 k b hb
          obtain ⟨o', ho'⟩ := partner_of_mem (g := g) hq (by rw [hql, hn, ← la, hab.length_eq])
          rw [hp] at ho'; cases ho'
      | some q =>
        obtain ⟨hq, hql⟩ := partner_mem hp
        obtain ⟨n', hn', _, hqne, hqmem⟩ := o3 q hq
        have hnn : n' = n := by
          rw [hn', hn] at hql
          exact_mod_cast hql
        subst hnn
        rw [show (Option.elim (some q) [] (·.obs)) = q.obs from rfl, if_neg hqne, if_neg hn1]
        obtain ⟨a1, a2⟩ := inOrder_spec hmem
        obtain ⟨b1, b2⟩ := inOrder_spec hqmem
        exact ⟨n', _, hn, rfl, fun h => absurd h hlt, fun _ => identifyGroup_good ho a1 b1 a2 b2⟩
  -- the groups in the result
  obtain ⟨a, haM, hasz, b, hbM, hab⟩ := hone
  generalize hS : (iterOnDefault argsort false (sizes ours)).items = S at *
  generalize hO : (iterOnDefault argsort false (sizes other)).items = O at *
  have hmapM : ∀ (l : List Group), (∀ g ∈ l, g ∈ S) → ∃ Rs : List (Nat × List (Nat × Int)),
      (l.map (pairRef O)).mapM (identifyStep order ours other sizeMin) = some (Rs.map Prod.snd) ∧
      Rs.map (fun p => (p.1 : Rat)) = l.map (·.lo) ∧ ∀ p ∈ Rs, (p.1 < sizeMin → p.2 = []) ∧ (sizeMin ≤ p.1 → Good ours other p.1 p.2) := by
    intro l
    induction l with
    | nil => intro _; exact ⟨[], rfl, rfl, fun p hp => by cases hp⟩
    | cons g l ih =>
      intro hl
      obtain ⟨Rs, r1, r2, r3⟩ := ih (fun g hg => hl g (List.mem_cons_of_mem _ hg))
      obtain ⟨n, R, q1, q2, q3, q4⟩ := hpair g (hl g (by simp))
      refine ⟨(n, R) :: Rs, ?_, by simp [q1, r2], ?_⟩
      · rw [List.map_cons, List.mapM_cons, q2, r1]; rfl
      · intro p hp
        rcases List.mem_cons.1 hp with rfl | hp
        · exact ⟨q3, q4⟩
        · exact r3 p hp
  obtain ⟨Rs, r1, r2, r3⟩ := hmapM (S.filter (fun g => decide (∃ x ∈ O, g.lo ≤ x.lo))) (fun g hg => (List.mem_filter.1 hg).1)
  have hsorted : Rs.Pairwise (fun p q => p.1 < q.1) := by
    have h1 : ((S.filter (fun g => decide (∃ x ∈ O, g.lo ≤ x.lo))).map (·.lo)).Pairwise (· < ·) := by
      rw [List.pairwise_map]
      exact s2.sublist List.filter_sublist
    rw [← r2, List.pairwise_map] at h1
    exact h1.imp (fun h => by exact_mod_cast h)
  have hkeys : ∀ n : Nat, (∃ p ∈ Rs, p.1 = n) ↔ ∃ g ∈ S, g.lo = n ∧ ∃ x ∈ O, g.lo ≤ x.lo := by
    intro n
    have : (n : Rat) ∈ Rs.map (fun p => (p.1 : Rat)) ↔ (n : Rat) ∈ (S.filter (fun g => decide (∃ x ∈ O, g.lo ≤ x.lo))).map (·.lo) := by
      rw [r2]
    constructor
    · rintro ⟨p, hp, rfl⟩
      obtain ⟨g, hg, he⟩ := List.mem_map.1 (this.1 (List.mem_map.2 ⟨p, hp, rfl⟩))
      obtain ⟨g1, g2⟩ := List.mem_filter.1 hg
      exact ⟨g, g1, he, by simpa using g2⟩
    · rintro ⟨g, hg, he, hx⟩
      obtain ⟨p, hp, hpe⟩ := List.mem_map.1 (this.2 (List.mem_map.2 ⟨g, List.mem_filter.2 ⟨hg, by simpa using hx⟩, he⟩))
      exact ⟨p, hp, by exact_mod_cast hpe⟩
  have hkeep : ∀ a : List Pos, a ∈ ours → ((∃ p ∈ Rs, p.1 = a.length) ↔ ∃ b ∈ other, a.length ≤ b.length) := by
    intro a ha
    obtain ⟨i, hi⟩ := List.mem_iff_getElem?.1 ha
    rw [hkeys]
    constructor
    · rintro ⟨g, hg, he, x, hx, hle⟩
      obtain ⟨n', hn', _, hxne, hxmem⟩ := o3 x hx
      obtain ⟨k, hk⟩ := List.exists_mem_of_ne_nil _ hxne
      obtain ⟨b, hb, lb⟩ := (hxmem k).1 hk
      refine ⟨b, List.mem_of_getElem? hb, ?_⟩
      rw [he, hn'] at hle
      rw [lb]
      exact_mod_cast hle
    · rintro ⟨b, hb, hle⟩
      obtain ⟨k, hk⟩ := List.mem_iff_getElem?.1 hb
      obtain ⟨g, hg, hgl⟩ := s4 i a hi
      obtain ⟨x, hx, hxl⟩ := o4 k b hk
      exact ⟨g, hg, hgl, x, hx, by rw [hgl, hxl]; exact_mod_cast hle⟩
  refine ⟨(Rs.map Prod.snd).flatten, ?_, ?_⟩
  · unfold identifyIn
    simp only
    rw [hS] at *
    have hal' : alignOn true (iterOnDefault argsort false (sizes ours)) (iterOnDefault argsort false (sizes other)) =
      ⟨(S.filter (fun g => decide (∃ x ∈ O, g.lo ≤ x.lo))).map (pairRef O), true⟩ := hal
    rw [hal']
    simp only [if_true]
    rw [r1]
    simp only [Option.bind_some]
    rw [if_neg]
    intro hall
    obtain ⟨p, hp, hpe⟩ := (hkeep a haM).2 ⟨b, hbM, hab⟩
    obtain ⟨g, hg, he, hx⟩ := (hkeys a.length).1 ⟨p, hp, hpe⟩
    have := List.all_eq_true.1 hall (pairRef O g) (List.mem_map_of_mem (List.mem_filter.2 ⟨hg, by simpa using hx⟩))
    simp only [pairRef, decide_eq_true_eq, he] at this
    have : a.length < sizeMin := by exact_mod_cast this
    omega
  · -- the groups below the minimum are empty
    have hflat : (Rs.map Prod.snd).flatten = ((Rs.filter (fun p => decide (sizeMin ≤ p.1))).map Prod.snd).flatten := by
      clear r1 r2 hsorted hkeys hkeep
      induction Rs with
      | nil => rfl
      | cons p Rs ih =>
        have ih' := ih (fun q hq => r3 q (List.mem_cons_of_mem _ hq))
        by_cases hp : sizeMin ≤ p.1
        · rw [List.filter_cons_of_pos (by simpa using hp), List.map_cons, List.map_cons, List.flatten_cons, List.flatten_cons, ih']
        · rw [List.filter_cons_of_neg (by simpa using hp), List.map_cons, List.flatten_cons,
            (r3 p (by simp)).1 (by omega), List.nil_append, ih']
    rw [hflat]
    have hid := flatten_good (ours := ours) (other := other) (Rs.filter (fun p => decide (sizeMin ≤ p.1)))
      (hsorted.sublist List.filter_sublist) (fun p hp => by
        obtain ⟨h1, h2⟩ := List.mem_filter.1 hp
        exact (r3 p h1).2 (by simpa using h2))
    refine ⟨hid.nodup, fun i => ?_, hid.sound, hid.inj, hid.max⟩
    rw [hid.mem]
    constructor
    · rintro ⟨a, ha, p, hp, he⟩
      obtain ⟨h1, h2⟩ := List.mem_filter.1 hp
      refine ⟨a, ha, ?_, (hkeep a (List.mem_of_getElem? ha)).1 ⟨p, h1, he⟩⟩
      rw [← he]; simpa using h2
    · rintro ⟨a, ha, hsz, hb⟩
      obtain ⟨p, hp, he⟩ := (hkeep a (List.mem_of_getElem? ha)).2 hb
      exact ⟨a, ha, p, List.mem_filter.2 ⟨hp, by simpa [he] using hsz⟩, he⟩

/-- Insertion of a position by the observation. -/
def sortPos (l : List Pos) : List Nat := (List.range l.length).insertionSort (fun i j => l[i]?.getD (toLex (0, toLex (0, 0))) ≤
  l[j]?.getD (toLex (0, toLex (0, 0))))

/-- The hypothesis on the sort is met. -/
theorem sortPos_isOrder : IsOrder sortPos := by
  intro l
  have hp : (sortPos l).Perm (List.range l.length) := List.perm_insertionSort _ _
  refine ⟨hp, ?_⟩
  rw [List.pairwise_filterMap]
  have hs : (sortPos l).Pairwise (fun i j => l[i]?.getD (toLex (0, toLex (0, 0))) ≤ l[j]?.getD (toLex (0, toLex (0, 0)))) := by
    have : Std.Total (fun i j : Nat => l[i]?.getD (toLex (0, toLex (0, 0))) ≤ l[j]?.getD (toLex (0, toLex (0, 0)))) :=
      ⟨fun i j => le_total _ _⟩
    have : IsTrans Nat (fun i j : Nat => l[i]?.getD (toLex (0, toLex (0, 0))) ≤ l[j]?.getD (toLex (0, toLex (0, 0)))) :=
      ⟨fun i j k => le_trans⟩
    exact List.pairwise_insertionSort _ _
  refine hs.imp ?_
  intro i j h a ha b hb
  rw [ha, hb] at h
  exact h

private def pos (t x y : Rat) : Pos := toLex (t, toLex (x, y))

/-- The networks which are larger than every network of the other dataset are not in the result: the second one (two observations)
is dropped, though `align_on` is called with `all_ref=True`. -/
theorem identify_in_drops :
    identifyIn (fun i => stableArgsort i) sortPos [[pos 0 1 1, pos 1 1 1], [pos 0 2 2]] [[pos 0 2 2]] 1 = some [(1, 0)] := by
  decide +kernel

/-- With increasing sizes, a size without network in the other dataset raises (a slice has no type). -/
theorem identify_in_raises :
    identifyIn (fun i => stableArgsort i) sortPos [[pos 0 1 1], [pos 0 2 2, pos 1 2 2]]
      [[pos 0 3 3, pos 1 3 3]] 1 = none := by
  decide +kernel

/-- Equal networks in another order of numbers and of observations. -/
example : identifyIn (fun i => stableArgsort i) sortPos [[pos 0 1 1, pos 1 1 1], [pos 0 2 2], [pos 0 5 5, pos 1 5 5]]
    [[pos 1 1 1, pos 0 1 1], [pos 0 3 3], [pos 0 2 2], [pos 0 4 4, pos 1 4 4]] 1 = some [(1, 2), (0, 0), (2, -1)] := by
  decide +kernel

example : decreases false (sizes [[pos 0 1 1, pos 1 1 1], [pos 0 2 2], [pos 0 5 5, pos 1 5 5]]) = true := by decide +kernel

/-- Two equal networks are not linked to the same one. -/
example : identifyIn (fun i => stableArgsort i) sortPos [[pos 0 1 1, pos 1 1 1], [pos 0 2 2], [pos 0 1 1, pos 1 1 1]]
    [[pos 1 1 1, pos 0 1 1], [pos 0 3 3], [pos 0 4 4, pos 1 4 4]] 1 = some [(1, -1), (0, 0), (2, -1)] := by
  decide +kernel

end Verif.Identify
