import Verif.Segments.Lemmas
import Verif.Spec
import Verif.Network.GroupLemmas

/-!
# Properties of the segment graph (C14, C15)
-/

namespace Verif.Segments

open Relation

/-! ### Specification -/

/-- `adj` enumerates the sets of the dictionary of `connexions`, in any order. -/
def Enumerates (adj : List (Nat × Nat) → Nat → List Nat) : Prop :=
  ∀ E a b, b ∈ adj E a ↔ (a, b) ∈ E ∨ (b, a) ∈ E

/-- Two rows are linked when they follow each other in a segment, or when one is the end of a segment attached to the
other. -/
def Link (obs : List Obs) (i j : Nat) : Prop :=
  (j = i + 1 ∧ ∃ o o', obs[i]? = some o ∧ obs[j]? = some o' ∧ o.key = o'.key) ∨ Event obs i j

theorem adjOf_enumerates : Enumerates adjOf := by
  intro E a b
  unfold adjOf
  rw [List.mem_flatMap]
  constructor
  · rintro ⟨⟨x, y⟩, hp, h⟩
    rcases List.mem_append.1 h with h | h
    · split at h
      · rename_i e; rw [List.mem_singleton] at h; subst h; subst e; exact Or.inl hp
      · cases h
    · split at h
      · rename_i e; rw [List.mem_singleton] at h; subst h; subst e; exact Or.inr hp
      · cases h
  · rintro (h | h)
    · exact ⟨_, h, by simp⟩
    · exact ⟨_, h, by simp⟩

theorem reach_iff_conn {adj : List (Nat × Nat) → Nat → List Nat} (ha : Enumerates adj) (E : List (Nat × Nat)) (a b : Nat) :
    Reach (adj E) a b ↔ Conn E a b := by
  constructor
  · intro h
    induction h with
    | refl => exact EqvGen.refl _
    | tail _ h2 ih =>
      rcases (ha E _ _).1 h2 with h | h
      · exact EqvGen.trans _ _ _ ih (EqvGen.rel _ _ h)
      · exact EqvGen.trans _ _ _ ih (EqvGen.symm _ _ (EqvGen.rel _ _ h))
  · intro h
    have hsym : ∀ {a b}, Reach (adj E) a b → Reach (adj E) b a := by
      intro a b hab
      induction hab with
      | refl => exact ReflTransGen.refl
      | tail _ h2 ih => exact ReflTransGen.head ((ha E _ _).2 ((ha E _ _).1 h2).symm) ih
    induction h with
    | rel x y h => exact ReflTransGen.single ((ha E _ _).2 (Or.inl h))
    | refl => exact ReflTransGen.refl
    | symm _ _ _ ih => exact hsym ih
    | trans _ _ _ _ _ ih1 ih2 => exact ih1.trans ih2

/-- Rows of one segment are linked. -/
theorem same_linked {obs : List Obs} {sta : List Nat} (h : IsNumbering obs sta) (d i a : Nat) (ha : sta[i]? = some a)
    (hb : sta[i + d]? = some a) : EqvGen (Link obs) i (i + d) := by
  induction d with
  | zero => exact EqvGen.refl _
  | succ d ih =>
    have hlt : i + d + 1 < sta.length := (List.getElem?_eq_some_iff.1 hb).1
    obtain ⟨v, e1⟩ : ∃ v, sta[i + d]? = some v := ⟨_, List.getElem?_eq_getElem (by omega)⟩
    have h1 := h.mono i (i + d) a v (by omega) ha e1
    have h2 := h.mono (i + d) (i + (d + 1)) v a (by omega) e1 hb
    have h3 : v = a := by omega
    subst h3
    refine EqvGen.trans _ _ _ (ih e1) (EqvGen.rel _ _ (Or.inl ⟨rfl, ?_⟩))
    have hl : i + d + 1 < obs.length := by rw [← h.len]; exact hlt
    have e2 := List.getElem?_eq_getElem (l := obs) (i := i + d) (by omega)
    have e3 := List.getElem?_eq_getElem hl
    exact ⟨_, _, e2, e3, ((h.same_iff _ _ _ _ e1 e2 e3).1 hb).symm⟩

theorem linked_of_same {obs : List Obs} {sta : List Nat} (h : IsNumbering obs sta) (i j a : Nat) (ha : sta[i]? = some a)
    (hb : sta[j]? = some a) : EqvGen (Link obs) i j := by
  rcases Nat.le_total i j with hij | hij
  · obtain ⟨d, rfl⟩ := Nat.exists_eq_add_of_le hij
    exact same_linked h d i a ha hb
  · obtain ⟨d, rfl⟩ := Nat.exists_eq_add_of_le hij
    exact EqvGen.symm _ _ (same_linked h d j a hb ha)

/-- Connectivity of segment numbers is connectivity of rows. -/
theorem conn_iff_linked {obs : List Obs} {sta : List Nat} (h : IsNumbering obs sta) (hv : Valid obs) (E : List (Nat × Nat))
    (hE : ∀ a b, (a, b) ∈ E ↔ ∃ i j : Nat, Event obs i j ∧ sta[j]? = some a ∧ sta[i]? = some b)
    (i j a b : Nat) (hi : sta[i]? = some a) (hj : sta[j]? = some b) : Conn E a b ↔ EqvGen (Link obs) i j := by
  constructor
  · intro hc
    let r : Nat → Nat → Prop := fun a b =>
      (∀ i : Nat, sta[i]? = some a → ∃ j : Nat, sta[j]? = some b ∧ EqvGen (Link obs) i j) ∧
      (∀ i : Nat, sta[i]? = some b → ∃ j : Nat, sta[j]? = some a ∧ EqvGen (Link obs) i j)
    have hr : r a b := by
      refine Conn.lift (r := r) ⟨?_, ?_, ?_⟩ ?_ hc
      · exact fun x => ⟨fun i hi => ⟨i, hi, EqvGen.refl _⟩, fun i hi => ⟨i, hi, EqvGen.refl _⟩⟩
      · exact fun h => ⟨h.2, h.1⟩
      · rintro x y z ⟨h1, h2⟩ ⟨h3, h4⟩
        refine ⟨fun i hi => ?_, fun i hi => ?_⟩
        · obtain ⟨j, hj, e⟩ := h1 i hi
          obtain ⟨k, hk, e'⟩ := h3 j hj
          exact ⟨k, hk, EqvGen.trans _ _ _ e e'⟩
        · obtain ⟨j, hj, e⟩ := h4 i hi
          obtain ⟨k, hk, e'⟩ := h2 j hj
          exact ⟨k, hk, EqvGen.trans _ _ _ e e'⟩
      · intro x y hxy
        obtain ⟨p, q, hev, hq, hp⟩ := (hE x y).1 hxy
        have hl : EqvGen (Link obs) p q := EqvGen.rel _ _ (Or.inr hev)
        refine ⟨fun i hi => ⟨p, hp, ?_⟩, fun i hi => ⟨q, hq, ?_⟩⟩
        · exact EqvGen.trans _ _ _ (linked_of_same h i q x hi hq) (EqvGen.symm _ _ hl)
        · exact EqvGen.trans _ _ _ (linked_of_same h i p y hi hp) hl
    obtain ⟨k, hk, e⟩ := hr.1 i hi
    exact EqvGen.trans _ _ _ e (linked_of_same h k j b hk hj)
  · intro hl
    have key : ∀ p q, EqvGen (Link obs) p q → (p < obs.length ↔ q < obs.length) ∧
        ∀ x y, sta[p]? = some x → sta[q]? = some y → Conn E x y := by
      intro p q hpq
      induction hpq with
      | rel p q hpq =>
        rcases hpq with ⟨rfl, o, o', ho, ho', hk⟩ | hev
        · have h1 := (List.getElem?_eq_some_iff.1 ho).1
          have h2 := (List.getElem?_eq_some_iff.1 ho').1
          refine ⟨⟨fun _ => h2, fun _ => h1⟩, fun x y hx hy => ?_⟩
          rw [(h.same_iff p x o o' hx ho ho').2 hk.symm] at hy
          cases hy; exact EqvGen.refl _
        · have hpq : p < obs.length ∧ q < obs.length := by
            rcases hev with ⟨_, o, ho, e⟩ | ⟨_, o, ho, e⟩
            · have := (hv o (List.mem_of_getElem? ho)).1
              exact ⟨(List.getElem?_eq_some_iff.1 ho).1, by omega⟩
            · have := (hv o (List.mem_of_getElem? ho)).2
              exact ⟨(List.getElem?_eq_some_iff.1 ho).1, by omega⟩
          refine ⟨⟨fun _ => hpq.2, fun _ => hpq.1⟩, fun x y hx hy => ?_⟩
          exact EqvGen.symm _ _ (EqvGen.rel _ _ ((hE y x).2 ⟨p, q, hev, hy, hx⟩))
      | refl p => exact ⟨Iff.rfl, fun x y hx hy => by rw [hx] at hy; cases hy; exact EqvGen.refl _⟩
      | symm p q _ ih => exact ⟨ih.1.symm, fun x y hx hy => EqvGen.symm _ _ (ih.2 y x hy hx)⟩
      | trans p q s _ _ ih1 ih2 =>
        refine ⟨ih1.1.trans ih2.1, fun x y hx hy => ?_⟩
        have hp : p < obs.length := by rw [← h.len]; exact (List.getElem?_eq_some_iff.1 hx).1
        have hq := ih1.1.1 hp
        rw [← h.len] at hq
        have e := List.getElem?_eq_getElem hq
        exact EqvGen.trans _ _ _ (ih1.2 x _ hx e) (ih2.2 _ y e hy)
    exact (key i j hl).2 a b hi hj

/-- C14: `dissociate_network` gives the same network number to two observations exactly when a chain of segments attached
to each other relates them. The numbers are `s, s+1, …, m` with `s = 0` if the first network is 0, and `s = 1` otherwise;
the first row gets `s`. -/
theorem dissociate_components (adj : List (Nat × Nat) → Nat → List Nat) (ha : Enumerates adj) (obs : List Obs)
    (hne : obs ≠ []) (hv : Valid obs) :
    ∃ out, dissociate adj obs = some out ∧ out.length = obs.length ∧
      (∀ i j a b : Nat, out[i]? = some a → out[j]? = some b → (a = b ↔ EqvGen (Link obs) i j)) ∧
      out[0]? = some (if (obs.map (·.track)).head? = some 0 then 0 else 1) ∧
      (∀ a ∈ out, ∀ t, (if (obs.map (·.track)).head? = some 0 then 0 else 1) ≤ t → t ≤ a → t ∈ out) := by
  obtain ⟨sta, hsta, hnum⟩ := segTrackArray_spec obs hne
  obtain ⟨E, hE, hmem⟩ := connexions_spec sta obs hne hv hnum.len
  have hpos : 0 < sta.length := by rw [hnum.len]; exact List.length_pos_of_ne_nil hne
  have hlast : sta[sta.length - 1]? = some (sta.getLastD 0) := by
    rw [List.getLastD_eq_getLast?, List.getLast?_eq_getElem?, List.getElem?_eq_getElem (by omega)]; rfl
  have hbound : ∀ s ∈ sta, s < sta.getLastD 0 + 1 := by
    intro s hs
    obtain ⟨i, hi⟩ := List.getElem?_of_mem hs
    have := hnum.mono i (sta.length - 1) s _ (by have := (List.getElem?_eq_some_iff.1 hi).1; omega) hi hlast
    omega
  have hadj : ∀ a, ∀ b ∈ adj E a, b < sta.getLastD 0 + 1 := by
    intro a b hb
    rcases (ha E a b).1 hb with h | h
    · obtain ⟨i, j, _, _, h2⟩ := (hmem a b).1 h
      exact hbound b (List.mem_of_getElem? h2)
    · obtain ⟨i, j, _, h1, _⟩ := (hmem b a).1 h
      exact hbound b (List.mem_of_getElem? h1)
  have hinv := tagSegment_inv (adj := adj E) (sta.getLastD 0 + 1) hadj
    (fun a b h => (ha E b a).2 ((ha E a b).1 h).symm)
  have hout : dissociate adj obs = some (sta.map (fun s => (tagSegment (adj E) (sta.getLastD 0 + 1)).1 s -
      (if (obs.map (·.track)).head? = some 0 then 1 else 0))) := by
    unfold dissociate
    simp only [Option.bind_eq_bind]
    rw [hsta, Option.bind_some, hE, Option.bind_some]
  have hattained : ∀ m, m < sta.getLastD 0 + 1 → m ∈ sta := by
    intro m hm
    obtain ⟨i, _, e⟩ := hnum.attained _ _ m hlast (by omega)
    exact List.mem_of_getElem? e
  -- the first tag is 1
  have hone : (tagSegment (adj E) (sta.getLastD 0 + 1)).1 0 = 1 := by
    have hsteps : ∀ m, (((List.range (m + 1)).foldl (tagStep (adj E) (sta.getLastD 0 + 1)) (fun _ => 0, 1)).1 0) = 1 := by
      intro m
      induction m with
      | zero =>
        rw [List.range_succ, List.foldl_append]
        simp only [List.range_zero, List.foldl_nil, List.foldl_cons]
        unfold tagStep
        by_cases hnil : adj E 0 = []
        · rw [if_pos hnil]; simp
        · rw [if_neg hnil, if_neg (by simp)]
          simp only
          have hcard : (untagged (sta.getLastD 0 + 1) (fun _ => 0)).card < sta.getLastD 0 + 1 + 1 := by
            have : (untagged (sta.getLastD 0 + 1) (fun _ => 0)).card ≤ (Finset.range (sta.getLastD 0 + 1)).card :=
              Finset.card_le_card (Finset.filter_subset _ _)
            rw [Finset.card_range] at this; omega
          obtain ⟨t, n⟩ := dfs_spec (adj := adj E) 1 (by omega) (sta.getLastD 0 + 1) hadj (sta.getLastD 0 + 1 + 1)
            (fun _ => 0) 0 (by omega) hcard
          exact (t.new 0 rfl n).1
      | succ m ih =>
        rw [List.range_succ, List.foldl_append]
        generalize hs : (List.range (m + 1)).foldl (tagStep (adj E) (sta.getLastD 0 + 1)) (fun _ => 0, 1) = s at *
        simp only [List.foldl_cons, List.foldl_nil]
        unfold tagStep
        by_cases hnil : adj E (m + 1) = []
        · rw [if_pos hnil]
          simp only
          rw [Function.update_of_ne (by omega)]; exact ih
        · rw [if_neg hnil]
          split
          · exact ih
          · simp only
            -- tags are kept
            have hkeep : ∀ (fuel : Nat) (g : Nat → Nat) (v tag : Nat), g 0 = 1 → dfs (adj E) tag fuel g v 0 = 1 := by
              intro fuel
              induction fuel with
              | zero => intro g v tag h; exact h
              | succ fuel ihf =>
                intro g v tag h
                rw [dfs]
                split
                · exact h
                · rename_i h0
                  have hv0 : (0 : Nat) ≠ v := by rintro rfl; exact h0 (by rw [h]; omega)
                  have : ∀ (l : List Nat) (g : Nat → Nat), g 0 = 1 → (l.foldl (fun g x => dfs (adj E) tag fuel g x) g) 0 = 1 := by
                    intro l
                    induction l with
                    | nil => intro g h; exact h
                    | cons x l ihl => intro g h; exact ihl _ (ihf g x tag h)
                  exact this _ _ (by rw [Function.update_of_ne hv0]; exact h)
            exact hkeep _ _ _ _ ih
    exact hsteps (sta.getLastD 0)
  refine ⟨_, hout, by rw [List.length_map, hnum.len], ?_, ?_, ?_⟩
  · intro i j a b hi hj
    rw [List.getElem?_map] at hi hj
    obtain ⟨s, hs, rfl⟩ := Option.map_eq_some_iff.1 hi
    obtain ⟨s', hs', rfl⟩ := Option.map_eq_some_iff.1 hj
    rw [← conn_iff_linked hnum hv E hmem i j s s' hs hs', ← reach_iff_conn ha]
    have h1 := hinv.done s (hbound s (List.mem_of_getElem? hs))
    have h2 := hinv.done s' (hbound s' (List.mem_of_getElem? hs'))
    rw [← hinv.cls s s' h1]
    constructor
    · intro e
      split at e <;> omega
    · intro e; rw [e]
  · rw [List.getElem?_map, hnum.zero, Option.map_some, hone]
    congr 1
    split <;> rfl
  · intro a haa t h1 h2
    obtain ⟨s, hs, rfl⟩ := List.mem_map.1 haa
    have hs1 := hinv.lt s
    have hs2 := hinv.done s (hbound s hs)
    by_cases hz : (obs.map (·.track)).head? = some 0
    · rw [if_pos hz] at h1 h2 ⊢
      obtain ⟨x, hx, e⟩ := hinv.onto (t + 1) (by omega) (by omega)
      exact List.mem_map.2 ⟨x, hattained x hx, by rw [e]; omega⟩
    · rw [if_neg hz] at h1 h2 ⊢
      obtain ⟨x, hx, e⟩ := hinv.onto t (by omega) (by omega)
      exact List.mem_map.2 ⟨x, hattained x hx, by rw [e]; omega⟩

/-- One network with four segments: 1 splits into 2 (row 2), 3 merges nowhere, 4 merges into 3. -/
def exObs : List Obs :=
  [⟨1, 1, -1, 1⟩, ⟨1, 1, 0, -1⟩, ⟨1, 2, 0, 3⟩, ⟨1, 2, 2, -1⟩, ⟨1, 3, -1, 5⟩, ⟨1, 3, 4, -1⟩, ⟨1, 4, -1, 5⟩]

example : Valid exObs := by unfold Valid; decide
example : dissociate adjOf exObs = some [1, 1, 1, 1, 2, 2, 2] := by decide
example : dissociate adjOf (⟨0, 0, -1, -1⟩ :: [⟨1, 1, -1, 2⟩, ⟨1, 1, 1, -1⟩, ⟨1, 2, -1, -1⟩]) = some [0, 1, 1, 2] := by decide

/-! ### C15 -/

/-- Two segments touch when an end of one of them is attached to a row of the other. -/
def Touch (obs : List Obs) (s t : Nat) : Prop :=
  ∃ i j : Nat, (Event obs i j ∨ Event obs j i) ∧ (obs[i]?).map (·.seg) = some s ∧ (obs[j]?).map (·.seg) = some t

/-- A chain of `k` contacts relates two segments. -/
inductive Chain (obs : List Obs) : Nat → Nat → Nat → Prop
  | nil (s : Nat) : Chain obs s s 0
  | step {s t u k : Nat} : Chain obs s t k → Touch obs t u → Chain obs s u (k + 1)

theorem walk_iff_chain {adj : List (Nat × Nat) → Nat → List Nat} (ha : Enumerates adj) (obs : List Obs)
    (E : List (Nat × Nat)) (hE : ∀ a b, (a, b) ∈ E ↔ ∃ i j : Nat, Event obs i j ∧ (obs.map (·.seg))[j]? = some a ∧
      (obs.map (·.seg))[i]? = some b) (a b k : Nat) : Walk (adj E) a b k ↔ Chain obs a b k := by
  have hadj : ∀ x y, y ∈ adj E x ↔ Touch obs x y := by
    intro x y
    rw [ha E x y, hE x y, hE y x]
    constructor
    · rintro (⟨i, j, h, h1, h2⟩ | ⟨i, j, h, h1, h2⟩)
      · exact ⟨j, i, Or.inr h, by rw [← List.getElem?_map]; exact h1, by rw [← List.getElem?_map]; exact h2⟩
      · exact ⟨i, j, Or.inl h, by rw [← List.getElem?_map]; exact h2, by rw [← List.getElem?_map]; exact h1⟩
    · rintro ⟨i, j, h | h, h1, h2⟩
      · exact Or.inr ⟨i, j, h, by rw [List.getElem?_map]; exact h2, by rw [List.getElem?_map]; exact h1⟩
      · exact Or.inl ⟨j, i, h, by rw [List.getElem?_map]; exact h1, by rw [List.getElem?_map]; exact h2⟩
  constructor
  · intro h
    induction h with
    | nil => exact Chain.nil _
    | step _ h2 ih => exact Chain.step ih ((hadj _ _).1 h2)
  · intro h
    induction h with
    | nil => exact Walk.nil _
    | step _ h2 ih => exact Walk.step ih ((hadj _ _).2 h2)

theorem sliceFill_length {α : Type} (l : List α) (lo hi : Int) (v : α) : (Py.sliceFill l lo hi v).length = l.length := by
  unfold Py.sliceFill; rw [List.length_mapIdx]

/-- Filling disjoint slices. -/
theorem fill_slices (n : Nat) (first last : List Nat) (rel : List Int) (groups : List Nat) (i0 : Nat)
    (hl1 : first.length = last.length) (hl2 : rel.length = first.length) (hg : groups.length = n)
    (hslice : ∀ (m a b : Nat), first[m]? = some a → last[m]? = some b →
      a ≤ b ∧ b ≤ n ∧ ∀ k : Nat, groups[k]? = some (i0 + m) ↔ a ≤ k ∧ k < b)
    (hrange : ∀ g ∈ groups, i0 ≤ g ∧ g < i0 + first.length) :
    (first.zip (last.zip rel)).foldl (fun out (p : Nat × Nat × Int) =>
        if p.1 = p.2.1 then out else Py.sliceFill out p.1 p.2.1 p.2.2) (List.replicate n (-1)) =
      groups.map (fun g => rel.getD (g - i0) (-1)) := by
  have key : ∀ m, m ≤ first.length → ∀ k, k < n →
      (((first.zip (last.zip rel)).take m).foldl (fun out (p : Nat × Nat × Int) =>
        if p.1 = p.2.1 then out else Py.sliceFill out p.1 p.2.1 p.2.2) (List.replicate n (-1))).length = n ∧
      (((first.zip (last.zip rel)).take m).foldl (fun out (p : Nat × Nat × Int) =>
        if p.1 = p.2.1 then out else Py.sliceFill out p.1 p.2.1 p.2.2) (List.replicate n (-1)))[k]? =
      some (if (groups.getD k 0) - i0 < m then rel.getD ((groups.getD k 0) - i0) (-1) else -1) := by
    intro m
    induction m with
    | zero => intro _ k hk; simp [hk]
    | succ m ih =>
      intro hm k hk
      obtain ⟨hlen, hval⟩ := ih (by omega) k hk
      have hz : (first.zip (last.zip rel))[m]? = some (first[m], last[m], rel[m]) := by
        rw [(List.getElem?_zip_eq_some (z := (first[m], last[m], rel[m])))]
        refine ⟨List.getElem?_eq_getElem _, ?_⟩
        rw [(List.getElem?_zip_eq_some (z := (last[m], rel[m])))]
        exact ⟨List.getElem?_eq_getElem _, List.getElem?_eq_getElem _⟩
      rw [List.take_add_one, hz, List.foldl_append]
      generalize hO : ((first.zip (last.zip rel)).take m).foldl (fun out (p : Nat × Nat × Int) =>
        if p.1 = p.2.1 then out else Py.sliceFill out p.1 p.2.1 p.2.2) (List.replicate n (-1)) = O at *
      simp only [Option.toList_some, List.foldl_cons, List.foldl_nil]
      obtain ⟨s1, s2, s3⟩ := hslice m first[m] last[m] (List.getElem?_eq_getElem _) (List.getElem?_eq_getElem _)
      have hgk : groups[k]? = some (groups.getD k 0) := by
        rw [List.getD, List.getElem?_eq_getElem (by omega)]; rfl
      have hgr := hrange _ (List.mem_of_getElem? hgk)
      have h3 := s3 k
      rw [hgk, Option.some.injEq] at h3
      generalize groups.getD k 0 = g at *
      by_cases heq : first[m] = last[m]
      · rw [if_pos heq]
        refine ⟨hlen, ?_⟩
        rw [hval]
        have : ¬ g = i0 + m := by rw [h3]; omega
        congr 1
        by_cases hc : g - i0 < m
        · rw [if_pos hc, if_pos (by omega)]
        · rw [if_neg hc, if_neg (by omega)]
      · rw [if_neg heq]
        refine ⟨by rw [sliceFill_length]; exact hlen, ?_⟩
        unfold Py.sliceFill
        rw [List.getElem?_mapIdx, hval, Option.map_some, hlen]
        have b1 : Py.bound n ((first[m] : Nat) : Int) = first[m] := by unfold Py.bound; rw [if_pos (by omega)]; omega
        have b2 : Py.bound n ((last[m] : Nat) : Int) = last[m] := by unfold Py.bound; rw [if_pos (by omega)]; omega
        rw [b1, b2]
        congr 1
        by_cases hc : g = i0 + m
        · rw [if_pos (h3.1 hc), if_pos (by omega), hc, Nat.add_sub_cancel_left, List.getD,
            List.getElem?_eq_getElem (by omega)]; rfl
        · rw [if_neg (fun h => hc (h3.2 h))]
          by_cases hc' : g - i0 < m
          · rw [if_pos hc', if_pos (by omega)]
          · rw [if_neg hc', if_neg (by omega)]
  have hzl : (first.zip (last.zip rel)).length = first.length := by
    rw [List.length_zip, List.length_zip]; omega
  have htake : (first.zip (last.zip rel)).take first.length = first.zip (last.zip rel) := by
    rw [← hzl, List.take_length]
  apply List.ext_getElem?
  intro k
  by_cases hk : k < n
  · have := (key first.length (le_refl _) k hk).2
    rw [htake] at this
    rw [this, List.getElem?_map]
    have hgk : groups[k]? = some (groups.getD k 0) := by
      rw [List.getD, List.getElem?_eq_getElem (by omega)]; rfl
    have hgr := hrange _ (List.mem_of_getElem? hgk)
    rw [hgk, Option.map_some, if_pos (by omega)]
  · by_cases h0 : 0 < n
    · have := (key first.length (le_refl _) 0 h0).1
      rw [htake] at this
      rw [List.getElem?_eq_none (by omega), List.getElem?_eq_none (by rw [List.length_map]; omega)]
    · have hn : n = 0 := by omega
      subst hn
      have hl0 : ∀ (l : List (Nat × Nat × Int)), (l.foldl (fun out (p : Nat × Nat × Int) =>
        if p.1 = p.2.1 then out else Py.sliceFill out p.1 p.2.1 p.2.2) (List.replicate 0 (-1))) = [] := by
        intro l
        induction l with
        | nil => rfl
        | cons p l ih =>
          rw [List.foldl_cons]
          have : (if p.1 = p.2.1 then List.replicate 0 (-1 : Int) else Py.sliceFill (List.replicate 0 (-1)) p.1 p.2.1 p.2.2)
            = List.replicate 0 (-1) := by split <;> rfl
          rw [this]; exact ih
      rw [hl0, List.length_eq_zero_iff.1 hg]; rfl

/-- C15: on one network with sorted segments, the relative order of an observation is the length of the shortest chain of
touching segments from the segment of origin to its own, and `-1` when there is none. -/
theorem relative_order_is_distance (adj : List (Nat × Nat) → Nat → List Nat) (ha : Enumerates adj) (obs : List Obs)
    (hv : Valid obs) (net : Nat) (hnet : ∀ o ∈ obs, o.track = net) (hs : (obs.map (·.seg)).Pairwise (· ≤ ·))
    (origin : Nat) (ho : origin ∈ obs.map (·.seg)) :
    ∃ out, relativeOrder adj obs origin = some out ∧ out.length = obs.length ∧
      ∀ (i : Nat) o, obs[i]? = some o →
        (∃ k : Nat, out[i]? = some (k : Int) ∧ Chain obs origin o.seg k ∧ ∀ j, Chain obs origin o.seg j → k ≤ j) ∨
        (out[i]? = some (-1) ∧ ∀ j, ¬ Chain obs origin o.seg j) := by
  have hne : obs ≠ [] := by rintro rfl; cases ho
  have hded : (obs.map (·.track)).dedup.length = 1 := by
    have : (obs.map (·.track)).dedup = [net] := by
      have hnd := List.nodup_dedup (obs.map (·.track))
      have hm : ∀ x ∈ (obs.map (·.track)).dedup, x = net := by
        intro x hx
        rw [List.mem_dedup] at hx
        obtain ⟨o, h1, rfl⟩ := List.mem_map.1 hx
        exact hnet o h1
      have hin : net ∈ (obs.map (·.track)).dedup := by
        rw [List.mem_dedup]
        obtain ⟨o, l, rfl⟩ := List.exists_cons_of_ne_nil hne
        exact List.mem_map.2 ⟨o, List.mem_cons_self, hnet o List.mem_cons_self⟩
      generalize (obs.map (·.track)).dedup = d at *
      match d, hnd, hm, hin with
      | [x], _, hm, _ => rw [hm x List.mem_cons_self]
      | x :: y :: l, hnd, hm, _ =>
        exfalso
        have h1 := hm x List.mem_cons_self
        have h2 := hm y (by simp)
        rw [List.nodup_cons] at hnd
        exact hnd.1 (by rw [h1, h2]; exact List.mem_cons_self)
    rw [this]; rfl
  have hsi : ((obs.map (·.seg)).map (fun (k : Nat) => (k : Int))).Pairwise (· ≤ ·) := by
    rw [List.pairwise_map]
    exact hs.imp (fun h => by exact_mod_cast h)
  obtain ⟨first, last, i0, hbi, ⟨hlen, hrange, hslice⟩, hi0, hmax, hpos⟩ :=
    Index.build_index_spec ((obs.map (·.seg)).map (fun (k : Nat) => (k : Int))) (by simpa using hne) hsi
  obtain ⟨E, hE, hmem⟩ := connexions_spec (obs.map (·.seg)) obs hne hv (by simp)
  obtain ⟨z, hz, rfl⟩ := List.mem_map.1 hi0
  have hrange' : ∀ g ∈ obs.map (·.seg), z ≤ g ∧ g < z + first.length := by
    intro g hg
    have := hrange g (List.mem_map.2 ⟨g, hg, rfl⟩)
    omega
  have hslice' : ∀ (m a b : Nat), first[m]? = some a → last[m]? = some b →
      a ≤ b ∧ b ≤ obs.length ∧ ∀ k : Nat, (obs.map (·.seg))[k]? = some (z + m) ↔ a ≤ k ∧ k < b := by
    intro m a b h1 h2
    obtain ⟨s1, s2, s3⟩ := hslice m a b h1 h2
    refine ⟨s1, by simpa using s2, fun k => ?_⟩
    rw [← s3 k, List.getElem?_map (f := fun (k : Nat) => (k : Int))]
    cases (obs.map (·.seg))[k]? with
    | none => simp
    | some v => simp only [Option.map_some, Option.some.injEq]; omega
  have horg := hrange' origin ho
  -- distances; indices are bounded by `z + length`
  have hadj : ∀ a, ∀ b ∈ adj E a, b < z + first.length := by
    intro a b hb
    rcases (ha E a b).1 hb with h | h
    · obtain ⟨i, j, _, _, h2⟩ := (hmem a b).1 h
      exact (hrange' b (List.mem_of_getElem? h2)).2
    · obtain ⟨i, j, _, h1, _⟩ := (hmem b a).1 h
      exact (hrange' b (List.mem_of_getElem? h1)).2
  have hadj' : ∀ a, ∀ b ∈ adj E a, z ≤ b := by
    intro a b hb
    rcases (ha E a b).1 hb with h | h
    · obtain ⟨i, j, _, _, h2⟩ := (hmem a b).1 h
      exact (hrange' b (List.mem_of_getElem? h2)).1
    · obtain ⟨i, j, _, h1, _⟩ := (hmem b a).1 h
      exact (hrange' b (List.mem_of_getElem? h1)).1
  obtain ⟨hd1, hd2⟩ := close_distance ((Finset.range first.length).image (z + ·)) first.length origin
    (by have := Finset.card_image_le (s := Finset.range first.length) (f := (z + ·)); rw [Finset.card_range] at this; exact this)
    (fun a b hb => Finset.mem_image.2 ⟨b - z, Finset.mem_range.2 (by have := hadj a b hb; have := hadj' a b hb; omega),
      by have := hadj' a b hb; omega⟩)
  have hout : relativeOrder adj obs origin = some ((obs.map (·.seg)).map (fun g => ((List.range first.length).map
      (fun (k : Nat) => match close (adj E) (first.length + 1) (fun _ => none) origin (((z : Nat) : Int).toNat + k) with
        | none => (-1 : Int)
        | some v => (v : Int))).getD (g - z) (-1))) := by
    unfold relativeOrder
    simp only [Option.bind_eq_bind]
    rw [if_neg (by rw [hded]; exact fun h => h rfl), hbi, Option.bind_some, hE, Option.bind_some]
    simp only
    rw [if_neg (by omega)]
    congr 1
    refine fill_slices obs.length first last _ (obs.map (·.seg)) z hlen ?_ ?_ hslice' hrange'
    · rw [List.length_map, List.length_range]
    · rw [List.length_map]
  refine ⟨_, hout, by simp, ?_⟩
  intro i o hio
  have hg := hrange' o.seg (List.mem_map.2 ⟨o, List.mem_of_getElem? hio, rfl⟩)
  rw [List.getElem?_map, List.getElem?_map, hio, Option.map_some, Option.map_some, List.getD, List.getElem?_map,
    List.getElem?_range (by omega), Option.map_some, Option.getD_some,
    show (((z : Nat) : Int).toNat + (o.seg - z)) = o.seg by omega]
  cases hc : close (adj E) (first.length + 1) (fun _ => none) origin o.seg with
  | none =>
    right
    exact ⟨rfl, fun j hj => hd2 _ hc j ((walk_iff_chain ha obs E hmem _ _ _).2 hj)⟩
  | some k =>
    left
    obtain ⟨h1, h2⟩ := hd1 _ k hc
    exact ⟨k, rfl, (walk_iff_chain ha obs E hmem _ _ _).1 h1,
      fun j hj => h2 j ((walk_iff_chain ha obs E hmem _ _ _).2 hj)⟩

example : relativeOrder adjOf [⟨1, 1, -1, 1⟩, ⟨1, 1, 0, -1⟩, ⟨1, 2, 0, 3⟩, ⟨1, 2, 2, 5⟩, ⟨1, 4, -1, 5⟩, ⟨1, 4, 4, -1⟩,
    ⟨1, 5, -1, -1⟩] 1 = some [0, 0, 1, 1, 2, 2, -1] := by decide

end Verif.Segments
