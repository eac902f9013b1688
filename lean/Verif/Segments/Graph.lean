import Verif.Segments.Model
import Mathlib.Logic.Relation
import Mathlib.Data.Finset.Card
import Mathlib.Data.Finset.Range
import Mathlib.Data.Finset.Filter

/-!
# Graph exploration: tags and distances
-/

namespace Verif.Segments

open Relation

variable {adj : Nat → List Nat}

/-- Reachability along `adj`. -/
abbrev Reach (adj : Nat → List Nat) : Nat → Nat → Prop := ReflTransGen (fun a b => b ∈ adj a)

/-! ### Depth first tagging -/

/-- Untagged vertices. -/
def untagged (nb : Nat) (g : Nat → Nat) : Finset Nat := (Finset.range nb).filter (fun x => g x = 0)

structure Tagged (adj : Nat → List Nat) (tag : Nat) (src : Nat → Prop) (g g' : Nat → Nat) : Prop where
  keep : ∀ x, g x ≠ 0 → g' x = g x
  new : ∀ x, g x = 0 → g' x ≠ 0 → g' x = tag ∧ ∃ s, src s ∧ Reach adj s x
  closed : ∀ x, g x = 0 → g' x ≠ 0 → ∀ y ∈ adj x, g' y ≠ 0

theorem untagged_mono {nb : Nat} {g g' : Nat → Nat} (h : ∀ x, g x ≠ 0 → g' x = g x) :
    (untagged nb g').card ≤ (untagged nb g).card := by
  apply Finset.card_le_card
  intro x hx
  simp only [untagged, Finset.mem_filter] at hx ⊢
  refine ⟨hx.1, ?_⟩
  by_contra hc
  exact hc (by rw [← h x hc]; exact hx.2)

theorem dfs_spec (tag : Nat) (ht : tag ≠ 0) (nb : Nat) (hadj : ∀ a, ∀ b ∈ adj a, b < nb) (fuel : Nat) :
    ∀ (g : Nat → Nat) (s : Nat), s < nb → (untagged nb g).card < fuel →
      Tagged adj tag (fun x => x = s) g (dfs adj tag fuel g s) ∧ dfs adj tag fuel g s s ≠ 0 := by
  induction fuel with
  | zero => intro g s _ h; omega
  | succ fuel ih =>
    -- the fold on a list of vertices
    have hfold : ∀ (l : List Nat) (g : Nat → Nat), (∀ x ∈ l, x < nb) → (untagged nb g).card < fuel →
        Tagged adj tag (fun x => x ∈ l) g (l.foldl (fun g x => dfs adj tag fuel g x) g) ∧
          ∀ x ∈ l, l.foldl (fun g x => dfs adj tag fuel g x) g x ≠ 0 := by
      intro l
      induction l with
      | nil =>
        intro g _ _
        exact ⟨⟨fun _ _ => rfl, fun x h h' => absurd h h', fun x h h' => absurd h h'⟩, fun x hx => by cases hx⟩
      | cons a l ihl =>
        intro g hl hf
        obtain ⟨t1, n1⟩ := ih g a (hl a List.mem_cons_self) hf
        have hf' := lt_of_le_of_lt (untagged_mono (nb := nb) t1.keep) hf
        obtain ⟨t2, n2⟩ := ihl (dfs adj tag fuel g a) (fun x hx => hl x (List.mem_cons_of_mem _ hx)) hf'
        rw [List.foldl_cons]
        refine ⟨⟨?_, ?_, ?_⟩, ?_⟩
        · intro x hx
          have h1 := t1.keep x hx
          rw [t2.keep x (by rw [h1]; exact hx), h1]
        · intro x hx hx'
          by_cases h1 : dfs adj tag fuel g a x = 0
          · obtain ⟨e, s, hs, hr⟩ := t2.new x h1 hx'
            exact ⟨e, s, List.mem_cons_of_mem _ hs, hr⟩
          · rw [t2.keep x h1]
            obtain ⟨e, s, hs, hr⟩ := t1.new x hx h1
            exact ⟨e, s, hs ▸ List.mem_cons_self, hr⟩
        · intro x hx hx' y hy
          by_cases h1 : dfs adj tag fuel g a x = 0
          · exact t2.closed x h1 hx' y hy
          · have := t1.closed x hx h1 y hy
            rw [t2.keep y this]; exact this
        · intro x hx
          rcases List.mem_cons.1 hx with rfl | hx
          · rw [t2.keep x n1]; exact n1
          · exact n2 x hx
    intro g s hs hf
    rw [dfs]
    by_cases h0 : g s ≠ 0
    · rw [if_pos h0]
      exact ⟨⟨fun _ _ => rfl, fun x h h' => absurd h h', fun x h h' => absurd h h'⟩, h0⟩
    · rw [if_neg h0]
      rw [not_not] at h0
      have hcard : (untagged nb (Function.update g s tag)).card < (untagged nb g).card := by
        apply Finset.card_lt_card
        rw [Finset.ssubset_iff_of_subset]
        · refine ⟨s, by simp [untagged, hs, h0], by simp [untagged, ht]⟩
        · intro x hx
          simp only [untagged, Finset.mem_filter] at hx ⊢
          refine ⟨hx.1, ?_⟩
          by_cases hxs : x = s
          · rw [hxs]; exact h0
          · rw [← hx.2, Function.update_of_ne hxs]
      obtain ⟨t, n⟩ := hfold (adj s) (Function.update g s tag) (hadj s) (by omega)
      have hs' : (adj s).foldl (fun g x => dfs adj tag fuel g x) (Function.update g s tag) s = tag := by
        rw [t.keep s (by rw [Function.update_self]; exact ht), Function.update_self]
      refine ⟨⟨?_, ?_, ?_⟩, by rw [hs']; exact ht⟩
      · intro x hx
        have hxs : x ≠ s := by rintro rfl; exact hx h0
        rw [t.keep x (by rw [Function.update_of_ne hxs]; exact hx), Function.update_of_ne hxs]
      · intro x hx hx'
        by_cases hxs : x = s
        · subst hxs; exact ⟨hs', x, rfl, ReflTransGen.refl⟩
        · obtain ⟨e, y, hy, hr⟩ := t.new x (by rw [Function.update_of_ne hxs]; exact hx) hx'
          exact ⟨e, s, rfl, ReflTransGen.head hy hr⟩
      · intro x hx hx' y hy
        by_cases hxs : x = s
        · subst hxs; exact n y hy
        · exact t.closed x (by rw [Function.update_of_ne hxs]; exact hx) hx' y hy

/-- Invariant of the loop of `tag_segment` after the vertices below `m`. -/
structure TagInv (adj : Nat → List Nat) (m : Nat) (s : (Nat → Nat) × Nat) : Prop where
  pos : 1 ≤ s.2
  lt : ∀ x, s.1 x < s.2
  done : ∀ x, x < m → s.1 x ≠ 0
  cls : ∀ x y, s.1 x ≠ 0 → (s.1 y = s.1 x ↔ Reach adj x y)
  low : ∀ x, s.1 x ≠ 0 → ∃ y, y < m ∧ s.1 y = s.1 x
  onto : ∀ t, 1 ≤ t → t < s.2 → ∃ x, x < m ∧ s.1 x = t

theorem tagStep_inv (nb : Nat) (hadj : ∀ a, ∀ b ∈ adj a, b < nb) (hsym : ∀ a b, b ∈ adj a → a ∈ adj b) (m : Nat)
    (hm : m < nb) (s : (Nat → Nat) × Nat) (h : TagInv adj m s) : TagInv adj (m + 1) (tagStep adj nb s m) := by
  obtain ⟨g, j⟩ := s
  have hrsym : ∀ {a b}, Reach adj a b → Reach adj b a := by
    intro a b hab
    induction hab with
    | refl => exact ReflTransGen.refl
    | tail _ h2 ih => exact ReflTransGen.head (hsym _ _ h2) ih
  have hj : j ≠ 0 := by have := h.pos; simp only at this; omega
  -- both tagging branches give a class which was not tagged
  have key : ∀ g' : Nat → Nat, g m = 0 → (∀ x, g x ≠ 0 → g' x = g x) → (∀ x, g x = 0 → (g' x = j ↔ Reach adj m x)) →
      (∀ x, g x = 0 → g' x ≠ 0 → g' x = j) → TagInv adj (m + 1) (g', j + 1) := by
    intro g' h0 hk hr hn
    have hgm : g' m = j := (hr m h0).2 ReflTransGen.refl
    refine ⟨by simp, ?_, ?_, ?_, ?_, ?_⟩
    · intro x
      simp only
      by_cases hx : g x = 0
      · by_cases hx' : g' x = 0
        · omega
        · rw [hn x hx hx']; omega
      · rw [hk x hx]; have := h.lt x; simp only at this; omega
    · intro x hx
      simp only
      rcases Nat.eq_or_lt_of_le (Nat.le_of_lt_succ hx) with rfl | hlt
      · rw [hgm]; exact hj
      · have := h.done x hlt
        rw [hk x this]; exact this
    · intro x y hx
      simp only at hx ⊢
      by_cases hgx : g x = 0
      · have hx' := hn x hgx hx
        have hrx := (hr x hgx).1 hx'
        rw [hx']
        by_cases hgy : g y = 0
        · rw [hr y hgy]
          exact ⟨fun h => (hrsym hrx).trans h, fun h => hrx.trans h⟩
        · have hy' := hk y hgy
          constructor
          · intro e
            have := h.lt y; simp only at this; omega
          · intro e
            have := (h.cls y x hgy).2 (hrsym e)
            simp only at this
            exact absurd this (by rw [hgx]; exact Ne.symm hgy)
      · rw [hk x hgx]
        by_cases hgy : g y = 0
        · constructor
          · intro e
            by_cases hy' : g' y = 0
            · rw [hy'] at e; exact absurd e.symm hgx
            · rw [hn y hgy hy'] at e
              have := h.lt x; simp only at this; omega
          · intro e
            have := (h.cls x y hgx).2 e
            simp only at this
            exact absurd (this.symm.trans hgy) hgx
        · rw [hk y hgy]; exact h.cls x y hgx
    · intro x hx
      simp only at hx ⊢
      by_cases hgx : g x = 0
      · exact ⟨m, by omega, by rw [hgm, hn x hgx hx]⟩
      · obtain ⟨y, hy, e⟩ := h.low x hgx
        simp only at e
        refine ⟨y, by omega, ?_⟩
        rw [hk y (h.done y hy), hk x hgx, e]
    · intro t h1 h2
      simp only at h2 ⊢
      rcases Nat.eq_or_lt_of_le (Nat.le_of_lt_succ h2) with rfl | hlt
      · exact ⟨m, by omega, hgm⟩
      · obtain ⟨x, hx, e⟩ := h.onto t h1 hlt
        simp only at e
        refine ⟨x, by omega, ?_⟩
        rw [hk x (by rw [e]; omega), e]
  unfold tagStep
  by_cases hnil : adj m = []
  · rw [if_pos hnil]
    have hreach : ∀ x, Reach adj m x → x = m := by
      intro x hx
      induction hx with
      | refl => rfl
      | tail _ h2 ih => rw [ih, hnil] at h2; cases h2
    have h0 : g m = 0 := by
      by_contra hc
      obtain ⟨y, hy, e⟩ := h.low m hc
      have := hreach y ((h.cls m y hc).1 e)
      omega
    refine key _ h0 ?_ ?_ ?_
    · intro x hx
      have hxm : x ≠ m := by rintro rfl; exact hx h0
      simp only; rw [Function.update_of_ne hxm]
    · intro x hx
      by_cases hxm : x = m
      · subst hxm; simp only; rw [Function.update_self]; exact ⟨fun _ => ReflTransGen.refl, fun _ => rfl⟩
      · simp only; rw [Function.update_of_ne hxm, hx]
        exact ⟨fun e => absurd e.symm hj, fun e => absurd (hreach x e) hxm⟩
    · intro x hx hx'
      by_cases hxm : x = m
      · subst hxm; simp only; rw [Function.update_self]
      · simp only at hx'; rw [Function.update_of_ne hxm] at hx'; exact absurd hx hx'
  · rw [if_neg hnil]
    by_cases hg : g m ≠ 0
    · simp only
      rw [if_pos hg]
      refine ⟨h.pos, h.lt, ?_, h.cls, ?_, ?_⟩
      · intro x hx
        rcases Nat.eq_or_lt_of_le (Nat.le_of_lt_succ hx) with rfl | hlt
        · exact hg
        · exact h.done x hlt
      · intro x hx
        obtain ⟨y, hy, e⟩ := h.low x hx
        exact ⟨y, by omega, e⟩
      · intro t h1 h2
        obtain ⟨y, hy, e⟩ := h.onto t h1 h2
        exact ⟨y, by omega, e⟩
    · simp only
      rw [if_neg hg]
      rw [not_not] at hg
      have hcard : (untagged nb g).card < nb + 1 := by
        have : (untagged nb g).card ≤ (Finset.range nb).card := Finset.card_le_card (Finset.filter_subset _ _)
        rw [Finset.card_range] at this; omega
      obtain ⟨t, n⟩ := dfs_spec j hj nb hadj (nb + 1) g m hm hcard
      refine key _ hg t.keep ?_ (fun x hx hx' => (t.new x hx hx').1)
      intro x hx
      constructor
      · intro e
        obtain ⟨_, s, rfl, hr⟩ := t.new x hx (by rw [e]; exact hj)
        exact hr
      · intro hr
        have : g x = 0 ∧ dfs adj j (nb + 1) g m x ≠ 0 := by
          clear hx
          induction hr with
          | refl => exact ⟨hg, n⟩
          | tail h1 h2 ih =>
            rename_i b c
            refine ⟨?_, t.closed b ih.1 ih.2 c h2⟩
            by_contra hc
            have := (h.cls c b hc).2 (ReflTransGen.single (hsym _ _ h2))
            simp only at this
            rw [ih.1] at this
            exact hc this.symm
        exact (t.new x this.1 this.2).1

/-- `tag_segment` labels the connected components with `1 … k`. -/
theorem tagSegment_inv (nb : Nat) (hadj : ∀ a, ∀ b ∈ adj a, b < nb) (hsym : ∀ a b, b ∈ adj a → a ∈ adj b) :
    TagInv adj nb (tagSegment adj nb) := by
  have : ∀ m, m ≤ nb → TagInv adj m ((List.range m).foldl (tagStep adj nb) (fun _ => 0, 1)) := by
    intro m
    induction m with
    | zero =>
      intro _
      exact ⟨le_refl _, fun x => by simp, fun x hx => by omega, fun x y hx => absurd rfl hx, fun x hx => absurd rfl hx,
        fun t h1 h2 => by simp at h2; omega⟩
    | succ m ih =>
      intro hm
      rw [List.range_succ, List.foldl_append]
      exact tagStep_inv nb hadj hsym m hm _ (ih (by omega))
  exact this nb (le_refl _)

/-! ### Distances by relaxation -/

/-- Walks of a given length. -/
inductive Walk (adj : Nat → List Nat) : Nat → Nat → Nat → Prop
  | nil (a : Nat) : Walk adj a a 0
  | step {a b c k : Nat} : Walk adj a b k → c ∈ adj b → Walk adj a c (k + 1)

/-- `v` is at most the recorded value (no value is infinity). -/
def LeOpt (v : Nat) : Option Nat → Prop
  | none => True
  | some u => v ≤ u

instance (v : Nat) (o : Option Nat) : Decidable (LeOpt v o) := by cases o <;> (unfold LeOpt; infer_instance)

/-- Vertices above the level `v`. -/
def above (V : Finset Nat) (d : Nat → Option Nat) (v : Nat) : Finset Nat :=
  V.filter (fun x => LeOpt (v + 1) (d x))

/-- All the arcs leaving `x` are relaxed. -/
def Relaxed (adj : Nat → List Nat) (d : Nat → Option Nat) (x : Nat) : Prop :=
  ∀ v, d x = some v → ∀ y ∈ adj x, ∃ u, d y = some u ∧ u ≤ v + 1

/-- What a call does to the array: values only decrease, to values above the level `v`, along walks, and the changed
vertices are relaxed. -/
structure Changed (adj : Nat → List Nat) (o v : Nat) (d d' : Nat → Option Nat) : Prop where
  mono : ∀ x u, d x = some u → ∃ u', d' x = some u' ∧ u' ≤ u
  level : ∀ x, d' x ≠ d x → ∃ u, d' x = some u ∧ v < u
  relax : ∀ x, d' x ≠ d x → Relaxed adj d' x
  walk : ∀ x, d' x ≠ d x → ∃ u, d' x = some u ∧ Walk adj o x u

theorem Relaxed.mono {d d' : Nat → Option Nat} {x : Nat} (h : Relaxed adj d x)
    (hm : ∀ y u, d y = some u → ∃ u', d' y = some u' ∧ u' ≤ u) (he : d' x = d x) : Relaxed adj d' x := by
  intro v hv y hy
  rw [he] at hv
  obtain ⟨u, hu, hle⟩ := h v hv y hy
  obtain ⟨u', hu', hle'⟩ := hm y u hu
  exact ⟨u', hu', by omega⟩

theorem Changed.refl (o v : Nat) (d : Nat → Option Nat) : Changed adj o v d d :=
  ⟨fun _ u h => ⟨u, h, le_refl _⟩, fun _ h => absurd rfl h, fun _ h => absurd rfl h, fun _ h => absurd rfl h⟩

theorem Changed.trans {o v : Nat} {d d' d'' : Nat → Option Nat} (h : Changed adj o v d d') (h' : Changed adj o v d' d'') :
    Changed adj o v d d'' := by
  refine ⟨?_, ?_, ?_, ?_⟩
  · intro x u hu
    obtain ⟨u', hu', hle⟩ := h.mono x u hu
    obtain ⟨u'', hu'', hle'⟩ := h'.mono x u' hu'
    exact ⟨u'', hu'', by omega⟩
  · intro x hx
    by_cases hc : d'' x = d' x
    · rw [hc] at hx ⊢; exact h.level x hx
    · exact h'.level x hc
  · intro x hx
    by_cases hc : d'' x = d' x
    · exact (h.relax x (by rw [← hc]; exact hx)).mono h'.mono hc
    · exact h'.relax x hc
  · intro x hx
    by_cases hc : d'' x = d' x
    · rw [hc] at hx ⊢; exact h.walk x hx
    · exact h'.walk x hc

theorem Changed.weaken {o v w : Nat} {d d' : Nat → Option Nat} (h : Changed adj o v d d') (hw : w ≤ v) :
    Changed adj o w d d' :=
  ⟨h.mono, fun x hx => by obtain ⟨u, hu, hlt⟩ := h.level x hx; exact ⟨u, hu, by omega⟩, h.relax, h.walk⟩

theorem Changed.above_le {o v : Nat} {d d' : Nat → Option Nat} (V : Finset Nat) (h : Changed adj o v d d') :
    (above V d' v).card ≤ (above V d v).card := by
  apply Finset.card_le_card
  intro x hx
  simp only [above, Finset.mem_filter] at hx ⊢
  refine ⟨hx.1, ?_⟩
  cases hd : d x with
  | none => trivial
  | some u =>
    obtain ⟨u', hu', hle⟩ := h.mono x u hd
    rw [hu'] at hx
    have h2 := hx.2
    simp only [LeOpt] at h2 ⊢
    omega

/-- A recorded value below or at the level does not change. -/
theorem Changed.fixed {o v : Nat} {d d' : Nat → Option Nat} (h : Changed adj o v d d') {x u : Nat} (hx : d x = some u)
    (hu : u ≤ v) : d' x = some u := by
  by_contra hc
  rw [← hx] at hc
  obtain ⟨w, hw, hlt⟩ := h.level x hc
  obtain ⟨u', hu', hle⟩ := h.mono x u hx
  rw [hw] at hu'
  cases hu'
  omega

/-- The recursive call, on a vertex which already has a value. -/
theorem close_spec (V : Finset Nat) (o : Nat) (hadj : ∀ a, ∀ b ∈ adj a, b ∈ V) (fuel : Nat) :
    ∀ (d : Nat → Option Nat) (f v : Nat), d f = some v → Walk adj o f v → (above V d v).card < fuel →
      Changed adj o v d (close adj fuel d f) ∧ Relaxed adj (close adj fuel d f) f := by
  induction fuel with
  | zero => intro d f v _ _ h; omega
  | succ fuel ih =>
    intro d f v hf hw hcard
    have hfold : ∀ (l : List Nat) (d : Nat → Option Nat), (∀ x ∈ l, x ∈ adj f) → d f = some v →
        (above V d v).card < fuel + 1 →
        Changed adj o v d (l.foldl (fun d son =>
          if d son = none ∨ v + 1 < (d son).getD 0 then close adj fuel (Function.update d son (some (v + 1))) son else d) d) ∧
        ∀ x ∈ l, ∃ u, (l.foldl (fun d son =>
          if d son = none ∨ v + 1 < (d son).getD 0 then close adj fuel (Function.update d son (some (v + 1))) son else d) d) x
            = some u ∧ u ≤ v + 1 := by
      intro l
      induction l with
      | nil => intro d _ _ _; exact ⟨Changed.refl _ _ _, fun x hx => by cases hx⟩
      | cons a l ihl =>
        intro d hl hdf hc
        rw [List.foldl_cons]
        have haf : a ∈ adj f := hl a List.mem_cons_self
        have hstep : Changed adj o v d (if d a = none ∨ v + 1 < (d a).getD 0 then
              close adj fuel (Function.update d a (some (v + 1))) a else d) ∧
            ∃ u, (if d a = none ∨ v + 1 < (d a).getD 0 then
              close adj fuel (Function.update d a (some (v + 1))) a else d) a = some u ∧ u ≤ v + 1 := by
          by_cases hcond : d a = none ∨ v + 1 < (d a).getD 0
          · rw [if_pos hcond]
            have haf' : a ≠ f := by
              rintro rfl
              rcases hcond with h | h
              · rw [h] at hdf; cases hdf
              · rw [hdf] at h; simp at h
            have hup : ∀ x u, d x = some u → ∃ u', Function.update d a (some (v + 1)) x = some u' ∧ u' ≤ u := by
              intro x u hx
              by_cases hxa : x = a
              · subst hxa
                rw [Function.update_self]
                refine ⟨_, rfl, ?_⟩
                rcases hcond with h | h
                · rw [h] at hx; cases hx
                · rw [hx] at h; simp at h; omega
              · rw [Function.update_of_ne hxa]; exact ⟨u, hx, le_refl _⟩
            have hcard' : (above V (Function.update d a (some (v + 1))) (v + 1)).card < (above V d v).card := by
              apply Finset.card_lt_card
              rw [Finset.ssubset_iff_of_subset]
              · refine ⟨a, ?_, ?_⟩
                · simp only [above, Finset.mem_filter]
                  refine ⟨hadj f a haf, ?_⟩
                  rcases hcond with h | h
                  · rw [h]; trivial
                  · cases hda : d a with
                    | none => trivial
                    | some u => rw [hda] at h; simp only [LeOpt]; simp at h; omega
                · intro hc; have := (Finset.mem_filter.1 hc).2; rw [Function.update_self] at this; simp only [LeOpt] at this; omega
              · intro x hx
                simp only [above, Finset.mem_filter] at hx ⊢
                refine ⟨hx.1, ?_⟩
                by_cases hxa : x = a
                · subst hxa
                  rw [Function.update_self] at hx
                  have := hx.2; simp only [LeOpt] at this; omega
                · rw [Function.update_of_ne hxa] at hx
                  cases hdx : d x with
                  | none => trivial
                  | some u => rw [hdx] at hx; have := hx.2; simp only [LeOpt] at this ⊢; omega
            obtain ⟨c1, c2⟩ := ih (Function.update d a (some (v + 1))) a (v + 1) (Function.update_self _ _ _)
              (Walk.step hw haf) (by omega)
            have ha1 := c1.fixed (x := a) (u := v + 1) (Function.update_self _ _ _) (le_refl _)
            refine ⟨⟨?_, ?_, ?_, ?_⟩, v + 1, ha1, le_refl _⟩
            · intro x u hx
              obtain ⟨u', hu', hle⟩ := hup x u hx
              obtain ⟨u'', hu'', hle'⟩ := c1.mono x u' hu'
              exact ⟨u'', hu'', by omega⟩
            · intro x hx
              by_cases hxa : x = a
              · subst hxa; exact ⟨v + 1, ha1, by omega⟩
              · have := c1.level x (by rw [Function.update_of_ne hxa]; exact hx)
                obtain ⟨u, hu, hlt⟩ := this
                exact ⟨u, hu, by omega⟩
            · intro x hx
              by_cases hxa : x = a
              · subst hxa; exact c2
              · exact c1.relax x (by rw [Function.update_of_ne hxa]; exact hx)
            · intro x hx
              by_cases hxa : x = a
              · subst hxa; exact ⟨v + 1, ha1, Walk.step hw haf⟩
              · exact c1.walk x (by rw [Function.update_of_ne hxa]; exact hx)
          · rw [if_neg hcond]
            refine ⟨Changed.refl _ _ _, ?_⟩
            rw [not_or, not_lt] at hcond
            cases hda : d a with
            | none => exact absurd hda hcond.1
            | some u => rw [hda] at hcond; exact ⟨u, rfl, hcond.2⟩
        obtain ⟨s1, u, hu, hule⟩ := hstep
        have hdf' := s1.fixed hdf (le_refl _)
        obtain ⟨t1, t2⟩ := ihl _ (fun x hx => hl x (List.mem_cons_of_mem _ hx)) hdf'
          (lt_of_le_of_lt (s1.above_le V) hc)
        refine ⟨s1.trans t1, fun x hx => ?_⟩
        rcases List.mem_cons.1 hx with rfl | hx
        · obtain ⟨u', hu', hle'⟩ := t1.mono x u hu
          exact ⟨u', hu', by omega⟩
        · exact t2 x hx
    have e : close adj (fuel + 1) d f = (adj f).foldl (fun d son =>
        if d son = none ∨ v + 1 < (d son).getD 0 then close adj fuel (Function.update d son (some (v + 1))) son else d) d := by
      rw [close]
      simp only [hf, reduceCtorEq, if_false, Option.getD_some]
    rw [e]
    obtain ⟨c1, c2⟩ := hfold (adj f) d (fun _ h => h) hf hcard
    refine ⟨c1, ?_⟩
    intro u hu y hy
    rw [c1.fixed hf (le_refl _)] at hu
    cases hu
    exact c2 y hy

/-- The recorded values are the lengths of the shortest walks from the origin. -/
theorem close_distance (V : Finset Nat) (nb o : Nat) (hnb : V.card ≤ nb) (hadj : ∀ a, ∀ b ∈ adj a, b ∈ V) :
    (∀ x k, close adj (nb + 1) (fun _ => none) o x = some k → Walk adj o x k ∧ ∀ j, Walk adj o x j → k ≤ j) ∧
    (∀ x, close adj (nb + 1) (fun _ => none) o x = none → ∀ j, ¬ Walk adj o x j) := by
  have e : close adj (nb + 1) (fun _ => none) o = close adj (nb + 1) (Function.update (fun _ => none) o (some 0)) o := by
    rw [close, close]
    simp
  rw [e]
  have hcard : (above V (Function.update (fun _ => none) o (some 0)) 0).card < nb + 1 := by
    have : (above V (Function.update (fun _ => none) o (some 0)) 0).card ≤ V.card :=
      Finset.card_le_card (Finset.filter_subset _ _)
    omega
  obtain ⟨c1, c2⟩ := close_spec V o hadj (nb + 1) (Function.update (fun _ => none) o (some 0)) o 0
    (Function.update_self _ _ _) (Walk.nil o) hcard
  generalize close adj (nb + 1) (Function.update (fun _ => none) o (some 0)) o = D at *
  have ho' : D o = some 0 := c1.fixed (Function.update_self _ _ _) (le_refl _)
  have hrel : ∀ x k, D x = some k → Relaxed adj D x ∧ Walk adj o x k := by
    intro x k hx
    by_cases hxo : x = o
    · subst hxo
      rw [ho'] at hx; cases hx
      exact ⟨c2, Walk.nil _⟩
    · have hch : D x ≠ Function.update (fun _ => none) o (some 0) x := by
        rw [Function.update_of_ne hxo, hx]; simp
      obtain ⟨u, hu, hw⟩ := c1.walk x hch
      rw [hx] at hu; cases hu
      exact ⟨c1.relax x hch, hw⟩
  have hle : ∀ x j, Walk adj o x j → ∃ k, D x = some k ∧ k ≤ j := by
    intro x j hw
    induction hw with
    | nil => exact ⟨0, ho', le_refl _⟩
    | step _ h2 ih =>
      obtain ⟨k, hk, hkj⟩ := ih
      obtain ⟨u, hu, hle⟩ := (hrel _ k hk).1 k hk _ h2
      exact ⟨u, hu, by omega⟩
  refine ⟨fun x k hx => ⟨(hrel x k hx).2, fun j hj => ?_⟩, fun x hx j hj => ?_⟩
  · obtain ⟨k', hk', hle'⟩ := hle x j hj
    rw [hx] at hk'; cases hk'; exact hle'
  · obtain ⟨k', hk', _⟩ := hle x j hj
    rw [hx] at hk'; cases hk'

end Verif.Segments
