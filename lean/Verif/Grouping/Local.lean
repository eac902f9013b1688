import Verif.Grouping.Props
import Verif.Trackers.Symmetry

/-!
# C206: how networks change with the window, the dates, the rest of the ocean, the order of the rows and the direction of time

`Network.group_observations` (src/py_eddy_tracker/observations/network.py:2025-2070) on the model of C91, for two runs.
-/

namespace Verif.Grouping

open Verif.Match Verif.Trackers

/-! ### Specification -/

/-- The files: contours of each date. -/
abbrev Files := List (List (List Poly.Pt))

/-- The observation at row `p.2` of file `p.1` exists. -/
def IsRow (files : Files) (p : Nat × Nat) : Prop := ∃ f c, files[p.1]? = some f ∧ f[p.2]? = some c

/-- Two observations are in the same network: same label, which is not 0 (the label of the observations without network). -/
def Together (files : Files) (out : List Nat) (p q : Nat × Nat) : Prop :=
  IsRow files p ∧ IsRow files q ∧ ∃ v, v ≠ 0 ∧ out[number files p.1 p.2]? = some v ∧ out[number files q.1 q.2]? = some v

/-- `files'` holds some rows of the files, in any order: row `a` of file `i` comes from row `φ i a`. -/
structure Part (φ : Nat → Nat → Nat) (files' files : Files) : Prop where
  row : ∀ i a f' c, files'[i]? = some f' → f'[a]? = some c → ∃ f, files[i]? = some f ∧ f[φ i a]? = some c
  once : ∀ i a b, IsRow files' (i, a) → IsRow files' (i, b) → φ i a = φ i b → a = b

/-! ### Proofs -/

/-- Overlap of two positions. -/
def Ov (g : Areas) (o : Options) (window : Nat) (files : Files) (p q : Nat × Nat) : Prop := Overlap g o window files p.1 p.2 q.1 q.2

theorem Ov.rows {g : Areas} {o : Options} {window : Nat} {files : Files} {p q : Nat × Nat} (h : Ov g o window files p q) :
    IsRow files p ∧ IsRow files q := by
  obtain ⟨_, _, fi, fj, c, d, h1, h2, h3, h4, _⟩ := h
  exact ⟨⟨fi, c, h1, h3⟩, fj, d, h2, h4⟩

theorem number_lt {files : Files} {i a j b : Nat} (hij : i < j) (ha : IsRow files (i, a)) : number files i a < number files j b := by
  obtain ⟨f, c, h1, h2⟩ := ha
  have hl : a < f.length := (List.getElem?_eq_some_iff.1 h2).1
  obtain ⟨hi, e⟩ := List.getElem?_eq_some_iff.1 h1
  simp only at hi e
  have h3 : ((files.take (i + 1)).map List.length).sum = ((files.take i).map List.length).sum + f.length := by
    rw [List.take_succ_eq_append_getElem hi, e]
    simp
  have h4 : ((files.take (i + 1)).map List.length).sum ≤ ((files.take j).map List.length).sum := by
    obtain ⟨t, ht⟩ := List.take_prefix_take_left (l := files) (show i + 1 ≤ j by omega)
    rw [← ht, List.map_append, List.sum_append]
    omega
  unfold number
  omega

theorem number_inj {files : Files} {p q : Nat × Nat} (hp : IsRow files p) (hq : IsRow files q)
    (h : number files p.1 p.2 = number files q.1 q.2) : p = q := by
  rcases Nat.lt_trichotomy p.1 q.1 with h1 | h1 | h1
  · exact absurd h (Nat.ne_of_lt (number_lt h1 hp))
  · refine Prod.ext h1 ?_
    unfold number at h
    rw [h1] at h
    omega
  · exact absurd h.symm (Nat.ne_of_lt (number_lt h1 hq))

theorem number_size {files : Files} {p : Nat × Nat} (hp : IsRow files p) : number files p.1 p.2 < (files.map List.length).sum := by
  have h := number_lt (j := files.length) (b := 0) (by obtain ⟨f, c, h, _⟩ := hp; exact (List.getElem?_eq_some_iff.1 h).1) hp
  unfold number at h ⊢
  rwa [List.take_length, Nat.add_zero] at h

theorem eqvGen_map {α β : Type} {r : α → α → Prop} {s : β → β → Prop} {f : α → β} (h : ∀ a b, r a b → Relation.EqvGen s (f a) (f b)) {a b : α}
    (hab : Relation.EqvGen r a b) : Relation.EqvGen s (f a) (f b) := by
  induction hab with
  | rel _ _ h' => exact h _ _ h'
  | refl _ => exact .refl _
  | symm _ _ _ ih => exact ih.symm
  | trans _ _ _ _ _ ih1 ih2 => exact ih1.trans _ _ _ ih2

theorem together_iff {g : Areas} (hg : Coherent g) (o : Options) (window : Nat) {files : Files} (hu : Usual files) :
    ∃ out, groupObservations g o window files = some out ∧ ∀ p q, Together files out p q ↔
      IsRow files p ∧ IsRow files q ∧ (∃ r, Ov g o window files p r ∨ Ov g o window files r p) ∧
        (∃ r, Ov g o window files q r ∨ Ov g o window files r q) ∧ Relation.EqvGen (Ov g o window files) p q := by
  classical
  obtain ⟨out, e, hl, h0, hs⟩ := group_observations_partial hg o window hu
  refine ⟨out, e, fun p q => ?_⟩
  have touched : ∀ p v, IsRow files p → out[number files p.1 p.2]? = some v → v ≠ 0 → ∃ r, Ov g o window files p r ∨ Ov g o window files r p := by
    intro p v hp hv hv0
    have := mt (h0 _ _ hv).2 hv0
    push Not at this
    obtain ⟨i, a, j, b, hov, hn⟩ := this
    by_cases hx : number files p.1 p.2 = number files i a
    · have := number_inj hp (Ov.rows (p := (i, a)) (q := (j, b)) hov).1 hx
      subst this
      exact ⟨(j, b), Or.inl hov⟩
    · have := number_inj hp (Ov.rows (p := (i, a)) (q := (j, b)) hov).2 (hn hx)
      subst this
      exact ⟨(i, a), Or.inr hov⟩
  let pos : Nat → Nat × Nat := fun x => if h : ∃ p, IsRow files p ∧ number files p.1 p.2 = x then h.choose else (0, 0)
  have hpos : ∀ p, IsRow files p → pos (number files p.1 p.2) = p := by
    intro p hp
    have hex : ∃ p', IsRow files p' ∧ number files p'.1 p'.2 = number files p.1 p.2 := ⟨p, hp, rfl⟩
    simp only [pos, dif_pos hex]
    exact number_inj hex.choose_spec.1 hp hex.choose_spec.2
  constructor
  · rintro ⟨hp, hq, v, hv, vp, vq⟩
    refine ⟨hp, hq, touched p v hp vp hv, touched q v hq vq hv, ?_⟩
    have hc := (hs _ _ _ _ vp vq hv hv).1 rfl
    have := eqvGen_map (s := Ov g o window files) (f := pos) (fun x y hxy => by
      obtain ⟨i, a, j, b, hov, rfl, rfl⟩ := hxy
      have hr := Ov.rows (p := (i, a)) (q := (j, b)) hov
      rw [hpos (i, a) hr.1, hpos (j, b) hr.2]
      exact .rel _ _ hov) hc
    rwa [hpos p hp, hpos q hq] at this
  · rintro ⟨hp, hq, tp, tq, hc⟩
    have nz : ∀ p, IsRow files p → (∃ r, Ov g o window files p r ∨ Ov g o window files r p) → ∃ v, v ≠ 0 ∧ out[number files p.1 p.2]? = some v := by
      rintro p hp ⟨r, hr⟩
      have hlt : number files p.1 p.2 < out.length := by rw [hl]; exact number_size hp
      refine ⟨_, fun hv => ?_, List.getElem?_eq_getElem hlt⟩
      have := (h0 _ _ (List.getElem?_eq_getElem hlt)).1 hv
      rcases hr with hr | hr
      · exact (this _ _ _ _ hr).1 rfl
      · exact (this _ _ _ _ hr).2 rfl
    obtain ⟨v, hv, vp⟩ := nz p hp tp
    obtain ⟨v', hv', vq⟩ := nz q hq tq
    have := (hs _ _ _ _ vp vq hv hv').2 (eqvGen_map (f := fun p : Nat × Nat => number files p.1 p.2) (fun a b hab =>
      .rel _ _ ⟨a.1, a.2, b.1, b.2, hab, rfl, rfl⟩) hc)
    subst this
    exact ⟨hp, hq, v, hv, vp, vq⟩

/-- Networks follow a map of the positions which keeps the overlaps. -/
theorem together_map {g g' : Areas} (hg : Coherent g) (hg' : Coherent g') {o o' : Options} {window window' : Nat} {files files' : Files} (hu : Usual files)
    (hu' : Usual files') (f : Nat × Nat → Nat × Nat)
    (hf : ∀ p q, Ov g o window files p q → Ov g' o' window' files' (f p) (f q) ∨ Ov g' o' window' files' (f q) (f p)) :
    ∃ out out', groupObservations g o window files = some out ∧ groupObservations g' o' window' files' = some out' ∧
      ∀ p q, Together files out p q → Together files' out' (f p) (f q) := by
  obtain ⟨out, e, h⟩ := together_iff hg o window hu
  obtain ⟨out', e', h'⟩ := together_iff hg' o' window' hu'
  refine ⟨out, out', e, e', fun p q hpq => (h' _ _).2 ?_⟩
  obtain ⟨_, _, tp, tq, hc⟩ := (h p q).1 hpq
  have ht : ∀ p, (∃ r, Ov g o window files p r ∨ Ov g o window files r p) →
      IsRow files' (f p) ∧ ∃ r, Ov g' o' window' files' (f p) r ∨ Ov g' o' window' files' r (f p) := by
    rintro p ⟨r, hr⟩
    have : Ov g' o' window' files' (f p) (f r) ∨ Ov g' o' window' files' (f r) (f p) := by
      rcases hr with hr | hr
      · exact hf _ _ hr
      · exact (hf _ _ hr).symm
    refine ⟨?_, f r, this⟩
    rcases this with h | h
    · exact h.rows.1
    · exact h.rows.2
  refine ⟨(ht p tp).1, (ht q tq).1, (ht p tp).2, (ht q tq).2, eqvGen_map (fun a b hab => ?_) hc⟩
  rcases hf a b hab with h | h
  · exact .rel _ _ h
  · exact (Relation.EqvGen.rel _ _ h).symm

theorem scoreAt_lower {g : Areas} {o : Options} {m : Rat} (hm : m ≤ o.minOverlap) {k : Int} {c d : List Poly.Pt} (h : scoreAt g o k c d ≠ 0) :
    scoreAt g { o with minOverlap := m } k c d ≠ 0 := by
  unfold scoreAt at h ⊢
  split at h
  · rename_i hc
    rw [if_pos ⟨hc.1, hc.2.imp (fun h => le_trans hm h) id⟩]
    exact h
  · exact absurd rfl h

/-- **C206** (window and limit): with a larger window and a lower limit of overlap, observations which are in the same network stay so. -/
theorem networks_grow {g : Areas} (hg : Coherent g) (o : Options) {window window' : Nat} (hw : window ≤ window') {m : Rat} (hm : m ≤ o.minOverlap)
    {files : Files} (hu : Usual files) :
    ∃ out out', groupObservations g o window files = some out ∧ groupObservations g { o with minOverlap := m } window' files = some out' ∧
      ∀ p q, Together files out p q → Together files out' p q :=
  together_map hg hg hu hu id (fun p q h => Or.inl (by
    obtain ⟨h1, h2, fi, fj, c, d, h3, h4, h5, h6, k, h7⟩ := h
    exact ⟨h1, by simp only [id]; omega, fi, fj, c, d, h3, h4, h5, h6, k, scoreAt_lower hm h7⟩))

/-- **C206** (dates): with more dates before and after, observations which are in the same network stay so. -/
theorem networks_longer {g : Areas} (hg : Coherent g) (o : Options) (window : Nat) {before files after : Files} (hu : Usual (before ++ files ++ after)) :
    ∃ out out', groupObservations g o window files = some out ∧ groupObservations g o window (before ++ files ++ after) = some out' ∧
      ∀ i a j b, Together files out (i, a) (j, b) → Together (before ++ files ++ after) out' (before.length + i, a) (before.length + j, b) := by
  have hmem : ∀ f ∈ files, f ∈ before ++ files ++ after := fun f hf => by simp [hf]
  have hu' : Usual files := ⟨fun f hf => hu.1 f (hmem f hf), fun f hf f' hf' => hu.2 f (hmem f hf) f' (hmem f' hf')⟩
  have hget : ∀ (i : Nat) f, files[i]? = some f → (before ++ files ++ after)[before.length + i]? = some f := by
    intro i f hf
    have hi := (List.getElem?_eq_some_iff.1 hf).1
    rw [List.append_assoc, List.getElem?_append_right (by omega), Nat.add_sub_cancel_left, List.getElem?_append_left hi]
    exact hf
  obtain ⟨out, out', e, e', h⟩ := together_map hg hg (o := o) (o' := o) (window := window) (window' := window) hu' hu
    (fun p => (before.length + p.1, p.2)) (fun p q h => Or.inl (by
      obtain ⟨h1, h2, fi, fj, c, d, h3, h4, h5, h6, h7⟩ := h
      exact ⟨by simp only; omega, by simp only; omega, fi, fj, c, d, hget _ _ h3, hget _ _ h4, h5, h6, h7⟩))
  exact ⟨out, out', e, e', fun i a j b hab => h _ _ hab⟩

/-- **C206** (rows and region): for some rows of the files, in any order, such that no row which is left overlaps a row which is kept, the networks are
those of the files. -/
theorem networks_part {g : Areas} (hg : Coherent g) (o : Options) (window : Nat) {files files' : Files} (hu : Usual files) {φ : Nat → Nat → Nat}
    (hφ : Part φ files' files)
    (hclosed : ∀ i a j b, IsRow files' (i, a) → Overlap g o window files i (φ i a) j b ∨ Overlap g o window files j b i (φ i a) →
      ∃ a', IsRow files' (j, a') ∧ φ j a' = b) :
    ∃ out out', groupObservations g o window files = some out ∧ groupObservations g o window files' = some out' ∧
      ∀ i a j b, IsRow files' (i, a) → IsRow files' (j, b) → (Together files' out' (i, a) (j, b) ↔ Together files out (i, φ i a) (j, φ j b)) := by
  classical
  have hu' : Usual files' := by
    have hm : ∀ f' ∈ files', ∀ c ∈ f', ∃ f ∈ files, c ∈ f := by
      intro f' hf' c hc
      obtain ⟨i, hi⟩ := List.getElem?_of_mem hf'
      obtain ⟨a, ha⟩ := List.getElem?_of_mem hc
      obtain ⟨f, h1, h2⟩ := hφ.row i a f' c hi ha
      exact ⟨f, List.mem_of_getElem? h1, List.mem_of_getElem? h2⟩
    refine ⟨fun f' hf' hn => ?_, fun f' hf' f2 hf2 c hc d hd => ?_⟩
    · obtain ⟨f, h1, h2⟩ := hm f' hf' _ hn
      exact hu.1 f h1 h2
    · obtain ⟨f, h1, h2⟩ := hm f' hf' _ hc
      obtain ⟨f3, h3, h4⟩ := hm f2 hf2 _ hd
      exact hu.2 f h1 f3 h3 c h2 d h4
  have hov : ∀ i a j b, IsRow files' (i, a) → IsRow files' (j, b) →
      (Ov g o window files' (i, a) (j, b) ↔ Ov g o window files (i, φ i a) (j, φ j b)) := by
    rintro i a j b ⟨fi', c', ei, ec⟩ ⟨fj', d', ej, ed⟩
    simp only at ei ec ej ed
    obtain ⟨fi, h1, h2⟩ := hφ.row i a fi' c' ei ec
    obtain ⟨fj, h3, h4⟩ := hφ.row j b fj' d' ej ed
    unfold Ov Overlap
    simp only [ei, ej, h1, h3, Option.some.injEq]
    constructor
    · rintro ⟨x1, x2, _, _, c, d, rfl, rfl, x3, x4, x5⟩
      rw [ec] at x3; cases x3
      rw [ed] at x4; cases x4
      exact ⟨x1, x2, fi, fj, c', d', rfl, rfl, h2, h4, x5⟩
    · rintro ⟨x1, x2, _, _, c, d, rfl, rfl, x3, x4, x5⟩
      rw [h2] at x3; cases x3
      rw [h4] at x4; cases x4
      exact ⟨x1, x2, fi', fj', c', d', rfl, rfl, ec, ed, x5⟩
  obtain ⟨out', out, e', e, h1⟩ := together_map hg hg (o := o) (o' := o) (window := window) (window' := window) hu' hu
    (fun p => (p.1, φ p.1 p.2)) (fun p q h => Or.inl ((hov p.1 p.2 q.1 q.2 h.rows.1 h.rows.2).1 h))
  obtain ⟨out2, e2, t⟩ := together_iff hg o window hu
  rw [e] at e2; cases e2
  obtain ⟨out2, e2, t'⟩ := together_iff hg o window hu'
  rw [e'] at e2; cases e2
  refine ⟨out, out', e, e', fun i a j b ha hb => ⟨fun h => h1 _ _ h, fun h => (t' _ _).2 ?_⟩⟩
  obtain ⟨_, _, tp, tq, hc⟩ := (t _ _).1 h
  have touch : ∀ i a, IsRow files' (i, a) → (∃ r, Ov g o window files (i, φ i a) r ∨ Ov g o window files r (i, φ i a)) →
      ∃ r, Ov g o window files' (i, a) r ∨ Ov g o window files' r (i, a) := by
    rintro i a ha ⟨⟨j, b⟩, hr⟩
    obtain ⟨a', h1, rfl⟩ := hclosed i a j b ha hr
    refine ⟨(j, a'), ?_⟩
    rcases hr with hr | hr
    · exact Or.inl ((hov _ _ _ _ ha h1).2 hr)
    · exact Or.inr ((hov _ _ _ _ h1 ha).2 hr)
  refine ⟨ha, hb, touch i a ha tp, touch j b hb tq, ?_⟩
  let back : Nat × Nat → Option (Nat × Nat) := fun p => if h : ∃ a', IsRow files' (p.1, a') ∧ φ p.1 a' = p.2 then some (p.1, h.choose) else none
  have hback : ∀ i a, IsRow files' (i, a) → back (i, φ i a) = some (i, a) := by
    intro i a ha
    have hex : ∃ a', IsRow files' (i, a') ∧ φ i a' = φ i a := ⟨a, ha, rfl⟩
    simp only [back, dif_pos hex]
    rw [hφ.once i _ _ hex.choose_spec.1 ha hex.choose_spec.2]
  have hback' : ∀ p r, back p = some r → IsRow files' r ∧ p = (r.1, φ r.1 r.2) := by
    intro p r h
    simp only [back] at h
    split at h
    · rename_i hex
      cases h
      exact ⟨hex.choose_spec.1, Prod.ext rfl hex.choose_spec.2.symm⟩
    · cases h
  have hmap := eqvGen_map (r := Ov g o window files) (s := fun x y : Option (Nat × Nat) => ∃ p q, x = some p ∧ y = some q ∧ Ov g o window files' p q) (f := back)
    (fun p q hpq => by
      cases h1 : back p with
      | none =>
        cases h2 : back q with
        | none => exact .refl _
        | some r =>
          exfalso
          obtain ⟨hr, rfl⟩ := hback' _ _ h2
          obtain ⟨a', ha', hp⟩ := hclosed r.1 r.2 p.1 p.2 hr (Or.inr hpq)
          have : back (p.1, φ p.1 a') = some (p.1, a') := hback _ _ ha'
          rw [hp, h1] at this
          cases this
      | some r =>
        obtain ⟨hr, rfl⟩ := hback' _ _ h1
        obtain ⟨a', ha', hp⟩ := hclosed r.1 r.2 q.1 q.2 hr (Or.inl hpq)
        have hq : back q = some (q.1, a') := by
          have := hback _ _ ha'
          rwa [hp] at this
        rw [hq]
        refine .rel _ _ ⟨r, (q.1, a'), rfl, rfl, (hov _ _ _ _ hr ha').2 ?_⟩
        rw [hp]
        exact hpq) hc
  rw [hback _ _ ha, hback _ _ hb] at hmap
  have hget := eqvGen_map (s := Ov g o window files') (f := fun x : Option (Nat × Nat) => x.getD (i, a)) (fun x y hxy => by
    obtain ⟨p, q, rfl, rfl, h⟩ := hxy
    exact .rel _ _ h) hmap
  exact hget

theorem together_reverse {g : Areas} (hg : Coherent g) (hs : InterSymm g) (ht : TurnFree g) {o : Options} (hp : o.p1 = false) (window : Nat)
    {files : Files} (hu : Usual files) :
    ∃ out out', groupObservations g o window files = some out ∧ groupObservations g o window files.reverse = some out' ∧
      ∀ i a j b, Together files out (i, a) (j, b) → Together files.reverse out' (files.length - 1 - i, a) (files.length - 1 - j, b) := by
  have hu' : Usual files.reverse := ⟨fun f hf => hu.1 f (List.mem_reverse.1 hf), fun f hf f' hf' => hu.2 f (List.mem_reverse.1 hf) f' (List.mem_reverse.1 hf')⟩
  have hget : ∀ (i : Nat) f, files[i]? = some f → i < files.length ∧ files.reverse[files.length - 1 - i]? = some f := by
    intro i f hf
    have hi := (List.getElem?_eq_some_iff.1 hf).1
    refine ⟨hi, ?_⟩
    rw [List.getElem?_reverse (by omega), show files.length - 1 - (files.length - 1 - i) = i by omega]
    exact hf
  obtain ⟨out, out', e, e', h⟩ := together_map hg hg (o := o) (o' := o) (window := window) (window' := window) hu hu'
    (fun p => (files.length - 1 - p.1, p.2)) (fun p q h => Or.inr (by
      obtain ⟨h1, h2, fi, fj, c, d, h3, h4, h5, h6, k, h7⟩ := h
      obtain ⟨hi, h3⟩ := hget _ _ h3
      obtain ⟨hj, h4⟩ := hget _ _ h4
      refine ⟨by simp only; omega, by simp only; omega, fj, fi, d, c, h4, h3, h6, h5, -k, ?_⟩
      rw [← score_at_symm hs ht hp]
      exact h7))
  exact ⟨out, out', e, e', fun i a j b hab => h _ _ hab⟩

/-- **C206** (direction of time): the networks of the files in the opposite order are the same. -/
theorem networks_reverse {g : Areas} (hg : Coherent g) (hs : InterSymm g) (ht : TurnFree g) {o : Options} (hp : o.p1 = false) (window : Nat)
    {files : Files} (hu : Usual files) :
    ∃ out out', groupObservations g o window files = some out ∧ groupObservations g o window files.reverse = some out' ∧
      ∀ i a j b, i < files.length → j < files.length →
        (Together files out (i, a) (j, b) ↔ Together files.reverse out' (files.length - 1 - i, a) (files.length - 1 - j, b)) := by
  have hu' : Usual files.reverse := ⟨fun f hf => hu.1 f (List.mem_reverse.1 hf), fun f hf f' hf' => hu.2 f (List.mem_reverse.1 hf) f' (List.mem_reverse.1 hf')⟩
  obtain ⟨out, out', e, e', h⟩ := together_reverse hg hs ht hp window hu
  obtain ⟨x', x, ex', ex, h'⟩ := together_reverse hg hs ht hp window hu'
  rw [List.reverse_reverse] at ex
  rw [e'] at ex'; cases ex'
  rw [e] at ex; cases ex
  refine ⟨out, out', e, e', fun i a j b hi hj => ⟨h i a j b, fun hr => ?_⟩⟩
  have := h' _ _ _ _ hr
  rw [List.reverse_reverse, List.length_reverse, show files.length - 1 - (files.length - 1 - i) = i by omega,
    show files.length - 1 - (files.length - 1 - j) = j by omega] at this
  exact this

/-- Two dates of three rows: two of them are kept, in the other order. -/
example : Part (fun _ a => 2 - 2 * a) [[[(5, 5)], [(0, 0)]], [[(5, 6)]]] [[[(0, 0)], [(1, 1)], [(5, 5)]], [[(0, 1)], [(1, 2)], [(5, 6)]]] := by
  constructor
  · intro i a f' c h1 h2
    match i, a with
    | 0, 0 => cases h1; cases h2; exact ⟨_, rfl, rfl⟩
    | 0, 1 => cases h1; cases h2; exact ⟨_, rfl, rfl⟩
    | 0, _ + 2 => cases h1; cases h2
    | 1, 0 => cases h1; cases h2; exact ⟨_, rfl, rfl⟩
    | 1, _ + 1 => cases h1; cases h2
    | _ + 2, _ => cases h1
  · rintro i a b ⟨f, c, h1, h2⟩ ⟨f', c', h1', h2'⟩ h
    match i, a, b with
    | 0, 0, 0 => rfl
    | 0, 1, 1 => rfl
    | 0, 0, 1 => cases h
    | 0, 1, 0 => cases h
    | 0, _ + 2, _ => cases h1; cases h2
    | 0, _, _ + 2 => cases h1'; cases h2'
    | 1, 0, 0 => rfl
    | 1, _ + 1, _ => cases h1; cases h2
    | 1, _, _ + 1 => cases h1'; cases h2'
    | _ + 2, _, _ => cases h1

end Verif.Grouping
