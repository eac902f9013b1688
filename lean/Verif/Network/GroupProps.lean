import Verif.Network.GroupLemmas
import Mathlib.Data.List.Dedup

/-!
# C12, C13: grouping of observations

Specification vocabulary: `Conn ps a b` is the equivalence closure (Mathlib's `Relation.EqvGen`) of the listed pairs.
-/

namespace Verif.Group

/-- C12. On a set of pairs of valid elements `group_translator` succeeds, its result has one label per element, and two
elements have the same label iff they are connected through the pairs. -/
theorem group_translator_components (nb : Nat) (duos : List (Nat × Nat)) (h : ∀ d ∈ duos, d.1 < nb ∧ d.2 < nb) :
    ∃ t, groupTranslator nb duos = some t ∧ t.length = nb ∧
      ∀ a b va vb, t[a]? = some va → t[b]? = some vb → (va = vb ↔ Conn duos a b) := by
  obtain ⟨t, e, ht⟩ := groupTranslator_inv h
  exact ⟨t, e, ht.len, ht.eqv⟩

/-- C12. The label of an element is an element of its own class (so an isolated element keeps its number). -/
theorem group_translator_label (nb : Nat) (duos : List (Nat × Nat)) (t : List Nat)
    (e : groupTranslator nb duos = some t) (a v : Nat) (ha : t[a]? = some v) : Conn duos a v ∧ v < nb := by
  by_cases h : ∀ d ∈ duos, d.1 < nb ∧ d.2 < nb
  · obtain ⟨t', e', ht⟩ := groupTranslator_inv h
    rw [e] at e'
    obtain rfl := Option.some.inj e'
    exact ht.lab a v ha
  · exfalso
    rw [groupTranslator, translateLoop_none] at e
    · simp at e
    · push Not at h
      obtain ⟨d, hd, hb⟩ := h
      refine ⟨d, (List.mem_insertionSort _).2 hd, ?_⟩
      simp only [List.length_range]
      by_cases h1 : d.1 < nb
      · exact Or.inr (hb h1)
      · exact Or.inl (not_lt.1 h1)

/-- C12. The result does not depend on the order in which the pairs are given, as far as the grouping goes. -/
theorem group_translator_order (nb : Nat) (duos duos' : List (Nat × Nat)) (hp : ∀ p, p ∈ duos ↔ p ∈ duos')
    (t t' : List Nat) (e : groupTranslator nb duos = some t) (e' : groupTranslator nb duos' = some t')
    (a b va vb wa wb : Nat) (h1 : t[a]? = some va) (h2 : t[b]? = some vb) (h3 : t'[a]? = some wa)
    (h4 : t'[b]? = some wb) : va = vb ↔ wa = wb := by
  have key : ∀ (ds : List (Nat × Nat)) (u : List Nat), groupTranslator nb ds = some u →
      ∀ d ∈ ds, d.1 < nb ∧ d.2 < nb := by
    intro ds u hu
    by_contra h
    rw [groupTranslator, translateLoop_none] at hu
    · simp at hu
    · push Not at h
      obtain ⟨d, hd, hb⟩ := h
      refine ⟨d, (List.mem_insertionSort _).2 hd, ?_⟩
      simp only [List.length_range]
      by_cases h1 : d.1 < nb
      · exact Or.inr (hb h1)
      · exact Or.inl (not_lt.1 h1)
  obtain ⟨u, eu, hu⟩ := groupTranslator_inv (key duos t e)
  obtain ⟨u', eu', hu'⟩ := groupTranslator_inv (key duos' t' e')
  rw [e] at eu; rw [e'] at eu'
  obtain rfl := Option.some.inj eu
  obtain rfl := Option.some.inj eu'
  rw [hu.eqv a b va vb h1 h2, hu'.eqv a b wa wb h3 h4]
  exact Conn.perm_iff hp a b

/-- C12. An element outside the translator is an `IndexError`, never a silent result. -/
theorem group_translator_index_error (nb : Nat) (duos : List (Nat × Nat)) (h : ∃ d ∈ duos, nb ≤ d.1 ∨ nb ≤ d.2) :
    groupTranslator nb duos = none := by
  obtain ⟨d, hd, hb⟩ := h
  exact translateLoop_none _ _ ⟨d, (List.mem_insertionSort _).2 hd, by simpa using hb⟩

/-- Non-vacuity, the example of the repository's own test. -/
example : groupTranslator 5 [(0, 1), (0, 2), (1, 3)] = some [3, 3, 3, 3, 4] := by decide
example : ∀ d ∈ [(0, 1), (0, 2), (1, 3)], d.1 < 5 ∧ d.2 < 5 := by decide
example : groupTranslator 3 [(0, 4)] = none := by decide

/-! ### get_group_array -/

/-- The overlap pairs of all results, as pairs of flat positions (file offset plus position in the file). -/
def allPairs (nbObs : List Nat) (results : List Result) : List (Nat × Nat) :=
  results.flatMap fun r => r.pairs.map fun p => ((nbObs.take r.i).sum + p.1, (nbObs.take r.j).sum + p.2)

/-- All positions of the results are valid positions of existing files. -/
def Valid (nbObs : List Nat) (results : List Result) : Prop :=
  ∀ r ∈ results, ∃ ni nj, nbObs[r.i]? = some ni ∧ nbObs[r.j]? = some nj ∧ ∀ p ∈ r.pairs, p.1 < ni ∧ p.2 < nj

theorem flatten_valid {nbObs : List Nat} {r : Result} {ni nj} (hi : nbObs[r.i]? = some ni) (hj : nbObs[r.j]? = some nj)
    (h : ∀ p ∈ r.pairs, p.1 < ni ∧ p.2 < nj) :
    flatten nbObs r = some (r.pairs.map fun p => ((nbObs.take r.i).sum + p.1, (nbObs.take r.j).sum + p.2)) := by
  have : (r.pairs.all fun p => p.1 < ni && p.2 < nj) = true := by
    rw [List.all_eq_true]; intro p hp; simpa using h p hp
  simp only [flatten, hi, hj, this, ↓reduceIte, dayStart]

theorem mapM_flatten {nbObs : List Nat} : ∀ (results : List Result), Valid nbObs results →
    ∃ bs, results.mapM (flatten nbObs) = some bs ∧ bs.flatten = allPairs nbObs results := by
  intro results
  induction results with
  | nil => intro _; exact ⟨[], rfl, rfl⟩
  | cons r rs ih =>
    intro h
    obtain ⟨bs, e, hb⟩ := ih fun x hx => h x (List.mem_cons_of_mem _ hx)
    obtain ⟨ni, nj, hi, hj, hp⟩ := h r List.mem_cons_self
    refine ⟨(r.pairs.map fun p => ((nbObs.take r.i).sum + p.1, (nbObs.take r.j).sum + p.2)) :: bs, ?_, ?_⟩
    · rw [List.mapM_cons, flatten_valid hi hj hp, e]; rfl
    · simp [allPairs, hb]

theorem mapM_get_some (t : List Nat) (f : Nat → Nat) (l : List Nat) (h : ∀ a, f a < t.length) :
    ∃ out, l.mapM (fun a => t[f a]?) = some out ∧ ∀ (k a : Nat), l[k]? = some a → out[k]? = t[f a]? := by
  induction l with
  | nil => exact ⟨[], rfl, by simp⟩
  | cons x xs ih =>
    obtain ⟨out, e, ho⟩ := ih
    obtain ⟨v, hv⟩ : ∃ v, t[f x]? = some v := ⟨t[f x]'(h x), by simp⟩
    refine ⟨v :: out, by rw [List.mapM_cons, hv, e]; rfl, ?_⟩
    intro k a hk
    cases k with
    | zero => simp at hk; subst hk; simp [hv]
    | succ k => simp at hk; simpa using ho k a hk

/-- C13. For valid overlap results, in any order and with any repetition, `get_group_array` succeeds with one label per
observation; the label is 0 exactly for observations without overlap, and two observations with overlaps have the same
label exactly when a chain of overlaps connects them. -/
theorem get_group_array_components (nbObs : List Nat) (results : List Result) (h : Valid nbObs results) :
    ∃ out, getGroupArray results nbObs = some out ∧
      (∀ a, a < nbObs.sum → ∃ v, out[a]? = some v) ∧
      (∀ a v, a < nbObs.sum → out[a]? = some v →
        (v = 0 ↔ ∀ p ∈ allPairs nbObs results, p.1 ≠ a ∧ p.2 ≠ a)) ∧
      (∀ a b va vb, a < nbObs.sum → b < nbObs.sum → out[a]? = some va → out[b]? = some vb → va ≠ 0 → vb ≠ 0 →
        (va = vb ↔ Conn (allPairs nbObs results) a b)) := by
  obtain ⟨bs, ebs, hbs⟩ := mapM_flatten results h
  have inv := fold_inv bs init_inv
  simp only [List.nil_append, hbs] at inv
  generalize hs : bs.foldl step init = s at inv
  have hmem : ∀ m ∈ s.merges, m.1 < s.idFree ∧ m.2 < s.idFree ∧ m.1 ≠ 0 ∧ m.2 ≠ 0 := by
    intro m hm
    obtain ⟨p, hp, ⟨e1, e2⟩ | ⟨e1, e2⟩⟩ := inv.merges m hm
    · rw [← e1, ← e2]
      exact ⟨inv.lt _, inv.lt _, (inv.lab _).2 ⟨p, hp, Or.inl rfl⟩, (inv.lab _).2 ⟨p, hp, Or.inr rfl⟩⟩
    · rw [← e1, ← e2]
      exact ⟨inv.lt _, inv.lt _, (inv.lab _).2 ⟨p, hp, Or.inr rfl⟩, (inv.lab _).2 ⟨p, hp, Or.inl rfl⟩⟩
  obtain ⟨t, et, ht⟩ := groupTranslator_inv (nb := s.idFree) (duos := s.merges.dedup) (fun d hd => by
    have := hmem d (List.mem_dedup.1 hd); exact ⟨this.1, this.2.1⟩)
  have hconn : ∀ a b, Conn s.merges.dedup a b ↔ Conn s.merges a b := Conn.perm_iff fun p => List.mem_dedup
  have hlen : ∀ a, s.gr a < t.length := fun a => by rw [ht.len]; exact inv.lt a
  obtain ⟨out, eo, ho⟩ := mapM_get_some t s.gr (List.range nbObs.sum) hlen
  have hout : ∀ a, a < nbObs.sum → out[a]? = t[s.gr a]? := fun a ha => ho a a (by simp [ha])
  -- zero is alone in its class
  have zero_alone : ∀ g, Conn s.merges 0 g → g = 0 := by
    intro g hc
    rcases inv.merges_conn hc with e | ⟨a, _, e, _, hne, _⟩
    · exact e.symm
    · exact absurd e hne
  have label0 : ∀ a v, t[s.gr a]? = some v → (v = 0 ↔ s.gr a = 0) := by
    intro a v hv
    have hc := (hconn _ _).1 (ht.lab _ v hv).1
    constructor
    · rintro rfl; exact zero_alone _ hc.symm
    · intro e; rw [e] at hc; exact zero_alone _ hc
  refine ⟨out, by simp [getGroupArray, ebs, hs, et, eo], ?_, ?_, ?_⟩
  · intro a ha
    rw [hout a ha]
    exact ⟨t[s.gr a]'(hlen a), by simp⟩
  · intro a v ha hv
    rw [hout a ha] at hv
    rw [label0 a v hv]
    have := inv.lab a
    constructor
    · intro e p hp
      constructor
      · intro e'; exact (this.2 ⟨p, hp, Or.inl e'⟩) e
      · intro e'; exact (this.2 ⟨p, hp, Or.inr e'⟩) e
    · intro hn
      by_contra hne
      obtain ⟨p, hp, e | e⟩ := this.1 hne
      · exact (hn p hp).1 e
      · exact (hn p hp).2 e
  · intro a b va vb ha hb hva hvb na nb
    rw [hout a ha] at hva
    rw [hout b hb] at hvb
    have ga : s.gr a ≠ 0 := fun e => na ((label0 a va hva).2 e)
    rw [ht.eqv _ _ va vb hva hvb, hconn]
    constructor
    · intro hc
      rcases inv.merges_conn hc with e | ⟨x, y, ex, ey, hx, hy, c⟩
      · exact inv.sound a b ga e
      · exact ((inv.sound x a hx ex).symm.trans c).trans (inv.sound y b hy ey)
    · intro hc
      refine Conn.lift (r := fun x y => Conn s.merges (s.gr x) (s.gr y)) ?_ ?_ hc
      · exact ⟨fun _ => Conn.refl _ _, Conn.symm, Conn.trans⟩
      · intro x y hxy; exact inv.complete (x, y) hxy

/-- Non-vacuity: three files, a chain over two of them plus a branch discovered late, one observation alone. -/
example : getGroupArray [⟨0, 1, [(0, 0), (1, 1)]⟩, ⟨0, 2, [(1, 0)]⟩, ⟨1, 2, [(0, 0)]⟩] [2, 3, 1] =
    some [2, 2, 2, 2, 0, 2] := by decide
example : Valid [2, 3, 1] [⟨0, 1, [(0, 0), (1, 1)]⟩, ⟨0, 2, [(1, 0)]⟩, ⟨1, 2, [(0, 0)]⟩] := by
  intro r hr
  simp only [List.mem_cons, List.not_mem_nil, or_false] at hr
  rcases hr with rfl | rfl | rfl
  · exact ⟨2, 3, by decide⟩
  · exact ⟨2, 1, by decide⟩
  · exact ⟨3, 1, by decide⟩

end Verif.Group
