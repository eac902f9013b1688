import Verif.Compare.Props

/-!
# The groups of a comparison in terms of the scores

`get_group_spec` with the links of `match` themselves: the scores are between 0 and 1, the limits are percentages.
-/

namespace Verif.Compare

/-- The links of an observation of the first dataset whose percentage is at least `invalid`. -/
def linksOf (links : List Link) (invalid : Rat) (i : Nat) : List Link := links.filter (fun l => decide (l.i = i ∧ invalid ≤ 100 * l.score))

/-- The links of an observation of the second dataset whose percentage is at least `invalid`. -/
def linksTo (links : List Link) (invalid : Rat) (j : Nat) : List Link := links.filter (fun l => decide (l.j = j ∧ invalid ≤ 100 * l.score))

theorem deg1_valid (links : List Link) (invalid : Rat) (i : Nat) : deg1 (valid links invalid) i = (linksOf links invalid i).length := by
  unfold deg1 valid linksOf
  rw [List.countP_map, List.countP_filter, List.countP_eq_length_filter]
  congr 1
  apply List.filter_congr
  intro l _
  simp only [Function.comp, mul_comm l.score]
  by_cases h1 : l.i = i <;> by_cases h2 : invalid ≤ 100 * l.score <;> simp [h1, h2]

theorem deg2_valid (links : List Link) (invalid : Rat) (j : Nat) : deg2 (valid links invalid) j = (linksTo links invalid j).length := by
  unfold deg2 valid linksTo
  rw [List.countP_map, List.countP_filter, List.countP_eq_length_filter]
  congr 1
  apply List.filter_congr
  intro l _
  simp only [Function.comp, mul_comm l.score]
  by_cases h1 : l.j = j <;> by_cases h2 : invalid ≤ 100 * l.score <;> simp [h1, h2]

theorem mem_valid {links : List Link} {invalid : Rat} {l : Link} :
    l ∈ valid links invalid ↔ ∃ l0 ∈ links, invalid ≤ 100 * l0.score ∧ l = ⟨l0.i, l0.j, 100 * l0.score⟩ := by
  unfold valid
  rw [List.mem_map]
  constructor
  · rintro ⟨l0, h0, rfl⟩
    rw [List.mem_filter, decide_eq_true_eq] at h0
    exact ⟨l0, h0.1, by rw [mul_comm]; exact h0.2, by rw [mul_comm]⟩
  · rintro ⟨l0, h0, h1, rfl⟩
    exact ⟨l0, List.mem_filter.2 ⟨h0, by rw [decide_eq_true_eq, mul_comm]; exact h1⟩, by rw [mul_comm]⟩

/-- **C05** (no match): exactly the observations without link of at least `invalid` percent. -/
theorem nomatch_iff (n1 n2 : Nat) (links : List Link) (invalid low high : Rat) (i : Nat) :
    i ∈ (getGroup n1 n2 links invalid low high).1.noMatch ↔ i < n1 ∧ ∀ l ∈ links, l.i = i → 100 * l.score < invalid := by
  rw [(get_group_spec n1 n2 links invalid low high i).1, deg1_valid, List.length_eq_zero_iff]
  unfold linksOf
  rw [List.filter_eq_nil_iff]
  simp only [decide_eq_true_eq, not_and, not_le]

/-- **C05** (scores): an observation which has one link of at least `invalid` percent, to an observation which has no other one, is in the group of its
percentage. -/
theorem single_iff (n1 n2 : Nat) (links : List Link) (invalid low high : Rat) {l : Link} (h1 : linksOf links invalid l.i = [l])
    (h2 : linksTo links invalid l.j = [l]) :
    let g := (getGroup n1 n2 links invalid low high).1
    (l.i ∈ g.low ↔ 100 * l.score < low) ∧ (l.i ∈ g.intermediate ↔ low ≤ 100 * l.score ∧ 100 * l.score < high) ∧ (l.i ∈ g.high ↔ high ≤ 100 * l.score) := by
  intro g
  have spec := get_group_spec n1 n2 links invalid low high l.i
  simp only at spec
  obtain ⟨_, s1, s2, s3, _⟩ := spec
  have d1 : deg1 (valid links invalid) l.i = 1 := by rw [deg1_valid, h1]; rfl
  have d2 : deg2 (valid links invalid) l.j = 1 := by rw [deg2_valid, h2]; rfl
  have hl : l ∈ links ∧ invalid ≤ 100 * l.score := by
    have : l ∈ linksOf links invalid l.i := by rw [h1]; simp
    unfold linksOf at this
    rw [List.mem_filter, decide_eq_true_eq] at this
    exact ⟨this.1, this.2.2⟩
  have hmem : (⟨l.i, l.j, 100 * l.score⟩ : Link) ∈ valid links invalid := mem_valid.2 ⟨l, hl.1, hl.2, rfl⟩
  have huniq : ∀ l' ∈ valid links invalid, l'.i = l.i → l'.j = l.j ∧ l'.score = 100 * l.score := by
    intro l' h' e
    obtain ⟨l0, h0, hs, rfl⟩ := mem_valid.1 h'
    have : l0 ∈ linksOf links invalid l.i := List.mem_filter.2 ⟨h0, by rw [decide_eq_true_eq]; exact ⟨e, hs⟩⟩
    rw [h1, List.mem_singleton] at this
    rw [this]
    exact ⟨rfl, rfl⟩
  refine ⟨s1.trans ⟨?_, ?_⟩, s2.trans ⟨?_, ?_⟩, s3.trans ⟨?_, ?_⟩⟩
  · rintro ⟨l', h', e, _, _, h⟩; rw [← (huniq l' h' e).2]; exact h
  · intro h; exact ⟨_, hmem, rfl, d1, d2, h⟩
  · rintro ⟨l', h', e, _, _, h⟩; rw [← (huniq l' h' e).2]; exact h
  · intro h; exact ⟨_, hmem, rfl, d1, d2, h⟩
  · rintro ⟨l', h', e, _, _, h⟩; rw [← (huniq l' h' e).2]; exact h
  · intro h; exact ⟨_, hmem, rfl, d1, d2, h⟩

/-- **C05** (several links): the group `multi_match` is made of the observations with a link of at least `invalid` percent which is not alone, on one of
its two sides. -/
theorem multi_iff (n1 n2 : Nat) (links : List Link) (invalid low high : Rat) (i : Nat) :
    i ∈ (getGroup n1 n2 links invalid low high).1.multiMatch ↔
      ∃ l ∈ links, invalid ≤ 100 * l.score ∧ l.i = i ∧ (2 ≤ (linksOf links invalid i).length ∨ 2 ≤ (linksTo links invalid l.j).length) := by
  have spec := get_group_spec n1 n2 links invalid low high i
  simp only at spec
  rw [spec.2.2.2.2.1]
  constructor
  · rintro ⟨l, hl, e, h⟩
    obtain ⟨l0, h0, hs, rfl⟩ := mem_valid.1 hl
    rw [deg1_valid, deg2_valid] at h
    exact ⟨l0, h0, hs, e, h⟩
  · rintro ⟨l, hl, hs, e, h⟩
    refine ⟨⟨l.i, l.j, 100 * l.score⟩, mem_valid.2 ⟨l, hl, hs, rfl⟩, e, ?_⟩
    rw [deg1_valid, deg2_valid]
    exact h

example : linksOf exLinks 2 1 = [⟨1, 2, 7/10⟩] ∧ linksTo exLinks 2 2 = [⟨1, 2, 7/10⟩] ∧ 1 ∈ (getGroup 10 9 exLinks 2 10 60).1.high ∧
    4 ∈ (getGroup 10 9 exLinks 2 10 60).1.noMatch ∧ 0 ∈ (getGroup 10 9 exLinks 2 10 60).1.multiMatch := by decide +kernel

end Verif.Compare
