import Verif.Trackers.Turn

/-!
# C196: the match of two datasets does not depend on which one is asked

`match` (src/py_eddy_tracker/observations/observation.py:1194-1248) in both directions, on the model of C74.
-/

namespace Verif.Trackers

open Verif.Poly Verif.Match

/-- The intersection of two polygons does not depend on their order. -/
def InterSymm (g : Areas) : Prop := ∀ c d, g.inter c d = g.inter d c

theorem meet_symm {c d : List Pt} (h : BoxesMeet c d) : BoxesMeet d c := by
  obtain ⟨⟨u, hu, w, hw, h1⟩, ⟨u2, hu2, w2, hw2, h2⟩, ⟨u3, hu3, w3, hw3, h3⟩, ⟨u4, hu4, w4, hw4, h4⟩⟩ := h
  exact ⟨⟨w2, hw2, u2, hu2, h2⟩, ⟨w, hw, u, hu, h1⟩, ⟨w4, hw4, u4, hu4, h4⟩, ⟨w3, hw3, u3, hu3, h3⟩⟩

theorem meet_turn {c d : List Pt} (k : Int) (h : BoxesMeet c d) : BoxesMeet (turned k c) (turned k d) := by
  obtain ⟨⟨u, hu, w, hw, h1⟩, ⟨u2, hu2, w2, hw2, h2⟩, ⟨u3, hu3, w3, hw3, h3⟩, ⟨u4, hu4, w4, hw4, h4⟩⟩ := h
  exact ⟨⟨_, List.mem_map_of_mem hu, _, List.mem_map_of_mem hw, by simpa using h1⟩,
    ⟨_, List.mem_map_of_mem hu2, _, List.mem_map_of_mem hw2, by simpa using h2⟩,
    ⟨_, List.mem_map_of_mem hu3, _, List.mem_map_of_mem hw3, h3⟩, ⟨_, List.mem_map_of_mem hu4, _, List.mem_map_of_mem hw4, h4⟩⟩

theorem turned_zero (c : List Pt) : turned 0 c = c := by
  unfold turned
  simp

theorem score_at_symm {g : Areas} (hs : InterSymm g) (ht : TurnFree g) {o : Options} (hp : o.p1 = false) (k : Int) (c d : List Pt) :
    scoreAt g o k c d = scoreAt g o (-k) d c := by
  have hi : g.inter c (turned k d) = g.inter d (turned (-k) c) := by
    rw [hs c, ← ht.inter (-k), turned_turned, neg_add_cancel, turned_zero]
  have hr : ∀ i a b, ratio o i a b = ratio o i b a := by
    intro i a b
    unfold ratio
    rw [hp, min_comm a b, add_comm a b]
    simp
  unfold scoreAt
  rw [hi, ht.area, ht.area, hr, min_comm]

theorem narrow_symm {c d : List Pt} (h : Narrow c d) : Narrow d c := by
  intro u hu u' hu' w hw w' hw'
  have := h w hw w' hw' u hu u' hu'
  linarith

/-- **C196**: the couples and the scores of `other.match(self)` are those of `self.match(other)`, exchanged. -/
theorem match_symm {g : Areas} (hg : Coherent g) (hs : InterSymm g) (ht : TurnFree g) {o : Options} (hp : o.p1 = false) (cmin : Rat)
    (l0 l1 : List (List Pt)) (h0 : [] ∉ l0) (h1 : [] ∉ l1) (hw : ∀ c ∈ l0, ∀ d ∈ l1, Narrow c d) :
    (matchOverlap g o cmin l1 l0).Perm ((matchOverlap g o cmin l0 l1).map (fun t => (t.2.1, t.1, t.2.2))) := by
  obtain ⟨n1, m1⟩ := match_partial hg o cmin l0 l1 h0 h1 hw
  obtain ⟨n2, m2⟩ := match_partial hg o cmin l1 l0 h1 h0 (fun c hc d hd => narrow_symm (hw d hd c hc))
  have hdir : ∀ (a b : List (List Pt)) (i j : Nat) (s : Rat),
      (∃ c d, a[i]? = some c ∧ b[j]? = some d ∧ cmin ≤ s ∧ ∃ k, BoxesMeet c (turned k d) ∧ s = scoreAt g o k c d) →
      ∃ c d, b[j]? = some c ∧ a[i]? = some d ∧ cmin ≤ s ∧ ∃ k, BoxesMeet c (turned k d) ∧ s = scoreAt g o k c d := by
    rintro a b i j s ⟨c, d, e1, e2, e3, k, e4, e5⟩
    refine ⟨d, c, e2, e1, e3, -k, ?_, by rw [e5, score_at_symm hs ht hp]⟩
    have := meet_symm (meet_turn (-k) e4)
    rwa [turned_turned, neg_add_cancel, turned_zero] at this
  have nd1 : (matchOverlap g o cmin l0 l1).Nodup := List.Nodup.of_map _ n1
  have nd2 : (matchOverlap g o cmin l1 l0).Nodup := List.Nodup.of_map _ n2
  have inj : Function.Injective (fun t : Nat × Nat × Rat => (t.2.1, t.1, t.2.2)) := by
    rintro ⟨a, b, c⟩ ⟨a', b', c'⟩ h
    simp only [Prod.mk.injEq] at h
    rw [h.1, h.2.1, h.2.2]
  refine (List.perm_ext_iff_of_nodup nd2 (nd1.map inj)).2 ?_
  rintro ⟨j, i, s⟩
  rw [List.mem_map, m2]
  constructor
  · intro h
    exact ⟨(i, j, s), (m1 i j s).2 (hdir l1 l0 j i s h), rfl⟩
  · rintro ⟨⟨i', j', s'⟩, h, e⟩
    simp only [Prod.mk.injEq] at e
    obtain ⟨rfl, rfl, rfl⟩ := e
    exact hdir l0 l1 _ _ _ ((m1 _ _ _).1 h)

/-- Areas which meet the hypotheses, with `half_coherent` and the example of C195. -/
example : InterSymm half := by
  intro c d
  unfold half
  simp only
  by_cases h : BoxesMeet c d
  · rw [if_pos h, if_pos (meet_symm h)]
  · rw [if_neg h, if_neg (fun h' => h (meet_symm h'))]

/-- With `p1_area` the score is over the second polygon: it depends on the order, even for coherent areas of polygons in one another. -/
theorem match_symm_p1 : score { p1 := true } 1 1 4 ≠ score { p1 := true } 1 4 1 := by
  unfold score
  norm_num

end Verif.Trackers
