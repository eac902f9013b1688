import Verif.Seam.Props

/-!
# C118 and C119: labels of contours, selection of the closed contours
-/

namespace Verif.Seam

open Verif.Poly (Pt winding minR maxR)

/-! ### C119: closed contours -/

/-- Two vertices of the line are at `1e-8` or more along the coordinate `f`. -/
def Wide (f : Pt → Rat) (p : Path) : Prop := ∃ a ∈ p, ∃ b ∈ p, f a - f b ≥ 1 / 100000000

theorem wide_iff {f : Pt → Rat} {p : Path} (hp : p ≠ []) : Wide f p ↔ ¬|minR (p.map f) - maxR (p.map f)| < prec * 100 := by
  have ne : p.map f ≠ [] := by simpa using hp
  obtain ⟨m1, m2⟩ := Poly.minR_spec ne
  obtain ⟨M1, M2⟩ := Poly.maxR_spec ne
  have pr : prec * 100 = 1 / 100000000 := by unfold prec; norm_num
  have le : minR (p.map f) ≤ maxR (p.map f) := m2 _ M1
  rw [abs_sub_comm, abs_of_nonneg (by linarith), pr, not_lt]
  constructor
  · rintro ⟨a, ha, b, hb, h⟩
    have := m2 _ (List.mem_map_of_mem hb)
    have := M2 _ (List.mem_map_of_mem ha)
    linarith
  · intro h
    obtain ⟨a, ha, ea⟩ := List.mem_map.1 M1
    obtain ⟨b, hb, eb⟩ := List.mem_map.1 m1
    exact ⟨a, ha, b, hb, by rw [ea, eb]; exact h⟩

theorem setLast_same {p : Path} (hp : p ≠ []) (h : gap2 p = 0) : setLast p (first p) = p := by
  have e : first p = last p := by
    unfold gap2 at h
    have a : (first p).1 - (last p).1 = 0 := by nlinarith [sq_nonneg ((first p).1 - (last p).1), sq_nonneg ((first p).2 - (last p).2)]
    have b : (first p).2 - (last p).2 = 0 := by nlinarith [sq_nonneg ((first p).1 - (last p).1), sq_nonneg ((first p).2 - (last p).2)]
    exact Prod.ext (by linarith) (by linarith)
  unfold setLast
  rw [e]
  unfold last
  rw [List.getLastD_eq_getLast?, List.getLast?_eq_getLast_of_ne_nil hp]
  exact List.dropLast_append_getLast hp

/-- **C119**: without `keep_unclose` a path gives a contour when it has four vertices, its ends are at `0.01` or less and its box is not
flat; the contour is the path whose last vertex is the first one. -/
theorem keep_iff {p c : Path} : keep false p = some c ↔
    4 ≤ p.length ∧ ((first p).1 - (last p).1) ^ 2 + ((first p).2 - (last p).2) ^ 2 ≤ (1 / 100) ^ 2 ∧ c = p.dropLast ++ [first p] ∧
      Wide Prod.fst c ∧ Wide Prod.snd c := by
  unfold keep
  by_cases h4 : p.length < 4
  · rw [if_pos h4]
    constructor
    · intro h; cases h
    · intro h; omega
  rw [if_neg h4]
  have hp : p ≠ [] := by rintro rfl; simp at h4
  by_cases hg : gap2 p > (1 / 100) ^ 2
  · rw [if_pos ⟨hg, rfl⟩]
    constructor
    · intro h; cases h
    · rintro ⟨_, h, _⟩
      exact absurd h (not_le.2 hg)
  rw [if_neg (fun h => hg h.1)]
  rw [not_lt] at hg
  have e : (if gap2 p ≠ 0 ∧ gap2 p ≤ (1 / 100) ^ 2 then setLast p (first p) else p) = setLast p (first p) := by
    by_cases h0 : gap2 p = 0
    · rw [if_neg (fun h => h.1 h0), setLast_same hp h0]
    · rw [if_pos ⟨h0, hg⟩]
  simp only [e]
  have ne : setLast p (first p) ≠ [] := by simp [setLast]
  have w1 := wide_iff (f := Prod.fst) ne
  have w2 := wide_iff (f := Prod.snd) ne
  split_ifs with hb
  · constructor
    · intro h; cases h
    · rintro ⟨_, _, rfl, a, b⟩
      exfalso
      rcases hb with hb | hb
      · exact w1.1 a hb
      · exact w2.1 b hb
  · rw [not_or] at hb
    constructor
    · intro h
      obtain rfl := Option.some.inj h
      exact ⟨by omega, hg, rfl, w1.2 hb.1, w2.2 hb.2⟩
    · rintro ⟨_, _, rfl, _, _⟩
      rfl

/-- The contours kept are closed, only their last vertex has been moved. -/
theorem keep_closed {p c : Path} (h : keep false p = some c) : first c = last c ∧ c.length = p.length ∧ c.dropLast = p.dropLast := by
  obtain ⟨h4, _, rfl, _⟩ := keep_iff.1 h
  refine ⟨?_, ?_, by simp⟩
  · rw [last_append (by simp)]
    match p, h4 with
    | a :: b :: l, _ => rfl
  · rw [List.length_append, List.length_dropLast, List.length_singleton]
    omega

/-- With `keep_unclose`, the paths whose ends are at more than `0.01` are kept as they are, the others as without. -/
theorem keep_unclose_iff {p c : Path} : keep true p = some c ↔ keep false p = some c ∨
    (4 ≤ p.length ∧ ((first p).1 - (last p).1) ^ 2 + ((first p).2 - (last p).2) ^ 2 > (1 / 100) ^ 2 ∧ c = p ∧ Wide Prod.fst p ∧ Wide Prod.snd p) := by
  by_cases hg : gap2 p > (1 / 100) ^ 2
  · have e : ¬keep false p = some c := by
      rw [keep_iff]
      rintro ⟨_, h, _⟩
      exact absurd h (not_le.2 hg)
    simp only [e, false_or]
    unfold keep
    by_cases h4 : p.length < 4
    · rw [if_pos h4]
      constructor
      · intro h; cases h
      · intro h; omega
    rw [if_neg h4, if_neg (by simp)]
    have hp : p ≠ [] := by rintro rfl; simp at h4
    simp only [if_neg (fun h : gap2 p ≠ 0 ∧ gap2 p ≤ (1 / 100) ^ 2 => absurd h.2 (not_le.2 hg))]
    have w1 := wide_iff (f := Prod.fst) hp
    have w2 := wide_iff (f := Prod.snd) hp
    split_ifs with hb
    · constructor
      · intro h; cases h
      · rintro ⟨_, _, rfl, a, b⟩
        exfalso
        rcases hb with hb | hb
        · exact w1.1 a hb
        · exact w2.1 b hb
    · rw [not_or] at hb
      constructor
      · intro h
        obtain rfl := Option.some.inj h
        exact ⟨by omega, hg, rfl, w1.2 hb.1, w2.2 hb.2⟩
      · rintro ⟨_, _, rfl, _, _⟩
        rfl
  · have e : keep true p = keep false p := by
      unfold keep
      rw [if_neg (c := gap2 p > (1 / 100) ^ 2 ∧ !true) (by simp), if_neg (c := gap2 p > (1 / 100) ^ 2 ∧ !false) (fun h => hg h.1)]
    rw [e]
    constructor
    · exact Or.inl
    · rintro (h | ⟨_, h, _⟩)
      · exact h
      · exact absurd h hg

example : keep false [(0, 0), (1, 0), (1, 1), (1 / 200, 0)] = some [(0, 0), (1, 0), (1, 1), (0, 0)] := by decide +kernel
example : keep true [(0, 0), (1, 0), (1, 1), (1 / 2, 0)] = some [(0, 0), (1, 0), (1, 1), (1 / 2, 0)] := by decide +kernel
example : keep false [(0, 0), (1, 0), (1, 1), (1 / 2, 0)] = none := by decide +kernel

/-- The paths of the limits put together are closed contours which the selection keeps: only the number of vertices and the size of the box
are asked. -/
theorem solved_kept {segs : List Path} {c : Path} (h : Solved segs c) (h4 : 4 ≤ c.length) (hx : Wide Prod.fst c) (hy : Wide Prod.snd c) :
    keep false c = some c := by
  obtain ⟨e, h2⟩ := h.closed
  have g : gap2 c = 0 := by unfold gap2; rw [e]; ring
  have hc : c ≠ [] := by rintro rfl; simp at h2
  have e2 : c.dropLast ++ [first c] = c := setLast_same hc g
  rw [keep_iff, e2]
  refine ⟨h4, ?_, rfl, hx, hy⟩
  show gap2 c ≤ _
  rw [g]
  norm_num

/-! ### C118: contours which contain several eddies -/

/-- The contour contains several of the eddies whose outer contour has the height `h`. -/
def Several (h : Rat) (v : Path) (eddies : List Eddy) : Prop :=
  ∃ i j : Nat, i < j ∧ ∀ k : Nat, k = i ∨ k = j → ∃ e, eddies[k]? = some e ∧ |e.height - h| ≤ 1 / 100000000 ∧ winding e.centre v ≠ 0

theorem filter_two {α : Type} {f : α → Bool} : ∀ {l : List α}, 1 < (l.filter f).length ↔
    ∃ i j : Nat, i < j ∧ ∀ k : Nat, k = i ∨ k = j → ∃ e, l[k]? = some e ∧ f e = true
  | [] => by
    constructor
    · intro h; simp at h
    · rintro ⟨i, _, _, h⟩
      obtain ⟨e, he, _⟩ := h i (Or.inl rfl)
      simp at he
  | a :: l => by
    have ex : ∀ {m : List α}, 0 < (m.filter f).length ↔ ∃ j : Nat, ∃ e, m[j]? = some e ∧ f e = true := fun {m} => by
      rw [List.length_pos_iff_exists_mem]
      constructor
      · rintro ⟨x, hx⟩
        rw [List.mem_filter] at hx
        obtain ⟨j, hj⟩ := List.mem_iff_getElem?.1 hx.1
        exact ⟨j, x, hj, hx.2⟩
      · rintro ⟨j, e, he, hf⟩
        exact ⟨e, List.mem_filter.2 ⟨List.mem_iff_getElem?.2 ⟨j, he⟩, hf⟩⟩
    by_cases ha : f a = true
    · rw [List.filter_cons_of_pos ha, List.length_cons]
      constructor
      · intro h
        obtain ⟨j, e, he, hf⟩ := ex.1 (show 0 < (l.filter f).length by omega)
        refine ⟨0, j + 1, by omega, ?_⟩
        rintro k (rfl | rfl)
        · exact ⟨a, by simp, ha⟩
        · exact ⟨e, by simpa using he, hf⟩
      · rintro ⟨i, j, hij, h⟩
        obtain ⟨e, he, hf⟩ := h j (Or.inr rfl)
        obtain ⟨j, rfl⟩ : ∃ j', j = j' + 1 := ⟨j - 1, by omega⟩
        have := ex.2 ⟨j, e, by simpa using he, hf⟩
        omega
    · rw [List.filter_cons_of_neg ha, filter_two]
      constructor
      · rintro ⟨i, j, hij, h⟩
        refine ⟨i + 1, j + 1, by omega, ?_⟩
        rintro k (rfl | rfl)
        · simpa using h i (Or.inl rfl)
        · simpa using h j (Or.inr rfl)
      · rintro ⟨i, j, hij, h⟩
        have hi : i ≠ 0 := by
          rintro rfl
          obtain ⟨e, he, hf⟩ := h 0 (Or.inl rfl)
          simp only [List.getElem?_cons_zero, Option.some.injEq] at he
          exact ha (he ▸ hf)
        obtain ⟨i, rfl⟩ : ∃ i', i = i' + 1 := ⟨i - 1, by omega⟩
        obtain ⟨j, rfl⟩ : ∃ j', j = j' + 1 := ⟨j - 1, by omega⟩
        refine ⟨i, j, by omega, ?_⟩
        rintro k (rfl | rfl)
        · simpa using h (k + 1) (Or.inl rfl)
        · simpa using h (k + 1) (Or.inr rfl)

theorem count_several {h : Rat} {c : Contour} {eddies : List Eddy} : count h c eddies > 1 ↔ Several h c.vertices eddies := by
  unfold count Several
  rw [gt_iff_lt, filter_two]
  simp only [Bool.and_eq_true, Bool.not_eq_true', decide_eq_false_iff_not, not_lt, decide_eq_true_eq]

/-- What the labels are for: the contour of the level `k` is not used, and contains several eddies of the next level towards the
extremums, `step` levels further. -/
def LabelMeans (anticyclonic : Bool) (step : Int) : Prop :=
  ∀ (cvalues : List Rat) (k : Nat) (h : Rat) (c : Contour) (eddies : List Eddy) (old : Option Bool), k < cvalues.length → 0 ≤ (k : Int) + step →
    cvalues[((k : Int) + step).toNat]? = some h →
    (label anticyclonic cvalues cvalues.length k c eddies old = some true ↔ c.used = false ∧ Several h c.vertices eddies)

/-- **C118**, anticyclonic eddies: the next level is the one above. Missing: the cyclonic eddies, see `label_cyclonic_wrong`. -/
theorem label_partial : LabelMeans true 1 := by
  intro cvalues k h c eddies old hk _ hh
  have e : ((k : Int) + 1).toNat = k + 1 := by omega
  rw [e] at hh
  have hk1 : k + 1 < cvalues.length := (List.getElem?_eq_some_iff.1 hh).1
  have hg : Py.get cvalues ((k : Int) + 1) = some h := by
    have := Py.get_natCast cvalues (k + 1)
    push_cast at this
    rw [this]
    exact hh
  unfold label heightAt
  simp only [if_true, if_pos hk1, hg, Option.getD_some, Option.some.injEq, Bool.and_eq_true, Bool.not_eq_true', decide_eq_true_eq]
  rw [count_several]

/-- The contours of the last level keep what they had. -/
theorem label_last (cvalues : List Rat) (c : Contour) (eddies : List Eddy) (old : Option Bool) {k : Nat} (hk : k + 1 = cvalues.length) :
    label true cvalues cvalues.length k c eddies old = old := by
  unfold label heightAt
  simp only [if_true]
  rw [if_neg (by omega)]

def square (x y r : Rat) : Path := [(x - r, y - r), (x + r, y - r), (x + r, y + r), (x - r, y + r), (x - r, y - r)]

/-- Three levels, the contour of the middle one with two eddies whose outer contour is the lower level. -/
theorem label_cyclonic_wrong : ¬LabelMeans false (-1) := by
  intro h
  have := (h [1, 2, 3] 1 1 ⟨false, square 0 0 10⟩ [⟨1, (1, 1)⟩, ⟨1, (-1, 1)⟩] none (by decide) (by decide) rfl).2 ⟨rfl, by
    refine ⟨0, 1, by decide, ?_⟩
    rintro k (rfl | rfl)
    · exact ⟨_, rfl, by norm_num, by decide +kernel⟩
    · exact ⟨_, rfl, by norm_num, by decide +kernel⟩⟩
  revert this
  decide +kernel

/-- For the cyclonic eddies the height used is the one of two levels below. -/
theorem label_cyclonic_height (cvalues : List Rat) (k : Nat) (h : Rat) (c : Contour) (eddies : List Eddy) (old : Option Bool) (hk : k + 2 < cvalues.length)
    (hh : cvalues[k]? = some h) :
    label false cvalues cvalues.length (k + 2) c eddies old = some true ↔ c.used = false ∧ Several h c.vertices eddies := by
  have e : (((k + 2 : Nat) : Int) - 1 + -1) = (k : Int) := by push_cast; ring
  unfold label heightAt
  simp only [Bool.false_eq_true, if_false]
  rw [if_pos ⟨by omega, hk⟩, e, Py.get_natCast, hh]
  simp only [Option.getD_some, Option.some.injEq, Bool.and_eq_true, Bool.not_eq_true', decide_eq_true_eq]
  rw [count_several]

/-- The labels for one sign then for the other: the second call removes the labels of the first one, on each level it visits and whatever
the contour. -/
theorem label_twice (a : Bool) (cvalues : List Rat) (k : Nat) (c : Contour) (eddies : List Eddy) (old : Option Bool)
    (hk : k < cvalues.length) (hv : if a then k + 1 < cvalues.length else 1 ≤ k) :
    label a cvalues cvalues.length k c eddies old = label a cvalues cvalues.length k c eddies none := by
  unfold label heightAt
  cases a
  · simp only [Bool.false_eq_true, if_false] at hv ⊢
    rw [if_pos ⟨hv, hk⟩]
  · simp only [if_true] at hv ⊢
    rw [if_pos hv]

/-- A contour with several anticyclonic eddies, its label after the call for the cyclonic ones. -/
theorem label_twice_wrong : ∃ (cvalues : List Rat) (k : Nat) (c : Contour) (anti cyclo : List Eddy),
    label true cvalues cvalues.length k c anti none = some true ∧
    label false cvalues cvalues.length k c cyclo (label true cvalues cvalues.length k c anti none) = some false :=
  ⟨[1, 2, 3], 1, ⟨false, square 0 0 10⟩, [⟨3, (1, 1)⟩, ⟨3, (-1, 1)⟩], [⟨1, (20, 20)⟩], by decide +kernel, by decide +kernel⟩

end Verif.Seam
