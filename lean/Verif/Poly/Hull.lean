import Verif.Poly.Winding

/-!
# C38, C39: padding, convex hull
-/

namespace Verif.Poly

/-! ### reduce_size -/

/-- **C38** (what `reduce_size` removes): of a contour which ends by a vertex `w` followed by repetitions of the first vertex, the
repetitions are removed, as long as 3 vertices stay. Missing for the whole property: contours with a single value, see
`reduce_size_constant`. -/
theorem reduce_size_partial (a w : Pt) (l : List Pt) (n : Nat) (hw : w ≠ a) :
    reduceSize (a :: l ++ w :: List.replicate n a) =
      some ((a :: l ++ w :: List.replicate n a).take (max 3 (l.length + 2))) := by
  have key : ∀ (m : Nat), m ≤ n → ∀ fuel, m < fuel →
      reduceLoop (a :: l ++ w :: List.replicate n a) a fuel ((l.length + 2 + m : Nat) : Int) = some ((l.length + 2 : Nat) : Int) := by
    intro m
    induction m with
    | zero =>
      intro _ fuel hf
      obtain ⟨fuel, rfl⟩ := Nat.exists_eq_succ_of_ne_zero (by omega : fuel ≠ 0)
      have hg : Py.get (a :: l ++ w :: List.replicate n a) (((l.length + 2 + 0 : Nat) : Int) - 1) = some w := by
        have : ((l.length + 2 + 0 : Nat) : Int) - 1 = ((l.length + 1 : Nat) : Int) := by push_cast; ring
        rw [this, Py.get_natCast, List.getElem?_append_right (by simp)]
        simp
      simp only [reduceLoop, hg]
      rw [if_pos hw]
    | succ m ih =>
      intro hm fuel hf
      obtain ⟨fuel, rfl⟩ := Nat.exists_eq_succ_of_ne_zero (by omega : fuel ≠ 0)
      have he : ((l.length + 2 + (m + 1) : Nat) : Int) - 1 = ((l.length + 2 + m : Nat) : Int) := by push_cast; ring
      have hg : Py.get (a :: l ++ w :: List.replicate n a) (((l.length + 2 + (m + 1) : Nat) : Int) - 1) = some a := by
        rw [he, Py.get_natCast, List.getElem?_append_right (by simp; omega)]
        have : l.length + 2 + m - (a :: l).length = m + 1 := by simp; omega
        rw [this, List.getElem?_cons_succ, List.getElem?_replicate_of_lt (by omega)]
      simp only [reduceLoop, hg]
      rw [if_neg (by simp), he]
      exact ih (by omega) fuel (by omega)
  have hlen : ((a :: l ++ w :: List.replicate n a).length : Int) = ((l.length + 2 + n : Nat) : Int) := by
    simp only [List.length_append, List.length_cons, List.length_replicate]; push_cast; ring
  unfold reduceSize
  have hk := key n (le_refl n) (2 * (a :: l ++ w :: List.replicate n a).length + 1) (by
    simp only [List.length_append, List.length_cons, List.length_replicate]; omega)
  simp only [List.cons_append] at hk hlen ⊢
  rw [hlen, hk]
  simp only [Option.map_some, Option.some.injEq]
  have hb : Py.bound (a :: (l ++ w :: List.replicate n a)).length (max 3 ((l.length + 2 : Nat) : Int)) =
      min (max 3 (l.length + 2)) (a :: (l ++ w :: List.replicate n a)).length := by
    unfold Py.bound
    rw [if_pos (by omega)]
    have : (max 3 ((l.length + 2 : Nat) : Int)).toNat = max 3 (l.length + 2) := by omega
    rw [this]
  rw [hb]
  rcases le_total (max 3 (l.length + 2)) (a :: (l ++ w :: List.replicate n a)).length with h | h
  · rw [min_eq_left h]
  · rw [min_eq_right h, List.take_of_length_le (le_refl _), List.take_of_length_le h]

/-- **C38** (contours of at least three distinct positions): exactly the repetitions of the first vertex at the end are removed. -/
theorem reduce_size_exact (a w : Pt) (l : List Pt) (n : Nat) (hw : w ≠ a) (hl : l ≠ []) :
    reduceSize (a :: l ++ w :: List.replicate n a) = some (a :: l ++ [w]) := by
  rw [reduce_size_partial a w l n hw]
  have hl' : 1 ≤ l.length := List.length_pos_iff.2 hl
  have hm : max 3 (l.length + 2) = (a :: l ++ [w]).length := by simp; omega
  have he : a :: l ++ w :: List.replicate n a = (a :: l ++ [w]) ++ List.replicate n a := by simp
  rw [hm, he, List.take_left']
  rfl

/-- Every contour which is not constant has the form of `reduce_size_partial`. -/
theorem padded_form (a : Pt) (l : List Pt) (h : ∃ u ∈ l, u ≠ a) :
    ∃ (l' : List Pt) (w : Pt) (n : Nat), w ≠ a ∧ a :: l = a :: l' ++ w :: List.replicate n a := by
  induction l with
  | nil => obtain ⟨u, hu, _⟩ := h; cases hu
  | cons b l ih =>
    by_cases hex : ∃ u ∈ l, u ≠ a
    · obtain ⟨l', w, n, hw, he⟩ := ih hex
      refine ⟨b :: l', w, n, hw, ?_⟩
      simp only [List.cons_append, List.cons.injEq, true_and] at he ⊢
      exact he
    · have hall : l = List.replicate l.length a := by
        apply List.eq_replicate_of_mem
        intro u hu
        by_contra hn
        exact hex ⟨u, hu, hn⟩
      have hb : b ≠ a := by
        obtain ⟨u, hu, hua⟩ := h
        rcases List.mem_cons.1 hu with rfl | hu
        · exact hua
        · exact absurd ⟨u, hu, hua⟩ hex
      exact ⟨[], b, l.length, hb, by rw [List.cons_append, List.nil_append, ← hall]⟩

/-- **C38** (consequence): the reduced contour has the same winding number around every point. -/
theorem reduce_size_winding {v r : List Pt} (h : reduceSize v = some r) (p : Pt) : winding p r = winding p v := by
  cases v with
  | nil => cases h
  | cons a l =>
    by_cases hex : ∃ u ∈ l, u ≠ a
    · obtain ⟨l', w, n, hw, he⟩ := padded_form a l hex
      rw [he, reduce_size_partial a w l' n hw] at h
      have e2 : a :: l' ++ w :: List.replicate n a = a :: (l' ++ [w]) ++ List.replicate n a := by simp
      rw [he, ← Option.some.inj h, e2, winding_padding, List.take_append]
      have hr : ∃ m, (List.replicate n a).take (max 3 (l'.length + 2) - (a :: (l' ++ [w])).length) = List.replicate m a :=
        ⟨_, List.take_replicate⟩
      obtain ⟨m, hm⟩ := hr
      rw [hm, List.take_of_length_le (by simp), winding_padding]
    · exfalso
      have hall : ∀ u ∈ a :: l, u = a := by
        intro u hu
        rcases List.mem_cons.1 hu with rfl | hu
        · rfl
        · by_contra hn; exact hex ⟨u, hu, hn⟩
      have key : ∀ fuel i, reduceLoop (a :: l) a fuel i = none := by
        intro fuel
        induction fuel with
        | zero => intro i; rfl
        | succ fuel ih =>
          intro i
          simp only [reduceLoop]
          cases hg : Py.get (a :: l) (i - 1) with
          | none => rfl
          | some u =>
            have hu : u = a := by
              unfold Py.get at hg
              obtain ⟨k, _, hk⟩ := Option.bind_eq_some_iff.1 hg
              exact hall u (List.mem_of_getElem? hk)
            simp only [hu, ne_eq, not_true_eq_false, if_false]
            exact ih _
      unfold reduceSize at h
      simp only [key, Option.map_none] at h
      cases h

/-- **Disagreement with C38**: on a contour with a single value (virtual observations, the case named in the comment of the code)
the index leaves the array. -/
theorem reduce_size_constant (a : Pt) (n : Nat) : reduceSize (List.replicate n a) = none := by
  cases n with
  | zero => rfl
  | succ n =>
    have hall : ∀ u ∈ List.replicate (n + 1) a, u = a := fun u hu => List.eq_of_mem_replicate hu
    have key : ∀ fuel i, reduceLoop (List.replicate (n + 1) a) a fuel i = none := by
      intro fuel
      induction fuel with
      | zero => intro i; rfl
      | succ fuel ih =>
        intro i
        simp only [reduceLoop]
        cases hg : Py.get (List.replicate (n + 1) a) (i - 1) with
        | none => rfl
        | some u =>
          have hu : u = a := by
            unfold Py.get at hg
            obtain ⟨k, _, hk⟩ := Option.bind_eq_some_iff.1 hg
            exact hall u (List.mem_of_getElem? hk)
          simp only [hu, ne_eq, not_true_eq_false, if_false]
          exact ih _
    unfold reduceSize
    rw [List.replicate_succ] at key ⊢
    simp only [key, Option.map_none]

/-- A padded square, a padded segment (three points stay) and a constant contour. -/
example : reduceSize [(0, 0), (1, 0), (1, 1), (0, 1), (0, 0), (0, 0)] = some [(0, 0), (1, 0), (1, 1), (0, 1)] ∧
    reduceSize [(0, 0), (1, 0), (0, 0), (0, 0)] = some [(0, 0), (1, 0), (0, 0)] ∧
    reduceSize [(2, 3), (2, 3), (2, 3), (2, 3)] = none := by decide +kernel

/-! ### get_convex_hull -/

theorem argmin_spec (l : List Rat) (hne : l ≠ []) :
    ∃ x, l[argmin l]? = some x ∧ (∀ y ∈ l, x ≤ y) ∧ ∀ (k : Nat) (y : Rat), k < argmin l → l[k]? = some y → x < y := by
  have hmin : ∃ x ∈ l, ∀ y ∈ l, x ≤ y := by
    induction l with
    | nil => exact absurd rfl hne
    | cons a l ih =>
      by_cases hl : l = []
      · subst hl; exact ⟨a, by simp, by simp⟩
      · obtain ⟨x, hx, hm⟩ := ih hl
        rcases le_total a x with h | h
        · refine ⟨a, by simp, fun y hy => ?_⟩
          rcases List.mem_cons.1 hy with rfl | hy
          · exact le_refl _
          · exact le_trans h (hm y hy)
        · refine ⟨x, by simp [hx], fun y hy => ?_⟩
          rcases List.mem_cons.1 hy with rfl | hy
          · exact h
          · exact hm y hy
  obtain ⟨x, hx, hm⟩ := hmin
  have hlt : argmin l < l.length := by
    unfold argmin
    apply List.findIdx_lt_length_of_exists
    exact ⟨x, hx, by simpa using hm⟩
  have hsat := List.findIdx_getElem (xs := l) (p := fun x => l.all (fun y => decide (x ≤ y))) (w := hlt)
  have hle : ∀ y ∈ l, l[argmin l] ≤ y := by
    intro y hy
    simp only [List.all_eq_true, decide_eq_true_eq] at hsat
    exact hsat y hy
  refine ⟨l[argmin l], List.getElem?_eq_getElem hlt, hle, ?_⟩
  intro k y hk hy
  have hnot := List.not_of_lt_findIdx (p := fun x => l.all (fun y => decide (x ≤ y))) (xs := l) hk
  obtain ⟨hkl, hyk⟩ := List.getElem?_eq_some_iff.1 hy
  rw [hyk] at hnot
  by_contra hlt'
  have htrue : l.all (fun z => decide (y ≤ z)) = true := by
    simp only [List.all_eq_true, decide_eq_true_eq]
    intro z hz
    exact le_trans (not_lt.1 hlt') (hle z hz)
  simp [htrue] at hnot

/-- Position at the distance `d` after the first vertex. -/
def off (nb first d : Nat) : Nat := (first + d) % nb

theorem off_succ (nb first d : Nat) : (off nb first d + 1) % nb = off nb first (d + 1) := by
  unfold off; rw [Nat.mod_add_mod, Nat.add_assoc]

theorem off_first {nb first d : Nat} (hf : first < nb) (h1 : 1 ≤ d) (h2 : d ≤ nb) : off nb first d = first ↔ d = nb := by
  unfold off
  constructor
  · intro h
    rcases Nat.lt_or_ge (first + d) nb with hlt | hge
    · rw [Nat.mod_eq_of_lt hlt] at h; omega
    · have : (first + d) % nb = (first + d - nb) % nb := by
        conv_lhs => rw [show first + d = (first + d - nb) + nb by omega]
        rw [Nat.add_mod_right]
      rw [this, Nat.mod_eq_of_lt (by omega)] at h; omega
  · rintro rfl; rw [Nat.add_mod_right, Nat.mod_eq_of_lt hf]

theorem off_inj {nb first d e : Nat} (hf : first < nb) (h1 : d < nb) (h2 : e < nb) (h : off nb first d = off nb first e) :
    d = e := by
  unfold off at h
  have key : ∀ d, d < nb → (first + d) % nb = if first + d < nb then first + d else first + d - nb := by
    intro d hd
    split
    · exact Nat.mod_eq_of_lt (by assumption)
    · conv_lhs => rw [show first + d = (first + d - nb) + nb by omega]
      rw [Nat.add_mod_right, Nat.mod_eq_of_lt (by omega)]
  rw [key d h1, key e h2] at h
  split at h <;> split at h <;> omega

theorem testLoop_spec {P : Nat → Pt} {nb first : Nat} (hf : first < nb) (a b : Pt) : ∀ (fuel e : Nat), 1 ≤ e → e < nb →
    nb - e ≤ fuel →
    (testLoop P nb first a b fuel (off nb first e) = some none ∧ ∀ t, e ≤ t → t < nb → isLeft a b (P (off nb first t)) = true) ∨
    (∃ t, e ≤ t ∧ t < nb ∧ testLoop P nb first a b fuel (off nb first e) = some (some (off nb first t))) := by
  intro fuel
  induction fuel with
  | zero => intro e _ h2 h3; omega
  | succ fuel ih =>
    intro e h1 h2 h3
    by_cases hl : isLeft a b (P (off nb first e)) = true
    · rw [testLoop, if_pos hl, off_succ]
      by_cases hnb : e + 1 = nb
      · left
        rw [if_pos ((off_first hf (by omega) (by omega)).2 hnb)]
        refine ⟨rfl, fun t ht1 ht2 => ?_⟩
        rw [show t = e by omega]; exact hl
      · rw [if_neg (fun h => hnb ((off_first hf (by omega) (by omega)).1 h))]
        rcases ih (e + 1) (by omega) (by omega) (by omega) with ⟨hr, hall⟩ | ⟨t, ht1, ht2, hr⟩
        · left
          refine ⟨hr, fun t ht1 ht2 => ?_⟩
          rcases Nat.eq_or_lt_of_le ht1 with rfl | hlt
          · exact hl
          · exact hall t hlt ht2
        · right; exact ⟨t, by omega, ht2, hr⟩
    · right
      refine ⟨e, le_refl e, h2, ?_⟩
      rw [testLoop, if_neg hl]

/-- Specification of the kept vertices, as distances from the first vertex: every edge between consecutive kept vertices has all
later vertices of the polygon strictly on its left, the edge to the last vertex of the polygon has the first vertex on its left. -/
def Supported (Q : Nat → Pt) (nb : Nat) : Nat → List Nat → Prop
  | _, [] => True
  | d, e :: l => (∀ t, e < t → t < nb → 0 < product (Q d) (Q e) (Q t)) ∧ (e + 1 = nb → 0 < product (Q d) (Q e) (Q 0)) ∧
      Supported Q nb e l

theorem hullLoop_spec {P : Nat → Pt} {nb first : Nat} (hf : first < nb) : ∀ (fuel d0 d : Nat) (acc : List Nat), 1 ≤ d →
    d + 1 < nb → nb - 1 - d ≤ fuel →
    ∃ ds, hullLoop P nb first fuel (P (off nb first d0)) (off nb first d) acc = some (acc ++ ds.map (off nb first)) ∧
      ds.Pairwise (· < ·) ∧ (∀ e ∈ ds, d ≤ e ∧ e < nb) ∧ Supported (fun k => P (off nb first k)) nb d0 ds := by
  have hlast : (first + nb - 1) % nb = off nb first (nb - 1) := by
    unfold off; congr 1; omega
  have hstop : ∀ (d0 d : Nat) (acc : List Nat), d < nb →
      (d + 1 = nb ∧ ∃ ds, hullStop P nb first (P (off nb first d0)) (off nb first d) acc = some (acc ++ ds.map (off nb first)) ∧
        (ds = [] ∨ ds = [d]) ∧ Supported (fun k => P (off nb first k)) nb d0 ds) ∨
      (d + 1 ≠ nb ∧ hullStop P nb first (P (off nb first d0)) (off nb first d) acc = none) := by
    intro d0 d acc hd
    unfold hullStop
    rw [hlast]
    by_cases h : d + 1 = nb
    · left
      refine ⟨h, ?_⟩
      rw [if_pos (by rw [show d = nb - 1 by omega])]
      have h0 : off nb first 0 = first := by unfold off; rw [Nat.add_zero, Nat.mod_eq_of_lt hf]
      by_cases hl : isLeft (P (off nb first d0)) (P (off nb first d)) (P first) = true
      · rw [if_pos hl]
        refine ⟨[d], rfl, Or.inr rfl, ?_⟩
        refine ⟨fun t h1 h2 => by omega, fun _ => ?_, trivial⟩
        simp only [h0]
        simpa [isLeft] using hl
      · rw [if_neg hl]
        exact ⟨[], by simp, Or.inl rfl, trivial⟩
    · right
      refine ⟨h, ?_⟩
      rw [if_neg (fun he => h (by have := off_inj hf hd (by omega) he; omega))]
  intro fuel
  induction fuel with
  | zero => intro d0 d acc h1 h2 h3; omega
  | succ fuel ih =>
    intro d0 d acc h1 h2 h3
    have htest := testLoop_spec (P := P) hf (P (off nb first d0)) (P (off nb first d)) (nb + 1) (d + 1) (by omega) (by omega)
      (by omega)
    rw [hullLoop, off_succ]
    rcases htest with ⟨hr, hall⟩ | ⟨t, ht1, ht2, hr⟩
    · rw [hr]
      have hall' : ∀ t, d < t → t < nb → 0 < product (P (off nb first d0)) (P (off nb first d)) (P (off nb first t)) := by
        intro t h1 h2
        simpa [isLeft] using hall t h1 h2
      rcases hstop d (d + 1) (acc ++ [off nb first d]) (by omega) with ⟨hd, ds, hs, hds, hsup⟩ | ⟨hd, hs⟩
      · simp only [hs]
        refine ⟨d :: ds, by simp, ?_, ?_, ?_⟩
        · rcases hds with rfl | rfl <;> simp
        · rcases hds with rfl | rfl <;> simp <;> omega
        · exact ⟨hall', fun he => by omega, hsup⟩
      · simp only [hs]
        obtain ⟨ds, he, hp, hm, hsup⟩ := ih d (d + 1) (acc ++ [off nb first d]) (by omega) (by omega) (by omega)
        refine ⟨d :: ds, by rw [he]; simp, ?_, ?_, hall', fun he => by omega, hsup⟩
        · exact List.pairwise_cons.2 ⟨fun e hme => by have := hm e hme; omega, hp⟩
        · intro e hme
          rcases List.mem_cons.1 hme with rfl | hme
          · omega
          · have := hm e hme; omega
    · rw [hr]
      have hne : off nb first t ≠ first := fun h => by
        have := (off_first hf (by omega) (by omega)).1 h; omega
      simp only [hne, ne_eq, not_false_eq_true, if_true]
      rcases hstop d0 t acc (by omega) with ⟨hd, ds, hs, hds, hsup⟩ | ⟨hd, hs⟩
      · simp only [hs]
        refine ⟨ds, rfl, ?_, ?_, hsup⟩
        · rcases hds with rfl | rfl <;> simp
        · rcases hds with rfl | rfl
          · simp
          · intro e hme
            rw [List.mem_singleton] at hme
            omega
      · simp only [hs]
        obtain ⟨ds, he, hp, hm, hsup⟩ := ih d0 t acc (by omega) (by omega) (by omega)
        exact ⟨ds, he, hp, fun e hme => by have := hm e hme; omega, hsup⟩

theorem product_same (a b : Pt) : product a b a = 0 := by unfold product; ring

/-- **C39**: the construction terminates on every polygon (an array of at least two points, the last one closes it). The result
starts and ends with a leftmost vertex, the first one in the array; from it on, the kept vertices are a subsequence of the polygon
(distances `ds` from the first vertex, in increasing order); each kept edge has all later vertices strictly on its left. -/
theorem convex_hull_spec (v : List Pt) (hl : 2 ≤ v.length) : ∃ (first : Nat) (ds : List Nat), first < v.length - 1 ∧
    hullIndices v = some (first :: ds.map (fun d => (first + d) % (v.length - 1)) ++ [first]) ∧
    (∀ w ∈ v.dropLast, (vertex v first).1 ≤ w.1) ∧ ds.Pairwise (· < ·) ∧ (∀ d ∈ ds, 1 ≤ d ∧ d < v.length - 1) ∧
    Supported (fun d => vertex v ((first + d) % (v.length - 1))) (v.length - 1) 0 ds := by
  have hne : v.dropLast.map Prod.fst ≠ [] := by
    intro h
    have := congrArg List.length h
    simp at this; omega
  obtain ⟨x, hx, hmin, _⟩ := argmin_spec _ hne
  have hflt : argmin (v.dropLast.map Prod.fst) < v.length - 1 := by
    have := (List.getElem?_eq_some_iff.1 hx).1
    simpa using this
  generalize hfd : argmin (v.dropLast.map Prod.fst) = first at hx hflt
  have hleft : ∀ w ∈ v.dropLast, (vertex v first).1 ≤ w.1 := by
    intro w hw
    rw [List.getElem?_map] at hx
    obtain ⟨u, hu, rfl⟩ := Option.map_eq_some_iff.1 hx
    rw [List.getElem?_dropLast, if_pos hflt] at hu
    have : vertex v first = u := by
      unfold vertex; rw [List.getD_eq_getElem?_getD, hu]; rfl
    rw [this]
    exact hmin _ (List.mem_map.2 ⟨w, hw, rfl⟩)
  have h0 : off (v.length - 1) first 0 = first := by unfold off; rw [Nat.add_zero, Nat.mod_eq_of_lt hflt]
  unfold hullIndices
  rw [if_neg (by omega), hfd]
  by_cases h3 : 3 < v.length
  · obtain ⟨ds, he, hp, hm, hsup⟩ := hullLoop_spec (P := vertex v) hflt (v.length + 1) 0 1 [first] (le_refl 1) (by omega) (by omega)
    rw [h0] at he
    have h1 : (first + 1) % (v.length - 1) = off (v.length - 1) first 1 := rfl
    rw [h1, he]
    exact ⟨first, ds, hflt, rfl, hleft, hp, hm, hsup⟩
  · -- two or three points
    refine ⟨first, [], hflt, ?_, hleft, List.Pairwise.nil, by simp, trivial⟩
    have hstop : ∀ q : Pt, product q q q = 0 := fun q => product_same q q
    rcases (by omega : v.length - 1 = 1 ∨ v.length - 1 = 2) with hn | hn
    · rw [hn] at hflt ⊢
      obtain rfl : first = 0 := by omega
      simp only [hullLoop, testLoop, isLeft, Nat.mod_one, hstop, lt_self_iff_false, decide_false, Bool.false_eq_true, if_false,
        hullStop, ne_eq, not_true_eq_false, if_true, Option.map_some, List.map_nil]
    · rw [hn] at hflt ⊢
      have ht : ((first + 1) % 2 + 1) % 2 = first := by omega
      have hs : (first + 2 - 1) % 2 = (first + 1) % 2 := by congr 1
      have hq : product (vertex v first) (vertex v ((first + 1) % 2)) (vertex v first) = 0 := product_same _ _
      simp only [hullLoop, testLoop, isLeft, ht, hq, lt_self_iff_false, decide_false, Bool.false_eq_true, if_false, hullStop, ne_eq,
        not_true_eq_false, hs, if_true, Option.map_some, List.map_nil]

/-- **C39** (points): the result is a subsequence of the polygon read from the first vertex, closed by this vertex. -/
theorem convex_hull_subsequence (v : List Pt) (hl : 2 ≤ v.length) : ∃ (first : Nat) (a : Pt) (l : List Pt),
    convexHull v = some (a :: l ++ [a]) ∧ v.dropLast[first]? = some a ∧
    (a :: l).Sublist (v.dropLast.drop first ++ v.dropLast.take first) := by
  obtain ⟨first, ds, hf, he, hleft, hp, hm, _⟩ := convex_hull_spec v hl
  have hfv : first < v.length := by omega
  have hd : v.dropLast.length = v.length - 1 := List.length_dropLast
  have hget : v.dropLast[first]? = some (vertex v first) := by
    rw [List.getElem?_dropLast, if_pos hf]
    unfold vertex
    rw [List.getD_eq_getElem?_getD, List.getElem?_eq_getElem hfv]; rfl
  refine ⟨first, vertex v first, ds.map (fun d => vertex v ((first + d) % (v.length - 1))), ?_, hget, ?_⟩
  · unfold convexHull
    rw [he]
    simp
  · -- read the rotated polygon by positions
    have hrot : v.dropLast.drop first ++ v.dropLast.take first =
        (List.range (v.length - 1)).map (fun d => vertex v ((first + d) % (v.length - 1))) := by
      apply List.ext_getElem?
      intro k
      by_cases hk : k < v.length - 1
      · rw [List.getElem?_map, List.getElem?_range hk]
        simp only [Option.map_some]
        by_cases hk2 : first + k < v.length - 1
        · rw [List.getElem?_append_left (by simp; omega), List.getElem?_drop, List.getElem?_dropLast, if_pos hk2,
            Nat.mod_eq_of_lt hk2]
          unfold vertex
          rw [List.getD_eq_getElem?_getD, List.getElem?_eq_getElem (by omega)]; rfl
        · have hmod : (first + k) % (v.length - 1) = first + k - (v.length - 1) := by
            conv_lhs => rw [show first + k = (first + k - (v.length - 1)) + (v.length - 1) by omega]
            rw [Nat.add_mod_right, Nat.mod_eq_of_lt (by omega)]
          have hlen : (v.dropLast.drop first).length = v.length - 1 - first := by rw [List.length_drop, hd]
          rw [List.getElem?_append_right (by omega), hlen, List.getElem?_take, if_pos (by omega), List.getElem?_dropLast,
            if_pos (by omega), hmod]
          have : k - (v.length - 1 - first) = first + k - (v.length - 1) := by omega
          rw [this]
          unfold vertex
          rw [List.getD_eq_getElem?_getD, List.getElem?_eq_getElem (by omega)]; rfl
      · rw [List.getElem?_eq_none (by simp; omega), List.getElem?_eq_none (by simp; omega)]
    rw [hrot]
    have hsub : (0 :: ds).Sublist (List.range (v.length - 1)) := by
      have hpw : (0 :: ds).Pairwise (· < ·) := List.pairwise_cons.2 ⟨fun d hd => (hm d hd).1, hp⟩
      have hall : ∀ d ∈ 0 :: ds, d < v.length - 1 := by
        intro d hd
        rcases List.mem_cons.1 hd with rfl | hd
        · omega
        · exact (hm d hd).2
      exact List.sublist_of_subperm_of_pairwise (r := (· < ·))
        ((List.subperm_of_subset (hpw.imp (fun h => Nat.ne_of_lt h)) (fun d hd => List.mem_range.2 (hall d hd)))) hpw
        List.pairwise_lt_range
    have := hsub.map (fun d => vertex v ((first + d) % (v.length - 1)))
    simpa [Nat.mod_eq_of_lt hf] using this

/-- The segments `a b` and `c d` have a common point, for segments not on the same line. -/
def meet (a b c d : Pt) : Bool :=
  decide (product a b c * product a b d ≤ 0 ∧ product c d a * product c d b ≤ 0)

/-- **Disagreement with C62**: the first vertex is never tested. A pentagon, anticlockwise and without crossing edges, for which the
result is not convex and leaves the first vertex on the right of the edge `(4, 0), (3, 1)`. -/
theorem convex_hull_wrong : ∃ v : List Pt, v.length = 5 ∧
    (∀ i ∈ List.range 5, ∀ j ∈ List.range 5, (i + 1) % 5 ≠ j → (j + 1) % 5 ≠ i → i ≠ j →
      meet (vertex v i) (vertex v ((i + 1) % 5)) (vertex v j) (vertex v ((j + 1) % 5)) = false) ∧
    winding (2, 1 / 2) v = 1 ∧
    convexHull (v ++ [vertex v 0]) = some [(1, 4), (1, 0), (4, 0), (3, 1), (1, 4)] ∧
    v = [(1, 4), (1, 0), (4, 0), (3, 1), (2, 1)] ∧ product (4, 0) (3, 1) (1, 4) < 0 ∧
    convex [(1, 4), (1, 0), (4, 0), (3, 1), (1, 4)] = some false :=
  ⟨[(1, 4), (1, 0), (4, 0), (3, 1), (2, 1)], by decide +kernel⟩

/-- A square with a notch, closed. -/
example : convexHull [(0, 0), (4, 0), (4, 4), (2, 1), (0, 4), (0, 0)] = some [(0, 0), (4, 0), (4, 4), (0, 4), (0, 0)] := by
  decide +kernel

end Verif.Poly
