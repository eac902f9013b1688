import Verif.Links.Props

/-!
# C194: extractions of a network, one after the other

`extract_with_mask` (src/py_eddy_tracker/observations/network.py:1605-1637) of an extraction, on the model of C16.
-/

namespace Verif.Links

variable {α : Type}

/-! ### Proofs -/

theorem image_unique {idx : List Nat} (hn : idx.Nodup) {p q q' : Int} (h : Image idx p q) (h' : Image idx p q') : q = q' := by
  rcases h with ⟨k, t, rfl, hk, rfl⟩ | ⟨rfl, hp⟩
  · rcases h' with ⟨k', t', e, hk', rfl⟩ | ⟨rfl, hp⟩
    · obtain rfl : t = t' := by omega
      obtain ⟨a, ea⟩ := List.getElem?_eq_some_iff.1 hk
      obtain ⟨b, eb⟩ := List.getElem?_eq_some_iff.1 hk'
      have := (List.Nodup.getElem_inj_iff hn).1 (ea.trans eb.symm)
      rw [this]
    · exact absurd rfl (hp t (List.mem_of_getElem? hk))
  · rcases h' with ⟨k', t', rfl, hk', rfl⟩ | ⟨rfl, _⟩
    · exact absurd rfl (hp t' (List.mem_of_getElem? hk'))
    · rfl

theorem take_unique {rows out out' : List (Row α)} {idx : List Nat} (hn : idx.Nodup) (h : IsTake rows idx out) (h' : IsTake rows idx out') :
    out = out' := by
  apply List.ext_getElem?
  intro k
  cases e : out[k]? with
  | none =>
    have := List.getElem?_eq_none_iff.1 e
    exact (List.getElem?_eq_none (by rw [h'.1, ← h.1]; exact this)).symm
  | some r =>
    have hk : k < out'.length := by
      rw [h'.1, ← h.1]
      exact (List.getElem?_eq_some_iff.1 e).1
    obtain ⟨i, r0, a1, a2, a3, a4, a5⟩ := h.2 k r e
    obtain ⟨i', r0', b1, b2, b3, b4, b5⟩ := h'.2 k _ (List.getElem?_eq_getElem hk)
    rw [a1] at b1; cases b1
    rw [a2] at b2; cases b2
    rw [List.getElem?_eq_getElem hk]
    congr 1
    have c1 := image_unique hn a4 b4
    have c2 := image_unique hn a5 b5
    have c3 := a3.trans b3.symm
    generalize out'[k] = r' at c1 c2 c3
    cases r
    cases r'
    simp only at c1 c2 c3
    rw [c1, c2, c3]

/-- The rows of the rows. -/
def rowsAt (idx1 idx2 : List Nat) : List Nat := idx2.filterMap (fun (k : Nat) => idx1[k]?)

theorem rowsAt_get {idx1 : List Nat} : ∀ {idx2 : List Nat}, (∀ k ∈ idx2, k < idx1.length) →
    (rowsAt idx1 idx2).length = idx2.length ∧ ∀ j : Nat, (rowsAt idx1 idx2)[j]? = (idx2[j]?).bind (fun k => idx1[k]?)
  | [], _ => by simp [rowsAt]
  | k :: l, h => by
    have ih := rowsAt_get (idx1 := idx1) (idx2 := l) (fun x hx => h x (List.mem_cons_of_mem _ hx))
    have hk := List.getElem?_eq_getElem (h k (by simp))
    have e : rowsAt idx1 (k :: l) = idx1[k]'(h k (by simp)) :: rowsAt idx1 l := by
      unfold rowsAt
      rw [List.filterMap_cons, hk]
    rw [e]
    refine ⟨by simp [ih.1], fun j => ?_⟩
    cases j with
    | zero => simp
    | succ j => simpa using ih.2 j

theorem take_take {rows out1 out2 : List (Row α)} {idx1 idx2 : List Nat} (hn : idx1.Nodup) (hlt : ∀ k ∈ idx2, k < idx1.length)
    (h1 : IsTake rows idx1 out1) (h2 : IsTake out1 idx2 out2) : IsTake rows (rowsAt idx1 idx2) out2 := by
  obtain ⟨hl, hg⟩ := rowsAt_get hlt
  have himg : ∀ p q r, Image idx1 p q → Image idx2 q r → Image (rowsAt idx1 idx2) p r := by
    intro p q r h h'
    rcases h with ⟨k, t, rfl, hk, rfl⟩ | ⟨rfl, hp⟩
    · rcases h' with ⟨k', t', e, hk', rfl⟩ | ⟨rfl, hp⟩
      · obtain rfl : k = t' := by omega
        exact Or.inl ⟨k', t, rfl, by rw [hg, hk', Option.bind_some, hk], rfl⟩
      · refine Or.inr ⟨rfl, fun x hx e => ?_⟩
        obtain rfl : t = x := by omega
        obtain ⟨j, hj⟩ := List.getElem?_of_mem hx
        rw [hg] at hj
        obtain ⟨k', e1, e2⟩ := Option.bind_eq_some_iff.1 hj
        obtain ⟨a, ea⟩ := List.getElem?_eq_some_iff.1 hk
        obtain ⟨b, eb⟩ := List.getElem?_eq_some_iff.1 e2
        obtain rfl := (List.Nodup.getElem_inj_iff hn).1 (ea.trans eb.symm)
        exact hp k (List.mem_of_getElem? e1) rfl
    · rcases h' with ⟨k', t', e, hk', rfl⟩ | ⟨rfl, _⟩
      · omega
      · refine Or.inr ⟨rfl, fun x hx => ?_⟩
        obtain ⟨j, hj⟩ := List.getElem?_of_mem hx
        rw [hg] at hj
        obtain ⟨k', e1, e2⟩ := Option.bind_eq_some_iff.1 hj
        exact hp x (List.mem_of_getElem? e2)
  refine ⟨by rw [h2.1, hl], fun k r hr => ?_⟩
  obtain ⟨i, r1, a1, a2, a3, a4, a5⟩ := h2.2 k r hr
  obtain ⟨i', r0, b1, b2, b3, b4, b5⟩ := h1.2 i r1 a2
  exact ⟨i', r0, by rw [hg, a1, Option.bind_some, b1], b2, a3.trans b3, himg _ _ _ b4 a4, himg _ _ _ b5 a5⟩

theorem maskIdx_cons (b : Bool) (m : List Bool) : maskIdx (b :: m) = (if b then [0] else []) ++ (maskIdx m).map (· + 1) := by
  have : ∀ (m : List Bool) (n : Nat), ((m.zipIdx n).filter (·.1)).map (·.2) = ((m.zipIdx 0).filter (·.1)).map (·.2 + n) := by
    intro m
    induction m with
    | nil => intro n; rfl
    | cons c m ih =>
      intro n
      have e : ∀ k : Nat, ((m.zipIdx k).filter (·.1)).map (·.2 + n) = (((m.zipIdx k).filter (·.1)).map (·.2)).map (· + n) := by
        intro k; rw [List.map_map]; rfl
      simp only [List.zipIdx_cons, List.filter_cons]
      cases c
      · simp only [Bool.false_eq_true, if_false]
        rw [ih (n + 1), e, ih (0 + 1), List.map_map]
        congr 1
        funext x
        simp only [Function.comp]
        omega
      · simp only [if_true, List.map_cons]
        rw [ih (n + 1), e, ih (0 + 1), List.map_map]
        simp only [Nat.zero_add]
        congr 2
        funext x
        simp only [Function.comp]
        omega
  unfold maskIdx
  simp only [List.zipIdx_cons, List.filter_cons, Nat.zero_add]
  cases b
  · simp only [Bool.false_eq_true, if_false, List.nil_append]
    rw [this m 1, List.map_map]
    rfl
  · simp only [if_true, List.map_cons, List.cons_append, List.nil_append]
    rw [this m 1, List.map_map]
    rfl

theorem rowsAt_shift (l i : List Nat) : rowsAt (l.map (· + 1)) i = (rowsAt l i).map (· + 1) := by
  unfold rowsAt
  rw [List.map_filterMap]
  congr 1
  funext k
  rw [List.getElem?_map]

theorem rowsAt_cons (l i : List Nat) : rowsAt (0 :: l) (i.map (· + 1)) = rowsAt l i := by
  unfold rowsAt
  rw [List.filterMap_map]
  rfl

theorem maskIdx_select : ∀ (m1 m2 : List Bool), m1.length = m2.length →
    maskIdx (List.zipWith (· && ·) m1 m2) = rowsAt (maskIdx m1) (maskIdx (Py.select m1 m2)) ∧
      (Py.select m1 m2).length = (maskIdx m1).length
  | [], [], _ => by simp [maskIdx, Py.select, rowsAt]
  | b :: m1, c :: m2, h => by
    obtain ⟨ih, il⟩ := maskIdx_select m1 m2 (by simpa using h)
    have es : Py.select (b :: m1) (c :: m2) = if b then c :: Py.select m1 m2 else Py.select m1 m2 := by
      unfold Py.select
      cases b <;> simp
    rw [List.zipWith_cons_cons, maskIdx_cons, ih, maskIdx_cons, es]
    cases b
    · simp only [Bool.false_and, Bool.false_eq_true, if_false, List.nil_append, rowsAt_shift, List.length_map]
      exact ⟨trivial, il⟩
    · simp only [Bool.true_and, if_true, List.length_cons, List.cons_append, List.nil_append, List.length_map]
      refine ⟨?_, by rw [il]⟩
      rw [maskIdx_cons]
      have e : rowsAt (0 :: (maskIdx m1).map (· + 1)) ((maskIdx (Py.select m1 m2)).map (· + 1)) =
          (rowsAt (maskIdx m1) (maskIdx (Py.select m1 m2))).map (· + 1) := by
        rw [rowsAt_cons, rowsAt_shift]
      cases c
      · simp only [Bool.false_eq_true, if_false, List.nil_append]
        rw [e]
      · simp only [if_true, List.cons_append, List.nil_append]
        rw [← e]
        rfl

theorem extract_take {rows : List (Row α)} {mask : List Bool} (hl : mask.length = rows.length) (hv : Valid rows) :
    ∃ out, extractMask rows mask = some out ∧ IsTake rows (maskIdx mask) out := by
  obtain ⟨out, h1, h2⟩ := take_spec rows (maskIdx mask) hv (fun t ht => by
    have := (mem_maskIdx mask t).1 ht
    rw [← hl]; exact (List.getElem?_eq_some_iff.1 this).1)
  exact ⟨out, by unfold extractMask; rw [if_neg (by simpa using hl), h1], h2⟩

theorem maskIdx_nodup (m : List Bool) : (maskIdx m).Nodup := (maskIdx_sorted m).imp (fun h => Nat.ne_of_lt h)

/-- **C194** (two extractions): to extract a part of an extraction is to extract the observations which are in both masks: same observations,
same links. The second mask is the part of `m2` on the observations of the first extraction. -/
theorem extract_extract (rows : List (Row α)) (m1 m2 : List Bool) (hl1 : m1.length = rows.length) (hl2 : m2.length = rows.length)
    (hv : Valid rows) : ∃ out1 out, extractMask rows m1 = some out1 ∧ extractMask out1 (Py.select m1 m2) = some out ∧
      extractMask rows (List.zipWith (· && ·) m1 m2) = some out := by
  obtain ⟨out1, e1, t1⟩ := extract_take hl1 hv
  obtain ⟨hs, hsl⟩ := maskIdx_select m1 m2 (hl1.trans hl2.symm)
  have hl : (Py.select m1 m2).length = out1.length := by rw [hsl, t1.1]
  obtain ⟨out, e2, t2⟩ := extract_take hl t1.valid
  obtain ⟨out', e3, t3⟩ := extract_take (rows := rows) (mask := List.zipWith (· && ·) m1 m2) (by simp [hl1, hl2]) hv
  have hlt : ∀ k ∈ maskIdx (Py.select m1 m2), k < (maskIdx m1).length := by
    intro k hk
    rw [← hsl]
    exact (List.getElem?_eq_some_iff.1 ((mem_maskIdx _ k).1 hk)).1
  have t4 := take_take (maskIdx_nodup m1) hlt t1 t2
  rw [hs] at t3
  have := maskIdx_nodup (List.zipWith (· && ·) m1 m2)
  rw [hs] at this
  obtain rfl := take_unique this t3 t4
  exact ⟨out1, out', e1, e2, e3⟩

/-- **C194** (order): two selections give the same network in both orders. -/
theorem extract_comm (rows : List (Row α)) (m1 m2 : List Bool) (hl1 : m1.length = rows.length) (hl2 : m2.length = rows.length)
    (hv : Valid rows) : (extractMask rows m1).bind (fun out => extractMask out (Py.select m1 m2)) =
      (extractMask rows m2).bind (fun out => extractMask out (Py.select m2 m1)) := by
  obtain ⟨a1, a, h1, h2, h3⟩ := extract_extract rows m1 m2 hl1 hl2 hv
  obtain ⟨b1, b, h4, h5, h6⟩ := extract_extract rows m2 m1 hl2 hl1 hv
  rw [h1, h4, Option.bind_some, Option.bind_some, h2, h5, ← h3, ← h6, List.zipWith_comm]
  congr 2
  funext x y
  exact Bool.and_comm _ _

/-- **C194** (everything): the extraction of all the observations is the network itself. -/
theorem extract_all (rows : List (Row α)) (hv : Valid rows) : extractMask rows (List.replicate rows.length true) = some rows := by
  obtain ⟨out, e, t⟩ := extract_take (rows := rows) (mask := List.replicate rows.length true) (by simp) hv
  have hi : ∀ n, maskIdx (List.replicate n true) = List.range n := by
    intro n
    induction n with
    | zero => rfl
    | succ n ih =>
      rw [List.replicate_succ, maskIdx_cons, ih, List.range_succ_eq_map]
      rfl
  have hself : IsTake rows (maskIdx (List.replicate rows.length true)) rows := by
    rw [hi]
    refine ⟨by simp, fun k r hr => ?_⟩
    have hk := (List.getElem?_eq_some_iff.1 hr).1
    have himg : ∀ p : Int, -1 ≤ p → p < rows.length → Image (List.range rows.length) p p := by
      intro p h1 h2
      by_cases h : p = -1
      · exact Or.inr ⟨h, fun t _ => by omega⟩
      · refine Or.inl ⟨p.toNat, p.toNat, by omega, ?_, by omega⟩
        rw [List.getElem?_range (by omega)]
    obtain ⟨h1, h2⟩ := hv r (List.mem_of_getElem? hr)
    exact ⟨k, r, by rw [List.getElem?_range hk], hr, rfl, himg _ h1.1 h1.2, himg _ h2.1 h2.2⟩
  rw [e, take_unique (maskIdx_nodup _) t hself]

/-- The observations 9, 10 and 12 of a network, then the two first of them. -/
example : (extractMask exRows [true, false, true, true]).bind (fun out => extractMask out (Py.select [true, false, true, true] [true, true, true, false])) =
    some [⟨10, -1, 1⟩, ⟨9, 0, -1⟩] := by decide

example : Valid exRows := by unfold Valid exRows; decide

end Verif.Links
