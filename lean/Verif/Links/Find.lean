import Verif.Links.DeadEnd

/-!
# `find_link` (C19)
-/

namespace Verif.Links

open Relation
open Segments (First Last Event IsNumbering)

/-! ### Model -/

/-- The arcs collected by the loop of `find_link`, network.py:466-495, in order: pairs (row, later row). `none`:
`IndexError`. The slices of `iter_on(segment)` are those of `build_index`. -/
def arcs (obs : List Segments.Obs) (first last : List Nat) : Option (List (Nat × Nat)) := do
  let ls ← (first.zip last).mapM (fun p => do
    let ip ← Py.get (obs.map (·.prev)) (p.1 : Int)
    let iN ← Py.get (obs.map (·.next)) ((p.2 : Int) - 1)
    let _ ← Py.idx obs.length ip
    let _ ← Py.idx obs.length iN
    some ((if ip ≠ -1 then [(ip.toNat, p.1)] else []) ++ (if iN ≠ -1 then [(p.2 - 1, iN.toNat)] else [])))
  some ls.flatten

/-- Common shape of `func_forward` and `func_backward`, network.py:499-517: mark a part of the segment, then follow the
arcs which leave this part and whose end is not marked. The first argument bounds the recursion depth. -/
def visit (block : Nat → Nat → Bool) (targets : Nat → List Nat) : Nat → (Nat → Bool) → Nat → (Nat → Bool)
  | 0, m, _ => m
  | fuel + 1, m, s =>
    (targets s).foldl (fun m y => if m y then m else visit block targets fuel m y) (fun x => m x || block s x)

/-- `func_forward`: `mask[indice : seg_slice.stop]`. -/
def fwdBlock (sta last : List Nat) (s x : Nat) : Bool := decide (s ≤ x ∧ x < last.getD (sta.getD s 0) 0)

/-- `func_forward`: arcs of the segment which begin at the row or after, lines 503-508. -/
def fwdTargets (sta : List Nat) (A : List (Nat × Nat)) (s : Nat) : List Nat :=
  ((A.filter (fun p => decide (sta.getD p.1 0 = sta.getD s 0))).filter (fun p => !decide (p.1 < s))).map (·.2)

/-- `func_backward`: `mask[seg_slice.start : indice + 1]`. -/
def bwdBlock (sta first : List Nat) (s x : Nat) : Bool := decide (first.getD (sta.getD s 0) 0 ≤ x ∧ x < s + 1)

/-- `func_backward`: arcs of the segment which end at the row or before, lines 514-519. -/
def bwdTargets (sta : List Nat) (A : List (Nat × Nat)) (s : Nat) : List Nat :=
  ((A.filter (fun p => decide (sta.getD p.2 0 = sta.getD s 0))).filter (fun p => !decide (s < p.2))).map (·.1)

/-- Mask given to `extract_with_mask` by `find_link`, network.py:433-526, for non negative indices. -/
def findLink (obs : List Segments.Obs) (indices : List Nat) (forward backward : Bool) : Option (List Bool) := do
  let sta ← Segments.segTrackArray obs
  let idx ← Index.buildIndex (sta.map (fun (k : Nat) => (k : Int)))
  let A ← arcs obs idx.1 idx.2.1
  if indices.any (fun i => decide (obs.length ≤ i)) then none
  else
    let n := obs.length
    let m := indices.foldl (fun m i =>
      let m := if forward then visit (fwdBlock sta idx.2.1) (fwdTargets sta A) (n + 1) m i else m
      if backward then visit (bwdBlock sta idx.1) (bwdTargets sta A) (n + 1) m i else m) (fun _ => false)
    some ((List.range n).map m)

/-! ### Specification -/

/-- Row `j` follows row `i`: next row of the segment, end of a segment to the row it merges into, row from which a segment
splits to its first row. -/
def Follows (obs : List Segments.Obs) (i j : Nat) : Prop :=
  (j = i + 1 ∧ ∃ o o', obs[i]? = some o ∧ obs[j]? = some o' ∧ o.key = o'.key) ∨
  (Last obs i ∧ ∃ o, obs[i]? = some o ∧ o.next = j) ∨ (First obs j ∧ ∃ o, obs[j]? = some o ∧ o.prev = i)

/-! ### The traversal -/

section visit
variable {block : Nat → Nat → Bool} {targets : Nat → List Nat} {R : Nat → Nat → Prop}

/-- Rows which are not marked. -/
def unmarked (n : Nat) (m : Nat → Bool) : Finset Nat := (Finset.range n).filter (fun x => m x = false)

/-- Effect of a call. -/
structure Visited (block : Nat → Nat → Bool) (R : Nat → Nat → Prop) (s : Nat) (m m' : Nat → Bool) : Prop where
  mono : ∀ x, m x = true → m' x = true
  self : m' s = true
  sound : ∀ x, m' x = true → m x = false → ReflTransGen R s x
  closed : ∀ x, m' x = true → m x = false → ∀ y, R x y → m' y = true
  block : ∀ x, block s x = true → ∀ y, R x y → m' y = true

theorem visit_spec (n : Nat) (h1 : ∀ s, s < n → block s s = true)
    (h2 : ∀ s x, s < n → block s x = true → x < n ∧ ReflTransGen R s x)
    (h3 : ∀ s y, s < n → y ∈ targets s → y < n ∧ ReflTransGen R s y)
    (h4 : ∀ s x y, s < n → block s x = true → R x y → block s y = true ∨ y ∈ targets s) (fuel : Nat) :
    ∀ (m : Nat → Bool) (s : Nat), s < n → (unmarked n (fun x => m x || block s x)).card < fuel →
      Visited block R s m (visit block targets fuel m s) := by
  induction fuel with
  | zero => intro m s _ h; omega
  | succ fuel ih =>
    intro m s hs hcard
    rw [visit]
    -- traversal of the targets
    have hfold : ∀ (l : List Nat) (m0 : Nat → Bool), (∀ y ∈ l, y ∈ targets s) → (unmarked n m0).card < fuel + 1 →
        (∀ x, m0 x = true → (l.foldl (fun m y => if m y then m else visit block targets fuel m y) m0) x = true) ∧
        (∀ y ∈ l, (l.foldl (fun m y => if m y then m else visit block targets fuel m y) m0) y = true) ∧
        (∀ x, (l.foldl (fun m y => if m y then m else visit block targets fuel m y) m0) x = true → m0 x = false →
          ReflTransGen R s x) ∧
        (∀ x, (l.foldl (fun m y => if m y then m else visit block targets fuel m y) m0) x = true → m0 x = false →
          ∀ y, R x y → (l.foldl (fun m y => if m y then m else visit block targets fuel m y) m0) y = true) := by
      intro l
      induction l with
      | nil =>
        intro m0 _ _
        exact ⟨fun x h => h, fun y hy => (by cases hy), fun x h h' => (by rw [List.foldl_nil] at h; rw [h] at h'; cases h'),
          fun x h h' => (by rw [List.foldl_nil] at h; rw [h] at h'; cases h')⟩
      | cons a l ihl =>
        intro m0 hl hc
        rw [List.foldl_cons]
        have hal := hl a List.mem_cons_self
        obtain ⟨han, har⟩ := h3 s a hs hal
        by_cases ha : m0 a = true
        · rw [if_pos ha]
          obtain ⟨g1, g2, g3, g4⟩ := ihl m0 (fun y hy => hl y (List.mem_cons_of_mem _ hy)) hc
          refine ⟨g1, fun y hy => ?_, g3, g4⟩
          rcases List.mem_cons.1 hy with rfl | hy
          · exact g1 y ha
          · exact g2 y hy
        · rw [if_neg ha]
          have ha' : m0 a = false := by simpa using ha
          have hlt : (unmarked n (fun x => m0 x || block a x)).card < (unmarked n m0).card := by
            apply Finset.card_lt_card
            rw [Finset.ssubset_iff_of_subset]
            · refine ⟨a, Finset.mem_filter.2 ⟨Finset.mem_range.2 han, ha'⟩, fun hc => ?_⟩
              have := (Finset.mem_filter.1 hc).2
              simp only at this
              rw [h1 a han, Bool.or_true] at this
              cases this
            · intro x hx
              have h := Finset.mem_filter.1 hx
              refine Finset.mem_filter.2 ⟨h.1, ?_⟩
              have := h.2
              simp only at this
              rw [Bool.or_eq_false_iff] at this
              exact this.1
          have hv := ih m0 a han (by omega)
          have hle : (unmarked n (visit block targets fuel m0 a)).card < fuel + 1 := by
            refine lt_of_le_of_lt (Finset.card_le_card ?_) hc
            intro x hx
            have h := Finset.mem_filter.1 hx
            refine Finset.mem_filter.2 ⟨h.1, ?_⟩
            by_contra hcc
            have := hv.mono x (by simpa using hcc)
            rw [this] at h
            cases h.2
          obtain ⟨g1, g2, g3, g4⟩ := ihl (visit block targets fuel m0 a) (fun y hy => hl y (List.mem_cons_of_mem _ hy)) hle
          refine ⟨fun x h => g1 x (hv.mono x h), fun y hy => ?_, fun x h h' => ?_, fun x h h' y hxy => ?_⟩
          · rcases List.mem_cons.1 hy with rfl | hy
            · exact g1 y hv.self
            · exact g2 y hy
          · cases hva : visit block targets fuel m0 a x with
            | true => exact har.trans (hv.sound x hva h')
            | false => exact g3 x h hva
          · cases hva : visit block targets fuel m0 a x with
            | true => exact g1 y (hv.closed x hva h' y hxy)
            | false => exact g4 x h hva y hxy
    obtain ⟨g1, g2, g3, g4⟩ := hfold (targets s) (fun x => m x || block s x) (fun _ h => h) hcard
    refine ⟨fun x h => g1 x (by simp [h]), g1 s (by simp [h1 s hs]), fun x h h' => ?_, fun x h h' y hxy => ?_,
      fun x hx y hxy => ?_⟩
    · cases hb : block s x with
      | true => exact (h2 s x hs hb).2
      | false => exact g3 x h (by simp [h', hb])
    · cases hb : block s x with
      | true =>
        rcases h4 s x y hs hb hxy with h | h
        · exact g1 y (by simp [h])
        · exact g2 y h
      | false => exact g4 x h (by simp [h', hb]) y hxy
    · rcases h4 s x y hs hx hxy with h | h
      · exact g1 y (by simp [h])
      · exact g2 y h

/-- Calls from several rows, with nothing marked at first, mark exactly what is reachable. -/
theorem visit_all (n : Nat) (h1 : ∀ s, s < n → block s s = true)
    (h2 : ∀ s x, s < n → block s x = true → x < n ∧ ReflTransGen R s x)
    (h3 : ∀ s y, s < n → y ∈ targets s → y < n ∧ ReflTransGen R s y)
    (h4 : ∀ s x y, s < n → block s x = true → R x y → block s y = true ∨ y ∈ targets s) (l : List Nat)
    (hl : ∀ s ∈ l, s < n) (x : Nat) :
    l.foldl (fun m i => visit block targets (n + 1) m i) (fun _ => false) x = true ↔ ∃ s ∈ l, ReflTransGen R s x := by
  have hcard : ∀ m, (unmarked n m).card < n + 1 := by
    intro m
    have : (unmarked n m).card ≤ (Finset.range n).card := Finset.card_le_card (Finset.filter_subset _ _)
    rw [Finset.card_range] at this; omega
  have key : ∀ (l : List Nat) (m : Nat → Bool), (∀ s ∈ l, s < n) → (∀ x, m x = true → ∀ y, R x y → m y = true) →
      (∀ x, l.foldl (fun m i => visit block targets (n + 1) m i) m x = true → ∀ y, R x y →
        l.foldl (fun m i => visit block targets (n + 1) m i) m y = true) ∧
      (∀ x, m x = true → l.foldl (fun m i => visit block targets (n + 1) m i) m x = true) ∧
      (∀ s ∈ l, l.foldl (fun m i => visit block targets (n + 1) m i) m s = true) ∧
      (∀ x, l.foldl (fun m i => visit block targets (n + 1) m i) m x = true → m x = true ∨ ∃ s ∈ l, ReflTransGen R s x) := by
    intro l
    induction l with
    | nil => intro m _ hm; exact ⟨hm, fun x h => h, fun s hs => (by cases hs), fun x h => Or.inl h⟩
    | cons a l ih =>
      intro m hl hm
      rw [List.foldl_cons]
      have hv := visit_spec n h1 h2 h3 h4 (n + 1) m a (hl a List.mem_cons_self) (hcard _)
      obtain ⟨g1, g2, g3, g4⟩ := ih (visit block targets (n + 1) m a) (fun s hs => hl s (List.mem_cons_of_mem _ hs)) (by
        intro x hx y hxy
        cases hmx : m x with
        | true => exact hv.mono y (hm x hmx y hxy)
        | false => exact hv.closed x hx hmx y hxy)
      refine ⟨g1, fun x h => g2 x (hv.mono x h), fun s hs => ?_, fun x hx => ?_⟩
      · rcases List.mem_cons.1 hs with rfl | hs
        · exact g2 s hv.self
        · exact g3 s hs
      · rcases g4 x hx with h | ⟨s, hs, h⟩
        · cases hmx : m x with
          | true => exact Or.inl rfl
          | false => exact Or.inr ⟨a, List.mem_cons_self, hv.sound x h hmx⟩
        · exact Or.inr ⟨s, List.mem_cons_of_mem _ hs, h⟩
  obtain ⟨g1, _, g3, g4⟩ := key l (fun _ => false) hl (fun x h => by cases h)
  constructor
  · intro h
    rcases g4 x h with h | h
    · cases h
    · exact h
  · rintro ⟨s, hs, h⟩
    induction h with
    | refl => exact g3 s hs
    | tail _ h ih => exact g1 _ ih _ h

end visit

/-! ### Arcs -/

theorem arcs_spec (obs : List Segments.Obs) (hv : Segments.Valid obs) (sta first last : List Nat)
    (hnum : IsNumbering obs sta) (hfl : first.length = last.length)
    (hslice : ∀ (s a b : Nat), first[s]? = some a → last[s]? = some b →
      a < b ∧ b ≤ obs.length ∧ ∀ k : Nat, sta[k]? = some s ↔ a ≤ k ∧ k < b)
    (hcover : ∀ (i s : Nat), sta[i]? = some s → s < first.length) :
    ∃ A, arcs obs first last = some A ∧ ∀ i j : Nat, (i, j) ∈ A ↔
      (Last obs i ∧ ∃ o, obs[i]? = some o ∧ o.next = j) ∨ (First obs j ∧ ∃ o, obs[j]? = some o ∧ o.prev = i) := by
  have hidx : ∀ p : Int, (p = -1 ∨ 0 ≤ p ∧ p < obs.length) → 0 < obs.length → ∃ k, Py.idx obs.length p = some k := by
    intro p hp hpos
    unfold Py.idx
    rcases hp with rfl | ⟨h1, h2⟩
    · rw [if_neg (by omega), if_pos (by omega)]; exact ⟨_, rfl⟩
    · rw [if_pos h1, if_pos h2]; exact ⟨_, rfl⟩
  -- first and last rows of a slice
  have hFL : ∀ (s a b : Nat), first[s]? = some a → last[s]? = some b → First obs a ∧ Last obs (b - 1) := by
    intro s a b h1 h2
    obtain ⟨s1, s2, s3⟩ := hslice s a b h1 h2
    constructor
    · rw [hnum.first_iff a s ((s3 a).2 (by omega))]
      rintro k v hk hkv rfl
      have := (s3 k).1 hkv
      omega
    · rw [hnum.last_iff (b - 1) s ((s3 (b - 1)).2 (by omega))]
      rintro k v hk hkv rfl
      have := (s3 k).1 hkv
      omega
  have hstep : ∀ p ∈ first.zip last, ∃ oa ob, obs[p.1]? = some oa ∧ obs[p.2 - 1]? = some ob ∧
      (do
        let ip ← Py.get (obs.map (·.prev)) (p.1 : Int)
        let iN ← Py.get (obs.map (·.next)) ((p.2 : Int) - 1)
        let _ ← Py.idx obs.length ip
        let _ ← Py.idx obs.length iN
        some ((if ip ≠ -1 then [(ip.toNat, p.1)] else []) ++ (if iN ≠ -1 then [(p.2 - 1, iN.toNat)] else []))) =
      some ((if oa.prev ≠ -1 then [(oa.prev.toNat, p.1)] else []) ++
        (if ob.next ≠ -1 then [(p.2 - 1, ob.next.toNat)] else [])) := by
    rintro ⟨a, b⟩ hp
    obtain ⟨s, hs⟩ := List.getElem?_of_mem hp
    have := (List.getElem?_zip_eq_some (z := (a, b))).1 hs
    obtain ⟨s1, s2, s3⟩ := hslice s a b this.1 this.2
    have ea := List.getElem?_eq_getElem (l := obs) (i := a) (by omega)
    have eb := List.getElem?_eq_getElem (l := obs) (i := b - 1) (by omega)
    refine ⟨_, _, ea, eb, ?_⟩
    have va := (hv _ (List.mem_of_getElem? ea)).1
    have vb := (hv _ (List.mem_of_getElem? eb)).2
    obtain ⟨k1, hk1⟩ := hidx _ va (by omega)
    obtain ⟨k2, hk2⟩ := hidx _ vb (by omega)
    simp only [Option.bind_eq_bind]
    rw [show ((b : Int) - 1) = ((b - 1 : Nat) : Int) by omega, Py.get_natCast, Py.get_natCast, List.getElem?_map,
      List.getElem?_map, ea, eb, Option.map_some, Option.map_some, Option.bind_some, Option.bind_some, hk1,
      Option.bind_some, hk2, Option.bind_some]
  obtain ⟨ls, e1, e2, e3⟩ := mapM_some (fun p : Nat × Nat => do
    let ip ← Py.get (obs.map (·.prev)) (p.1 : Int)
    let iN ← Py.get (obs.map (·.next)) ((p.2 : Int) - 1)
    let _ ← Py.idx obs.length ip
    let _ ← Py.idx obs.length iN
    some ((if ip ≠ -1 then [(ip.toNat, p.1)] else []) ++ (if iN ≠ -1 then [(p.2 - 1, iN.toNat)] else [])))
    (first.zip last) (fun p hp => by obtain ⟨_, _, _, _, e⟩ := hstep p hp; exact ⟨_, e⟩)
  refine ⟨ls.flatten, by unfold arcs; rw [e1]; rfl, fun i j => ?_⟩
  rw [List.mem_flatten]
  -- the slice of a row
  have hof : ∀ (i : Nat), i < obs.length → ∃ s a b : Nat, sta[i]? = some s ∧ first[s]? = some a ∧ last[s]? = some b ∧
      a ≤ i ∧ i < b := by
    intro i hi
    have es := List.getElem?_eq_getElem (l := sta) (i := i) (by rw [hnum.len]; exact hi)
    have hlt := hcover i _ es
    have e1 := List.getElem?_eq_getElem hlt
    have e2 := List.getElem?_eq_getElem (l := last) (i := sta[i]'(by rw [hnum.len]; exact hi)) (by omega)
    obtain ⟨s1, s2, s3⟩ := hslice _ _ _ e1 e2
    exact ⟨_, _, _, es, e1, e2, ((s3 i).1 es).1, ((s3 i).1 es).2⟩
  have hmemzip : ∀ (s a b : Nat), first[s]? = some a → last[s]? = some b → ∃ m, ls[s]? = some m ∧ (a, b) ∈ first.zip last ∧
      ∃ oa ob, obs[a]? = some oa ∧ obs[b - 1]? = some ob ∧
      m = ((if oa.prev ≠ -1 then [(oa.prev.toNat, a)] else []) ++ (if ob.next ≠ -1 then [(b - 1, ob.next.toNat)] else [])) := by
    intro s a b h1 h2
    have hz := (List.getElem?_zip_eq_some (z := (a, b))).2 ⟨h1, h2⟩
    have hsl : s < ls.length := by rw [e2]; exact (List.getElem?_eq_some_iff.1 hz).1
    obtain ⟨x, hx, hfx⟩ := e3 s _ (List.getElem?_eq_getElem hsl)
    rw [hz] at hx; cases hx
    obtain ⟨oa, ob, f1, f2, f3⟩ := hstep (a, b) (List.mem_of_getElem? hz)
    rw [f3] at hfx
    exact ⟨_, List.getElem?_eq_getElem hsl, List.mem_of_getElem? hz, oa, ob, f1, f2, (Option.some.inj hfx).symm⟩
  constructor
  · rintro ⟨m, hm, hij⟩
    obtain ⟨s, hs⟩ := List.getElem?_of_mem hm
    obtain ⟨⟨a, b⟩, hx, hfx⟩ := e3 s m hs
    have hz := (List.getElem?_zip_eq_some (z := (a, b))).1 hx
    obtain ⟨m', hm', _, oa, ob, f1, f2, rfl⟩ := hmemzip s a b hz.1 hz.2
    rw [hs] at hm'; cases hm'
    obtain ⟨hF, hL⟩ := hFL s a b hz.1 hz.2
    have va := (hv _ (List.mem_of_getElem? f1)).1
    have vb := (hv _ (List.mem_of_getElem? f2)).2
    rcases List.mem_append.1 hij with h | h
    · right
      split at h
      · rw [List.mem_singleton, Prod.mk.injEq] at h
        obtain ⟨rfl, rfl⟩ := h
        exact ⟨hF, oa, f1, by omega⟩
      · cases h
    · left
      split at h
      · rw [List.mem_singleton, Prod.mk.injEq] at h
        obtain ⟨rfl, rfl⟩ := h
        exact ⟨hL, ob, f2, by omega⟩
      · cases h
  · rintro (⟨hL, o, ho, e⟩ | ⟨hF, o, ho, e⟩)
    · obtain ⟨s, a, b, hs, ha, hb, hai, hib⟩ := hof i (List.getElem?_eq_some_iff.1 ho).1
      obtain ⟨s1, s2, s3⟩ := hslice s a b ha hb
      have hi : i = b - 1 := by
        by_contra hc
        exact (hnum.last_iff i s hs).1 hL (b - 1) s (by omega) ((s3 (b - 1)).2 (by omega)) rfl
      subst hi
      obtain ⟨m, hm, _, oa, ob, f1, f2, rfl⟩ := hmemzip s a b ha hb
      rw [ho] at f2; cases f2
      refine ⟨_, List.mem_of_getElem? hm, List.mem_append_right _ ?_⟩
      rw [if_pos (by omega), List.mem_singleton, e]
      rfl
    · obtain ⟨s, a, b, hs, ha, hb, hai, hib⟩ := hof j (List.getElem?_eq_some_iff.1 ho).1
      obtain ⟨s1, s2, s3⟩ := hslice s a b ha hb
      have hi : j = a := by
        by_contra hc
        exact (hnum.first_iff j s hs).1 hF a s (by omega) ((s3 a).2 (by omega)) rfl
      subst hi
      obtain ⟨m, hm, _, oa, ob, f1, f2, rfl⟩ := hmemzip s j b ha hb
      rw [ho] at f1; cases f1
      refine ⟨_, List.mem_of_getElem? hm, List.mem_append_left _ ?_⟩
      rw [if_pos (by omega), List.mem_singleton, e]
      rfl

/-! ### Both directions satisfy the hypotheses of the traversal -/

/-- What the first lines of `find_link` compute. -/
structure Setup (obs : List Segments.Obs) (sta first last : List Nat) (A : List (Nat × Nat)) : Prop where
  hsta : Segments.segTrackArray obs = some sta
  hidx : Index.buildIndex (sta.map (fun (k : Nat) => (k : Int))) = some (first, last, 0)
  harcs : arcs obs first last = some A
  num : IsNumbering obs sta
  slice : ∀ (i s : Nat), sta[i]? = some s → ∃ a b : Nat, first[s]? = some a ∧ last[s]? = some b ∧ b ≤ obs.length ∧
    ∀ k : Nat, sta[k]? = some s ↔ a ≤ k ∧ k < b
  mem : ∀ i j : Nat, (i, j) ∈ A ↔
      (Last obs i ∧ ∃ o, obs[i]? = some o ∧ o.next = j) ∨ (First obs j ∧ ∃ o, obs[j]? = some o ∧ o.prev = i)

theorem setup (obs : List Segments.Obs) (hne : obs ≠ []) (hv : Segments.Valid obs) :
    ∃ sta first last A, Setup obs sta first last A := by
  obtain ⟨sta, hsta, hnum⟩ := Segments.segTrackArray_spec obs hne
  have hpos : 0 < obs.length := List.length_pos_of_ne_nil hne
  have hlen := hnum.len
  obtain ⟨first, last, i0, hbi, ⟨hfl, hrange, hslice⟩, hi0, hmx, _⟩ :=
    Index.build_index_spec (sta.map (fun (k : Nat) => (k : Int))) (by
      intro h; have := congrArg List.length h; simp at this; rw [this] at hlen; simp at hlen; omega) hnum.sorted
  have hz : i0 = 0 := by
    obtain ⟨z, _, rfl⟩ := List.mem_map.1 hi0
    have := hrange 0 (List.mem_map.2 ⟨0, List.mem_of_getElem? hnum.zero, rfl⟩)
    omega
  subst hz
  have hattained : ∀ s, s < first.length → ∃ k : Nat, sta[k]? = some s := by
    intro s hs
    obtain ⟨v, hv1, hv2⟩ := List.mem_map.1 hmx
    obtain ⟨k, hk⟩ := List.getElem?_of_mem hv1
    obtain ⟨k', _, hk'⟩ := hnum.attained _ _ s hk (by omega)
    exact ⟨k', hk'⟩
  have hslice' : ∀ (s a b : Nat), first[s]? = some a → last[s]? = some b →
      a < b ∧ b ≤ obs.length ∧ ∀ k : Nat, sta[k]? = some s ↔ a ≤ k ∧ k < b := by
    intro s a b h1 h2
    obtain ⟨s1, s2, s3⟩ := hslice s a b h1 h2
    have s3' : ∀ k : Nat, sta[k]? = some s ↔ a ≤ k ∧ k < b := by
      intro k
      rw [← s3 k, List.getElem?_map]
      cases sta[k]? with
      | none => simp
      | some v => simp only [Option.map_some, Option.some.injEq]; omega
    obtain ⟨k, hk⟩ := hattained s (List.getElem?_eq_some_iff.1 h1).1
    have := (s3' k).1 hk
    exact ⟨by omega, by rw [List.length_map, hlen] at s2; exact s2, s3'⟩
  have hcover : ∀ (i s : Nat), sta[i]? = some s → s < first.length := by
    intro i s hi
    have := hrange s (List.mem_map.2 ⟨s, List.mem_of_getElem? hi, rfl⟩)
    omega
  obtain ⟨A, hA, hmem⟩ := arcs_spec obs hv sta first last hnum hfl hslice' hcover
  refine ⟨sta, first, last, A, hsta, hbi, hA, hnum, fun i s hi => ?_, hmem⟩
  have hs := hcover i s hi
  have e1 := List.getElem?_eq_getElem hs
  have e2 := List.getElem?_eq_getElem (l := last) (i := s) (by omega)
  obtain ⟨_, s2, s3⟩ := hslice' _ _ _ e1 e2
  exact ⟨_, _, e1, e2, s2, s3⟩

theorem follows_lt {obs : List Segments.Obs} (hv : Segments.Valid obs) {i j : Nat} (h : Follows obs i j) :
    i < obs.length ∧ j < obs.length := by
  rcases h with ⟨rfl, o, o', h1, h2, _⟩ | ⟨hL, o, ho, e⟩ | ⟨hF, o, ho, e⟩
  · exact ⟨(List.getElem?_eq_some_iff.1 h1).1, (List.getElem?_eq_some_iff.1 h2).1⟩
  · exact event_lt hv (Or.inr ⟨hL, o, ho, e⟩)
  · exact (event_lt hv (Or.inl ⟨hF, o, ho, e⟩)).symm

theorem follows_chain {obs : List Segments.Obs} {sta : List Nat} (h : IsNumbering obs sta) (d i a : Nat)
    (ha : sta[i]? = some a) (hb : sta[i + d]? = some a) : ReflTransGen (Follows obs) i (i + d) := by
  induction d with
  | zero => exact ReflTransGen.refl
  | succ d ih =>
    have hlt : i + d + 1 < sta.length := (List.getElem?_eq_some_iff.1 hb).1
    obtain ⟨v, e1⟩ : ∃ v, sta[i + d]? = some v := ⟨_, List.getElem?_eq_getElem (by omega)⟩
    have h1 := h.mono i (i + d) a v (by omega) ha e1
    have h2 := h.mono (i + d) (i + (d + 1)) v a (by omega) e1 hb
    have h3 : v = a := by omega
    subst h3
    refine ReflTransGen.tail (ih e1) (Or.inl ⟨rfl, ?_⟩)
    have hl : i + d + 1 < obs.length := by rw [← h.len]; exact hlt
    have e2 := List.getElem?_eq_getElem (l := obs) (i := i + d) (by omega)
    have e3 := List.getElem?_eq_getElem hl
    exact ⟨_, _, e2, e3, ((h.same_iff _ _ _ _ e1 e2 e3).1 hb).symm⟩

/-- The four hypotheses of the traversal. -/
structure Walkable (n : Nat) (block : Nat → Nat → Bool) (targets : Nat → List Nat) (R : Nat → Nat → Prop) : Prop where
  h1 : ∀ s, s < n → block s s = true
  h2 : ∀ s x, s < n → block s x = true → x < n ∧ ReflTransGen R s x
  h3 : ∀ s y, s < n → y ∈ targets s → y < n ∧ ReflTransGen R s y
  h4 : ∀ s x y, s < n → block s x = true → R x y → block s y = true ∨ y ∈ targets s

theorem walkable_forward {obs : List Segments.Obs} (hv : Segments.Valid obs) {sta first last : List Nat}
    {A : List (Nat × Nat)} (hS : Setup obs sta first last A) :
    Walkable obs.length (fwdBlock sta last) (fwdTargets sta A) (Follows obs) := by
  have hget : ∀ s, s < obs.length → sta[s]? = some (sta.getD s 0) := by
    intro s hs
    rw [List.getD, List.getElem?_eq_getElem (by rw [hS.num.len]; exact hs)]; rfl
  have hblock : ∀ s x, s < obs.length → (fwdBlock sta last s x = true ↔ s ≤ x ∧ sta[x]? = some (sta.getD s 0)) := by
    intro s x hs
    obtain ⟨a, b, ha, hb, hle, h3⟩ := hS.slice s _ (hget s hs)
    unfold fwdBlock
    rw [decide_eq_true_eq, List.getD_eq_getElem?_getD (l := last), hb, Option.getD_some, h3 x]
    have := (h3 s).1 (hget s hs)
    omega
  have htarget : ∀ s y, s < obs.length → (y ∈ fwdTargets sta A s ↔ ∃ p, (p, y) ∈ A ∧ s ≤ p ∧ sta[p]? = some (sta.getD s 0)) := by
    intro s y hs
    unfold fwdTargets
    rw [List.mem_map]
    constructor
    · rintro ⟨⟨p, q⟩, h, rfl⟩
      rw [List.mem_filter, List.mem_filter] at h
      obtain ⟨⟨h1, h2⟩, h3⟩ := h
      have hf : Follows obs p q := Or.inr ((hS.mem p q).1 h1)
      refine ⟨p, h1, by simpa using h3, ?_⟩
      rw [hget p (follows_lt hv hf).1]
      simpa using h2
    · rintro ⟨p, h1, h2, h3⟩
      refine ⟨(p, y), ?_, rfl⟩
      rw [List.mem_filter, List.mem_filter]
      refine ⟨⟨h1, ?_⟩, by simpa using h2⟩
      rw [List.getD_eq_getElem?_getD (l := sta) (i := p), h3]
      simp
  refine ⟨fun s hs => (hblock s s hs).2 ⟨le_refl _, hget s hs⟩, fun s x hs h => ?_, fun s y hs h => ?_,
    fun s x y hs h hxy => ?_⟩
  · obtain ⟨h1, h2⟩ := (hblock s x hs).1 h
    refine ⟨by rw [← hS.num.len]; exact (List.getElem?_eq_some_iff.1 h2).1, ?_⟩
    obtain ⟨d, rfl⟩ := Nat.exists_eq_add_of_le h1
    exact follows_chain hS.num d s _ (hget s hs) h2
  · obtain ⟨p, h1, h2, h3⟩ := (htarget s y hs).1 h
    have hf : Follows obs p y := Or.inr ((hS.mem p y).1 h1)
    refine ⟨(follows_lt hv hf).2, ReflTransGen.tail ?_ hf⟩
    obtain ⟨d, rfl⟩ := Nat.exists_eq_add_of_le h2
    exact follows_chain hS.num d s _ (hget s hs) h3
  · obtain ⟨h1, h2⟩ := (hblock s x hs).1 h
    rcases hxy with ⟨rfl, o, o', ho, ho', hk⟩ | hxy
    · left
      exact (hblock s (x + 1) hs).2 ⟨by omega, (hS.num.same_iff x _ o o' h2 ho ho').2 hk.symm⟩
    · right
      exact (htarget s y hs).2 ⟨x, (hS.mem x y).2 hxy, h1, h2⟩

theorem walkable_backward {obs : List Segments.Obs} (hv : Segments.Valid obs) {sta first last : List Nat}
    {A : List (Nat × Nat)} (hS : Setup obs sta first last A) :
    Walkable obs.length (bwdBlock sta first) (bwdTargets sta A) (fun x y => Follows obs y x) := by
  have hswap : ∀ {x y}, ReflTransGen (Follows obs) x y → ReflTransGen (fun x y => Follows obs y x) y x := by
    intro x y h
    induction h with
    | refl => exact ReflTransGen.refl
    | tail _ h ih => exact ReflTransGen.head h ih
  have hget : ∀ s, s < obs.length → sta[s]? = some (sta.getD s 0) := by
    intro s hs
    rw [List.getD, List.getElem?_eq_getElem (by rw [hS.num.len]; exact hs)]; rfl
  have hblock : ∀ s x, s < obs.length → (bwdBlock sta first s x = true ↔ x ≤ s ∧ sta[x]? = some (sta.getD s 0)) := by
    intro s x hs
    obtain ⟨a, b, ha, hb, hle, h3⟩ := hS.slice s _ (hget s hs)
    unfold bwdBlock
    rw [decide_eq_true_eq, List.getD_eq_getElem?_getD (l := first), ha, Option.getD_some, h3 x]
    have := (h3 s).1 (hget s hs)
    omega
  have htarget : ∀ s y, s < obs.length → (y ∈ bwdTargets sta A s ↔ ∃ p, (y, p) ∈ A ∧ p ≤ s ∧ sta[p]? = some (sta.getD s 0)) := by
    intro s y hs
    unfold bwdTargets
    rw [List.mem_map]
    constructor
    · rintro ⟨⟨q, p⟩, h, rfl⟩
      rw [List.mem_filter, List.mem_filter] at h
      obtain ⟨⟨h1, h2⟩, h3⟩ := h
      have hf : Follows obs q p := Or.inr ((hS.mem q p).1 h1)
      refine ⟨p, h1, by simpa using h3, ?_⟩
      rw [hget p (follows_lt hv hf).2]
      simpa using h2
    · rintro ⟨p, h1, h2, h3⟩
      refine ⟨(y, p), ?_, rfl⟩
      rw [List.mem_filter, List.mem_filter]
      refine ⟨⟨h1, ?_⟩, by simpa using h2⟩
      rw [List.getD_eq_getElem?_getD (l := sta) (i := p), h3]
      simp
  refine ⟨fun s hs => (hblock s s hs).2 ⟨le_refl _, hget s hs⟩, fun s x hs h => ?_, fun s y hs h => ?_,
    fun s x y hs h hxy => ?_⟩
  · obtain ⟨h1, h2⟩ := (hblock s x hs).1 h
    refine ⟨by omega, hswap ?_⟩
    obtain ⟨d, rfl⟩ := Nat.exists_eq_add_of_le h1
    exact follows_chain hS.num d x _ h2 (hget _ hs)
  · obtain ⟨p, h1, h2, h3⟩ := (htarget s y hs).1 h
    have hf : Follows obs y p := Or.inr ((hS.mem y p).1 h1)
    refine ⟨(follows_lt hv hf).1, ReflTransGen.tail (hswap ?_) hf⟩
    obtain ⟨d, rfl⟩ := Nat.exists_eq_add_of_le h2
    exact follows_chain hS.num d p _ h3 (hget _ hs)
  · obtain ⟨h1, h2⟩ := (hblock s x hs).1 h
    rcases hxy with ⟨rfl, o, o', ho, ho', hk⟩ | hxy
    · left
      refine (hblock s y hs).2 ⟨by omega, ?_⟩
      have hy := hget y (List.getElem?_eq_some_iff.1 ho).1
      have := (hS.num.same_iff y _ o o' hy ho ho').2 hk.symm
      rw [h2] at this
      rw [hy, this]
    · right
      exact (htarget s y hs).2 ⟨x, (hS.mem y x).2 hxy, h1, h2⟩

/-! ### Properties -/

theorem getElem_range_map (n : Nat) (m : Nat → Bool) (j : Nat) :
    ((List.range n).map m)[j]? = some true ↔ j < n ∧ m j = true := by
  rw [List.getElem?_map]
  by_cases hj : j < n
  · rw [List.getElem?_range hj]; simp [hj]
  · rw [List.getElem?_eq_none (by simpa using hj)]; simp [hj]

theorem findLink_eq {obs : List Segments.Obs} {sta first last : List Nat} {A : List (Nat × Nat)}
    (hS : Setup obs sta first last A) (indices : List Nat) (hi : ∀ i ∈ indices, i < obs.length) (forward backward : Bool) :
    findLink obs indices forward backward = some ((List.range obs.length).map (indices.foldl (fun m i =>
      let m := if forward then visit (fwdBlock sta last) (fwdTargets sta A) (obs.length + 1) m i else m
      if backward then visit (bwdBlock sta first) (bwdTargets sta A) (obs.length + 1) m i else m) (fun _ => false))) := by
  unfold findLink
  simp only [Option.bind_eq_bind]
  rw [hS.hsta, Option.bind_some, hS.hidx, Option.bind_some]
  simp only
  rw [hS.harcs, Option.bind_some, if_neg]
  rw [List.any_eq_true]
  rintro ⟨i, h1, h2⟩
  have := hi i h1
  simp at h2
  omega

/-- C19, forward: `find_link` selects exactly the observations which can be reached by following links forward. -/
theorem find_link_forward (obs : List Segments.Obs) (hne : obs ≠ []) (hv : Segments.Valid obs) (indices : List Nat)
    (hi : ∀ i ∈ indices, i < obs.length) :
    ∃ out, findLink obs indices true false = some out ∧ out.length = obs.length ∧
      ∀ j : Nat, j < obs.length → (out[j]? = some true ↔ ∃ i ∈ indices, ReflTransGen (Follows obs) i j) := by
  obtain ⟨sta, first, last, A, hS⟩ := setup obs hne hv
  have w := walkable_forward hv hS
  refine ⟨_, findLink_eq hS indices hi true false, by simp, fun j hj => ?_⟩
  rw [getElem_range_map]
  simp only [if_true, Bool.false_eq_true, if_false]
  rw [visit_all obs.length w.h1 w.h2 w.h3 w.h4 indices hi j]
  exact ⟨fun h => h.2, fun h => ⟨hj, h⟩⟩

theorem reverse_iff {obs : List Segments.Obs} {x y : Nat} :
    ReflTransGen (fun x y => Follows obs y x) y x ↔ ReflTransGen (Follows obs) x y := by
  constructor
  · intro h
    induction h with
    | refl => exact ReflTransGen.refl
    | tail _ h ih => exact ReflTransGen.head h ih
  · intro h
    induction h with
    | refl => exact ReflTransGen.refl
    | tail _ h ih => exact ReflTransGen.head h ih

/-- C19, backward: exactly the observations from which one of the given ones can be reached. -/
theorem find_link_backward (obs : List Segments.Obs) (hne : obs ≠ []) (hv : Segments.Valid obs) (indices : List Nat)
    (hi : ∀ i ∈ indices, i < obs.length) :
    ∃ out, findLink obs indices false true = some out ∧ out.length = obs.length ∧
      ∀ j : Nat, j < obs.length → (out[j]? = some true ↔ ∃ i ∈ indices, ReflTransGen (Follows obs) j i) := by
  obtain ⟨sta, first, last, A, hS⟩ := setup obs hne hv
  have w := walkable_backward hv hS
  refine ⟨_, findLink_eq hS indices hi false true, by simp, fun j hj => ?_⟩
  rw [getElem_range_map]
  simp only [if_true, Bool.false_eq_true, if_false]
  rw [visit_all obs.length w.h1 w.h2 w.h3 w.h4 indices hi j]
  constructor
  · rintro ⟨_, i, h1, h2⟩; exact ⟨i, h1, reverse_iff.1 h2⟩
  · rintro ⟨i, h1, h2⟩; exact ⟨hj, i, h1, reverse_iff.2 h2⟩

/-- C19, both directions: nothing else than what is reachable is selected. The converse is missing: it is false, see
`find_link_both_incomplete`. -/
theorem find_link_both_sound_partial (obs : List Segments.Obs) (hne : obs ≠ []) (hv : Segments.Valid obs)
    (indices : List Nat) (hi : ∀ i ∈ indices, i < obs.length) :
    ∃ out, findLink obs indices true true = some out ∧ out.length = obs.length ∧
      ∀ j : Nat, out[j]? = some true →
        ∃ i ∈ indices, ReflTransGen (Follows obs) i j ∨ ReflTransGen (Follows obs) j i := by
  obtain ⟨sta, first, last, A, hS⟩ := setup obs hne hv
  have w := walkable_forward hv hS
  have w' := walkable_backward hv hS
  have hcard : ∀ m, (unmarked obs.length m).card < obs.length + 1 := by
    intro m
    have : (unmarked obs.length m).card ≤ (Finset.range obs.length).card := Finset.card_le_card (Finset.filter_subset _ _)
    rw [Finset.card_range] at this; omega
  refine ⟨_, findLink_eq hS indices hi true true, by simp, fun j hj => ?_⟩
  rw [getElem_range_map] at hj
  simp only [if_true] at hj
  have key : ∀ (l : List Nat) (m : Nat → Bool), (∀ i ∈ l, i < obs.length) →
      ∀ j, l.foldl (fun m i => visit (bwdBlock sta first) (bwdTargets sta A) (obs.length + 1)
        (visit (fwdBlock sta last) (fwdTargets sta A) (obs.length + 1) m i) i) m j = true →
      m j = true ∨ ∃ i ∈ l, ReflTransGen (Follows obs) i j ∨ ReflTransGen (Follows obs) j i := by
    intro l
    induction l with
    | nil => intro m _ j h; exact Or.inl h
    | cons a l ih =>
      intro m hl j h
      rw [List.foldl_cons] at h
      have ha := hl a List.mem_cons_self
      rcases ih _ (fun i h => hl i (List.mem_cons_of_mem _ h)) j h with h | ⟨i, h1, h2⟩
      · have v1 := visit_spec obs.length w.h1 w.h2 w.h3 w.h4 (obs.length + 1) m a ha (hcard _)
        have v2 := visit_spec obs.length w'.h1 w'.h2 w'.h3 w'.h4 (obs.length + 1)
          (visit (fwdBlock sta last) (fwdTargets sta A) (obs.length + 1) m a) a ha (hcard _)
        cases hb : visit (fwdBlock sta last) (fwdTargets sta A) (obs.length + 1) m a j with
        | false => exact Or.inr ⟨a, List.mem_cons_self, Or.inr (reverse_iff.1 (v2.sound j h hb))⟩
        | true =>
          cases hm : m j with
          | true => exact Or.inl rfl
          | false => exact Or.inr ⟨a, List.mem_cons_self, Or.inl (v1.sound j hb hm)⟩
      · exact Or.inr ⟨i, List.mem_cons_of_mem _ h1, h2⟩
  rcases key indices (fun _ => false) hi j hj.2 with h | h
  · cases h
  · exact h

/-- C19, both directions from one observation, when time increases along the links: exactly the observations which are
reachable forward or backward. -/
theorem find_link_both_single (obs : List Segments.Obs) (hne : obs ≠ []) (hv : Segments.Valid obs) (i : Nat)
    (hi : i < obs.length) (time : Nat → Int) (ht : ∀ x y, Follows obs x y → time x < time y) :
    ∃ out, findLink obs [i] true true = some out ∧ out.length = obs.length ∧
      ∀ j : Nat, j < obs.length →
        (out[j]? = some true ↔ ReflTransGen (Follows obs) i j ∨ ReflTransGen (Follows obs) j i) := by
  obtain ⟨sta, first, last, A, hS⟩ := setup obs hne hv
  have w := walkable_forward hv hS
  have w' := walkable_backward hv hS
  have hcard : ∀ m, (unmarked obs.length m).card < obs.length + 1 := by
    intro m
    have : (unmarked obs.length m).card ≤ (Finset.range obs.length).card := Finset.card_le_card (Finset.filter_subset _ _)
    rw [Finset.card_range] at this; omega
  have htime : ∀ x y, ReflTransGen (Follows obs) x y → x = y ∨ time x < time y := by
    intro x y h
    induction h with
    | refl => exact Or.inl rfl
    | tail _ h ih =>
      have := ht _ _ h
      rcases ih with rfl | h'
      · exact Or.inr this
      · exact Or.inr (by omega)
  have hfwd : ∀ x, visit (fwdBlock sta last) (fwdTargets sta A) (obs.length + 1) (fun _ => false) i x = true ↔
      ReflTransGen (Follows obs) i x := by
    intro x
    have := visit_all obs.length w.h1 w.h2 w.h3 w.h4 [i] (by simpa using hi) x
    simpa using this
  have v2 := visit_spec obs.length w'.h1 w'.h2 w'.h3 w'.h4 (obs.length + 1)
    (visit (fwdBlock sta last) (fwdTargets sta A) (obs.length + 1) (fun _ => false) i) i hi (hcard _)
  refine ⟨_, findLink_eq hS [i] (by simpa using hi) true true, by simp, fun j hj => ?_⟩
  rw [getElem_range_map]
  simp only [if_true, List.foldl_cons, List.foldl_nil]
  constructor
  · rintro ⟨_, h⟩
    cases hb : visit (fwdBlock sta last) (fwdTargets sta A) (obs.length + 1) (fun _ => false) i j with
    | true => exact Or.inl ((hfwd j).1 hb)
    | false => exact Or.inr (reverse_iff.1 (v2.sound j h hb))
  · rintro (h | h)
    · exact ⟨hj, v2.mono j ((hfwd j).2 h)⟩
    · refine ⟨hj, ?_⟩
      have h' := reverse_iff.2 h
      clear h hj
      induction h' with
      | refl => exact v2.self
      | tail hxy h ih =>
        rename_i b c
        by_cases hbi : b = i
        · subst hbi
          exact v2.block _ (w'.h1 _ hi) _ h
        · refine v2.closed b ih ?_ c h
          have hno : ¬ ReflTransGen (Follows obs) i b := by
            intro hc
            rcases htime _ _ hc with e | h1
            · exact hbi e.symm
            · rcases htime _ _ (reverse_iff.1 hxy) with e | h2
              · exact hbi e
              · omega
          rw [← hfwd b] at hno
          simpa using hno

/-- Three segments: 1 (rows 0-2) merges into 2 (row 4), 3 (row 5) merges into 1 (row 2). -/
def exFind : List Segments.Obs :=
  [⟨1, 1, -1, 1⟩, ⟨1, 1, 0, 2⟩, ⟨1, 1, 1, 4⟩, ⟨1, 2, -1, 4⟩, ⟨1, 2, 3, -1⟩, ⟨1, 3, -1, 2⟩]

example : Segments.Valid exFind := by unfold Segments.Valid; decide
example : findLink exFind [1] true false = some [false, true, true, false, true, false] := by decide
example : findLink exFind [4] false true = some [true, true, true, true, true, true] := by decide
example : findLink exFind [1] true true = some [true, true, true, false, true, false] := by decide

/-- C19 is refuted for several observations and both directions: the row 5 is before the row 4 but it is not selected from
the rows 1 and 4, because the rows marked forward from the row 1 stop the search backward from the row 4. -/
theorem find_link_both_incomplete :
    findLink exFind [1, 4] true true = some [true, true, true, true, true, false] ∧ ReflTransGen (Follows exFind) 5 4 := by
  refine ⟨by decide, ?_⟩
  have h1 : Follows exFind 5 2 := by
    refine Or.inr (Or.inl ⟨⟨⟨1, 3, -1, 2⟩, rfl, fun o' h => by cases h⟩, _, rfl, rfl⟩)
  have h2 : Follows exFind 2 4 := by
    refine Or.inr (Or.inl ⟨⟨⟨1, 1, 1, 4⟩, rfl, fun o' h => ?_⟩, _, rfl, rfl⟩)
    cases h
    decide
  exact ReflTransGen.head h1 (ReflTransGen.single h2)

/-- The search of one direction finds it. -/
example : findLink exFind [1, 4] false true = some [true, true, true, true, true, true] := by decide

end Verif.Links
