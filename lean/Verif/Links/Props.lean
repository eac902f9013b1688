import Verif.Links.Model
import Mathlib.Data.List.Sort
import Mathlib.Data.List.Nodup

/-!
# Extraction and sort preserve the links (C16, C17)
-/

namespace Verif.Links

variable {α : Type}

/-! ### Specification -/

/-- Links designate rows, or are absent. -/
def Valid (rows : List (Row α)) : Prop :=
  ∀ r ∈ rows, (-1 ≤ r.prev ∧ r.prev < rows.length) ∧ (-1 ≤ r.next ∧ r.next < rows.length)

/-- `q` is the image of the link `p` when the row of new number `k` is the row of old number `idx[k]`: the new number of the
same row if it is kept, `-1` otherwise. -/
def Image (idx : List Nat) (p q : Int) : Prop :=
  (∃ k t : Nat, p = t ∧ idx[k]? = some t ∧ q = k) ∨ (q = -1 ∧ ∀ t ∈ idx, p ≠ (t : Int))

/-- `out` is made of the rows `idx` of `rows`, with the links between them. -/
def IsTake (rows : List (Row α)) (idx : List Nat) (out : List (Row α)) : Prop :=
  out.length = idx.length ∧ ∀ (k : Nat) r, out[k]? = some r →
    ∃ i r0, idx[k]? = some i ∧ rows[i]? = some r0 ∧ r.data = r0.data ∧ Image idx r0.prev r.prev ∧ Image idx r0.next r.next

/-! ### Proofs -/

theorem translate_length (n : Nat) (idx : List Nat) : (translate n idx).length = n + 1 := by
  unfold translate; rw [List.length_map, List.length_range]

theorem mem_zipIdx_map (idx : List Nat) (t : Nat) (v : Int) :
    (t, v) ∈ idx.zipIdx.map (fun p => (p.1, (p.2 : Int))) ↔ ∃ k : Nat, v = k ∧ idx[k]? = some t := by
  rw [List.mem_map]
  constructor
  · rintro ⟨⟨a, k⟩, h, e⟩
    rw [List.mem_zipIdx_iff_getElem?] at h
    cases e
    exact ⟨k, rfl, h⟩
  · rintro ⟨k, rfl, h⟩
    exact ⟨(t, k), List.mem_zipIdx_iff_getElem?.2 h, rfl⟩

/-- A valid link is translated to its image. -/
theorem translate_spec (n : Nat) (idx : List Nat) (hlt : ∀ t ∈ idx, t < n) (p : Int) (h1 : -1 ≤ p) (h2 : p < n) :
    ∃ q, Py.get (translate n idx) p = some q ∧ Image idx p q := by
  have hget : ∀ t : Nat, t < n + 1 → (translate n idx)[t]? =
      some (scatter (fun _ => (-1 : Int)) (idx.zipIdx.map (fun p => (p.1, (p.2 : Int)))) t) := by
    intro t ht
    unfold translate
    rw [List.getElem?_map, List.getElem?_range ht]; rfl
  by_cases hp : p = -1
  · subst hp
    refine ⟨-1, ?_, Or.inr ⟨rfl, fun t _ => by omega⟩⟩
    unfold Py.get Py.idx
    rw [translate_length, if_neg (by omega), if_pos (by omega), Option.bind_some,
      show ((-1 : Int) + ((n + 1 : Nat) : Int)).toNat = n by omega, hget n (by omega),
      scatter_of_not_mem]
    intro w hw e
    obtain ⟨t, v⟩ := w
    obtain ⟨k, _, hk⟩ := (mem_zipIdx_map idx t v).1 hw
    have := hlt t (List.mem_of_getElem? hk)
    simp only at e
    omega
  · obtain ⟨t, rfl⟩ := Int.eq_ofNat_of_zero_le (show 0 ≤ p by omega)
    refine ⟨_, by rw [Py.get_natCast]; exact hget t (by omega), ?_⟩
    rcases scatter_cases (idx.zipIdx.map (fun p => (p.1, (p.2 : Int)))) (fun _ => (-1 : Int)) t with ⟨h, e⟩ | h
    · right
      refine ⟨e, fun t' ht' he => ?_⟩
      have : t = t' := by omega
      subst this
      obtain ⟨k, hk⟩ := List.getElem?_of_mem ht'
      exact h (t, (k : Int)) ((mem_zipIdx_map idx t k).2 ⟨k, rfl, hk⟩) rfl
    · left
      obtain ⟨k, e, hk⟩ := (mem_zipIdx_map idx t _).1 h
      exact ⟨k, t, rfl, hk, e⟩

theorem mapM_some {β γ : Type} (f : β → Option γ) (l : List β) (h : ∀ x ∈ l, ∃ y, f x = some y) :
    ∃ out, l.mapM f = some out ∧ out.length = l.length ∧
      ∀ (k : Nat) y, out[k]? = some y → ∃ x, l[k]? = some x ∧ f x = some y := by
  induction l with
  | nil => exact ⟨[], rfl, rfl, fun k y h => by simp at h⟩
  | cons a l ih =>
    obtain ⟨out, e, hl, hk⟩ := ih (fun x hx => h x (List.mem_cons_of_mem _ hx))
    obtain ⟨y, hy⟩ := h a List.mem_cons_self
    refine ⟨y :: out, by rw [List.mapM_cons, hy, e]; rfl, by simp [hl], ?_⟩
    intro k z hz
    cases k with
    | zero => simp at hz; subst hz; exact ⟨a, rfl, hy⟩
    | succ k => simp only [List.getElem?_cons_succ] at hz ⊢; exact hk k z hz

theorem take_spec (rows : List (Row α)) (idx : List Nat) (hv : Valid rows) (hlt : ∀ t ∈ idx, t < rows.length) :
    ∃ out, take rows idx = some out ∧ IsTake rows idx out := by
  obtain ⟨sel, e1, l1, k1⟩ := mapM_some (fun k => rows[k]?) idx
    (fun k hk => ⟨_, List.getElem?_eq_getElem (hlt k hk)⟩)
  obtain ⟨out, e2, l2, k2⟩ := mapM_some (relink (translate rows.length idx)) sel (by
    intro r hr
    obtain ⟨k, hk⟩ := List.getElem?_of_mem hr
    obtain ⟨i, _, hi⟩ := k1 k r hk
    obtain ⟨⟨h1, h2⟩, h3, h4⟩ := hv r (List.mem_of_getElem? hi)
    obtain ⟨p, hp, _⟩ := translate_spec rows.length idx hlt r.prev h1 h2
    obtain ⟨n, hn, _⟩ := translate_spec rows.length idx hlt r.next h3 h4
    refine ⟨{ r with next := n, prev := p }, ?_⟩
    unfold relink
    rw [hn, hp]; rfl)
  refine ⟨out, ?_, by omega, ?_⟩
  · unfold take
    simp only [Option.bind_eq_bind]
    rw [e1, Option.bind_some, e2]
  · intro k r hk
    obtain ⟨r0, h0, hr⟩ := k2 k r hk
    obtain ⟨i, hi, hi'⟩ := k1 k r0 h0
    obtain ⟨⟨h1, h2⟩, h3, h4⟩ := hv r0 (List.mem_of_getElem? hi')
    obtain ⟨p, hp, ip⟩ := translate_spec rows.length idx hlt r0.prev h1 h2
    obtain ⟨n, hn, iN⟩ := translate_spec rows.length idx hlt r0.next h3 h4
    unfold relink at hr
    rw [hn, hp] at hr
    simp only [Option.bind_eq_bind, Option.bind_some, Option.some.injEq] at hr
    subst hr
    exact ⟨i, r0, hi, hi', rfl, ip, iN⟩

theorem mem_maskIdx (mask : List Bool) (i : Nat) : i ∈ maskIdx mask ↔ mask[i]? = some true := by
  unfold maskIdx
  rw [List.mem_map]
  constructor
  · rintro ⟨⟨b, k⟩, h, rfl⟩
    rw [List.mem_filter, List.mem_zipIdx_iff_getElem?] at h
    rw [h.1]; simpa using h.2
  · intro h
    exact ⟨(true, i), List.mem_filter.2 ⟨List.mem_zipIdx_iff_getElem?.2 h, rfl⟩, rfl⟩

theorem maskIdx_sorted (mask : List Bool) : (maskIdx mask).Pairwise (· < ·) := by
  unfold maskIdx
  have h : (mask.zipIdx.map (·.2)).Pairwise (· < ·) := by
    rw [List.zipIdx_map_snd]
    exact List.pairwise_lt_range'
  rw [List.pairwise_map] at h ⊢
  exact h.filter _

/-- C16: `extract_with_mask` keeps the rows of the mask in their order, and the links between them; other links are
removed. -/
theorem extract_with_mask_links (rows : List (Row α)) (mask : List Bool) (hl : mask.length = rows.length) (hv : Valid rows) :
    ∃ out idx, extractMask rows mask = some out ∧ idx.Pairwise (· < ·) ∧ (∀ i : Nat, i ∈ idx ↔ mask[i]? = some true) ∧
      IsTake rows idx out := by
  obtain ⟨out, h1, h2⟩ := take_spec rows (maskIdx mask) hv (fun t ht => by
    have := (mem_maskIdx mask t).1 ht
    rw [← hl]; exact (List.getElem?_eq_some_iff.1 this).1)
  exact ⟨out, maskIdx mask, by unfold extractMask; rw [if_neg (by simpa using hl), h1], maskIdx_sorted mask,
    mem_maskIdx mask, h2⟩

/-- C16 for a slice. -/
theorem extract_with_slice_links (rows : List (Row α)) (a b : Nat) (hb : b ≤ rows.length) (hv : Valid rows) :
    ∃ out, extractSlice rows a b = some out ∧ IsTake rows (List.range' a (b - a)) out := by
  obtain ⟨out, h1, h2⟩ := take_spec rows (List.range' a (b - a)) hv (fun t ht => by
    have := List.mem_range'_1.1 ht; omega)
  exact ⟨out, by unfold extractSlice; rw [if_pos hb, h1], h2⟩

/-- No link of an extraction dangles. -/
theorem IsTake.valid {rows out : List (Row α)} {idx : List Nat} (h : IsTake rows idx out) : Valid out := by
  intro r hr
  obtain ⟨k, hk⟩ := List.getElem?_of_mem hr
  obtain ⟨i, r0, _, _, _, hp, hn⟩ := h.2 k r hk
  have key : ∀ p q, Image idx p q → -1 ≤ q ∧ q < out.length := by
    intro p q hq
    rcases hq with ⟨k, t, _, hk, rfl⟩ | ⟨rfl, _⟩
    · have := (List.getElem?_eq_some_iff.1 hk).1
      rw [h.1]; omega
    · omega
  exact ⟨key _ _ hp, key _ _ hn⟩

theorem extract_mask_wrong_length (rows : List (Row α)) (mask : List Bool) (h : mask.length ≠ rows.length) :
    extractMask rows mask = none := by unfold extractMask; rw [if_pos h]

/-! ### Sort -/

theorem argsort_perm (le : Row α → Row α → Bool) (rows : List (Row α)) :
    (argsort le rows).Perm (List.range rows.length) := by
  unfold argsort
  have h := (List.perm_insertionSort (fun a b : Row α × Nat => le a.1 b.1 = true) rows.zipIdx).map (·.2)
  rw [List.zipIdx_map_snd 0 rows, ← List.range_eq_range'] at h
  exact h

/-- C17: `sort` is a permutation of the rows which carries the links along: the row of new number `k` is the row of old
number `idx[k]`, its links are the new numbers of the same rows, and none is lost. -/
theorem sort_links (le : Row α → Row α → Bool) (rows : List (Row α)) (hv : Valid rows) :
    ∃ out idx, sort le rows = some out ∧ idx.Perm (List.range rows.length) ∧ IsTake rows idx out ∧ Valid out ∧
      (∀ (k : Nat) r i r0, out[k]? = some r → idx[k]? = some i → rows[i]? = some r0 →
        (r.next = -1 ↔ r0.next = -1) ∧ (r.prev = -1 ↔ r0.prev = -1)) := by
  have hp := argsort_perm le rows
  obtain ⟨out, h1, h2⟩ := take_spec rows (argsort le rows) hv (fun t ht => List.mem_range.1 (hp.mem_iff.1 ht))
  refine ⟨out, argsort le rows, h1, hp, h2, h2.valid, ?_⟩
  intro k r i r0 hk hi h0
  obtain ⟨i', r0', hi', h0', _, hpr, hne⟩ := h2.2 k r hk
  rw [hi] at hi'; cases hi'
  rw [h0] at h0'; cases h0'
  obtain ⟨⟨v1, v2⟩, v3, v4⟩ := hv r0 (List.mem_of_getElem? h0)
  have key : ∀ p q : Int, -1 ≤ p → p < rows.length → Image (argsort le rows) p q → (q = -1 ↔ p = -1) := by
    intro p q a1 a2 hq
    rcases hq with ⟨k, t, rfl, hk, rfl⟩ | ⟨rfl, hno⟩
    · omega
    · refine ⟨fun _ => ?_, fun _ => rfl⟩
      by_contra hc
      obtain ⟨t, rfl⟩ := Int.eq_ofNat_of_zero_le (show 0 ≤ p by omega)
      exact hno t (hp.mem_iff.2 (List.mem_range.2 (by omega))) rfl
  exact ⟨key _ _ v3 v4 hne, key _ _ v1 v2 hpr⟩

/-- C17: the result is sorted, for any total order of the records which does not depend on the links. -/
theorem sort_sorted (le : Row α → Row α → Bool) (key : α → α → Prop) (hle : ∀ a b, le a b = true → key a.data b.data)
    (htot : ∀ a b, le a b = true ∨ le b a = true) (htr : ∀ a b c, le a b = true → le b c = true → le a c = true)
    (rows out : List (Row α)) (hv : Valid rows) (h : sort le rows = some out) : (out.map (·.data)).Pairwise key := by
  have hp := argsort_perm le rows
  obtain ⟨out', h1, h2⟩ := take_spec rows (argsort le rows) hv (fun t ht => List.mem_range.1 (hp.mem_iff.1 ht))
  unfold sort at h
  rw [h1] at h; cases h
  have hs : (rows.zipIdx.insertionSort (fun a b => le a.1 b.1 = true)).Pairwise (fun a b => le a.1 b.1 = true) := by
    have : Std.Total (fun a b : Row α × Nat => le a.1 b.1 = true) := ⟨fun a b => htot a.1 b.1⟩
    have : IsTrans (Row α × Nat) (fun a b => le a.1 b.1 = true) := ⟨fun a b c => htr a.1 b.1 c.1⟩
    exact List.pairwise_insertionSort _ _
  have hdata : out.map (·.data) = (rows.zipIdx.insertionSort (fun a b => le a.1 b.1 = true)).map (·.1.data) := by
    apply List.ext_getElem?
    intro k
    rw [List.getElem?_map, List.getElem?_map]
    have hlen : out.length = (rows.zipIdx.insertionSort (fun a b => le a.1 b.1 = true)).length := by
      rw [h2.1]; unfold argsort; rw [List.length_map]
    by_cases hk : k < out.length
    · obtain ⟨i, r0, hi, h0, hd, _⟩ := h2.2 k _ (List.getElem?_eq_getElem hk)
      rw [List.getElem?_eq_getElem hk, Option.map_some, hd]
      have hk' : k < (rows.zipIdx.insertionSort (fun a b => le a.1 b.1 = true)).length := by omega
      unfold argsort at hi
      rw [List.getElem?_map, List.getElem?_eq_getElem hk', Option.map_some, Option.some.injEq] at hi
      rw [List.getElem?_eq_getElem hk', Option.map_some]
      have hm : (rows.zipIdx.insertionSort (fun a b => le a.1 b.1 = true))[k] ∈ rows.zipIdx :=
        (List.perm_insertionSort _ _).mem_iff.1 (List.getElem_mem hk')
      rw [List.mem_zipIdx_iff_getElem?, hi, h0, Option.some.injEq] at hm
      rw [hm]
    · rw [List.getElem?_eq_none (by omega), List.getElem?_eq_none (by omega)]; rfl
  rw [hdata, List.pairwise_map]
  exact hs.imp (fun h => hle _ _ h)

/-! ### Examples -/

def exRows : List (Row Nat) := [⟨10, -1, 2⟩, ⟨11, -1, 3⟩, ⟨9, 0, 3⟩, ⟨12, 2, -1⟩]

example : Valid exRows := by unfold Valid; decide
example : extractMask exRows [true, false, true, true] = some [⟨10, -1, 1⟩, ⟨9, 0, 2⟩, ⟨12, 1, -1⟩] := by decide
example : extractMask exRows [true, true, false, true] = some [⟨10, -1, -1⟩, ⟨11, -1, 2⟩, ⟨12, -1, -1⟩] := by decide
example : extractSlice exRows 1 3 = some [⟨11, -1, -1⟩, ⟨9, -1, -1⟩] := by decide
example : sort (fun a b => decide (a.data ≤ b.data)) exRows = some [⟨9, 1, 3⟩, ⟨10, -1, 0⟩, ⟨11, -1, 3⟩, ⟨12, 0, -1⟩] := by
  decide

end Verif.Links
