import Verif.Fields.Props

/-!
# C167: equality of datasets and change of class

Model of `EddiesObservations.__eq__` (/repo/src/py_eddy_tracker/observations/observation.py:247-252), of `dtype` (493-507) and of
`NetworkObservations.astype` (/repo/src/py_eddy_tracker/observations/network.py:270-277), with the datasets of property C89. The equality of
two values is a parameter: nan is not equal to itself.
-/

namespace Verif.Fields

variable {V : Type}

/-- A dataset with its rotation (`none`: not set) and its flag `raw_data`. -/
structure Object (V : Type) where
  data : Data V
  sign : Option Int
  raw : Bool

/-- `dtype` (observation.py:493-507): name, type and size of the arrays of each field, in the order of `elements`. `types` gives the type of
computation and the type of the files of a field (`VAR_DESCR`). -/
def dtype (c : Class) (types : String → String × String) (a : Object V) : List (String × String × Option Nat) :=
  (elements c a.data.config).map (fun s =>
    (s, if a.raw then (types s).2 else (types s).1, if s ∈ a.data.config.arrays.names then some a.data.config.nArr else none))

/-- Comparison of two rows, field by field in their order. -/
def rowEq (eqv : V → V → Bool) : List V → List V → Bool
  | [], [] => true
  | x :: r, y :: s => eqv x y && rowEq eqv r s
  | _, _ => false

/-- `array_equal` (observation.py:252): same number of rows and equal rows. -/
def arrayEqual (eqv : V → V → Bool) : List (List V) → List (List V) → Bool
  | [], [] => true
  | x :: r, y :: s => rowEq eqv x y && arrayEqual eqv r s
  | _, _ => false

/-- `__eq__` (observation.py:247-252). -/
def equal (c : Class) (types : String → String × String) (eqv : V → V → Bool) (a b : Object V) : Bool :=
  if a.sign ≠ b.sign then false
  else if dtype c types a ≠ dtype c types b then false
  else arrayEqual eqv a.data.rows b.data.rows

/-- `copy` with the rotation (observation.py:698-717). -/
def copyObject (c : Class) (zero : V) (a : Object V) : Object V := ⟨copy c zero a.data, a.sign, a.raw⟩

/-- `astype` (network.py:270-277): a dataset of the class `c'` with the same parameters, where the fields of both classes are copied. -/
def astype (c c' : Class) (zero : V) (a : Object V) : Object V :=
  ⟨⟨a.data.config, a.data.rows.map (remap zero (a.data.fields c) (elements c' a.data.config))⟩, a.sign, a.raw⟩

/-! ### Proofs -/

theorem rowEq_iff (eqv : V → V → Bool) : ∀ (r s : List V), rowEq eqv r s = true ↔ List.Forall₂ (fun x y => eqv x y = true) r s
  | [], [] => by simp [rowEq]
  | [], y :: s => by simp [rowEq]
  | x :: r, [] => by simp [rowEq]
  | x :: r, y :: s => by
    rw [rowEq, Bool.and_eq_true, rowEq_iff eqv r s, List.forall₂_cons]

theorem arrayEqual_iff (eqv : V → V → Bool) : ∀ (r s : List (List V)), arrayEqual eqv r s = true ↔
    List.Forall₂ (List.Forall₂ (fun x y => eqv x y = true)) r s
  | [], [] => by simp [arrayEqual]
  | [], y :: s => by simp [arrayEqual]
  | x :: r, [] => by simp [arrayEqual]
  | x :: r, y :: s => by
    rw [arrayEqual, Bool.and_eq_true, rowEq_iff, arrayEqual_iff eqv r s, List.forall₂_cons]

theorem forall₂_field {eqv : V → V → Bool} {names : List String} {r s : List V} (hn : names.Nodup) (hr : r.length = names.length)
    (hs : s.length = names.length) : List.Forall₂ (fun x y => eqv x y = true) r s ↔
      ∀ n ∈ names, ∃ x y, field names r n = some x ∧ field names s n = some y ∧ eqv x y = true := by
  rw [List.forall₂_iff_get]
  constructor
  · rintro ⟨_, h⟩ n hmem
    have hi := List.idxOf_lt_length_of_mem hmem
    exact ⟨r[names.idxOf n], s[names.idxOf n], List.getElem?_eq_getElem _, List.getElem?_eq_getElem _, h _ (by omega) (by omega)⟩
  · intro h
    refine ⟨by omega, fun i h1 h2 => ?_⟩
    have hi : i < names.length := by omega
    obtain ⟨x, y, hx, hy, hxy⟩ := h names[i] (List.getElem_mem hi)
    unfold field at hx hy
    rw [List.Nodup.idxOf_getElem (xs := names) hn i hi] at hx hy
    rw [List.getElem?_eq_getElem h1] at hx
    rw [List.getElem?_eq_getElem h2] at hy
    rw [List.get_eq_getElem, List.get_eq_getElem, Option.some.inj hx, Option.some.inj hy]
    exact hxy

/-- **C167** (`==`): two datasets of the same class are equal exactly when they have the same rotation, the same fields of the same types in
the same order, the same number of observations, and equal values for all fields of all observations. -/
theorem equal_iff {c : Class} (hc : c.Ordered) (types : String → String × String) (eqv : V → V → Bool) {a b : Object V} (ha : a.data.Wf c)
    (hb : b.data.Wf c) : equal c types eqv a b = true ↔ a.sign = b.sign ∧ dtype c types a = dtype c types b ∧
      a.data.rows.length = b.data.rows.length ∧ ∀ s ∈ a.data.fields c, List.Forall₂
        (fun x y => ∃ x' y', x = some x' ∧ y = some y' ∧ eqv x' y' = true) (a.data.col c s) (b.data.col c s) := by
  have hfields : dtype c types a = dtype c types b → b.data.fields c = a.data.fields c := by
    intro h
    have := congrArg (List.map Prod.fst) h
    unfold dtype at this
    rw [List.map_map, List.map_map] at this
    simp only [Function.comp_def] at this
    rw [List.map_id', List.map_id'] at this
    exact this.symm
  have key : dtype c types a = dtype c types b → (arrayEqual eqv a.data.rows b.data.rows = true ↔
      a.data.rows.length = b.data.rows.length ∧ ∀ s ∈ a.data.fields c, List.Forall₂
        (fun x y => ∃ x' y', x = some x' ∧ y = some y' ∧ eqv x' y' = true) (a.data.col c s) (b.data.col c s)) := by
    intro hd
    have hf := hfields hd
    have hn : (a.data.fields c).Nodup := elements_nodup hc a.data.config
    rw [arrayEqual_iff, List.forall₂_iff_get]
    refine and_congr_right fun hlen => ?_
    constructor
    · intro h s hs
      unfold Data.col
      rw [List.forall₂_map_left_iff, List.forall₂_map_right_iff, List.forall₂_iff_get]
      refine ⟨hlen, fun i h1 h2 => ?_⟩
      have hra := ha _ (List.getElem_mem h1)
      have hrb := hb _ (List.getElem_mem h2)
      rw [hf] at hrb ⊢
      obtain ⟨x, y, hx, hy, hxy⟩ := (forall₂_field hn hra hrb).1 (h i h1 h2) s hs
      exact ⟨x, y, hx, hy, hxy⟩
    · intro h i h1 h2
      have hra := ha _ (List.getElem_mem h1)
      have hrb := hb _ (List.getElem_mem h2)
      rw [hf] at hrb
      refine (forall₂_field hn hra hrb).2 ?_
      intro s hs
      have h3 := h s hs
      unfold Data.col at h3
      rw [List.forall₂_map_left_iff, List.forall₂_map_right_iff, List.forall₂_iff_get] at h3
      obtain ⟨x, y, hx, hy, hxy⟩ := h3.2 i h1 h2
      rw [hf] at hy
      exact ⟨x, y, hx, hy, hxy⟩
  unfold equal
  by_cases h1 : a.sign = b.sign
  · by_cases h2 : dtype c types a = dtype c types b
    · rw [if_neg (not_not.2 h1), if_neg (not_not.2 h2), key h2]
      simp [h1, h2]
    · rw [if_neg (not_not.2 h1), if_pos h2]
      simp [h2]
  · rw [if_pos h1]
    simp [h1]

/-- **C167** (copy): a dataset is equal to its copy. Missing: values which are not equal to themselves (`nan_wrong`). -/
theorem equal_copy_partial {c : Class} (hc : c.Ordered) (types : String → String × String) (eqv : V → V → Bool) (zero : V) {a : Object V}
    (ha : a.data.Wf c) (h : ∀ r ∈ a.data.rows, ∀ x ∈ r, eqv x x = true) : equal c types eqv (copyObject c zero a) a = true := by
  have e : copyObject c zero a = a := by
    unfold copyObject
    rw [copy_spec hc zero ha]
  rw [e]
  unfold equal
  rw [if_neg (by simp), if_neg (by simp), arrayEqual_iff, List.forall₂_same]
  intro r hr
  rw [List.forall₂_same]
  exact fun x hx => h r hr x hx

/-- **C167** (change of class): `astype` keeps the number of observations, the rotation, and the values of the fields of both classes; the
other fields of the new class are 0. -/
theorem astype_spec {c c' : Class} (zero : V) {a : Object V} (ha : a.data.Wf c) : (astype c c' zero a).sign = a.sign ∧
    (astype c c' zero a).raw = a.raw ∧ (astype c c' zero a).data.Wf c' ∧ (astype c c' zero a).data.rows.length = a.data.rows.length ∧
    ∀ s ∈ (astype c c' zero a).data.fields c', (s ∈ a.data.fields c → (astype c c' zero a).data.col c' s = a.data.col c s) ∧
      (s ∉ a.data.fields c → (astype c c' zero a).data.col c' s = a.data.rows.map (fun _ => some zero)) := by
  refine ⟨rfl, rfl, ?_, by simp [astype], ?_⟩
  · intro r hr
    simp only [astype] at hr
    obtain ⟨r', _, rfl⟩ := List.mem_map.1 hr
    simp [remap, Data.fields, astype]
  · intro s hs
    unfold Data.col astype
    simp only [List.map_map]
    constructor
    · intro h
      apply List.map_congr_left
      intro r hr
      exact (remap_spec (ha r hr) hs).1 h
    · intro h
      apply List.map_congr_left
      intro r hr
      exact (remap_spec (ha r hr) hs).2 h

/-- The same class gives the same dataset, and a class with more fields can be left without loss. -/
theorem astype_back {c c' : Class} (hc : c.Ordered) (zero : V) {a : Object V} (ha : a.data.Wf c)
    (hsub : ∀ s ∈ a.data.fields c, s ∈ elements c' a.data.config) : astype c' c zero (astype c c' zero a) = a := by
  have h1 := (astype_spec (c' := c') zero ha).2.2.1
  have h2 := astype_spec (c' := c) zero h1
  have hn : (a.data.fields c).Nodup := elements_nodup hc a.data.config
  have hrows : (astype c' c zero (astype c c' zero a)).data.rows = a.data.rows := by
    unfold astype
    simp only [List.map_map]
    conv_rhs => rw [← List.map_id a.data.rows]
    apply List.map_congr_left
    intro r hr
    apply List.ext_getElem?
    intro i
    by_cases hi : i < (a.data.fields c).length
    · have hmem : (a.data.fields c)[i] ∈ elements c a.data.config := List.getElem_mem hi
      have e1 := (remap_spec (zero := zero) (ha r hr) (hsub _ hmem)).1 hmem
      have e2 := (remap_spec (zero := zero) (old := elements c' a.data.config) (names := elements c a.data.config)
        (row := remap zero (a.data.fields c) (elements c' a.data.config) r) (by simp [remap]) hmem).1 (hsub _ hmem)
      rw [e1] at e2
      unfold field at e2
      rw [show (elements c a.data.config).idxOf (a.data.fields c)[i] = i from List.Nodup.idxOf_getElem (xs := a.data.fields c) hn i hi,
        show (a.data.fields c).idxOf (a.data.fields c)[i] = i from List.Nodup.idxOf_getElem (xs := a.data.fields c) hn i hi] at e2
      exact e2
    · have h3 : (elements c a.data.config).length ≤ i := by unfold Data.fields at hi; omega
      rw [List.getElem?_eq_none (by simp [remap]; exact h3), List.getElem?_eq_none (by rw [id, ha r hr]; exact h3)]
  have : astype c' c zero (astype c c' zero a) = ⟨⟨a.data.config, (astype c' c zero (astype c c' zero a)).data.rows⟩, a.sign, a.raw⟩ := rfl
  rw [this, hrows]

/-! ### Disagreements -/

/-- Equality of floats, `none` being nan. -/
def floatEq : Option Int → Option Int → Bool
  | some x, some y => decide (x = y)
  | _, _ => false

/-- The same rows read with `raw_data` and without it are equal exactly when every field is stored with the type it has in memory: for
another dataset, even an empty one, `==` is false. -/
theorem equal_raw_iff {c : Class} (types : String → String × String) {eqv : V → V → Bool} (hr : ∀ x, eqv x x = true) (d : Data V)
    (sign : Option Int) : equal c types eqv ⟨d, sign, true⟩ ⟨d, sign, false⟩ = true ↔ ∀ s ∈ d.fields c, (types s).2 = (types s).1 := by
  have hrows : arrayEqual eqv d.rows d.rows = true := by
    rw [arrayEqual_iff, List.forall₂_same]
    intro r _
    rw [List.forall₂_same]
    exact fun x _ => hr x
  have hd : dtype c types ⟨d, sign, true⟩ = dtype c types ⟨d, sign, false⟩ ↔ ∀ s ∈ d.fields c, (types s).2 = (types s).1 := by
    unfold dtype
    rw [List.map_inj_left]
    simp only [Prod.mk.injEq, true_and, and_true, if_true]
    rfl
  unfold equal
  rw [if_neg (by simp)]
  by_cases h : dtype c types ⟨d, sign, true⟩ = dtype c types ⟨d, sign, false⟩
  · rw [if_neg (by simp [h])]
    exact ⟨fun _ => hd.1 h, fun _ => hrows⟩
  · rw [if_pos h]
    exact ⟨fun h' => by simp at h', fun h' => absurd (hd.2 h') h⟩

/-- Any dataset which holds a nan is different from its copy, and from itself. -/
theorem nan_wrong {c : Class} (hc : c.Ordered) (types : String → String × String) (zero : Option Int) {a : Object (Option Int)}
    (ha : a.data.Wf c) (h : ∃ r ∈ a.data.rows, none ∈ r) :
    equal c types floatEq a a = false ∧ equal c types floatEq (copyObject c zero a) a = false := by
  have e : copyObject c zero a = a := by
    unfold copyObject
    rw [copy_spec hc zero ha]
  rw [e]
  suffices h' : equal c types floatEq a a = false from ⟨h', h'⟩
  unfold equal
  rw [if_neg (by simp), if_neg (by simp)]
  by_contra hne
  rw [Bool.not_eq_false, arrayEqual_iff, List.forall₂_same] at hne
  obtain ⟨r, hr, hx⟩ := h
  have := hne r hr
  rw [List.forall₂_same] at this
  exact absurd (this none hx) (by decide)

/-- The order of the fields counts: the same observations with the fields in another order are different. -/
theorem field_order_wrong : equal ⟨[], [], id⟩ (fun _ => ("f4", "i2")) floatEq
      ⟨⟨⟨.list ["lon", "lat"], .list [], 0, none⟩, [[some 1, some 2]]⟩, some 1, false⟩
      ⟨⟨⟨.list ["lat", "lon"], .list [], 0, none⟩, [[some 2, some 1]]⟩, some 1, false⟩ = false ∧
    Data.col ⟨[], [], id⟩ ⟨⟨.list ["lon", "lat"], .list [], 0, none⟩, [[(1 : Int), 2]]⟩ "lon" =
      Data.col ⟨[], [], id⟩ ⟨⟨.list ["lat", "lon"], .list [], 0, none⟩, [[2, 1]]⟩ "lon" := by decide +kernel

/-- Two datasets which are equal, and two which differ by one value; a network which becomes a dataset of tracks. -/
example : equal small (fun _ => ("f4", "i2")) floatEq ⟨⟨loaded ["lon", "lat"], [[some 1, some 2]]⟩, some 1, false⟩
      ⟨⟨loaded ["lon", "lat"], [[some 1, some 2]]⟩, some 1, false⟩ = true ∧
    equal small (fun _ => ("f4", "i2")) floatEq ⟨⟨loaded ["lon", "lat"], [[some 1, some 2]]⟩, some 1, false⟩
      ⟨⟨loaded ["lon", "lat"], [[some 1, some 3]]⟩, some 1, false⟩ = false ∧
    (astype ⟨["lon"], ["track", "segment"], List.dedup⟩ ⟨["lon"], ["track", "n"], List.dedup⟩ 0
      ⟨⟨⟨.list [], .list [], 0, none⟩, [[10, 4, 7]]⟩, some 1, false⟩).data.rows = [[10, 4, 0]] := by decide +kernel

end Verif.Fields
