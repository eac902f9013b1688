import Mathlib.Tactic.Ring
import Mathlib.Tactic.FieldSimp
import Mathlib.Tactic.NormNum
import Mathlib.Data.Rat.Defs
import Mathlib.Algebra.Order.Field.Rat

/-!
# Units of the loaded values (C182, `src/py_eddy_tracker/observations/observation.py:856-930, 1007-1029, 1055-1080`)

The library pint is a parameter: `parse` gives for a unit its value in base units and its dimension, `none` when it raises
`UndefinedUnitError` or `TokenError` (the exceptions which are caught). Units with an offset (degC) are not modelled; values are
exact rationals, the rounding of packed values is in `Store.Model`.
-/

namespace Verif.Store

/-- Value in base units and dimension of a unit. -/
abbrev Parse := String → Option (Rat × List Int)

/-- `compare_units` (observation.py:1055-1080); `none` is the exception of `to` between two dimensions. -/
def compareUnits (parse : Parse) (input output : Option String) : Option Rat :=
  match input, output with
  | some i, some o =>
    if o = i then some 1
    else
      match parse i, parse o with
      | some (a, d), some (b, e) => if d = e then some (a / b) else none
      | _, _ => some 1
  | _, _ => some 1

/-- A variable of a file: the stored numbers, their packing and the two attributes of unit. -/
structure Column where
  stored : List Rat
  scale : Rat
  offset : Rat
  unit : Option String
  units : Option String

/-- The description of the variable in the library: unit and packing (`VAR_DESCR`, __init__.py:123-683). -/
structure Descr where
  units : Option String
  scale : Rat
  offset : Rat

/-- The values of the variable for any reader of the file. -/
def Column.values (c : Column) : List Rat := c.stored.map (fun x => x * c.scale + c.offset)

/-- The unit: attribute `unit`, else `units` (observation.py:860-862 and 1016-1018). -/
def Column.attr (c : Column) : Option String :=
  match c.unit with
  | some u => some u
  | none => c.units

/-- `load_from_netcdf` of one variable (observation.py:1007-1032): with `raw_data` the stored numbers. -/
def loadNcUnits (parse : Parse) (d : Descr) (raw : Bool) (c : Column) : Option (List Rat) :=
  if raw then some c.stored
  else (compareUnits parse c.attr d.units).map (fun f => if f ≠ 1 then c.values.map (fun x => x * f) else c.values)

/-- `load_from_zarr` of one variable (observation.py:856-879, 917-930): the library zarr gives the values, they are packed again
with `raw_data`. -/
def loadZarrUnits (parse : Parse) (d : Descr) (raw : Bool) (c : Column) : Option (List Rat) :=
  (compareUnits parse c.attr d.units).map (fun f => c.values.map (fun x =>
    let y := if f ≠ 1 then x * f else x
    if raw then (y - d.offset) / d.scale else y))

/-! ### Specification -/

/-- `x` in the unit `i` and `y` in the unit `o` are the same quantity. -/
def SameQuantity (parse : Parse) (i o : String) (x y : Rat) : Prop :=
  ∃ a b dim, parse i = some (a, dim) ∧ parse o = some (b, dim) ∧ x * a = y * b

/-- What the numbers of a dataset mean, in the units of the library: with `raw_data` they are packed as in `VAR_DESCR`. -/
def meaning (d : Descr) (raw : Bool) (x : Rat) : Rat := if raw then x * d.scale + d.offset else x

/-- The dataset holds the quantities of the file, in their order, in the unit of the library. -/
def Faithful (parse : Parse) (d : Descr) (raw : Bool) (c : Column) (l : List Rat) : Prop :=
  ∀ i o, c.attr = some i → d.units = some o → List.Forall₂ (fun x y => SameQuantity parse i o x (meaning d raw y)) c.values l

/-- Two known units of the same dimension. -/
def Compatible (parse : Parse) (i o : String) : Prop := ∃ a b dim, parse i = some (a, dim) ∧ parse o = some (b, dim) ∧ b ≠ 0

/-! ### Proofs -/

theorem compare_compatible {parse : Parse} {i o : String} (h : Compatible parse i o) :
    ∃ f, compareUnits parse (some i) (some o) = some f ∧ ∀ x, SameQuantity parse i o x (x * f) := by
  obtain ⟨a, b, dim, h1, h2, h3⟩ := h
  unfold compareUnits
  simp only
  by_cases he : o = i
  · subst he
    rw [if_pos rfl]
    exact ⟨1, rfl, fun x => ⟨a, a, dim, h1, h1, by ring⟩⟩
  · rw [if_neg he, h1, h2]
    simp only [if_true]
    exact ⟨a / b, rfl, fun x => ⟨a, b, dim, h1, h2, by field_simp⟩⟩

theorem forall2_map {α β : Type} {R : α → β → Prop} {f : α → β} : ∀ (l : List α), (∀ x, R x (f x)) → List.Forall₂ R l (l.map f)
  | [], _ => .nil
  | x :: l, h => .cons (h x) (forall2_map l h)

theorem scaled_eq (f x : Rat) : (if f ≠ 1 then x * f else x) = x * f := by
  split
  · rfl
  · rename_i h
    rw [not_not.1 h, mul_one]

/-- **C182** (netcdf): the values of the dataset are the quantities of the file in the unit of the library. -/
theorem load_netcdf_units {parse : Parse} {d : Descr} {c : Column} {i o : String} (hi : c.attr = some i) (ho : d.units = some o)
    (h : Compatible parse i o) : ∃ l, loadNcUnits parse d false c = some l ∧ Faithful parse d false c l := by
  obtain ⟨f, h1, h2⟩ := compare_compatible h
  refine ⟨c.values.map (fun x => x * f), ?_, ?_⟩
  · unfold loadNcUnits
    rw [hi, ho, h1]
    simp only [Bool.false_eq_true, if_false, Option.map_some]
    split
    · rfl
    · rename_i hf
      rw [not_not.1 hf]
      simp
  · intro i' o' hi' ho'
    rw [hi] at hi'; rw [ho] at ho'
    cases hi'; cases ho'
    exact forall2_map _ h2

/-- **C182** (zarr, raw or not): the numbers of the dataset, unpacked as the library does, are the quantities of the file. -/
theorem load_zarr_units {parse : Parse} {d : Descr} {c : Column} {i o : String} (raw : Bool) (hd : d.scale ≠ 0)
    (hi : c.attr = some i) (ho : d.units = some o) (h : Compatible parse i o) :
    ∃ l, loadZarrUnits parse d raw c = some l ∧ Faithful parse d raw c l := by
  obtain ⟨f, h1, h2⟩ := compare_compatible h
  refine ⟨_, by unfold loadZarrUnits; rw [hi, ho, h1]; rfl, ?_⟩
  intro i' o' hi' ho'
  rw [hi] at hi'; rw [ho] at ho'
  cases hi'; cases ho'
  apply forall2_map
  intro x
  have e : meaning d raw (let y := if f ≠ 1 then x * f else x; if raw then (y - d.offset) / d.scale else y) = x * f := by
    simp only [scaled_eq]
    unfold meaning
    cases raw with
    | false => rfl
    | true => simp only [if_true]; field_simp; ring
  rw [e]
  exact h2 x

/-- The files of the library: same unit, the values of the file. -/
theorem load_own_units {parse : Parse} {d : Descr} {c : Column} (h : c.attr = d.units) :
    loadNcUnits parse d false c = some c.values ∧ loadZarrUnits parse d false c = some c.values := by
  have hc : compareUnits parse c.attr d.units = some 1 := by
    rw [h]
    unfold compareUnits
    cases d.units with
    | none => rfl
    | some o => simp
  unfold loadNcUnits loadZarrUnits
  rw [hc]
  simp

/-- Without unit in the file (or in the library), the values are taken as they are. -/
theorem load_no_unit {parse : Parse} {d : Descr} {c : Column} (h : c.attr = none ∨ d.units = none) :
    loadNcUnits parse d false c = some c.values ∧ loadZarrUnits parse d false c = some c.values := by
  have hc : compareUnits parse c.attr d.units = some 1 := by
    unfold compareUnits
    rcases h with h | h
    · rw [h]
    · rw [h]; cases c.attr <;> rfl
  unfold loadNcUnits loadZarrUnits
  rw [hc]
  simp

/-- Two known units of different dimensions: the load raises. -/
theorem load_other_dimension {parse : Parse} {d : Descr} {c : Column} {i o : String} {a b : Rat} {p q : List Int} (raw : Bool)
    (hi : c.attr = some i) (ho : d.units = some o) (h1 : parse i = some (a, p)) (h2 : parse o = some (b, q)) (h : p ≠ q) :
    loadNcUnits parse d false c = none ∧ loadZarrUnits parse d raw c = none := by
  have hne : o ≠ i := by
    rintro rfl
    rw [h1] at h2
    simp only [Option.some.injEq, Prod.mk.injEq] at h2
    exact h h2.2
  have hc : compareUnits parse c.attr d.units = none := by
    rw [hi, ho]
    unfold compareUnits
    simp only
    rw [if_neg hne, h1, h2]
    simp only
    rw [if_neg h]
  unfold loadNcUnits loadZarrUnits
  rw [hc]
  simp

/-- A unit which pint does not know: the values are taken as they are, whatever the other unit. -/
theorem load_unknown {parse : Parse} {d : Descr} {c : Column} {i o : String} (hi : c.attr = some i) (ho : d.units = some o)
    (h : parse i = none ∨ parse o = none) :
    loadNcUnits parse d false c = some c.values ∧ loadZarrUnits parse d false c = some c.values := by
  have hc : compareUnits parse c.attr d.units = some 1 := by
    rw [hi, ho]
    unfold compareUnits
    simp only
    split
    · rfl
    · rcases h with h | h
      · rw [h]
      · rw [h]; cases parse i <;> rfl
  unfold loadNcUnits loadZarrUnits
  rw [hc]
  simp

/-- Full statement: whatever the mode, a file whose unit is known and of the right dimension is loaded faithfully. -/
def UnitsKept : Prop := ∀ (parse : Parse) (d : Descr) (raw : Bool) (c : Column) (i o : String), d.scale ≠ 0 → c.attr = some i →
  d.units = some o → Compatible parse i o → ∃ l, loadNcUnits parse d raw c = some l ∧ Faithful parse d raw c l

/-- Lengths in metres and centimetres. -/
def lengths : Parse := fun u => if u = "m" then some (1, [1]) else if u = "cm" then some (1 / 100, [1]) else none

/-- An amplitude of 12 cm stored as such. -/
def amplitudeCm : Column := ⟨[12], 1, 0, none, some "cm"⟩

/-- The amplitude in the library (__init__.py: metres, packed by 0.0001). -/
def amplitudeM : Descr := ⟨some "m", 1 / 10000, 0⟩

/-- With `raw_data` the numbers of a netcdf are taken without their unit nor their packing: 12 cm are 1.2 mm. -/
theorem raw_units_wrong : ¬ UnitsKept := by
  intro h
  obtain ⟨l, h1, h2⟩ := h lengths amplitudeM true amplitudeCm "cm" "m" (by decide +kernel) rfl rfl
    ⟨1 / 100, 1, [1], by decide +kernel, by decide +kernel, by norm_num⟩
  have hl : l = [12] := by
    have e : loadNcUnits lengths amplitudeM true amplitudeCm = some [12] := rfl
    rw [e] at h1
    exact (Option.some.inj h1).symm
  subst hl
  have h3 := h2 "cm" "m" rfl rfl
  unfold Column.values at h3
  simp only [amplitudeCm, List.map_cons, List.map_nil, List.forall₂_cons, List.Forall₂.nil, and_true] at h3
  obtain ⟨a, b, dim, e1, e2, e3⟩ := h3
  have ha : a = 1 / 100 := by
    have : lengths "cm" = some (1 / 100, [1]) := by decide +kernel
    rw [this] at e1
    simp only [Option.some.injEq, Prod.mk.injEq] at e1
    exact e1.1.symm
  have hb : b = 1 := by
    have : lengths "m" = some (1, [1]) := by decide +kernel
    rw [this] at e2
    simp only [Option.some.injEq, Prod.mk.injEq] at e2
    exact e2.1.symm
  rw [ha, hb] at e3
  norm_num [meaning, amplitudeM] at e3

/-- Full statement for dates: with `origin` the day of the origin of a unit of dates, the loaded date is the day of the file. -/
def DatesKept (parse : Parse) (origin : String → Option Rat) : Prop := ∀ (d : Descr) (c : Column) (i o : String) (p q : Rat),
  c.attr = some i → d.units = some o → origin i = some p → origin o = some q →
  ∃ l, loadNcUnits parse d false c = some l ∧ List.Forall₂ (fun x y => x + p = y + q) c.values l

/-- Dates from another origin are taken as if they were from 1950: pint does not know the units of dates. -/
theorem dates_wrong {parse : Parse} {origin : String → Option Rat} {i o : String} {p q : Rat} (hp : parse i = none)
    (h1 : origin i = some p) (h2 : origin o = some q) (hne : p ≠ q) : ¬ DatesKept parse origin := by
  intro h
  obtain ⟨l, hl, hf⟩ := h ⟨some o, 1, 0⟩ ⟨[0], 1, 0, none, some i⟩ i o p q rfl rfl h1 h2
  rw [(load_unknown (c := ⟨[0], 1, 0, none, some i⟩) (d := ⟨some o, 1, 0⟩) rfl rfl (Or.inl hp)).1] at hl
  cases hl
  simp only [Column.values, List.map_cons, List.map_nil, List.forall₂_cons, List.Forall₂.nil, and_true] at hf
  exact hne (by simpa using hf)

/-- 12 cm are 0.12 m for the two formats. -/
example : loadNcUnits lengths amplitudeM false amplitudeCm = some [12 / 100] ∧
    loadZarrUnits lengths amplitudeM true amplitudeCm = some [1200] ∧
    loadNcUnits lengths amplitudeM false ⟨[12], 1 / 10, 5, some "m", some "cm"⟩ = some [62 / 10] := by decide +kernel

/-- The attribute `unit` goes first; a unit of another dimension raises. -/
example : loadNcUnits (fun u => if u = "s" then some (1, [0, 1]) else lengths u) amplitudeM false ⟨[12], 1, 0, some "s", some "cm"⟩ = none := by
  decide +kernel

/-- Days since 2000 and since 1950. -/
example : ¬ DatesKept lengths (fun u => if u = "days since 2000-01-01" then some 18262 else if u = "days since 1950-01-01 00:00:00" then some 0 else none) :=
  dates_wrong (i := "days since 2000-01-01") (o := "days since 1950-01-01 00:00:00") (p := 18262) (q := 0) (by decide +kernel)
    (by decide +kernel) (by decide +kernel) (by norm_num)

end Verif.Store
