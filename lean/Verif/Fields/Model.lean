import Mathlib.Data.List.Nodup
import Mathlib.Data.List.Dedup
import Mathlib.Data.List.Perm.Subperm

/-!
# Model of the fields of a dataset

`elements`, `dtype`, `coherence`, `concatenate`, `copy`, `add_fields`, `remove_fields` (src/py_eddy_tracker/observations/observation.py). A
dataset is a structured array: names in an order, and rows of values in this order. Types of the values are not modelled.
-/

namespace Verif.Fields

/-- A list of names given by the user of the constructor: a list, or a python set (then the order is the one of the set). -/
inductive Names where
  | list (l : List String)
  | set (l : List String)
  deriving DecidableEq

/-- The names. -/
def Names.names : Names → List String
  | .list l => l
  | .set l => l

/-- `==` of python between lists and sets. -/
def Names.eqv : Names → Names → Bool
  | .list a, .list b => decide (a = b)
  | .set a, .set b => a.all (· ∈ b) && b.all (· ∈ a)
  | _, _ => false

/-- The class: `ELEMENTS`, and the names which the class adds to `elements` (none, or `track, n, virtual`: tracking.py:219-223, or the ones of
networks: network.py:256-268). `order` is `list(set(l))`: it depends on the machine. -/
structure Class where
  base : List String
  always : List String
  order : List String → List String

/-- What is known of `list(set(l))`. -/
def Class.Ordered (c : Class) : Prop := ∀ l, (c.order l).Nodup ∧ ∀ s, s ∈ c.order l ↔ s ∈ l

/-- Parameters of a dataset (observation.py:220-241). -/
structure Config where
  extra : Names
  arrays : Names
  nArr : Nat
  only : Option (List String)

/-- `elements` (observation.py:510-520). -/
def elements (c : Class) (k : Config) : List String :=
  let l := c.base ++ (if k.nArr > 0 then k.arrays.names else []) ++ k.extra.names
  let l := match k.only with
    | none => l
    | some o => l.filter (fun s => decide (s ∈ o))
  c.order (c.order l ++ c.always)

/-- A dataset: the fields of the array are the elements at the construction. -/
structure Data (V : Type) where
  config : Config
  rows : List (List V)

/-- `fields`. -/
def Data.fields {V : Type} (c : Class) (d : Data V) : List String := elements c d.config

/-- Value of a field of a row. -/
def field {V : Type} (names : List String) (row : List V) (s : String) : Option V := row[names.idxOf s]?

/-- `d[s]`: a column. -/
def Data.col {V : Type} (c : Class) (d : Data V) (s : String) : List (Option V) := d.rows.map (fun r => field (d.fields c) r s)

/-- Rows have a value for each field. -/
def Data.Wf {V : Type} (c : Class) (d : Data V) : Prop := ∀ r ∈ d.rows, r.length = (d.fields c).length

/-- `coherence` (observation.py:522-527). -/
def coherence (a b : Config) : Bool := a.extra.eqv b.extra && decide (a.nArr = b.nArr) && a.arrays.eqv b.arrays

/-- `concatenate` (observation.py:530-545). The assignment of a structured array is by position, with the same number of fields. `none` is an
exception. -/
def concatenate {V : Type} (c : Class) : List (Data V) → Option (Data V)
  | [] => none
  | a :: l =>
    if (a :: l).all (fun b => coherence a.config b.config && decide ((b.fields c).length = (a.fields c).length)) then
      some ⟨a.config, (a :: l).flatMap (·.rows)⟩
    else none

/-- Copy of the fields of `names'` by their names (observation.py:436-439, 458-460), in a new array of `names` full of `zero`. -/
def remap {V : Type} (zero : V) (old names' : List String) (row : List V) : List V :=
  names'.map (fun s => if s ∈ old then (field old row s).getD zero else zero)

/-- `add_fields` (observation.py:442-461); numpy cannot concatenate a python set. -/
def addFields {V : Type} (c : Class) (zero : V) (d : Data V) (fields arrayFields : List String) : Option (Data V) :=
  match d.config.extra, d.config.arrays with
  | .list e, .list a =>
    let k : Config := ⟨.list (e ++ fields), .list (a ++ arrayFields), d.config.nArr, some (d.fields c ++ fields ++ arrayFields)⟩
    some ⟨k, d.rows.map (remap zero (d.fields c) (elements c k))⟩
  | _, _ => none

/-- `remove_fields` (observation.py:419-440): the parameters become python sets. -/
def removeFields {V : Type} (c : Class) (zero : V) (d : Data V) (fields : List String) : Data V :=
  let k : Config := ⟨.set (d.config.extra.names.filter (fun s => decide (s ∉ fields))), .set (d.config.arrays.names.filter (fun s => decide (s ∉ fields))),
    d.config.nArr, some ((d.fields c).filter (fun s => decide (s ∉ fields)))⟩
  ⟨k, d.rows.map (remap zero (d.fields c) (elements c k))⟩

/-- `copy` (observation.py:698-717). -/
def copy {V : Type} (c : Class) (zero : V) (d : Data V) : Data V := ⟨d.config, d.rows.map (remap zero (d.fields c) (d.fields c))⟩

end Verif.Fields
