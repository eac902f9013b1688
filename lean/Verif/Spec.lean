import Mathlib.Logic.Relation

/-!
# Specification vocabulary

Small notions used in property statements; they do not refer to any model definition.
-/

namespace Verif

/-- `a` and `b` are connected through the listed pairs (equivalence closure). -/
def Conn (ps : List (Nat × Nat)) : Nat → Nat → Prop := Relation.EqvGen fun a b => (a, b) ∈ ps

end Verif
