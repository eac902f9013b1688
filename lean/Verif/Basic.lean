import Mathlib.Logic.Function.Basic
import Mathlib.Logic.Relation

/-!
# Shared array vocabulary

Mutable numpy arrays are modelled either as lists or, inside loops, as total functions from indices together with an
explicit bounds check made before the access.
-/

namespace Verif

/-- numpy fancy assignment `f[idx] = vals` on an index array: elements are written in order, so that for a repeated
index the last write wins (numpy documentation, "Assigning values to indexed arrays"). -/
def scatter {α : Type} (f : Nat → α) (ws : List (Nat × α)) : Nat → α :=
  ws.foldl (fun g w => Function.update g w.1 w.2) f

@[simp] theorem scatter_nil {α : Type} (f : Nat → α) : scatter f [] = f := rfl

theorem scatter_cons {α : Type} (f : Nat → α) (w : Nat × α) (ws : List (Nat × α)) :
    scatter f (w :: ws) = scatter (Function.update f w.1 w.2) ws := rfl

theorem scatter_of_not_mem {α : Type} (ws : List (Nat × α)) (f : Nat → α) (i : Nat)
    (h : ∀ w ∈ ws, w.1 ≠ i) : scatter f ws i = f i := by
  induction ws generalizing f with
  | nil => rfl
  | cons w ws ih =>
    rw [scatter_cons, ih _ (fun x hx => h x (List.mem_cons_of_mem _ hx))]
    have := h w List.mem_cons_self
    simp [Function.update, this.symm]

/-- After a scatter an index holds either its old value (and was not written) or a written value. -/
theorem scatter_cases {α : Type} (ws : List (Nat × α)) (f : Nat → α) (i : Nat) :
    ((∀ w ∈ ws, w.1 ≠ i) ∧ scatter f ws i = f i) ∨ ((i, scatter f ws i) ∈ ws) := by
  induction ws generalizing f with
  | nil => left; simp
  | cons w ws ih =>
    rw [scatter_cons]
    rcases ih (Function.update f w.1 w.2) with ⟨h1, h2⟩ | h
    · by_cases hw : w.1 = i
      · right
        rw [h2, ← hw]
        simp
      · left
        refine ⟨?_, ?_⟩
        · intro x hx
          rcases List.mem_cons.1 hx with rfl | hx
          · exact hw
          · exact h1 x hx
        · rw [h2]; simp [Function.update, Ne.symm hw]
    · right; exact List.mem_cons_of_mem _ h

theorem scatter_mem {α : Type} (ws : List (Nat × α)) (f : Nat → α) (i : Nat)
    (h : ∃ w ∈ ws, w.1 = i) : (i, scatter f ws i) ∈ ws := by
  rcases scatter_cases ws f i with ⟨h1, _⟩ | h'
  · obtain ⟨w, hw, e⟩ := h; exact absurd e (h1 w hw)
  · exact h'

end Verif
