import Mathlib.Data.List.Sort
import Mathlib.Data.List.Dedup
import Mathlib.Algebra.Order.Floor.Ring
import Mathlib.Algebra.Order.Archimedean.Basic
import Mathlib.Data.Rat.Floor
import Mathlib.Tactic.Linarith
import Mathlib.Tactic.FieldSimp

/-!
# Python and numpy indexing

Small executable counterparts of the indexing rules of Python/numpy used in the models. No lemma about the code here.
-/

namespace Verif.Py

/-- Position designated by a Python index in a sequence of length `n`: negative indices count from the end; `none` is an
`IndexError`. -/
def idx (n : Nat) (i : Int) : Option Nat :=
  if 0 ≤ i then (if i < n then some i.toNat else none)
  else if 0 ≤ i + n then some (i + n).toNat else none

/-- `a[i]`. -/
def get {α : Type} (l : List α) (i : Int) : Option α := (idx l.length i).bind (fun k => l[k]?)

/-- `a[i] = v`. -/
def set {α : Type} (l : List α) (i : Int) (v : α) : Option (List α) := (idx l.length i).map (fun k => l.set k v)

/-- Bound of a slice: negative bounds count from the end, then clipping. -/
def bound (n : Nat) (i : Int) : Nat := if 0 ≤ i then min i.toNat n else (i + n).toNat

/-- `a[lo:hi] = v` (scalar `v`). -/
def sliceFill {α : Type} (l : List α) (lo hi : Int) (v : α) : List α :=
  l.mapIdx (fun k x => if bound l.length lo ≤ k ∧ k < bound l.length hi then v else x)

/-- `a[m]` for a Boolean mask of the same length. -/
def select {α : Type} (m : List Bool) (a : List α) : List α :=
  (m.zip a).filterMap (fun p => if p.1 then some p.2 else none)

/-- `numpy.unique`: sorted distinct values. -/
def unique (a : List Nat) : List Nat := a.dedup.insertionSort (· ≤ ·)

/-- `v.repeat(counts)`. -/
def rep {α : Type} (v : List α) (counts : List Nat) : List α :=
  (v.zip counts).flatMap (fun p => List.replicate p.2 p.1)

/-- Python `x % m` on (exact) floats for `m > 0`: floored remainder. -/
def fmod (x m : Rat) : Rat := x - m * ⌊x / m⌋

/-! ### Elementary lemmas -/

theorem mem_unique {a : List Nat} {x : Nat} : x ∈ unique a ↔ x ∈ a := by
  unfold unique; rw [List.mem_insertionSort, List.mem_dedup]

theorem unique_nodup (a : List Nat) : (unique a).Nodup :=
  (List.perm_insertionSort _ _).nodup_iff.2 (List.nodup_dedup a)

theorem unique_sorted (a : List Nat) : (unique a).Pairwise (· < ·) := by
  have h1 : (unique a).Pairwise (· ≤ ·) := List.pairwise_insertionSort _ _
  have h2 := unique_nodup a
  rw [List.nodup_iff_pairwise_ne] at h2
  exact (h1.and h2).imp (fun ⟨h, h'⟩ => lt_of_le_of_ne h h')

theorem select_map {α β : Type} (v : List β) (p : β → Bool) (f : β → α) :
    select (v.map p) (v.map f) = (v.filter p).map f := by
  induction v with
  | nil => rfl
  | cons x v ih =>
    simp only [select] at ih
    cases h : p x <;> simp [select, h, ih]

theorem fmod_spec (x : Rat) {m : Rat} (hm : 0 < m) : 0 ≤ fmod x m ∧ fmod x m < m ∧ ∃ k : Int, fmod x m = x + k * m := by
  unfold fmod
  have h1 := Int.floor_le (x / m)
  have h2 := Int.lt_floor_add_one (x / m)
  rw [le_div_iff₀ hm] at h1
  rw [div_lt_iff₀ hm] at h2
  refine ⟨by linarith, by linarith, -⌊x / m⌋, by push_cast; ring⟩

theorem get_natCast {α : Type} (l : List α) (k : Nat) : get l (k : Int) = l[k]? := by
  unfold get idx
  by_cases h : k < l.length
  · simp [h]
  · simp [h]

end Verif.Py
