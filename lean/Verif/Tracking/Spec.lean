import Verif.Tracking.Model

/-!
# What a user can observe of a link table history

`LinkAt h k l`: `l` is a link joining dataset `k` to dataset `k + 1` (`h` is stored newest first).
-/

namespace Verif.Tracking

/-- `l` belongs to link table `k`, counted from the first one. -/
def LinkAt (h : List (List Link)) (k : Nat) (l : Link) : Prop := ∃ c, h.reverse[k]? = some c ∧ l ∈ c

/-- The identifier `i` is used by link table `k`. -/
def UsedAt (h : List (List Link)) (k i : Nat) : Prop := ∃ l, LinkAt h k l ∧ l.id = i

/-- The matching function is one-to-one and in range (what C01 proves about the association functions). -/
def OneToOne {α : Type} (t : List α → List α → List (Nat × Nat × Rat)) : Prop :=
  ∀ p c, ((t p c).map (·.1)).Nodup ∧ ((t p c).map (·.2.1)).Nodup ∧ ∀ m ∈ t p c, m.1 < p.length ∧ m.2.1 < c.length

/-- A consistent history. `nbV` is the number of allowed virtual steps. -/
structure WF (nbV : Nat) (h : List (List Link)) : Prop where
  /-- inside one link table, identifiers, sources and targets are pairwise distinct -/
  nodup : ∀ c ∈ h, (ids c).Nodup ∧ (c.map (·.inp)).Nodup ∧ (c.map (·.out)).Nodup
  /-- a virtual link resumes a track lost exactly `vlen` datasets ago -/
  virt : ∀ k l, LinkAt h k l → l.virt = true → 1 ≤ l.vlen ∧ l.vlen ≤ nbV ∧ l.vlen < k ∧ UsedAt h (k - 1 - l.vlen) l.id ∧
    ∀ j, k - 1 - l.vlen < j → j < k → ¬ UsedAt h j l.id
  /-- a real link either continues the link arriving at its source, or starts a track with a fresh identifier -/
  real : ∀ k l, LinkAt h k l → l.virt = false →
    (∃ k' l', k = k' + 1 ∧ LinkAt h k' l' ∧ l'.out = l.inp ∧ l'.id = l.id) ∨
    ((∀ j, j < k → ¬ UsedAt h j l.id) ∧ ∀ k' l', k = k' + 1 → LinkAt h k' l' → l'.out ≠ l.inp)

end Verif.Tracking
