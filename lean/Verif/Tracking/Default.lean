import Verif.Tracking.SelectProps
import Verif.Matching.Props
import Mathlib.Algebra.Order.Ring.Unbundled.Rat

/-!
# The default association function satisfies the hypothesis of the tracking theorems
-/

namespace Verif.Tracking

variable {α δ : Type}

/-- `EddiesObservations.tracking` (observation.py:1524-1545): candidate mask and costs are arbitrary functions of the two
datasets, the links come from `solve_function` and `post_process_link`, the cost is read in the matrix. The exception of
`post_process_link` is unreachable (`tracking_links_one_to_one`); it is mapped to no link here. -/
def defaultTracking (cand : List α → List α → Nat → Nat → Bool) (cost : List α → List α → Nat → Nat → Rat)
    (p c : List α) : List (Nat × Nat × Rat) :=
  match Matching.trackingDefault p.length c.length
      (fun i j => cand p c i j && (decide (i < p.length) && decide (j < c.length))) (fun i j => some (cost p c i j)) with
  | .ok links => links.map (fun l => (l.1, l.2, cost p c l.1 l.2))
  | .error _ => []

/-- C01 supplies the hypothesis of C06-C11 for the default tracker, whatever the candidates and costs. -/
theorem defaultTracking_oneToOne (cand : List α → List α → Nat → Nat → Bool) (cost : List α → List α → Nat → Nat → Rat) :
    OneToOne (defaultTracking cand cost) := by
  intro p c
  obtain ⟨links, e, h1, h2, h3⟩ := Matching.tracking_links_one_to_one p.length c.length
    (fun i j => cand p c i j && (decide (i < p.length) && decide (j < c.length))) (fun i j => some (cost p c i j))
    (fun i j h => by simp at h; exact h.2) (fun i j _ => ⟨_, rfl⟩)
  unfold defaultTracking
  rw [e]
  simp only [List.map_map]
  refine ⟨h2, h3, fun m hm => ?_⟩
  obtain ⟨l, hl, rfl⟩ := List.mem_map.1 hm
  have := h1 l hl
  simp at this
  exact this.2

/-- C06, C07 and C09 together for the default tracker: every run succeeds, the merged table holds each linked observation
once, and `get_unused_data` returns the others. -/
theorem default_run (cand : List α → List α → Nat → Nat → Bool) (cost : List α → List α → Nat → Nat → Rat)
    (ext : α → α → α × δ) (pro : α → δ → α) (nbV : Nat) (files : List (List α)) (h2 : 2 ≤ files.length) :
    ∃ s U, track ⟨defaultTracking cand cost, ext, pro, nbV⟩ files = some s ∧
      unused (decide (0 < nbV)) (files.map List.length) s.corrs.reverse = some U ∧
      ∀ (d : Nat) f u, files[d]? = some f → U[d]? = some u → ∀ j, j < f.length →
        (j ∈ u ↔ ¬ ∃ r, r < nbObs (counts ⟨defaultTracking cand cost, ext, pro, nbV⟩ s) s.currentId ∧
          (merged ⟨defaultTracking cand cost, ext, pro, nbV⟩ s).rows r = some (d, j)) := by
  have ht := defaultTracking_oneToOne cand cost
  obtain ⟨s, e, _⟩ := track_total ⟨defaultTracking cand cost, ext, pro, nbV⟩ ht files
    (by rintro rfl; simp at h2)
  obtain ⟨U, h1, _, h3⟩ := unused_spec _ ht files s e h2
  exact ⟨s, U, e, h1, fun d f u hf hu j hj => by rw [h3 d f u hf hu j]; exact ⟨fun h => h.2, fun h => ⟨hj, h⟩⟩⟩

end Verif.Tracking
