import Verif.Tracking.OrderFinal
import Verif.Trackers.OrderMerge

/-!
# C218: the files of EddyFinalTracking when the rows of the files are in another order, for the trackers of the library

`final_order` of `Verif.Tracking.OrderFinal` (src/scripts/EddyFinalTracking) with the three trackers of `Verif.Trackers.Run`.
-/

namespace Verif.Trackers

open Verif.Poly Verif.Match Verif.Tracking Verif.Tracking.Order Matching

/-! ### Specification -/

/-- The script gives three files which hold the same for the two sequences of files, or raises for both. -/
def SameFiles {α δ : Type} (cfg : Cfg α δ) (F F' : List (List α)) (sizeMin : Nat) : Prop :=
  ∃ s t, track cfg F = some s ∧ track cfg F' = some t ∧
    ((finalTracking cfg.virtual (F.map List.length) s.corrs s.currentId sizeMin = none ∧
        finalTracking cfg.virtual (F'.map List.length) t.corrs t.currentId sizeMin = none) ∨
      ∃ o o', finalTracking cfg.virtual (F.map List.length) s.corrs s.currentId sizeMin = some o ∧
        finalTracking cfg.virtual (F'.map List.length) t.corrs t.currentId sizeMin = some o' ∧ SameOutput F F' o o')

/-! ### Proofs -/

/-- **C218** the files after the default tracker. -/
theorem default_final_order {round : ℝ → Rat} {n : Nat} {f f' : List RObs} {fs fs' : List (List RObs)} (h0 : f.Perm f')
    (hf : List.Forall₂ List.Perm fs fs') (hr : EachDate Regular (defaultCfg round n) (swap init f) fs) (sizeMin : Nat) :
    SameFiles (defaultCfg round n) (f :: fs) (f' :: fs') sizeMin :=
  final_order _ h0 hf (each_date (fun _ _ h => default_free h) hr) sizeMin

/-- **C218** the files after the tracker by area. -/
theorem area_final_order {g : Areas} {cmin : Rat} {n : Nat} {f f' : List (Position × List Pt)} {fs fs' : List (List (Position × List Pt))} (h0 : f.Perm f')
    (hf : List.Forall₂ List.Perm fs fs')
    (hr : EachDate (fun p c => Plain g cmin (p.map (·.2)) (c.map (·.2))) (areaRunCfg g cmin n) (swap init f) fs) (sizeMin : Nat) :
    SameFiles (areaRunCfg g cmin n) (f :: fs) (f' :: fs') sizeMin :=
  final_order _ h0 hf (each_date (fun _ _ h => area_free h) hr) sizeMin

/-- **C218** the files after the tracker of Chelton. -/
theorem chelton_final_order {g : Ground} {round : ℝ → Rat} {n : Nat} {f f' : List Obs} {fs fs' : List (List Obs)} (h0 : f.Perm f')
    (hf : List.Forall₂ List.Perm fs fs') (hr : EachDate (fun p c => Clear g p c ∧ p ≠ [] ∧ c ≠ []) (cheltonCfg g round n) (swap init f) fs) (sizeMin : Nat) :
    SameFiles (cheltonCfg g round n) (f :: fs) (f' :: fs') sizeMin :=
  final_order _ h0 hf (each_date (fun _ _ h => chelton_free h) hr) sizeMin

/-- **C218** the condition on the ties is needed: with two couples of the same cost, another eddy is left alone. -/
theorem area_final_ties_wrong : ∃ (g : Areas) (f f' c : List (Position × List Pt)), f.Perm f' ∧ (f.map (·.2)).Nodup ∧
    ¬ SameFiles (areaRunCfg g 0 1) [f, c] [f', c] 3 := by
  refine ⟨tieAreas, tieA, tieA.reverse, tieB, (List.reverse_perm _).symm, by decide +kernel, ?_⟩
  rintro ⟨s, t, es, et, h⟩
  have e1 : (track (areaRunCfg tieAreas 0 1) [tieA, tieB]).map (fun s =>
      (finalTracking (areaRunCfg tieAreas 0 1).virtual [2, 1] s.corrs s.currentId 3).map (·.untracked)) = some (some [[1], []]) := by decide +kernel
  have e2 : (track (areaRunCfg tieAreas 0 1) [tieA.reverse, tieB]).map (fun s =>
      (finalTracking (areaRunCfg tieAreas 0 1).virtual [2, 1] s.corrs s.currentId 3).map (·.untracked)) = some (some [[1], []]) := by decide +kernel
  rw [es] at e1
  rw [et] at e2
  have e1 := Option.some.inj e1
  have e2 := Option.some.inj e2
  beta_reduce at e1 e2
  rcases h with ⟨h1, _⟩ | ⟨o, o', h1, h2, h3⟩
  · rw [show [tieA, tieB].map List.length = [2, 1] from rfl] at h1
    rw [h1] at e1
    cases e1
  · rw [show [tieA, tieB].map List.length = [2, 1] from rfl] at h1
    rw [show [tieA.reverse, tieB].map List.length = [2, 1] from rfl] at h2
    rw [h1] at e1
    rw [h2] at e2
    have u1 : o.untracked = [[1], []] := Option.some.inj e1
    have u2 : o'.untracked = [[1], []] := Option.some.inj e2
    have := h3.alone
    rw [u1, u2] at this
    simp [aloneOf, tieA] at this

/-! ### Examples -/

/-- The two eddies of each date, with the rows of the second file exchanged. -/
example (round : ℝ → Rat) (n sizeMin : Nat) : SameFiles (cheltonCfg sea round n) [twoA, twoB] [twoA, twoB.reverse] sizeMin :=
  chelton_final_order (.refl _) (.cons (List.reverse_perm _).symm .nil) ⟨fun u p hu hp => by
      have hu : some (swap (init : St Obs Position) twoA |> fun s => swap s twoB) = some u := hu
      obtain rfl := Option.some.inj hu
      obtain rfl : twoA = p := Option.some.inj hp
      exact ⟨two_clear, by simp [twoA], by simp [twoB]⟩, fun _ _ => trivial⟩ sizeMin

end Verif.Trackers
