import Verif.Tracking.OrderFilled
import Verif.Trackers.OrderFinal

/-!
# C219: the virtual observations of EddyFinalTracking when the rows of the files are in another order, for the trackers of the library

`filled_order` of `Verif.Tracking.OrderFilled` (src/scripts/EddyFinalTracking:79-83) with the three trackers of `Verif.Trackers.Run`.
-/

namespace Verif.Trackers

open Verif.Poly Verif.Match Verif.Tracking Verif.Tracking.Order Matching

/-! ### Specification -/

/-- After the interpolation the long and the short file hold the same tracks for the two sequences of files, or the script raises for both. -/
def SameFilled {α δ : Type} (cfg : Cfg α δ) (F F' : List (List α)) (sizeMin : Nat) : Prop :=
  ∀ (time : α → Rat), (∀ a, time a ≠ 0) → ∀ fields : List (α → Rat),
  ∃ s t, track cfg F = some s ∧ track cfg F' = some t ∧
    ((finalTracking cfg.virtual (F.map List.length) s.corrs s.currentId sizeMin = none ∧
        finalTracking cfg.virtual (F'.map List.length) t.corrs t.currentId sizeMin = none) ∨
      ∃ o o', finalTracking cfg.virtual (F.map List.length) s.corrs s.currentId sizeMin = some o ∧
        finalTracking cfg.virtual (F'.map List.length) t.corrs t.currentId sizeMin = some o' ∧
        (filledTracks F' time fields o'.long).Perm (filledTracks F time fields o.long) ∧
        (filledTracks F' time fields o'.short).Perm (filledTracks F time fields o.short))

/-! ### Proofs -/

/-- **C219** the virtual observations after the default tracker. -/
theorem default_filled_order {round : ℝ → Rat} {n : Nat} {f f' : List RObs} {fs fs' : List (List RObs)} (h0 : f.Perm f')
    (hf : List.Forall₂ List.Perm fs fs') (hr : EachDate Regular (defaultCfg round n) (swap init f) fs) (sizeMin : Nat) :
    SameFilled (defaultCfg round n) (f :: fs) (f' :: fs') sizeMin :=
  fun time ht fields => filled_order _ h0 hf (each_date (fun _ _ h => default_free h) hr) sizeMin time ht fields

/-- **C219** the virtual observations after the tracker by area. -/
theorem area_filled_order {g : Areas} {cmin : Rat} {n : Nat} {f f' : List (Position × List Pt)} {fs fs' : List (List (Position × List Pt))} (h0 : f.Perm f')
    (hf : List.Forall₂ List.Perm fs fs')
    (hr : EachDate (fun p c => Plain g cmin (p.map (·.2)) (c.map (·.2))) (areaRunCfg g cmin n) (swap init f) fs) (sizeMin : Nat) :
    SameFilled (areaRunCfg g cmin n) (f :: fs) (f' :: fs') sizeMin :=
  fun time ht fields => filled_order _ h0 hf (each_date (fun _ _ h => area_free h) hr) sizeMin time ht fields

/-- **C219** the virtual observations after the tracker of Chelton. -/
theorem chelton_filled_order {g : Ground} {round : ℝ → Rat} {n : Nat} {f f' : List Obs} {fs fs' : List (List Obs)} (h0 : f.Perm f')
    (hf : List.Forall₂ List.Perm fs fs') (hr : EachDate (fun p c => Clear g p c ∧ p ≠ [] ∧ c ≠ []) (cheltonCfg g round n) (swap init f) fs) (sizeMin : Nat) :
    SameFilled (cheltonCfg g round n) (f :: fs) (f' :: fs') sizeMin :=
  fun time ht fields => filled_order _ h0 hf (each_date (fun _ _ h => chelton_free h) hr) sizeMin time ht fields

/-! ### Examples -/

/-- The two eddies of each date, with the rows of the second file exchanged. -/
example (round : ℝ → Rat) (n sizeMin : Nat) : SameFilled (cheltonCfg sea round n) [twoA, twoB] [twoA, twoB.reverse] sizeMin :=
  chelton_filled_order (.refl _) (.cons (List.reverse_perm _).symm .nil) ⟨fun u p hu hp => by
      have hu : some (swap (init : St Obs Position) twoA |> fun s => swap s twoB) = some u := hu
      obtain rfl := Option.some.inj hu
      obtain rfl : twoA = p := Option.some.inj hp
      exact ⟨two_clear, by simp [twoA], by simp [twoB]⟩, fun _ _ => trivial⟩ sizeMin

end Verif.Trackers
