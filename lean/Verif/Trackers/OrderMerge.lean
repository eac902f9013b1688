import Verif.Tracking.OrderMerge
import Verif.Trackers.Order

/-!
# C217: the merged dataset when the rows of the files are in another order, for the trackers of the library

`merge_order` and `sizes_order` of `Verif.Tracking.OrderMerge` (src/py_eddy_tracker/tracking.py:575-722) with the three trackers of `Verif.Trackers.Run`.
-/

namespace Verif.Trackers

open Verif.Poly Verif.Match Verif.Tracking Verif.Tracking.Order Matching

/-! ### Specification -/

/-- Two runs give the same merged dataset, the tracks under other numbers: track `i` of the first is track `ρ i` of the second, it has as many rows,
and each row has the same date, the same observation and the same cost. -/
def SameMerged {α δ : Type} (cfg : Cfg α δ) (F F' : List (List α)) : Prop :=
  ∃ s t ρ, track cfg F = some s ∧ track cfg F' = some t ∧ t.currentId = s.currentId ∧ Function.Injective ρ ∧
    (∀ i, i < s.currentId → ρ i < s.currentId) ∧ (∀ i, counts cfg t (ρ i) = counts cfg s i) ∧
    nbObs (counts cfg t) t.currentId = nbObs (counts cfg s) s.currentId ∧
    ∀ i n, n < counts cfg s i →
      rowSeen F' ((merged cfg t).rows (start (counts cfg t) (ρ i) + n)) = rowSeen F ((merged cfg s).rows (start (counts cfg s) i + n)) ∧
      (merged cfg t).cost (start (counts cfg t) (ρ i) + n) = (merged cfg s).cost (start (counts cfg s) i + n)

/-! ### Proofs -/

theorem same_merged {α δ : Type} (cfg : Cfg α δ) {f f' : List α} {fs fs' : List (List α)} (h0 : f.Perm f') (hf : List.Forall₂ List.Perm fs fs')
    (hr : OrderRun cfg (swap init f) fs) : SameMerged cfg (f :: fs) (f' :: fs') := by
  obtain ⟨s, t, ρ, e1, e2, h1, h2, h3, h4, h5⟩ := merge_order cfg h0 hf hr
  obtain ⟨s', t', e1', e2', _, _, h6, _⟩ := sizes_order cfg h0 hf hr
  rw [e1] at e1'
  rw [e2] at e2'
  obtain rfl := Option.some.inj e1'
  obtain rfl := Option.some.inj e2'
  exact ⟨s, t, ρ, e1, e2, h1, h2, h3, h4, h6, h5⟩

/-- **C217** the merged dataset of the default tracker. -/
theorem default_merge_order {round : ℝ → Rat} {n : Nat} {f f' : List RObs} {fs fs' : List (List RObs)} (h0 : f.Perm f')
    (hf : List.Forall₂ List.Perm fs fs') (hr : EachDate Regular (defaultCfg round n) (swap init f) fs) :
    SameMerged (defaultCfg round n) (f :: fs) (f' :: fs') :=
  same_merged _ h0 hf (each_date (fun _ _ h => default_free h) hr)

/-- **C217** the merged dataset of the tracker by area. -/
theorem area_merge_order {g : Areas} {cmin : Rat} {n : Nat} {f f' : List (Position × List Pt)} {fs fs' : List (List (Position × List Pt))} (h0 : f.Perm f')
    (hf : List.Forall₂ List.Perm fs fs')
    (hr : EachDate (fun p c => Plain g cmin (p.map (·.2)) (c.map (·.2))) (areaRunCfg g cmin n) (swap init f) fs) :
    SameMerged (areaRunCfg g cmin n) (f :: fs) (f' :: fs') :=
  same_merged _ h0 hf (each_date (fun _ _ h => area_free h) hr)

/-- **C217** the merged dataset of the tracker of Chelton. -/
theorem chelton_merge_order {g : Ground} {round : ℝ → Rat} {n : Nat} {f f' : List Obs} {fs fs' : List (List Obs)} (h0 : f.Perm f')
    (hf : List.Forall₂ List.Perm fs fs') (hr : EachDate (fun p c => Clear g p c ∧ p ≠ [] ∧ c ≠ []) (cheltonCfg g round n) (swap init f) fs) :
    SameMerged (cheltonCfg g round n) (f :: fs) (f' :: fs') :=
  same_merged _ h0 hf (each_date (fun _ _ h => chelton_free h) hr)

/-- **C217** the condition on the ties is needed for the merged dataset too. -/
theorem area_merge_ties_wrong : ∃ (g : Areas) (f f' c : List (Position × List Pt)), f.Perm f' ∧ (f.map (·.2)).Nodup ∧
    ¬ SameMerged (areaRunCfg g 0 1) [f, c] [f', c] := by
  refine ⟨tieAreas, tieA, tieA.reverse, tieB, (List.reverse_perm _).symm, by decide +kernel, ?_⟩
  rintro ⟨s, t, ρ, es, et, hc, hi, hl, _, _, h⟩
  have e1 : (track (areaRunCfg tieAreas 0 1) [tieA, tieB]).map (fun s => (s.currentId, counts (areaRunCfg tieAreas 0 1) s 0,
      (merged (areaRunCfg tieAreas 0 1) s).rows (start (counts (areaRunCfg tieAreas 0 1) s) 0 + 0))) = some (1, 2, some (0, 0)) := by decide +kernel
  have e2 : (track (areaRunCfg tieAreas 0 1) [tieA.reverse, tieB]).map (fun s =>
      (merged (areaRunCfg tieAreas 0 1) s).rows (start (counts (areaRunCfg tieAreas 0 1) s) 0 + 0)) = some (some (0, 0)) := by decide +kernel
  rw [es] at e1
  rw [et] at e2
  simp only [Option.map_some, Option.some.injEq, Prod.mk.injEq] at e1 e2
  obtain ⟨c1, c2, e1⟩ := e1
  have h0 : ρ 0 = 0 := by
    have := hl 0 (by omega)
    omega
  have := (h 0 0 (by omega)).1
  rw [h0, e1, e2] at this
  simp [rowSeen, tieA] at this

/-! ### Examples -/

/-- The two eddies of each date, with the rows of the second file exchanged. -/
example (round : ℝ → Rat) (n : Nat) : SameMerged (cheltonCfg sea round n) [twoA, twoB] [twoA, twoB.reverse] :=
  chelton_merge_order (.refl _) (.cons (List.reverse_perm _).symm .nil) ⟨fun u p hu hp => by
      have hu : some (swap (init : St Obs Position) twoA |> fun s => swap s twoB) = some u := hu
      obtain rfl := Option.some.inj hu
      obtain rfl : twoA = p := Option.some.inj hp
      exact ⟨two_clear, by simp [twoA], by simp [twoB]⟩, fun _ _ => trivial⟩

end Verif.Trackers
