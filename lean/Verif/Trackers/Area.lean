import Verif.Trackers.Model
import Verif.Match.Props
import Verif.Matching.Props
import Verif.Sphere.Props

/-!
# C104, C105: the links of the tracker by area and of the default tracker
-/

namespace Verif.Trackers

open Verif.Poly Verif.Match

/-- The similarity of two polygons: area of the intersection over area of the union. -/
def iou (g : Areas) (c d : List Pt) : Rat := g.inter c d / (g.area c + g.area d - g.inter c d)

theorem scoreAt_iou {g : Areas} (hg : Coherent g) (k : Int) (c d : List Pt) : scoreAt g {} k c d = iou g c (turned k d) := by
  have h0 := hg.nonneg c (turned k d)
  unfold scoreAt iou ratio
  simp only [Bool.false_eq_true, false_and, or_false, if_false]
  split
  · rfl
  · rename_i hn
    by_cases hp : 0 < g.inter c (turned k d)
    · exfalso
      apply hn
      refine ⟨hp, ?_⟩
      have h1 := hg.left c (turned k d)
      have h2 := hg.right c (turned k d)
      exact div_nonneg h0 (by linarith)
    · have : g.inter c (turned k d) = 0 := le_antisymm (not_lt.1 hp) h0
      rw [this, zero_div]

theorem maskCmin_spec (cmin : Rat) : ∀ (l : List (Nat × Nat × Rat)) (m : Nat → Nat → Option Rat),
    (l.map (fun p => (p.1, p.2.1))).Nodup → ∀ i j v, maskCmin cmin l m i j = some v ↔
      (∃ c, (i, j, c) ∈ l ∧ cmin < c ∧ v = 1 - c) ∨ ((¬ ∃ c, (i, j, c) ∈ l ∧ cmin < c) ∧ m i j = some v)
  | [], m, _, i, j, v => by simp [maskCmin]
  | (a, b, c) :: l, m, hnd, i, j, v => by
    simp only [List.map_cons, List.nodup_cons] at hnd
    rw [maskCmin, maskCmin_spec cmin l _ hnd.2]
    by_cases hij : i = a ∧ j = b
    · obtain ⟨rfl, rfl⟩ := hij
      have hno : ∀ c', (i, j, c') ∉ l := fun c' hc' => hnd.1 (List.mem_map.2 ⟨_, hc', rfl⟩)
      by_cases hc : c > cmin
      · simp only [hc, if_true, and_self, List.mem_cons, hno, or_false, false_and, exists_false, not_false_eq_true, true_and, false_or]
        constructor
        · intro h
          exact Or.inl ⟨c, rfl, hc, by injection h with h; exact h.symm⟩
        · rintro (⟨c', h, _, rfl⟩ | ⟨h, _⟩)
          · injection h with _ h; injection h with _ h; rw [h]
          · exact absurd ⟨c, rfl, hc⟩ h
      · simp only [hc, if_false, List.mem_cons, hno, or_false, false_and, exists_false, not_false_eq_true, true_and, false_or]
        constructor
        · intro h
          refine Or.inr ⟨?_, h⟩
          rintro ⟨c', h', hc'⟩
          injection h' with _ h'; injection h' with _ h'
          exact hc (h' ▸ hc')
        · rintro (⟨c', h, hc', _⟩ | ⟨_, h⟩)
          · injection h with _ h; injection h with _ h
            exact absurd (h ▸ hc') hc
          · exact h
    · have e1 : ∀ c', ((i, j, c') ∈ (a, b, c) :: l ↔ (i, j, c') ∈ l) := fun c' => by
        rw [List.mem_cons]
        constructor
        · rintro (h | h)
          · injection h with h1 h; injection h with h2 h
            exact absurd ⟨h1, h2⟩ hij
          · exact h
        · exact Or.inr
      have e2 : (if c > cmin then fun x y => if x = a ∧ y = b then some (1 - c) else m x y else m) i j = m i j := by
        split
        · simp only [if_neg hij]
        · rfl
      rw [e2]
      simp only [e1]

/-- **C104**, full statement for contours of any size is limited by the boxes of `match` (C74). The tracker by area never raises; its links
are one to one; each link joins two contours whose similarity (in the turn where they meet) is above `cmin`, with the cost `1 - similarity`;
and a couple of contours above `cmin` which is not linked loses to a link of the same observation with at least the same similarity.
Missing: wide contours. -/
theorem area_tracking_partial {g : Areas} (hg : Coherent g) {cmin : Rat} (hc : 0 ≤ cmin) (l0 l1 : List (List Pt)) (h0 : [] ∉ l0)
    (h1 : [] ∉ l1) (hw : ∀ c ∈ l0, ∀ d ∈ l1, Narrow c d) :
    ∃ links, areaTracking g cmin l0 l1 = .ok links ∧ (links.map (·.1)).Nodup ∧ (links.map (·.2.1)).Nodup ∧
      (∀ i j v, (i, j, v) ∈ links → ∃ c d k, l0[i]? = some c ∧ l1[j]? = some d ∧ cmin < iou g c (turned k d) ∧
        v = some (1 - iou g c (turned k d))) ∧
      ∀ i j c d k, l0[i]? = some c → l1[j]? = some d → cmin < iou g c (turned k d) →
        ∃ i' j' s, (i', j', some (1 - s)) ∈ links ∧ (i' = i ∨ j' = j) ∧ iou g c (turned k d) ≤ s := by
  obtain ⟨hnd, hm⟩ := match_partial hg {} 0 l0 l1 h0 h1 hw
  have hcost : ∀ i j v, areaCosts g cmin l0 l1 i j = some v ↔
      ∃ c d k, l0[i]? = some c ∧ l1[j]? = some d ∧ cmin < iou g c (turned k d) ∧ v = 1 - iou g c (turned k d) := by
    intro i j v
    unfold areaCosts
    rw [maskCmin_spec cmin _ _ hnd]
    simp only [reduceCtorEq, and_false, or_false, hm]
    constructor
    · rintro ⟨s, ⟨c, d, e1, e2, _, k, _, rfl⟩, e4, rfl⟩
      rw [scoreAt_iou hg] at e4 ⊢
      exact ⟨c, d, k, e1, e2, e4, rfl⟩
    · rintro ⟨c, d, k, e1, e2, e3, rfl⟩
      refine ⟨_, ⟨c, d, e1, e2, (by linarith : (0 : Rat) ≤ iou g c (turned k d)), k, ?_, (scoreAt_iou hg k c d).symm⟩, e3, rfl⟩
      by_contra hn
      unfold iou at e3
      rw [hg.apart _ _ hn, zero_div] at e3
      linarith
  have hlt : ∀ i j, (areaCosts g cmin l0 l1 i j).isSome = true → i < l0.length ∧ j < l1.length := by
    intro i j h
    obtain ⟨v, hv⟩ := Option.isSome_iff_exists.1 h
    obtain ⟨c, d, k, e1, e2, _⟩ := (hcost i j v).1 hv
    exact ⟨(List.getElem?_eq_some_iff.1 e1).1, (List.getElem?_eq_some_iff.1 e2).1⟩
  have hfin : ∀ i j, (areaCosts g cmin l0 l1 i j).isSome = true → ∃ c, areaCosts g cmin l0 l1 i j = some c :=
    fun i j h => Option.isSome_iff_exists.1 h
  obtain ⟨R, eR, r1, r2, r3⟩ := Matching.solve_simultaneous_matching l0.length l1.length
    (fun i j => (areaCosts g cmin l0 l1 i j).isSome) (areaCosts g cmin l0 l1) hlt hfin
  have hst := Matching.solve_simultaneous_stable l0.length l1.length
    (fun i j => (areaCosts g cmin l0 l1 i j).isSome) (areaCosts g cmin l0 l1) hlt hfin R eR
  refine ⟨(Matching.whereMask l0.length l1.length R).map (fun p => (p.1, p.2, areaCosts g cmin l0 l1 p.1 p.2)), ?_, ?_, ?_, ?_, ?_⟩
  · simp only [areaTracking, Matching.trackingDefault, eR, Matching.whereMask_snd_nodup r3, if_true]
  · rw [List.map_map]
    exact Matching.whereMask_fst_nodup r2
  · rw [List.map_map]
    exact Matching.whereMask_snd_nodup r3
  · intro i j v h
    obtain ⟨⟨a, b⟩, hab, e⟩ := List.mem_map.1 h
    injection e with e1 e; injection e with e2 e3
    simp only at e1 e2 e3
    subst e1 e2 e3
    have hR := (Matching.mem_whereMask.1 hab).2.2
    obtain ⟨v, hv⟩ := Option.isSome_iff_exists.1 (r1 _ _ hR)
    simp only at hv
    obtain ⟨c, d, k, e1, e2, e3, e4⟩ := (hcost _ _ _).1 hv
    exact ⟨c, d, k, e1, e2, e3, by rw [hv, e4]⟩
  · intro i j c d k e1 e2 e3
    have hv := (hcost i j _).2 ⟨c, d, k, e1, e2, e3, rfl⟩
    have hsome : (areaCosts g cmin l0 l1 i j).isSome = true := by rw [hv]; rfl
    cases hR : R i j with
    | true =>
      refine ⟨i, j, iou g c (turned k d), List.mem_map.2 ⟨(i, j), Matching.mem_whereMask.2 ⟨(hlt _ _ hsome).1, (hlt _ _ hsome).2, hR⟩, ?_⟩,
        Or.inl rfl, le_refl _⟩
      simp only [hv]
    | false =>
      obtain ⟨i', j', c', h1, h2, h3, h4⟩ := hst i j hsome hR _ hv
      have hs' := hlt _ _ (r1 _ _ h1)
      refine ⟨i', j', 1 - c', List.mem_map.2 ⟨(i', j'), Matching.mem_whereMask.2 ⟨hs'.1, hs'.2, h1⟩, ?_⟩, h2, by linarith⟩
      simp only [h3, sub_sub_cancel]

/-- `cmin` is excluded: two equal contours of similarity 1 are not linked with `cmin = 1`. -/
theorem area_limit {g : Areas} (hg : Coherent g) (l0 l1 : List (List Pt)) (h0 : [] ∉ l0)
    (h1 : [] ∉ l1) (hw : ∀ c ∈ l0, ∀ d ∈ l1, Narrow c d) : areaTracking g 1 l0 l1 = .ok [] := by
  obtain ⟨links, e, _, _, h, _⟩ := area_tracking_partial hg (by norm_num : (0 : Rat) ≤ 1) l0 l1 h0 h1 hw
  rw [e]
  cases links with
  | nil => rfl
  | cons p l =>
    obtain ⟨i, j, v⟩ := p
    obtain ⟨c, d, k, _, _, e3, _⟩ := h i j v List.mem_cons_self
    exfalso
    have a := hg.left c (turned k d)
    have b := hg.right c (turned k d)
    have z := hg.nonneg c (turned k d)
    unfold iou at e3
    have : g.inter c (turned k d) / (g.area c + g.area (turned k d) - g.inter c (turned k d)) ≤ 1 := by
      apply div_le_one_of_le₀ <;> linarith
    linarith

/-! ### Examples -/

open Classical in
/-- Areas with which the hypotheses hold: polygons of area 1, which share one half when their boxes meet. -/
noncomputable def half : Areas := ⟨fun _ => 1, fun c d => if BoxesMeet c d then 1 / 2 else 0⟩

theorem half_coherent : Coherent half := by
  constructor <;> intro c d <;> simp only [half]
  · split <;> norm_num
  · split <;> norm_num
  · split <;> norm_num
  · intro h; rw [if_neg h]

theorem half_meet : BoxesMeet [(359, 0), (361, 0), (360, 1)] (turned 1 [(-1, 0), (1, 0), (0, 1)]) := by
  constructor <;> unfold turned <;> decide +kernel

theorem half_iou : iou half [(359, 0), (361, 0), (360, 1)] (turned 1 [(-1, 0), (1, 0), (0, 1)]) = 1 / 3 := by
  unfold iou half
  simp only [if_pos half_meet]
  norm_num

/-- The hypotheses hold for two contours at the longitude 0, in two turns, and they are linked with the default `cmin`. -/
example : ∃ links, areaTracking half (1 / 5) [[(359, 0), (361, 0), (360, 1)]] [[(-1, 0), (1, 0), (0, 1)]] = .ok links ∧
    ∃ v, (0, 0, v) ∈ links := by
  obtain ⟨links, e, _, _, h1, h2⟩ := area_tracking_partial half_coherent (by norm_num : (0 : Rat) ≤ 1 / 5)
    [[(359, 0), (361, 0), (360, 1)]] [[(-1, 0), (1, 0), (0, 1)]] (by simp) (by simp) (by
      intro c hc d hd
      rw [List.mem_singleton] at hc hd
      subst hc hd
      unfold Narrow
      decide +kernel)
  refine ⟨links, e, ?_⟩
  obtain ⟨i', j', s, hm, _, _⟩ := h2 0 0 _ _ 1 rfl rfl (by rw [half_iou]; norm_num)
  obtain ⟨c, d, k, e1, e2, _⟩ := h1 _ _ _ hm
  have a := (List.getElem?_eq_some_iff.1 e1).1
  have b := (List.getElem?_eq_some_iff.1 e2).1
  simp only [List.length_singleton, Nat.lt_one_iff] at a b
  subst a b
  exact ⟨_, hm⟩

/-! ### C108: the cost of the common area -/

/-- **C108**. Full statement in `CommonAreaTurn`. For contours whose first vertices are in the same half turn, the cost is one minus the
common area over the smallest area, masked exactly when there is no common area. -/
theorem common_area_partial {g : Areas} (hg : Coherent g) (a b : List Pt) (h0 : a ≠ []) (h1 : b ≠ []) (ha : 0 < g.area a)
    (hb : 0 < g.area b) (hx : |(a.headD (0, 0)).1 - (b.headD (0, 0)).1| ≤ 180) :
    commonArea g a b = some (if g.inter a b = 0 then none else some (1 - g.inter a b / min (g.area a) (g.area b))) := by
  have hm : 0 < min (g.area a) (g.area b) := lt_min ha hb
  have key : ∀ i : Rat, (1 - i / min (g.area a) (g.area b) = 1) ↔ i = 0 := by
    intro i
    constructor
    · intro h
      have : i / min (g.area a) (g.area b) = 0 := by linarith
      rcases div_eq_zero_iff.1 this with h | h
      · exact h
      · exact absurd h hm.ne'
    · rintro rfl; simp
  unfold commonArea
  simp only
  by_cases b1 : maxR (a.map (·.1)) < minR (b.map (·.1)) ∨ minR (a.map (·.1)) > maxR (b.map (·.1))
  · rw [if_pos b1]
    have : g.inter a b = 0 := hg.apart _ _ (fun h => by
      obtain ⟨u, hu, w, hw, h1'⟩ := h.west
      obtain ⟨u', hu', w', hw', h2'⟩ := h.east
      have m1 := (min_map (·.1) h0).2
      have m2 := (max_map (·.1) h0).2
      have m3 := (min_map (·.1) h1).2
      have m4 := (max_map (·.1) h1).2
      rcases b1 with h | h
      · have := m2 u' hu'; have := m3 w' hw'; simp only at *; linarith
      · have := m1 u hu; have := m4 w hw; simp only at *; linarith)
    simp [this]
  · rw [if_neg b1]
    by_cases b2 : maxR (a.map (·.2)) < minR (b.map (·.2)) ∨ minR (a.map (·.2)) > maxR (b.map (·.2))
    · rw [if_pos b2]
      have : g.inter a b = 0 := hg.apart _ _ (fun h => by
        obtain ⟨u, hu, w, hw, h1'⟩ := h.south
        obtain ⟨u', hu', w', hw', h2'⟩ := h.north
        have m1 := (min_map (·.2) h0).2
        have m2 := (max_map (·.2) h0).2
        have m3 := (min_map (·.2) h1).2
        have m4 := (max_map (·.2) h1).2
        rcases b2 with h | h
        · have := m2 u' hu'; have := m3 w' hw'; simp only at *; linarith
        · have := m1 u hu; have := m4 w hw; simp only at *; linarith)
      simp [this]
    · rw [if_neg b2, if_neg (not_lt.2 hx), if_neg hm.ne']
      simp only [Option.map_some, key]

/-- Full statement of C108: the cost does not depend on the turn of the longitudes of a contour. -/
def CommonAreaTurn : Prop := ∀ (g : Areas), Coherent g → ∀ (a b : List Pt) (k : Int), Narrow a b →
  BoxesMeet a (turned k b) → commonArea g a (turned k b) = commonArea g a b

/-- The boxes are compared before the longitudes are put in the same turn: two contours at the longitude 0, one with longitudes around 360
and one around 0, have no common area for this function. -/
theorem common_area_turn_wrong : (∀ g, commonArea g [(359, 0), (361, 0), (360, 1)] [(-1, 0), (1, 0), (0, 1)] = some none) ∧ ¬ CommonAreaTurn := by
  have h1 : ∀ g, commonArea g [(359, 0), (361, 0), (360, 1)] [(-1, 0), (1, 0), (0, 1)] = some none := by
    intro g
    unfold commonArea
    simp only
    rw [if_pos (by decide +kernel)]
    rfl
  refine ⟨h1, fun h => ?_⟩
  have h2 := h half half_coherent [(359, 0), (361, 0), (360, 1)] [(-1, 0), (1, 0), (0, 1)] 1 (by unfold Narrow; decide +kernel) half_meet
  rw [h1, common_area_partial half_coherent _ _ (by simp) (by simp [turned]) (by simp [half]) (by simp [half])
    (by simp only [turned]; decide +kernel)] at h2
  have : half.inter [(359, 0), (361, 0), (360, 1)] (turned 1 [(-1, 0), (1, 0), (0, 1)]) = 1 / 2 := by
    simp only [half, if_pos half_meet]
  rw [this] at h2
  norm_num at h2
  cases h2

end Verif.Trackers
