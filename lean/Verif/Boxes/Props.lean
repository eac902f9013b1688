import Verif.Boxes.Model
import Verif.Bins.Props
import Mathlib.Algebra.BigOperators.Group.Finset.Basic
import Mathlib.Algebra.BigOperators.Group.Finset.Piecewise

/-!
# C33: `grid_box_stat`; C34: `grid_count`; C61: `grid_stat`
-/

namespace Verif.Boxes

/-! ### C33 -/

/-- The values of the observations of a cell. -/
def valuesOf (g : Grid) (circular : Bool) (obs : List Obs) (c : Cell) : List Rat :=
  (obs.filter (fun o => decide (cellOf g circular o = c))).map (·.value)

/-- The cell holds at least one observation. -/
def Filled (g : Grid) (circular : Bool) (obs : List Obs) (c : Cell) : Prop := ∃ o ∈ obs, cellOf g circular o = c

/-- `c'` follows `c` among the non empty cells, in the order of the lines of the grid (latitude first). -/
def Next (g : Grid) (circular : Bool) (obs : List Obs) (c c' : Cell) : Prop :=
  Filled g circular obs c ∧ Filled g circular obs c' ∧ absIndex g c < absIndex g c' ∧
  ∀ d, Filled g circular obs d → ¬ (absIndex g c < absIndex g d ∧ absIndex g d < absIndex g c')

/-- C33 as stated: every non empty cell holds the statistic of its values, the other cells are masked. -/
def BoxStatRight (q : Rat) (g : Grid) (circular : Bool) (obs : List Obs) (r : Cell → Option Rat) : Prop :=
  ∀ c, (Filled g circular obs c → r c = some (percentile q (valuesOf g circular obs c))) ∧
    (¬ Filled g circular obs c → r c = none)

theorem percentile_perm (q : Rat) {l l' : List Rat} (h : l.Perm l') : percentile q l = percentile q l' := by
  unfold percentile
  have : l.insertionSort (· ≤ ·) = l'.insertionSort (· ≤ ·) := by
    apply List.Perm.eq_of_pairwise (le := (· ≤ ·))
    · intro a b _ _ h1 h2; exact le_antisymm h1 h2
    · exact List.pairwise_insertionSort _ _
    · exact List.pairwise_insertionSort _ _
    · exact (List.perm_insertionSort _ _).trans (h.trans (List.perm_insertionSort _ _).symm)
  rw [this]

/-- The loop on a sorted list of observations. `key` is the order of cells. -/
theorem boxLoop_spec (stat : List Rat → Rat) (cell : Nat → Cell) (value : Nat → Rat) (key : Cell → Int) :
    ∀ (l : List Nat) (c0 : Cell) (vs : List Rat) (g : Cell → Option Rat),
    (∀ a ∈ c0 :: l.map cell, ∀ b ∈ c0 :: l.map cell, key a = key b → a = b) →
    (c0 :: l.map cell).Pairwise (fun a b => key a ≤ key b) →
    (∀ c', c' = c0 ∨ c' ∉ l.map cell → boxLoop stat cell value l c0 vs g c' = g c') ∧
    (∀ c c', c' ∈ l.map cell → c' ≠ c0 → c ∈ c0 :: l.map cell → key c < key c' →
      (∀ d ∈ c0 :: l.map cell, ¬ (key c < key d ∧ key d < key c')) →
      boxLoop stat cell value l c0 vs g c' =
        some (stat ((if c = c0 then vs else []) ++ (l.filter (fun k => decide (cell k = c))).map value))) := by
  intro l
  induction l with
  | nil => intro c0 vs g _ _; exact ⟨fun _ _ => rfl, fun c c' h => by simp at h⟩
  | cons k l ih =>
    intro c0 vs g hinj hs
    rw [List.map_cons] at hinj hs
    have hs1 := List.pairwise_cons.1 hs
    have hs2 := List.pairwise_cons.1 hs1.2
    unfold boxLoop
    by_cases hk : cell k ≠ c0
    · rw [if_pos hk]
      obtain ⟨ih1, ih2⟩ := ih (cell k) [value k] (Function.update g (cell k) (some (stat vs)))
        (fun a ha b hb => hinj a (List.mem_cons_of_mem _ ha) b (List.mem_cons_of_mem _ hb)) hs1.2
      have hlt : key c0 < key (cell k) := by
        have h1 := hs1.1 (cell k) (by simp)
        rcases lt_or_eq_of_le h1 with h | h
        · exact h
        · exact absurd (hinj c0 (by simp) (cell k) (by simp) h).symm hk
      have hc0 : c0 ∉ cell k :: l.map cell := by
        intro h
        rcases List.mem_cons.1 h with h | h
        · exact hk h.symm
        · have := hs2.1 c0 h; omega
      refine ⟨?_, ?_⟩
      · intro c' hc'
        have hne : c' ≠ cell k ∧ c' ∉ l.map cell := by
          rcases hc' with rfl | h
          · exact ⟨fun h => hc0 (by simp [h]), fun h => hc0 (List.mem_cons_of_mem _ h)⟩
          · rw [List.map_cons, List.mem_cons, not_or] at h; exact h
        rw [ih1 c' (Or.inr hne.2), Function.update_of_ne hne.1]
      · intro c c' hm hne hc hlt' hb
        rw [List.map_cons, List.mem_cons] at hm
        by_cases hck : c' = cell k
        · subst hck
          rw [ih1 _ (Or.inl rfl), Function.update_self]
          have hcc0 : c = c0 := by
            rcases List.mem_cons.1 hc with h | h
            · exact h
            · exfalso
              rw [List.map_cons] at h
              rcases List.mem_cons.1 h with h | h
              · rw [h] at hlt'; omega
              · have := hs2.1 c h; omega
          subst hcc0
          have hnil : (k :: l).filter (fun m => decide (cell m = c)) = [] := by
            rw [List.filter_eq_nil_iff]
            intro m hm'
            simp only [decide_eq_true_eq]
            intro hmc
            apply hc0
            rw [← List.map_cons, List.mem_map]
            exact ⟨m, hm', hmc⟩
          rw [hnil]; simp
        · have hm' : c' ∈ l.map cell := by
            rcases hm with h | h
            · exact absurd h hck
            · exact h
          have hkc' : key (cell k) < key c' := by
            have h1 := hs2.1 c' hm'
            rcases lt_or_eq_of_le h1 with h | h
            · exact h
            · exact absurd (hinj (cell k) (by simp) c' (by simp; right; right; simpa using hm') h).symm hck
          have hcne : c ≠ c0 := by
            rintro rfl
            exact hb (cell k) (by simp) ⟨hlt, hkc'⟩
          have hc2 : c ∈ cell k :: l.map cell := by
            rcases List.mem_cons.1 hc with h | h
            · exact absurd h hcne
            · exact h
          rw [ih2 c c' hm' hck hc2 hlt' (fun d hd => hb d (List.mem_cons_of_mem _ hd)), if_neg hcne]
          by_cases hckc : c = cell k
          · rw [if_pos hckc, List.filter_cons_of_pos (by simpa using hckc.symm)]; simp
          · rw [if_neg hckc, List.filter_cons_of_neg (by simpa using fun h => hckc h.symm)]
    · have hk' : cell k = c0 := not_not.1 hk
      rw [if_neg hk]
      have hsub : ∀ a, a ∈ c0 :: l.map cell → a ∈ c0 :: cell k :: l.map cell := by
        intro a ha
        rcases List.mem_cons.1 ha with h | h
        · simp [h]
        · exact List.mem_cons_of_mem _ (List.mem_cons_of_mem _ h)
      obtain ⟨ih1, ih2⟩ := ih c0 (vs ++ [value k]) g (fun a ha b hb => hinj a (hsub a ha) b (hsub b hb))
        (by rw [← hk']; exact hs1.2)
      refine ⟨?_, ?_⟩
      · intro c' hc'
        apply ih1
        rcases hc' with h | h
        · exact Or.inl h
        · right; intro h'; exact h (by rw [List.map_cons]; exact List.mem_cons_of_mem _ h')
      · intro c c' hm hne hc hlt' hb
        have hm' : c' ∈ l.map cell := by
          rw [List.map_cons, List.mem_cons] at hm
          rcases hm with h | h
          · rw [hk'] at h; exact absurd h hne
          · exact h
        have hc2 : c ∈ c0 :: l.map cell := by
          rw [List.map_cons] at hc
          rcases List.mem_cons.1 hc with h | h
          · simp [h]
          · rcases List.mem_cons.1 h with h | h
            · rw [hk'] at h; simp [h]
            · exact List.mem_cons_of_mem _ h
        rw [ih2 c c' hm' hne hc2 hlt' (fun d hd => hb d (hsub d hd))]
        by_cases hcc : c = c0
        · rw [if_pos hcc, if_pos hcc, List.filter_cons_of_pos (by simp [hk', hcc])]; simp
        · rw [if_neg hcc, if_neg hcc, List.filter_cons_of_neg (by simp [hk']; exact fun h => hcc h.symm)]

/-- The cells of the observations are in the grid along the longitude: always on a circular grid (with cells), checked
otherwise. -/
theorem cellOf_range {g : Grid} {circular : Bool} {obs : List Obs} (hn : 0 < g.nbX)
    (h : (circular || checked g obs) = true) : ∀ o ∈ obs, 0 ≤ (cellOf g circular o).1 ∧ (cellOf g circular o).1 < g.nbX := by
  intro o ho
  unfold cellOf
  cases circular with
  | true =>
    simp only [if_true]
    exact ⟨Int.emod_nonneg _ (by omega), Int.emod_lt_of_pos _ (by omega)⟩
  | false =>
    simp only [Bool.false_or, checked, Bool.and_eq_true, List.all_eq_true, decide_eq_true_eq] at h
    simp only [Bool.false_eq_true, if_false]
    exact ⟨h.1.1.1 o ho, h.1.1.2 o ho⟩

theorem absIndex_inj {g : Grid} {c d : Cell} (hc : 0 ≤ c.1 ∧ c.1 < g.nbX) (hd : 0 ≤ d.1 ∧ d.1 < g.nbX)
    (h : absIndex g c = absIndex g d) : c = d := by
  unfold absIndex at h
  have h2 : c.2 = d.2 := by
    have e1 : (c.2 * g.nbX + c.1) / g.nbX = c.2 := by
      rw [Int.add_comm, Int.add_mul_ediv_right _ _ (by omega), Int.ediv_eq_zero_of_lt hc.1 hc.2]; simp
    have e2 : (d.2 * g.nbX + d.1) / g.nbX = d.2 := by
      rw [Int.add_comm, Int.add_mul_ediv_right _ _ (by omega), Int.ediv_eq_zero_of_lt hd.1 hd.2]; simp
    rw [← e1, ← e2, h]
  have h1 : c.1 = d.1 := by rw [h2] at h; omega
  exact Prod.ext h1 h2

/-- **C33, what the code computes**: on every dataset with at least one observation (inside of the grid when it is not
circular), the statistic of each non empty cell is stored in the *next* non empty cell; the first non empty cell and the empty
cells stay masked. The statistic of the last cell is lost. -/
theorem grid_box_stat_shifted {argsort : List Int → List Nat} {q : Rat} {g : Grid} {circular : Bool} {obs : List Obs}
    (harg : ∀ i, Bins.IsArgsort i (argsort i)) (hn : 0 < g.nbX) (hne : obs ≠ [])
    (hc : (circular || checked g obs) = true) :
    ∃ r, gridBoxStat argsort q g circular obs = some r ∧
      (∀ c c', Next g circular obs c c' → r c' = some (percentile q (valuesOf g circular obs c))) ∧
      (∀ c', (∀ c, ¬ Next g circular obs c c') → r c' = none) := by
  obtain ⟨hperm, hsort⟩ := harg (obs.map (fun o => absIndex g (cellOf g circular o)))
  unfold gridBoxStat
  rw [if_pos hc]
  simp only
  generalize ho : argsort (obs.map (fun o => absIndex g (cellOf g circular o))) = order at *
  rw [List.length_map] at hperm
  have hpos : 0 < obs.length := List.length_pos_of_ne_nil hne
  have hone : order ≠ [] := by
    rintro rfl
    have := hperm.length_eq
    simp at this; omega
  rw [List.head?_eq_some_head hone, Option.map_some]
  refine ⟨_, rfl, ?_⟩
  set cell : Nat → Cell := fun k => cellOf g circular (obs.getD k noObs) with hcell
  set value : Nat → Rat := fun k => (obs.getD k noObs).value with hvalue
  have hlt : ∀ k ∈ order, k < obs.length := fun k hk => List.mem_range.1 (hperm.mem_iff.1 hk)
  have hobs : ∀ k ∈ order, obs.getD k noObs ∈ obs := by
    intro k hk
    rw [List.getD_eq_getElem?_getD, List.getElem?_eq_getElem (hlt k hk)]
    exact List.getElem_mem _
  have hk0 : order.head hone ∈ order := List.head_mem hone
  have hmemcell : ∀ c, c ∈ order.map cell ↔ Filled g circular obs c := by
    intro c
    constructor
    · intro h
      obtain ⟨k, hk, rfl⟩ := List.mem_map.1 h
      exact ⟨_, hobs k hk, rfl⟩
    · rintro ⟨o, ho', rfl⟩
      obtain ⟨k, hk⟩ := List.mem_iff_getElem?.1 ho'
      have hkl := (List.getElem?_eq_some_iff.1 hk).1
      refine List.mem_map.2 ⟨k, hperm.mem_iff.2 (List.mem_range.2 hkl), ?_⟩
      simp [hcell, hk]
  have hcons : ∀ c, c ∈ cell (order.head hone) :: order.map cell ↔ Filled g circular obs c := by
    intro c
    rw [← hmemcell, List.mem_cons]
    constructor
    · rintro (rfl | h)
      · exact List.mem_map.2 ⟨_, hk0, rfl⟩
      · exact h
    · exact Or.inr
  have hrange := cellOf_range hn hc
  have hinj : ∀ a ∈ cell (order.head hone) :: order.map cell, ∀ b ∈ cell (order.head hone) :: order.map cell,
      absIndex g a = absIndex g b → a = b := by
    intro a ha b hb hab
    obtain ⟨o, ho1, rfl⟩ := (hcons a).1 ha
    obtain ⟨o', ho2, rfl⟩ := (hcons b).1 hb
    exact absIndex_inj (hrange o ho1) (hrange o' ho2) hab
  have hsorted : (order.map cell).Pairwise (fun a b => absIndex g a ≤ absIndex g b) := by
    rw [List.pairwise_map]
    rw [List.pairwise_map] at hsort
    refine List.Pairwise.imp_of_mem ?_ hsort
    intro a b ha hb hab
    simpa [hcell, List.getElem?_eq_getElem (hlt a ha), List.getElem?_eq_getElem (hlt b hb)] using hab
  have hsorted' : (cell (order.head hone) :: order.map cell).Pairwise (fun a b => absIndex g a ≤ absIndex g b) := by
    refine List.pairwise_cons.2 ⟨?_, hsorted⟩
    intro a ha
    have e : order = order.head hone :: order.tail := (List.cons_head_tail hone).symm
    rw [e, List.map_cons] at ha hsorted
    rcases List.mem_cons.1 ha with rfl | ha
    · exact le_refl _
    · exact (List.pairwise_cons.1 hsorted).1 a ha
  obtain ⟨h1, h2⟩ := boxLoop_spec (percentile q) cell value (absIndex g) order (cell (order.head hone)) [] (fun _ => none)
    hinj hsorted'
  have hvals : ∀ c, percentile q ((order.filter (fun k => decide (cell k = c))).map value) =
      percentile q (valuesOf g circular obs c) := by
    intro c
    apply percentile_perm
    have e1 : ((order.filter (fun k => decide (cell k = c))).map value).Perm
        (((List.range obs.length).filter (fun k => decide (cell k = c))).map value) := (hperm.filter _).map _
    refine e1.trans ?_
    have e2 : obs = (List.range obs.length).map (fun k => obs.getD k noObs) := by
      apply List.ext_getElem?
      intro k
      by_cases hk : k < obs.length
      · simp [List.getElem?_range hk, List.getElem?_eq_getElem hk]
      · simp [List.getElem?_eq_none (not_lt.1 hk), hk]
    unfold valuesOf
    conv_rhs => rw [e2]
    rw [List.filter_map, List.map_map]
    exact List.Perm.refl _
  refine ⟨?_, ?_⟩
  · rintro c c' ⟨hf, hf', hlt', hb⟩
    have hne0 : c' ≠ cell (order.head hone) := by
      rintro rfl
      have := (List.pairwise_cons.1 hsorted').1 c ((hmemcell c).2 hf)
      omega
    rw [h2 c c' ((hmemcell c').2 hf') hne0 ((hcons c).2 hf) hlt' (fun d hd => hb d ((hcons d).1 hd))]
    congr 1
    rw [show (if c = cell (order.head hone) then ([] : List Rat) else []) = [] by simp, List.nil_append]
    exact hvals c
  · intro c' hno
    by_cases hf : Filled g circular obs c'
    · by_cases h0 : c' = cell (order.head hone)
      · rw [h1 c' (Or.inl h0)]
      · exfalso
        -- the largest filled cell before c'
        have hfin : ∀ (l : List Cell), (∃ c ∈ l, absIndex g c < absIndex g c') →
            ∃ c ∈ l, absIndex g c < absIndex g c' ∧ ∀ d ∈ l, ¬ (absIndex g c < absIndex g d ∧ absIndex g d < absIndex g c') := by
          intro l
          induction l with
          | nil => rintro ⟨c, hc, _⟩; cases hc
          | cons a l ihl =>
            rintro ⟨c, hcm, hcl⟩
            by_cases hex : ∃ c ∈ l, absIndex g c < absIndex g c'
            · obtain ⟨m, hm, hml, hmb⟩ := ihl hex
              by_cases ham : absIndex g m < absIndex g a ∧ absIndex g a < absIndex g c'
              · refine ⟨a, by simp, ham.2, ?_⟩
                intro d hd hdd
                rcases List.mem_cons.1 hd with rfl | hd
                · omega
                · exact hmb d hd ⟨by omega, hdd.2⟩
              · refine ⟨m, by simp [hm], hml, ?_⟩
                intro d hd hdd
                rcases List.mem_cons.1 hd with rfl | hd
                · exact ham hdd
                · exact hmb d hd hdd
            · have hca : c = a := by
                rcases List.mem_cons.1 hcm with h | h
                · exact h
                · exact absurd ⟨c, h, hcl⟩ hex
              subst hca
              refine ⟨c, by simp, hcl, ?_⟩
              intro d hd hdd
              rcases List.mem_cons.1 hd with rfl | hd
              · omega
              · exact hex ⟨d, hd, hdd.2⟩
        have hlt0 : absIndex g (cell (order.head hone)) < absIndex g c' := by
          have := (List.pairwise_cons.1 hsorted').1 c' ((hmemcell c').2 hf)
          rcases lt_or_eq_of_le this with h | h
          · exact h
          · exact absurd (hinj _ (by simp) c' ((hcons c').2 hf) h).symm h0
        obtain ⟨c, hcm, hcl, hcb⟩ := hfin (cell (order.head hone) :: order.map cell) ⟨_, by simp, hlt0⟩
        exact hno c ⟨(hcons c).1 hcm, hf, hcl, fun d hd => hcb d ((hcons d).2 hd)⟩
    · rw [h1 c' (Or.inr (fun h => hf ((hmemcell c').1 h)))]

/-- The first non empty cell (in the order of the lines) exists. -/
theorem exists_first {g : Grid} {circular : Bool} : ∀ {obs : List Obs}, obs ≠ [] →
    ∃ c, Filled g circular obs c ∧ ∀ d, Filled g circular obs d → absIndex g c ≤ absIndex g d
  | [], h => absurd rfl h
  | [o], _ => ⟨cellOf g circular o, ⟨o, by simp, rfl⟩, by
      rintro d ⟨o', ho', rfl⟩
      rw [List.mem_singleton] at ho'; rw [ho']⟩
  | o :: o' :: l, _ => by
    obtain ⟨c, ⟨p, hp, hpc⟩, hmin⟩ := exists_first (g := g) (circular := circular) (obs := o' :: l) (by simp)
    by_cases h : absIndex g c ≤ absIndex g (cellOf g circular o)
    · refine ⟨c, ⟨p, List.mem_cons_of_mem _ hp, hpc⟩, ?_⟩
      rintro d ⟨q, hq, rfl⟩
      rcases List.mem_cons.1 hq with rfl | hq
      · exact h
      · exact hmin _ ⟨q, hq, rfl⟩
    · refine ⟨cellOf g circular o, ⟨o, by simp, rfl⟩, ?_⟩
      rintro d ⟨q, hq, rfl⟩
      rcases List.mem_cons.1 hq with rfl | hq
      · exact le_refl _
      · have := hmin _ ⟨q, hq, rfl⟩; omega

/-- **C33 refuted, for every dataset**: the result of `grid_box_stat` is never right, whatever the (non empty) data: the first
non empty cell is always masked. -/
theorem grid_box_stat_never_right {argsort : List Int → List Nat} {q : Rat} {g : Grid} {circular : Bool} {obs : List Obs}
    (harg : ∀ i, Bins.IsArgsort i (argsort i)) (hn : 0 < g.nbX) (hne : obs ≠ [])
    (hc : (circular || checked g obs) = true) {r : Cell → Option Rat} (hr : gridBoxStat argsort q g circular obs = some r) :
    ¬ BoxStatRight q g circular obs r := by
  intro h
  obtain ⟨r', hr', _, h2⟩ := grid_box_stat_shifted (q := q) harg hn hne hc
  rw [hr] at hr'; cases hr'
  obtain ⟨c, hf, hmin⟩ := exists_first (g := g) (circular := circular) hne
  have hnone := h2 c (by
    rintro d ⟨hd, _, hlt, _⟩
    have := hmin d hd
    omega)
  have := (h c).1 hf
  rw [hnone] at this; cases this

/-- **C33**, no observation: the first element of an empty array is read. -/
theorem grid_box_stat_empty {argsort : List Int → List Nat} {q : Rat} {g : Grid} {circular : Bool}
    (harg : ∀ i, Bins.IsArgsort i (argsort i)) : gridBoxStat argsort q g circular [] = none := by
  have := (harg []).1
  have h : argsort [] = [] := by simpa using this
  simp [gridBoxStat, h]

/-- A concrete case: three observations in two cells; the median of the first cell is found in the second one. -/
example :
    (gridBoxStat Bins.stableArgsort 50 ⟨0, 0, 1, 1, 3, 3⟩ false [⟨3/2, 1/2, 10⟩, ⟨1/2, 1/2, 4⟩, ⟨1/4, 1/2, 6⟩]).map
      (fun r => (r (0, 0), r (1, 0), r (2, 2))) = some (none, some 5, none) := by decide +kernel

example : checked ⟨0, 0, 1, 1, 3, 3⟩ [⟨3/2, 1/2, 10⟩, ⟨1/2, 1/2, 4⟩, ⟨1/4, 1/2, 6⟩] = true := by decide +kernel

/-! ### C34 -/

/-- The value is in the cell `a` of the edges: `[e_a, e_(a+1)[`, the last cell closed on both sides. -/
def InCell (edges : List Rat) (a : Nat) (v : Rat) : Prop :=
  ∃ lo hi, edges[a]? = some lo ∧ edges[a + 1]? = some hi ∧ lo ≤ v ∧ (v < hi ∨ (v = hi ∧ a + 2 = edges.length))

/-- The value is between the first and the last edge. -/
def Inside (edges : List Rat) (v : Rat) : Prop :=
  ∃ lo hi, edges.head? = some lo ∧ edges.getLast? = some hi ∧ lo ≤ v ∧ v ≤ hi

theorem binNumber_spec {edges : List Rat} (hs : edges.Pairwise (· < ·)) (a : Nat) (v : Rat) (ha : a + 1 < edges.length) :
    binNumber edges v = a + 1 ↔ InCell edges a v := by
  have h0 := List.getElem?_eq_getElem (show a < edges.length by omega)
  have h1 := List.getElem?_eq_getElem ha
  have hlast : edges.getLast? = edges[edges.length - 1]? := List.getLast?_eq_getElem?
  have hl := List.getElem?_eq_getElem (show edges.length - 1 < edges.length by omega)
  have c0 := Bins.count_sorted hs h0 (v := v)
  have c1 := Bins.count_sorted hs h1 (v := v)
  have cl := Bins.count_sorted hs hl (v := v)
  have hle : edges.countP (fun e => decide (e ≤ v)) ≤ edges.length := List.countP_le_length
  unfold binNumber
  rw [hlast, hl]
  have hmono : ∀ (i j : Nat) (hi : i < edges.length) (hj : j < edges.length), i < j → edges[i] < edges[j] := by
    intro i j hi hj hij
    exact (List.pairwise_iff_getElem.1 hs) i j hi hj hij
  by_cases hv : edges[edges.length - 1] = v
  · rw [if_pos (by rw [hv])]
    have := cl.1 (le_of_eq hv)
    constructor
    · intro h
      have haa : a + 2 = edges.length := by omega
      refine ⟨_, _, h0, h1, c0.2 (by omega), Or.inr ⟨?_, haa⟩⟩
      rw [← hv]
      congr 1; omega
    · rintro ⟨lo, hi, e0, e1, hlo, hh⟩
      rw [h0] at e0; cases e0
      rw [h1] at e1; cases e1
      rcases hh with hh | ⟨hh, hl'⟩
      · exfalso
        rcases Nat.lt_or_ge (a + 1) (edges.length - 1) with h | h
        · have := hmono (a + 1) (edges.length - 1) ha (by omega) h
          rw [hv] at this; linarith
        · have e : a + 1 = edges.length - 1 := by omega
          have : edges[a + 1] = v := by rw [← hv]; congr 1
          rw [this] at hh; exact absurd hh (lt_irrefl _)
      · omega
  · rw [if_neg (by intro h; exact hv (Option.some.inj h))]
    constructor
    · intro h
      refine ⟨_, _, h0, h1, c0.2 (by omega), Or.inl ?_⟩
      exact not_le.1 (mt c1.1 (by omega))
    · rintro ⟨lo, hi, e0, e1, hlo, hh⟩
      rw [h0] at e0; cases e0
      rw [h1] at e1; cases e1
      have g0 := c0.1 hlo
      rcases hh with hh | ⟨hh, hl'⟩
      · have := mt c1.2 (not_le.2 hh)
        omega
      · exfalso
        apply hv
        rw [hh]; congr 1; omega

theorem inside_iff {edges : List Rat} (hs : edges.Pairwise (· < ·)) (hl : 2 ≤ edges.length) (v : Rat) :
    Inside edges v ↔ 1 ≤ binNumber edges v ∧ binNumber edges v ≤ edges.length - 1 := by
  have h0 := List.getElem?_eq_getElem (show 0 < edges.length by omega)
  have hlast : edges.getLast? = edges[edges.length - 1]? := List.getLast?_eq_getElem?
  have hl' := List.getElem?_eq_getElem (show edges.length - 1 < edges.length by omega)
  have c0 := Bins.count_sorted hs h0 (v := v)
  have cl := Bins.count_sorted hs hl' (v := v)
  have hle : edges.countP (fun e => decide (e ≤ v)) ≤ edges.length := List.countP_le_length
  unfold Inside binNumber
  rw [List.head?_eq_getElem?, hlast, h0, hl']
  by_cases hv : edges[edges.length - 1] = v
  · rw [if_pos (by rw [hv])]
    have := cl.1 (le_of_eq hv)
    constructor
    · intro _; omega
    · intro _
      exact ⟨_, _, rfl, rfl, c0.2 (by omega), le_of_eq hv.symm⟩
  · rw [if_neg (by intro h; exact hv (Option.some.inj h))]
    constructor
    · rintro ⟨lo, hi, e0, e1, hlo, hhi⟩
      cases e0; cases e1
      have g0 := c0.1 hlo
      have g1 := mt cl.2 (not_le.2 (lt_of_le_of_ne hhi (Ne.symm hv)))
      omega
    · intro h
      refine ⟨_, _, rfl, rfl, c0.2 (by omega), le_of_lt (not_le.1 (mt cl.1 (by omega)))⟩

/-- The longitude of an observation, seen from the first edge: the same longitude modulo 360, in `[x0, x0 + 360[`. -/
theorem wrap_spec (x0 : Rat) (o : Obs) : x0 ≤ (wrap x0 o).x ∧ (wrap x0 o).x < x0 + 360 ∧
    (∃ k : Int, (wrap x0 o).x = o.x + k * 360) ∧ (wrap x0 o).y = o.y ∧ (wrap x0 o).value = o.value := by
  obtain ⟨h1, h2, k, hk⟩ := Py.fmod_spec (o.x - x0) (show (0 : Rat) < 360 by norm_num)
  refine ⟨?_, ?_, ⟨k, ?_⟩, rfl, rfl⟩ <;> simp only [wrap] <;> linarith

/-- **C34** (each cell): the count of a cell is the number of observations whose (wrapped) position is in the cell. -/
theorem grid_count_cell {xBins yBins : List Rat} {x0 : Rat} {obs : List Obs} (hx : xBins.Pairwise (· < ·))
    (hy : yBins.Pairwise (· < ·)) (a b : Nat) (ha : a + 1 < xBins.length) (hb : b + 1 < yBins.length)
    [DecidablePred (fun o : Obs => InCell xBins a (wrap x0 o).x ∧ InCell yBins b o.y)] :
    gridCount xBins yBins x0 obs a b =
      (obs.filter (fun o => decide (InCell xBins a (wrap x0 o).x ∧ InCell yBins b o.y))).length := by
  unfold gridCount histogram
  rw [List.filter_map, List.map_map]
  have h1 : ∀ l : List Obs, (l.map ((fun _ => (1 : Rat)) ∘ wrap x0)).sum = l.length := by
    intro l
    induction l with
    | nil => simp
    | cons o l ih =>
      rw [List.map_cons, List.sum_cons, ih, List.length_cons]
      simp only [Function.comp]
      push_cast; ring
  rw [h1]
  congr 2
  apply List.filter_congr
  intro o _
  simp only [Function.comp]
  rw [decide_eq_decide, binNumber_spec hx a _ ha, binNumber_spec hy b _ hb]
  rfl

/-- Every observation inside of the bins is in exactly one cell. -/
theorem cell_unique {edges : List Rat} (hs : edges.Pairwise (· < ·)) {v : Rat} (hl : 2 ≤ edges.length)
    (h : Inside edges v) : ∃ a, a + 1 < edges.length ∧ InCell edges a v ∧ ∀ a', InCell edges a' v → a' = a := by
  obtain ⟨h1, h2⟩ := (inside_iff hs hl v).1 h
  have hlt : binNumber edges v - 1 + 1 < edges.length := by omega
  refine ⟨binNumber edges v - 1, hlt, (binNumber_spec hs _ v hlt).1 (by omega), ?_⟩
  intro a' ha'
  have hlt' : a' + 1 < edges.length := by
    obtain ⟨lo, hi, _, e, _⟩ := ha'
    exact (List.getElem?_eq_some_iff.1 e).1
  have := (binNumber_spec hs a' v hlt').2 ha'
  omega

/-- **C34** (conservation): the sum of the grid is the number of observations inside of the bins. -/
theorem grid_count_sum {xBins yBins : List Rat} {x0 : Rat} {obs : List Obs} (hx : xBins.Pairwise (· < ·))
    (hy : yBins.Pairwise (· < ·)) (hxl : 2 ≤ xBins.length) (hyl : 2 ≤ yBins.length)
    [DecidablePred (fun o : Obs => Inside xBins (wrap x0 o).x ∧ Inside yBins o.y)] :
    ∑ a ∈ Finset.range (xBins.length - 1), ∑ b ∈ Finset.range (yBins.length - 1), gridCount xBins yBins x0 obs a b =
      (obs.filter (fun o => decide (Inside xBins (wrap x0 o).x ∧ Inside yBins o.y))).length := by
  induction obs with
  | nil => simp [gridCount, histogram]
  | cons o obs ih =>
    have hstep : ∀ a b, gridCount xBins yBins x0 (o :: obs) a b =
        (if binNumber xBins (wrap x0 o).x = a + 1 then (if binNumber yBins o.y = b + 1 then (1 : Rat) else 0) else 0) +
          gridCount xBins yBins x0 obs a b := by
      intro a b
      have hwy : (wrap x0 o).y = o.y := rfl
      unfold gridCount histogram
      rw [List.map_cons]
      by_cases h1 : binNumber xBins (wrap x0 o).x = a + 1
      · by_cases h2 : binNumber yBins o.y = b + 1
        · rw [List.filter_cons_of_pos (by simp [h1, h2, hwy]), if_pos h1, if_pos h2]; simp
        · rw [List.filter_cons_of_neg (by simp [h2, hwy]), if_pos h1, if_neg h2]; simp
      · rw [List.filter_cons_of_neg (by simp [h1]), if_neg h1]; simp
    simp only [hstep, Finset.sum_add_distrib]
    rw [ih]
    have hone : ∀ (edges : List Rat) (v : Rat) (c : Rat) , edges.Pairwise (· < ·) → 2 ≤ edges.length →
        (∑ a ∈ Finset.range (edges.length - 1), if binNumber edges v = a + 1 then c else 0) =
          if 1 ≤ binNumber edges v ∧ binNumber edges v ≤ edges.length - 1 then c else 0 := by
      intro edges v c hs hl
      by_cases h : 1 ≤ binNumber edges v ∧ binNumber edges v ≤ edges.length - 1
      · rw [if_pos h, Finset.sum_eq_single (binNumber edges v - 1)]
        · rw [if_pos (by omega)]
        · intro b _ hb
          rw [if_neg (by omega)]
        · intro hn
          exfalso; apply hn; rw [Finset.mem_range]; omega
      · rw [if_neg h]
        apply Finset.sum_eq_zero
        intro a ha
        rw [Finset.mem_range] at ha
        rw [if_neg (by omega)]
    have hinner : ∀ a, (∑ b ∈ Finset.range (yBins.length - 1),
        if binNumber xBins (wrap x0 o).x = a + 1 then (if binNumber yBins o.y = b + 1 then (1 : Rat) else 0) else 0) =
        if binNumber xBins (wrap x0 o).x = a + 1 then
          (if 1 ≤ binNumber yBins o.y ∧ binNumber yBins o.y ≤ yBins.length - 1 then 1 else 0) else 0 := by
      intro a
      by_cases h : binNumber xBins (wrap x0 o).x = a + 1
      · simp only [if_pos h]
        exact hone yBins o.y 1 hy hyl
      · simp only [if_neg h]; simp
    simp only [hinner]
    rw [hone xBins _ _ hx hxl]
    by_cases h : Inside xBins (wrap x0 o).x ∧ Inside yBins o.y
    · rw [List.filter_cons_of_pos (by simpa using h), List.length_cons,
        if_pos ((inside_iff hx hxl _).1 h.1), if_pos ((inside_iff hy hyl _).1 h.2)]
      push_cast; ring
    · rw [List.filter_cons_of_neg (by simpa using h)]
      by_cases h1 : Inside xBins (wrap x0 o).x
      · have h2 : ¬ Inside yBins o.y := fun h2 => h ⟨h1, h2⟩
        rw [inside_iff hy hyl] at h2
        rw [if_pos ((inside_iff hx hxl _).1 h1), if_neg h2, zero_add]
      · rw [inside_iff hx hxl] at h1
        rw [if_neg h1, zero_add]

/-! ### C61 -/

/-- **C61**: `grid_stat` masks exactly the cells without observation, and holds the mean of the values of the observations of the
cell in the other cells. -/
theorem grid_stat_mean {xBins yBins : List Rat} {x0 : Rat} {obs : List Obs} (hx : xBins.Pairwise (· < ·))
    (hy : yBins.Pairwise (· < ·)) (a b : Nat) (ha : a + 1 < xBins.length) (hb : b + 1 < yBins.length)
    [DecidablePred (fun o : Obs => InCell xBins a (wrap x0 o).x ∧ InCell yBins b o.y)] (l : List Obs)
    (hl : l = obs.filter (fun o => decide (InCell xBins a (wrap x0 o).x ∧ InCell yBins b o.y))) :
    gridStat xBins yBins x0 obs a b = if l = [] then none else some ((l.map (·.value)).sum / l.length) := by
  have hc := grid_count_cell (x0 := x0) (obs := obs) hx hy a b ha hb
  rw [← hl] at hc
  have hsum : histogram xBins yBins (obs.map (wrap x0)) (·.value) a b = (l.map (·.value)).sum := by
    unfold histogram
    rw [List.filter_map, List.map_map, hl]
    congr 1
    have : obs.filter ((fun o => decide (binNumber xBins o.x = a + 1 ∧ binNumber yBins o.y = b + 1)) ∘ wrap x0) =
        obs.filter (fun o => decide (InCell xBins a (wrap x0 o).x ∧ InCell yBins b o.y)) := by
      apply List.filter_congr
      intro o _
      simp only [Function.comp]
      rw [decide_eq_decide, binNumber_spec hx a _ ha, binNumber_spec hy b _ hb]
      rfl
    rw [this]
    rfl
  unfold gridStat
  rw [hc, hsum]
  by_cases h : l = []
  · rw [if_pos h, h]; simp
  · rw [if_neg h, if_neg]
    have := List.length_pos_of_ne_nil h
    have h' : (0 : Rat) < l.length := by exact_mod_cast this
    exact ne_of_gt h'

example : gridCount [0, 1, 2] [0, 1, 2] 0 [⟨361, 1/2, 3⟩, ⟨1, 0, 5⟩, ⟨2, 2, 1⟩, ⟨3, 0, 1⟩] 1 0 = 2 ∧
    gridCount [0, 1, 2] [0, 1, 2] 0 [⟨361, 1/2, 3⟩, ⟨1, 0, 5⟩, ⟨2, 2, 1⟩, ⟨3, 0, 1⟩] 1 1 = 1 ∧
    gridStat [0, 1, 2] [0, 1, 2] 0 [⟨361, 1/2, 3⟩, ⟨1, 0, 5⟩, ⟨2, 2, 1⟩, ⟨3, 0, 1⟩] 1 0 = some 4 ∧
    gridStat [0, 1, 2] [0, 1, 2] 0 [⟨361, 1/2, 3⟩, ⟨1, 0, 5⟩, ⟨2, 2, 1⟩, ⟨3, 0, 1⟩] 0 0 = none := by decide +kernel

end Verif.Boxes
