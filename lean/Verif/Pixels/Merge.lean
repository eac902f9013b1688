import Verif.Boxes.Props
import Verif.Pixels.Stat

/-!
# C205: the maps of several datasets

`grid_count` and `grid_stat` of `EddiesObservations` (src/py_eddy_tracker/observations/observation.py:2218-2272, 2322-2365) on the models
of C34, C61 and C67: counts of merged datasets, order of the observations, turns of the longitudes.
-/

namespace Verif.Boxes

/-! ### Specification -/

/-- The same observation with another writing of its longitude. -/
def SameObs (o o' : Obs) : Prop := ∃ k : Int, o'.x = o.x + 360 * k ∧ o'.y = o.y ∧ o'.value = o.value

/-! ### Proofs -/

theorem wrap_turn {x0 : Rat} {o o' : Obs} (h : SameObs o o') : wrap x0 o' = wrap x0 o := by
  obtain ⟨k, h1, h2, h3⟩ := h
  have : Py.fmod (o'.x - x0) 360 = Py.fmod (o.x - x0) 360 := by
    rw [h1, show o.x + 360 * (k : Rat) - x0 = (o.x - x0) + 360 * k by ring, Pixels.fmod_turn]
  unfold wrap
  obtain ⟨x, y, v⟩ := o
  obtain ⟨x', y', v'⟩ := o'
  simp only at this h2 h3
  subst h2 h3
  simp only [this]

theorem map_wrap_turn {x0 : Rat} {l l' : List Obs} (h : List.Forall₂ SameObs l l') : l'.map (wrap x0) = l.map (wrap x0) := by
  induction h with
  | nil => rfl
  | cons h _ ih => rw [List.map_cons, List.map_cons, wrap_turn h, ih]

/-- **C205** (positions, counts): the map of two datasets put together is the sum of the maps. -/
theorem count_append (xBins yBins : List Rat) (x0 : Rat) (l l' : List Obs) (a b : Nat) :
    gridCount xBins yBins x0 (l ++ l') a b = gridCount xBins yBins x0 l a b + gridCount xBins yBins x0 l' a b := by
  simp only [gridCount, histogram, List.map_append, List.filter_append, List.sum_append]

/-- **C205** (positions, order and turns): the maps do not depend on the order of the observations nor on the turns of the longitudes. -/
theorem maps_same (xBins yBins : List Rat) (x0 : Rat) {l l1 l2 : List Obs} (hp : l.Perm l1) (ht : List.Forall₂ SameObs l1 l2) (a b : Nat) :
    gridCount xBins yBins x0 l2 a b = gridCount xBins yBins x0 l a b ∧ gridStat xBins yBins x0 l2 a b = gridStat xBins yBins x0 l a b := by
  have hh : ∀ w, histogram xBins yBins (l2.map (wrap x0)) w a b = histogram xBins yBins (l.map (wrap x0)) w a b := by
    intro w
    rw [map_wrap_turn ht]
    unfold histogram
    exact (((hp.symm.map (wrap x0)).filter _).map w).sum_eq
  have hc : gridCount xBins yBins x0 l2 a b = gridCount xBins yBins x0 l a b := hh _
  exact ⟨hc, by rw [gridStat, gridStat, hc, hh]⟩

theorem sum_ones (l : List Obs) : (l.map (fun _ => (1 : Rat))).sum = l.length := by
  induction l with
  | nil => rfl
  | cons o l ih => simp only [List.map_cons, List.sum_cons, ih, List.length_cons, Nat.cast_add, Nat.cast_one]; ring

theorem histogram_nil (xBins yBins : List Rat) (obs : List Obs) (w : Obs → Rat) (a b : Nat) (h : histogram xBins yBins obs (fun _ => 1) a b = 0) :
    histogram xBins yBins obs w a b = 0 := by
  unfold histogram at h ⊢
  rw [sum_ones] at h
  have h0 : obs.filter (fun o => decide (binNumber xBins o.x = a + 1 ∧ binNumber yBins o.y = b + 1)) = [] :=
    List.eq_nil_of_length_eq_zero (by exact_mod_cast h)
  rw [h0]
  rfl

/-- **C205** (positions, means): the mean of two datasets put together is the mean of the means weighted by the counts; a cell is masked
when it is masked in both. -/
theorem stat_append (xBins yBins : List Rat) (x0 : Rat) (l l' : List Obs) (a b : Nat) :
    gridStat xBins yBins x0 (l ++ l') a b =
      match gridStat xBins yBins x0 l a b, gridStat xBins yBins x0 l' a b with
      | none, m => m
      | m, none => m
      | some m, some m' => some ((gridCount xBins yBins x0 l a b * m + gridCount xBins yBins x0 l' a b * m') /
          (gridCount xBins yBins x0 l a b + gridCount xBins yBins x0 l' a b)) := by
  have hs : histogram xBins yBins ((l ++ l').map (wrap x0)) (·.value) a b =
      histogram xBins yBins (l.map (wrap x0)) (·.value) a b + histogram xBins yBins (l'.map (wrap x0)) (·.value) a b := by
    simp only [histogram, List.map_append, List.filter_append, List.sum_append]
  have hn : ∀ l : List Obs, 0 ≤ gridCount xBins yBins x0 l a b := by
    intro l
    unfold gridCount histogram
    rw [sum_ones]
    exact Nat.cast_nonneg _
  have h0 := hn l
  have h0' := hn l'
  have z : ∀ l : List Obs, gridCount xBins yBins x0 l a b = 0 → histogram xBins yBins (l.map (wrap x0)) (·.value) a b = 0 :=
    fun l h => histogram_nil _ _ _ _ _ _ h
  have zl := z l
  have zl' := z l'
  simp only [gridStat, count_append, hs]
  generalize gridCount xBins yBins x0 l a b = n at *
  generalize gridCount xBins yBins x0 l' a b = n' at *
  generalize histogram xBins yBins (l.map (wrap x0)) (·.value) a b = s at *
  generalize histogram xBins yBins (l'.map (wrap x0)) (·.value) a b = s' at *
  by_cases e : n = 0
  · simp only [e, zl e, if_true, zero_add]
  · by_cases e' : n' = 0
    · simp only [e', zl' e', if_true, if_neg e, add_zero]
    · have : n + n' ≠ 0 := fun h => e (by linarith)
      simp only [if_neg e, if_neg e', if_neg this]
      congr 2
      field_simp

end Verif.Boxes

namespace Verif.Pixels

open Verif.Poly

/-! ### Specification -/

/-- The same eddy with another writing of the longitude of its centre and of each vertex of its contour. -/
def SameEddy (e e' : Rat × List Pt) : Prop :=
  (∃ k : Int, e'.1 = e.1 + 360 * k) ∧ List.Forall₂ (fun w w' : Pt => ∃ k : Int, w' = (w.1 + 360 * (k : Rat), w.2)) e.2 e'.2

/-! ### Proofs -/

theorem countIn_add (g : Grid) : ∀ (l : List (Int × Int)) (grid : Nat → Nat → Int) (a b : Nat),
    countIn g grid l a b = grid a b + countIn g (fun _ _ => 0) l a b
  | [], grid, a, b => by simp [countIn]
  | p :: l, grid, a, b => by
    rw [countIn, countIn, countIn_add g l]
    conv_rhs => rw [countIn_add g l]
    split_ifs <;> ring

theorem countPixels_add (g : Grid) (N : Nat) : ∀ (l : List (Rat × List Pt)) (grid : Nat → Nat → Int),
    countPixels g N l grid = (countPixels g N l (fun _ _ => 0)).map (fun r => fun a b => grid a b + r a b)
  | [], grid => by simp [countPixels]
  | c :: l, grid => by
    rw [countPixels, countPixels]
    cases prepare c.1 c.2 with
    | none => rfl
    | some v =>
      dsimp only
      rw [countPixels_add g N l, countPixels_add g N l (countIn g (fun _ _ => 0) _)]
      cases countPixels g N l (fun _ _ => 0) with
      | none => rfl
      | some r =>
        simp only [Option.map_some, Option.some.injEq]
        funext a b
        rw [countIn_add]
        ring

theorem countPixels_append (g : Grid) (N : Nat) : ∀ (l l' : List (Rat × List Pt)) (grid : Nat → Nat → Int),
    countPixels g N (l ++ l') grid = (countPixels g N l grid).bind (countPixels g N l')
  | [], l', grid => by simp [countPixels]
  | c :: l, l', grid => by
    rw [List.cons_append, countPixels, countPixels]
    cases prepare c.1 c.2 with
    | none => rfl
    | some v => exact countPixels_append g N l l' _

theorem countPixels_perm (g : Grid) (N : Nat) {l l' : List (Rat × List Pt)} (h : l.Perm l') :
    ∀ grid : Nat → Nat → Int, countPixels g N l grid = countPixels g N l' grid := by
  induction h with
  | nil => exact fun _ => rfl
  | cons c _ ih =>
    intro grid
    rw [countPixels, countPixels]
    cases prepare c.1 c.2 with
    | none => rfl
    | some v => exact ih _
  | swap c d l =>
    intro grid
    simp only [countPixels]
    cases prepare c.1 c.2 with
    | none => cases prepare d.1 d.2 <;> rfl
    | some v =>
      cases prepare d.1 d.2 with
      | none => rfl
      | some w =>
        dsimp only
        congr 1
        funext a b
        rw [countIn_add g _ (countIn g grid _), countIn_add g _ grid, countIn_add g _ (countIn g grid _), countIn_add g _ grid]
        ring
  | trans _ _ ih1 ih2 => exact fun grid => (ih1 grid).trans (ih2 grid)

/-- **C205** (contours, counts): the map of two datasets put together is the sum of the maps; it fails when one of them fails. -/
theorem contour_count_append (g : Grid) (N : Nat) (l l' : List (Rat × List Pt)) :
    gridCount g N (l ++ l') = (gridCount g N l).bind (fun r => (gridCount g N l').map (fun r' => fun a b => r a b + r' a b)) := by
  unfold gridCount
  rw [List.map_append, countPixels_append]
  congr 1
  funext r
  exact countPixels_add g N _ r

theorem prepare_turn {ref : Rat} {v v' : List Pt} (h : List.Forall₂ (fun w w' : Pt => ∃ k : Int, w' = (w.1 + 360 * (k : Rat), w.2)) v v') :
    prepare ref v' = prepare ref v := by
  unfold prepare
  congr 1
  induction h with
  | nil => rfl
  | cons h _ ih =>
    obtain ⟨k, rfl⟩ := h
    rw [List.map_cons, List.map_cons, ih]
    congr 2
    rw [show ∀ x : Rat, x + 360 * (k : Rat) - ref = (x - ref) + 360 * k from fun x => by ring, fmod_turn]

/-- **C205** (contours, order and turns): the map does not depend on the order of the eddies nor on the turns of their longitudes. -/
theorem contour_count_same (g : Grid) (N : Nat) {l l1 l2 : List (Rat × List Pt)} (hp : l.Perm l1) (ht : List.Forall₂ SameEddy l1 l2) :
    gridCount g N l2 = gridCount g N l := by
  have h1 : gridCount g N l = gridCount g N l1 := countPixels_perm g N (hp.map _) _
  rw [h1]
  unfold gridCount
  generalize (fun _ _ => 0 : Nat → Nat → Int) = grid
  clear h1 hp
  induction ht generalizing grid with
  | nil => rfl
  | @cons e e' _ _ h _ ih =>
    obtain ⟨⟨k, hk⟩, hv⟩ := h
    rw [List.map_cons, List.map_cons, countPixels, countPixels]
    have : Py.fmod (e'.1 - g.x0) 360 = Py.fmod (e.1 - g.x0) 360 := by
      rw [hk, show e.1 + 360 * (k : Rat) - g.x0 = (e.1 - g.x0) + 360 * k by ring, fmod_turn]
    dsimp only
    rw [this, prepare_turn hv]
    cases prepare (Py.fmod (e.1 - g.x0) 360 + g.x0 - 180) e.2 with
    | none => rfl
    | some v => exact ih _

/-- Two eddies, the second written in another turn. -/
example : List.Forall₂ SameEddy [(359, square (358, 1) (361, 3)), (5, square (4, 4) (6, 6))] [(-1, square (358, 1) (1, 3)), (5, square (4, 4) (6, 6))] := by
  refine .cons ⟨⟨-1, by norm_num⟩, ?_⟩ (.cons ⟨⟨0, by norm_num⟩, ?_⟩ .nil)
  · exact .cons ⟨0, by norm_num [square]⟩ (.cons ⟨-1, by norm_num [square]⟩ (.cons ⟨-1, by norm_num [square]⟩ (.cons ⟨0, by norm_num [square]⟩ .nil)))
  · exact .cons ⟨0, by norm_num⟩ (.cons ⟨0, by norm_num⟩ (.cons ⟨0, by norm_num⟩ (.cons ⟨0, by norm_num⟩ .nil)))

/-- Two datasets on a regional grid: the pixel of both eddies is counted twice. -/
example : ((gridCount regional 1 [(5, square (4, 4) (6, 6)), (5, square (3, 3) (6, 6))]).map (fun r => (r 4 4, r 3 3, r 8 8))) = some (2, 1, 0) := by
  decide +kernel

/-- Two datasets by positions: counts and weighted means. -/
example : Boxes.gridStat [0, 1, 2] [0, 1] 0 ([⟨1/2, 1/2, 4⟩, ⟨361/2, 1/2, 4⟩] ++ [⟨721/2, 1/2, 8⟩]) 0 0 = some 6 := by decide +kernel

end Verif.Pixels
