import Verif.Pixels.Props
import Verif.Poly.Hull

/-!
# C66 (disagreements), C67: count of the contours on a grid
-/

namespace Verif.Pixels

open Verif.Poly

/-! ### C67 -/

/-- One contour adds 1 to each of its pixels. -/
theorem countIn_spec {g : Grid} : ∀ {l : List (Int × Int)} (grid : Nat → Nat → Int), l.Nodup →
    (∀ p ∈ l, ∃ i j : Nat, p = ((i : Int), (j : Int))) → ∀ a b : Nat,
      countIn g grid l a b = grid a b + (if ((a : Int), (b : Int)) ∈ l then 1 else 0)
  | [], grid, _, _, a, b => by simp [countIn]
  | p :: l, grid, hn, hp, a, b => by
    obtain ⟨i, j, rfl⟩ := hp p (by simp)
    rw [List.nodup_cons] at hn
    rw [countIn, countIn_spec _ hn.2 (fun q hq => hp q (List.mem_cons_of_mem _ hq))]
    simp only
    rw [if_neg (show ¬ (i : Int) < 0 by omega), if_neg (show ¬ (j : Int) < 0 by omega)]
    by_cases h : (a : Int) = i ∧ (b : Int) = j
    · have : ((a : Int), (b : Int)) = ((i : Int), (j : Int)) := by rw [h.1, h.2]
      rw [if_pos h, this, if_neg hn.1]
      simp
    · have : ¬ ((a : Int), (b : Int)) = ((i : Int), (j : Int)) := by
        intro he
        exact h ⟨congrArg Prod.fst he, congrArg Prod.snd he⟩
      rw [if_neg h]
      simp only [List.mem_cons, this, false_or]

/-- The contour of an eddy as it is around its centre: the longitudes at less than half a turn of the centre `lon`. -/
def unrolled (lon : Rat) (c : List Pt) : List Pt := c.map (fun w => (normal lon w.1, w.2))

/-- The longitude of the centre in the turn of the grid. -/
def inTurn (g : Grid) (lon : Rat) : Rat := Py.fmod (lon - g.x0) 360 + g.x0

open Classical in
/-- Number of eddies whose contour contains the centre of the pixel. -/
noncomputable def countContours (g : Grid) (eddies : List (Rat × List Pt)) (i j : Nat) : Nat :=
  eddies.countP (fun e => decide (Contains g (unrolled (inTurn g e.1) e.2) i j))

/-- An eddy which `grid_count` treats well on this grid: its contour has two different positions and is above the first line; on a
circular grid it is at less than 90° on both sides of the longitude of the centre; on another grid it is in the turn of the grid. -/
structure Fits (g : Grid) (N : Nat) (e : Rat × List Pt) : Prop where
  varied : ∃ u ∈ unrolled (inTurn g e.1) e.2, ∃ w ∈ unrolled (inTurn g e.1) e.2, u ≠ w
  north : ∀ w ∈ e.2, g.y0 + (N - 1 / 2) * g.ys < w.2
  around : g.circular = true → (∀ w ∈ unrolled (inTurn g e.1) e.2, |w.1 - inTurn g e.1| < 90) ∧
    (∃ w ∈ unrolled (inTurn g e.1) e.2, w.1 ≤ inTurn g e.1) ∧ ∃ w ∈ unrolled (inTurn g e.1) e.2, inTurn g e.1 ≤ w.1
  turn : g.circular = false → ∀ w ∈ unrolled (inTurn g e.1) e.2, g.x0 ≤ w.1 ∧ w.1 < g.x0 + 360

theorem reduce_subset {c v : List Pt} (hvar : ∃ u ∈ c, ∃ w ∈ c, u ≠ w) (h : reduceSize c = some v) : v ≠ [] ∧ v ⊆ c := by
  obtain ⟨v', h1, h2, h3⟩ := reduce_of_varied hvar
  rw [h] at h1
  rw [Option.some.inj h1]
  exact ⟨h2, h3⟩

/-- All positions of the contour, up to the repetitions of the first one, are kept. -/
theorem reduce_superset {c v : List Pt} (hvar : ∃ u ∈ c, ∃ w ∈ c, u ≠ w) (h : reduceSize c = some v) : c ⊆ v := by
  cases c with
  | nil => obtain ⟨u, hu, _⟩ := hvar; cases hu
  | cons a l =>
    have hex : ∃ u ∈ l, u ≠ a := by
      by_contra hc
      push Not at hc
      obtain ⟨u, hu, w, hw, hne⟩ := hvar
      have : ∀ x ∈ a :: l, x = a := by
        intro x hx
        rcases List.mem_cons.1 hx with rfl | hx
        · rfl
        · exact hc x hx
      exact hne ((this u hu).trans (this w hw).symm)
    obtain ⟨l', w, n, hw, he⟩ := padded_form a l hex
    rw [he, reduce_size_partial a w l' n hw] at h
    rw [he, ← Option.some.inj h]
    intro x hx
    have h2 : a :: l' ++ w :: List.replicate n a = (a :: l' ++ [w]) ++ List.replicate n a := by simp
    have hx' : x ∈ a :: l' ++ [w] := by
      rw [h2, List.mem_append] at hx
      rcases hx with hx | hx
      · exact hx
      · rw [List.eq_of_mem_replicate hx]; simp
    rw [h2, List.take_append_of_le_length_or]
    exact List.mem_append_left _ hx'
where
  List.take_append_of_le_length_or {a w : Pt} {l' : List Pt} {n : Nat} :
      ((a :: l' ++ [w]) ++ List.replicate n a).take (max 3 (l'.length + 2)) =
        (a :: l' ++ [w]) ++ (List.replicate n a).take (max 3 (l'.length + 2) - (a :: l' ++ [w]).length) := by
    rw [List.take_append, List.take_of_length_le]
    simp

/-- The pixels of one eddy. -/
theorem fits_exact {g : Grid} (hg : g.Regular) {N : Nat} (hN : 1 ≤ N) (hsize : g.circular = true → 4 * N + 6 ≤ g.nx) {e : Rat × List Pt}
    (h : Fits g N e) : ∃ v, prepare (Py.fmod (e.1 - g.x0) 360 + g.x0 - 180) e.2 = some v ∧ (getPixels g N v).Nodup ∧
      ∀ p, p ∈ getPixels g N v ↔ ∃ i j : Nat, i < g.nx ∧ j < g.ny ∧ p = ((i : Int), (j : Int)) ∧
        Contains g (unrolled (inTurn g e.1) e.2) i j := by
  have hu : e.2.map (fun w => (Py.fmod (w.1 - (Py.fmod (e.1 - g.x0) 360 + g.x0 - 180)) 360 + (Py.fmod (e.1 - g.x0) 360 + g.x0 - 180), w.2)) =
      unrolled (inTurn g e.1) e.2 := by
    unfold unrolled inTurn normal
    apply List.map_congr_left
    intro w _
    refine Prod.ext ?_ rfl
    simp only
    rw [show w.1 - (Py.fmod (e.1 - g.x0) 360 + g.x0 - 180) = w.1 - (Py.fmod (e.1 - g.x0) 360 + g.x0) + 180 by ring]
    ring
  have hnorth : ∀ w ∈ unrolled (inTurn g e.1) e.2, g.y0 + (N - 1 / 2) * g.ys < w.2 := by
    intro w hw
    obtain ⟨z, hz, rfl⟩ := List.mem_map.1 hw
    exact h.north z hz
  have hturn := h.turn
  have haround := h.around
  have hvar := h.varied
  have hin0 : g.x0 ≤ inTurn g e.1 ∧ inTurn g e.1 < g.x0 + 360 := by
    obtain ⟨a1, a2, _⟩ := Py.fmod_spec (e.1 - g.x0) (show (0 : Rat) < 360 by norm_num)
    unfold inTurn
    constructor <;> linarith
  unfold prepare
  rw [hu]
  generalize hU : unrolled (inTurn g e.1) e.2 = U at *
  generalize hL : inTurn g e.1 = L at *
  obtain ⟨v, hv, hne, hsub⟩ := reduce_of_varied hvar
  refine ⟨v, hv, ?_⟩
  have hsup := reduce_superset hvar hv
  have hwind : ∀ p, winding p v = winding p U := reduce_size_winding hv
  have hcont : ∀ i j, Contains g v i j ↔ Contains g U i j := by
    intro i j
    unfold Contains
    split <;> simp only [hwind]
  have hex : Exact g v (getPixels g N v) := by
    cases hc : g.circular with
    | false => exact pixels_regional_partial hg hc hN hne (fun w hw => hturn hc w (hsub hw)) (fun w hw => hnorth w (hsub hw))
    | true =>
      obtain ⟨k1, ⟨a, ha, ha'⟩, b, hb, hb'⟩ := haround hc
      refine pixels_circular_partial hg hc hN (hsize hc) hne ?_ ?_ (fun w hw => hnorth w (hsub hw))
      · intro u hu w hw
        have e1 := abs_lt.1 (k1 u (hsub hu))
        have e2 := abs_lt.1 (k1 w (hsub hw))
        linarith [e1.2, e2.1]
      · by_cases hall : ∀ w ∈ v, g.x0 ≤ w.1
        · exact Or.inl ⟨hall, a, hsup ha, lt_of_le_of_lt ha' hin0.2⟩
        · push Not at hall
          obtain ⟨w, hw, hlt⟩ := hall
          refine Or.inr ⟨0, w, hw, b, hsup hb, ?_, ?_⟩
          · push_cast; linarith
          · push_cast; linarith
  refine ⟨hex.1, fun p => ?_⟩
  rw [hex.2 p]
  constructor
  · rintro ⟨i, j, h1, h2, h3, h4⟩; exact ⟨i, j, h1, h2, h3, (hcont i j).1 h4⟩
  · rintro ⟨i, j, h1, h2, h3, h4⟩; exact ⟨i, j, h1, h2, h3, (hcont i j).2 h4⟩

/-- **C67**: `grid_count` of the contours of eddies gives, for each pixel, the number of eddies whose contour contains its centre.
Missing: eddies which do not fit (`Fits`): constant contours (the code leaves the array), contours below the first line, contours which
leave the turn of a grid which is not circular. -/
theorem grid_count_partial {g : Grid} (hg : g.Regular) {N : Nat} (hN : 1 ≤ N) (hsize : g.circular = true → 4 * N + 6 ≤ g.nx)
    (eddies : List (Rat × List Pt)) (h : ∀ e ∈ eddies, Fits g N e) :
    ∃ r, gridCount g N eddies = some r ∧ ∀ i j : Nat, i < g.nx → j < g.ny → r i j = countContours g eddies i j := by
  classical
  have key : ∀ (l : List (Rat × List Pt)) (grid : Nat → Nat → Int), (∀ e ∈ l, Fits g N e) →
      ∃ r, countPixels g N (l.map (fun e => (Py.fmod (e.1 - g.x0) 360 + g.x0 - 180, e.2))) grid = some r ∧
        ∀ i j : Nat, i < g.nx → j < g.ny → r i j = grid i j + countContours g l i j := by
    intro l
    induction l with
    | nil => intro grid _; exact ⟨grid, rfl, fun i j _ _ => by simp [countContours]⟩
    | cons e l ih =>
      intro grid hl
      obtain ⟨v, hv, hnd, hmem⟩ := fits_exact hg hN hsize (hl e (by simp))
      obtain ⟨r, hr, hr'⟩ := ih (countIn g grid (getPixels g N v)) (fun e' he' => hl e' (List.mem_cons_of_mem _ he'))
      refine ⟨r, ?_, fun i j hi hj => ?_⟩
      · rw [List.map_cons, countPixels, hv]
        exact hr
      · rw [hr' i j hi hj, countIn_spec grid hnd (fun p hp => by
          obtain ⟨a, b, _, _, h3, _⟩ := (hmem p).1 hp
          exact ⟨a, b, h3⟩)]
        have hiff : ((i : Int), (j : Int)) ∈ getPixels g N v ↔ Contains g (unrolled (inTurn g e.1) e.2) i j := by
          rw [hmem]
          constructor
          · rintro ⟨a, b, _, _, h3, h4⟩
            have h5 : i = a := by have := congrArg Prod.fst h3; simp only at this; omega
            have h6 : j = b := by have := congrArg Prod.snd h3; simp only at this; omega
            rw [h5, h6]; exact h4
          · intro hc; exact ⟨i, j, hi, hj, rfl, hc⟩
        unfold countContours
        rw [List.countP_cons]
        by_cases hc : Contains g (unrolled (inTurn g e.1) e.2) i j
        · rw [if_pos (hiff.2 hc), if_pos (by simpa using hc)]; push_cast; ring
        · rw [if_neg (fun hm => hc (hiff.1 hm)), if_neg (by simpa using hc)]; push_cast; ring
  obtain ⟨r, hr, hr'⟩ := key eddies (fun _ _ => 0) h
  exact ⟨r, hr, fun i j hi hj => by rw [hr' i j hi hj]; simp⟩

/-! ### C67: statistics of a grid in contours -/

/-- The mean of `grid_stat` is the mean of the pixels of the contour which are not masked, nan without such pixel. -/
theorem meanIn_spec {g : Grid} {v : List Pt} (h : Exact g v (getPixels g 1 v)) (mask : Int × Int → Bool) (val : Int × Int → Rat) :
    ∃ l : List (Int × Int), l.Nodup ∧
      (∀ p, p ∈ l ↔ mask p = false ∧ ∃ i j : Nat, i < g.nx ∧ j < g.ny ∧ p = ((i : Int), (j : Int)) ∧ Contains g v i j) ∧
      (l = [] → meanIn g mask val v = none) ∧ (l ≠ [] → ∃ m, meanIn g mask val v = some m ∧ m * l.length = (l.map val).sum) := by
  refine ⟨(getPixels g 1 v).filter (fun p => !mask p), h.1.filter _, fun p => ?_, fun hl => ?_, fun hl => ?_⟩
  · rw [List.mem_filter, h.2 p]
    simp only [Bool.not_eq_eq_eq_not, Bool.not_true]
    tauto
  · unfold meanIn
    simp [hl]
  · have h0 : ((getPixels g 1 v).filter (fun p => !mask p)).length ≠ 0 := fun hc => hl (List.length_eq_zero_iff.1 hc)
    refine ⟨_, by unfold meanIn; simp only; rw [if_neg h0], ?_⟩
    have : (((getPixels g 1 v).filter (fun p => !mask p)).length : Rat) ≠ 0 := by exact_mod_cast h0
    field_simp

/-! ### Disagreements -/

/-- A regional grid of 10 × 10 cells of one degree from (0, 0). -/
def regional : Grid := ⟨0, 0, 1, 1, 10, 10, false⟩

/-- A circular grid of 36 × 10 cells of 10 degrees. -/
def world : Grid := ⟨0, 0, 10, 10, 36, 10, true⟩

theorem regional_regular : regional.Regular := ⟨by decide +kernel, by decide +kernel, fun h => by cases h⟩

theorem world_regular : world.Regular := ⟨by decide +kernel, by decide +kernel, fun _ => by decide +kernel⟩

/-- A square between the corners `a` and `b`. -/
def square (a b : Pt) : List Pt := [a, (b.1, a.2), b, (a.1, b.2)]

/-- A contour which goes beyond the western bound of a regional grid: a wrong pixel is returned. -/
theorem west_wrong : getPixels regional 1 (square (-1, 4) (1, 6)) = [(8, 4), (8, 5)] ∧
    Contains regional (square (-1, 4) (1, 6)) 0 4 ∧ ¬ Contains regional (square (-1, 4) (1, 6)) 8 4 := by
  refine ⟨by decide +kernel, ?_, ?_⟩
  · unfold Contains
    rw [if_neg (by decide)]
    decide +kernel
  · unfold Contains
    rw [if_neg (by decide)]
    decide +kernel

/-- A contour which goes below the first line: nothing is returned. -/
theorem south_wrong : getPixels regional 1 (square (4, 0) (6, 2)) = [] ∧ Contains regional (square (4, 0) (6, 2)) 4 0 := by
  refine ⟨by decide +kernel, ?_⟩
  unfold Contains
  rw [if_neg (by decide)]
  decide +kernel

/-- On a circular grid, a contour in another turn: nothing is returned. -/
theorem turn_wrong : getPixels world 1 (square (-160, 20) (-140, 40)) = [] ∧ Contains world (square (-160, 20) (-140, 40)) 20 3 := by
  refine ⟨by decide +kernel, ?_⟩
  unfold Contains
  rw [if_pos (by decide)]
  exact ⟨-1, by decide +kernel⟩

/-- A contour across the limit of a circular grid. -/
example : getPixels world 1 (square (-20, 20) (20, 40)) = [(34, 2), (34, 3), (35, 2), (35, 3), (0, 2), (0, 3), (1, 2), (1, 3)] := by
  decide +kernel

/-- The hypotheses of `pixels_circular_partial` and `pixels_regional_partial` are met by squares. -/
example : Exact world (square (-20, 20) (20, 40)) (getPixels world 1 (square (-20, 20) (20, 40))) := by
  apply pixels_circular_partial world_regular rfl (le_refl 1) (by decide) (by decide)
  · decide +kernel
  · exact Or.inr ⟨0, (-20, 20), by decide +kernel, (20, 20), by decide +kernel, by decide +kernel, by decide +kernel⟩
  · decide +kernel

example : Exact regional (square (3, 3) (6, 5)) (getPixels regional 1 (square (3, 3) (6, 5))) :=
  pixels_regional_partial regional_regular rfl (le_refl 1) (by decide) (by decide +kernel) (by decide +kernel)

/-- Two eddies, one of them described in another turn. -/
example : (gridCount world 1 [(0, square (-20, 20) (20, 40) ++ [(-20, 20)]), (715, square (700, 20) (720, 40))]).map
    (fun r => (List.range 36).map (fun i => r i 2)) =
    some ([1, 1] ++ List.replicate 32 0 ++ [2, 2]) := by decide +kernel

example : Fits world 1 (715, square (700, 20) (720, 40)) :=
  ⟨by decide +kernel, by decide +kernel, fun _ => by decide +kernel, fun h => by cases h⟩

end Verif.Pixels
