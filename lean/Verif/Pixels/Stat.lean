import Verif.Pixels.Count

/-!
# C164: `interp_grid`, statistics of a grid in the contours of eddies

Model of `EddiesObservations.interp_grid` (/repo/src/py_eddy_tracker/observations/observation.py:2361-2405) with the methods `count`,
`mean`, `max` and `min`, and of the loop of `grid_stat` (observation.py:2564-2614) for the methods `count` and `max` (the method `mean`
is `meanIn`). The methods `center` and `nearest` are `grid_object.interp` at the centres, modelled in `Verif.Interp`. `none` is nan. Not
modelled: the conversion of the result to `dtype`.
-/

namespace Verif.Pixels

open Verif.Poly

/-- The methods of `interp_grid` which use the contours (observation.py:2384). -/
inductive Method where
  | count
  | mean
  | max
  | min
  deriving DecidableEq

/-- `v_max = -1e40` (observation.py:2609), the exact power of ten. -/
def lowest : Rat := -(10 ^ 40)

/-- Loop on the pixels of the method `max` (observation.py:2609-2614). -/
def maxLoop (val : Int × Int → Rat) : List (Int × Int) → Rat → Rat
  | [], m => m
  | p :: l, m => maxLoop val l (max m (val p))

/-- `grid_stat` with the method `max` for one contour (observation.py:2587-2614): the mask is not used. -/
def maxIn (g : Grid) (val : Int × Int → Rat) (v : List Pt) : Rat := maxLoop val (getPixels g 1 v) lowest

/-- `grid_stat` for one contour (observation.py:2587-2614), the method `min` being the opposite of the maximum of the opposite of the
grid (observation.py:2393-2404). -/
def statIn (g : Grid) (mask : Int × Int → Bool) (val : Int × Int → Rat) (v : List Pt) : Method → Option Rat
  | .count => some ((getPixels g 1 v).length : Rat)
  | .mean => meanIn g mask val v
  | .max => some (maxIn g val v)
  | .min => some (-(maxIn g (fun p => -val p) v))

/-- The contour of an eddy of longitude `lon` with the reference of its turn (observation.py:2387-2388). -/
def placed (g : Grid) (lon : Rat) (c : List Pt) : List Pt :=
  c.map (fun w => (Py.fmod (w.1 - (Py.fmod (lon - g.x0) 360 + g.x0 - 180)) 360 + (Py.fmod (lon - g.x0) 360 + g.x0 - 180), w.2))

/-- `interp_grid` with a method of contour (observation.py:2384-2404): the turns are set for all eddies, then the eddies of the indices
`i` are taken (`none`: all of them). `none` as result: an index is out of the file (`IndexError`). -/
def interpGrid (g : Grid) (mask : Int × Int → Bool) (val : Int × Int → Rat) (eddies : List (Rat × List Pt)) (i : Option (List Nat))
    (m : Method) : Option (List (Option Rat)) :=
  let x := eddies.map (fun e => placed g e.1 e.2)
  match i with
  | none => some (x.map (fun v => statIn g mask val v m))
  | some l => (l.mapM (fun k => x[k]?)).map (fun x' => x'.map (fun v => statIn g mask val v m))

/-! ### Specification -/

/-- An eddy whose contour is well placed on the grid: it is above the first line; on a circular grid it is at less than 90° on both
sides of the longitude of the centre; on another grid it is in the turn of the grid. -/
structure Inside (g : Grid) (e : Rat × List Pt) : Prop where
  some_position : e.2 ≠ []
  north : ∀ w ∈ e.2, g.y0 + g.ys / 2 < w.2
  around : g.circular = true → (∀ w ∈ unrolled (inTurn g e.1) e.2, |w.1 - inTurn g e.1| < 90) ∧
    (∃ w ∈ unrolled (inTurn g e.1) e.2, w.1 ≤ inTurn g e.1) ∧ ∃ w ∈ unrolled (inTurn g e.1) e.2, inTurn g e.1 ≤ w.1
  turn : g.circular = false → ∀ w ∈ unrolled (inTurn g e.1) e.2, g.x0 ≤ w.1 ∧ w.1 < g.x0 + 360

/-- `l` lists once each the pixels of the grid whose centre is in the contour of the eddy taken around its centre. -/
def PixelsOf (g : Grid) (e : Rat × List Pt) (l : List (Int × Int)) : Prop := Exact g (unrolled (inTurn g e.1) e.2) l

/-- The value expected of a method on the pixels `l` of an eddy: the statistic on the pixels which are not masked, nan without such
pixel; `count` is the number of pixels. -/
def Expected (mask : Int × Int → Bool) (val : Int × Int → Rat) (l : List (Int × Int)) : Method → Option Rat → Prop
  | .count, r => r = some (l.length : Rat)
  | .mean, r => ((∀ p ∈ l, mask p = true) ∧ r = none) ∨ ∃ m, r = some m ∧ (∃ p ∈ l, mask p = false) ∧
      m * (l.filter (fun p => !mask p)).length = ((l.filter (fun p => !mask p)).map val).sum
  | .max, r => ((∀ p ∈ l, mask p = true) ∧ r = none) ∨
      ∃ p ∈ l, mask p = false ∧ r = some (val p) ∧ ∀ q ∈ l, mask q = false → val q ≤ val p
  | .min, r => ((∀ p ∈ l, mask p = true) ∧ r = none) ∨
      ∃ p ∈ l, mask p = false ∧ r = some (val p) ∧ ∀ q ∈ l, mask q = false → val p ≤ val q

/-! ### Proofs -/

theorem placed_eq (g : Grid) (lon : Rat) (c : List Pt) : placed g lon c = unrolled (inTurn g lon) c := by
  unfold placed unrolled inTurn normal
  apply List.map_congr_left
  intro w _
  refine Prod.ext ?_ rfl
  simp only
  rw [show w.1 - (Py.fmod (lon - g.x0) 360 + g.x0 - 180) = w.1 - (Py.fmod (lon - g.x0) 360 + g.x0) + 180 by ring]
  ring

/-- The pixels found for an eddy are those of its contour around its centre. -/
theorem inside_pixels {g : Grid} (hg : g.Regular) (hsize : g.circular = true → 10 ≤ g.nx) {e : Rat × List Pt} (h : Inside g e) :
    PixelsOf g e (getPixels g 1 (placed g e.1 e.2)) := by
  unfold PixelsOf
  rw [placed_eq]
  have hne : unrolled (inTurn g e.1) e.2 ≠ [] := by
    unfold unrolled
    simpa using h.some_position
  have hnorth : ∀ w ∈ unrolled (inTurn g e.1) e.2, g.y0 + (((1 : Nat) : Rat) - 1 / 2) * g.ys < w.2 := by
    intro w hw
    obtain ⟨z, hz, rfl⟩ := List.mem_map.1 hw
    have := h.north z hz
    push_cast
    linarith
  have hin0 : g.x0 ≤ inTurn g e.1 ∧ inTurn g e.1 < g.x0 + 360 := by
    obtain ⟨a1, a2, _⟩ := Py.fmod_spec (e.1 - g.x0) (show (0 : Rat) < 360 by norm_num)
    unfold inTurn
    constructor <;> linarith
  cases hc : g.circular with
  | false => exact pixels_regional_partial hg hc (le_refl 1) hne (h.turn hc) hnorth
  | true =>
    obtain ⟨k1, ⟨a, ha, ha'⟩, b, hb, hb'⟩ := h.around hc
    refine pixels_circular_partial hg hc (le_refl 1) (hsize hc) hne ?_ ?_ hnorth
    · intro u hu w hw
      have e1 := abs_lt.1 (k1 u hu)
      have e2 := abs_lt.1 (k1 w hw)
      linarith [e1.2, e2.1]
    · by_cases hall : ∀ w ∈ unrolled (inTurn g e.1) e.2, g.x0 ≤ w.1
      · exact Or.inl ⟨hall, a, ha, lt_of_le_of_lt ha' hin0.2⟩
      · push Not at hall
        obtain ⟨w, hw, hlt⟩ := hall
        refine Or.inr ⟨0, w, hw, b, hb, ?_, ?_⟩
        · push_cast; linarith
        · push_cast; linarith

theorem maxLoop_spec (val : Int × Int → Rat) : ∀ (l : List (Int × Int)) (m : Rat), m ≤ maxLoop val l m ∧
    (∀ p ∈ l, val p ≤ maxLoop val l m) ∧ (maxLoop val l m = m ∨ ∃ p ∈ l, maxLoop val l m = val p)
  | [], m => ⟨le_refl _, by simp, Or.inl rfl⟩
  | p :: l, m => by
    obtain ⟨h1, h2, h3⟩ := maxLoop_spec val l (max m (val p))
    unfold maxLoop
    refine ⟨(le_max_left _ _).trans h1, ?_, ?_⟩
    · intro q hq
      rcases List.mem_cons.1 hq with rfl | hq
      · exact (le_max_right _ _).trans h1
      · exact h2 q hq
    · rcases h3 with h3 | ⟨q, hq, h3⟩
      · rcases max_choice m (val p) with e | e
        · exact Or.inl (h3.trans e)
        · exact Or.inr ⟨p, by simp, h3.trans e⟩
      · exact Or.inr ⟨q, List.mem_cons_of_mem _ hq, h3⟩

theorem maxLoop_attained (val : Int × Int → Rat) {l : List (Int × Int)} {m : Rat} (hne : l ≠ []) (h : ∀ p ∈ l, m ≤ val p) :
    ∃ p ∈ l, maxLoop val l m = val p ∧ ∀ q ∈ l, val q ≤ val p := by
  obtain ⟨h1, h2, h3⟩ := maxLoop_spec val l m
  rcases h3 with h3 | ⟨p, hp, h3⟩
  · obtain ⟨p, hp⟩ := List.exists_mem_of_ne_nil l hne
    have : maxLoop val l m = val p := le_antisymm (h3.le.trans (h p hp)) (h2 p hp)
    exact ⟨p, hp, this, fun q hq => this ▸ h2 q hq⟩
  · exact ⟨p, hp, h3, fun q hq => h3 ▸ h2 q hq⟩

/-- One contour. -/
theorem statIn_expected {g : Grid} {v : List Pt} (mask : Int × Int → Bool) (val : Int × Int → Rat) (m : Method)
    (hm : m = .max ∨ m = .min → getPixels g 1 v ≠ [] ∧ (∀ p ∈ getPixels g 1 v, mask p = false) ∧
      ∀ p ∈ getPixels g 1 v, |val p| ≤ 10 ^ 40) :
    Expected mask val (getPixels g 1 v) m (statIn g mask val v m) := by
  cases m with
  | count => exact rfl
  | mean =>
    show Expected mask val (getPixels g 1 v) .mean (meanIn g mask val v)
    unfold meanIn
    simp only
    by_cases h0 : ((getPixels g 1 v).filter (fun p => !mask p)).length = 0
    · rw [if_pos h0]
      refine Or.inl ⟨?_, rfl⟩
      intro p hp
      by_contra hc
      have : p ∈ (getPixels g 1 v).filter (fun p => !mask p) := List.mem_filter.2 ⟨hp, by simpa using hc⟩
      rw [List.length_eq_zero_iff.1 h0] at this
      cases this
    · rw [if_neg h0]
      refine Or.inr ⟨_, rfl, ?_, ?_⟩
      · obtain ⟨p, hp⟩ := List.exists_mem_of_ne_nil _ (fun hc => h0 (List.length_eq_zero_iff.2 hc))
        obtain ⟨h1, h2⟩ := List.mem_filter.1 hp
        exact ⟨p, h1, by simpa using h2⟩
      · have : (((getPixels g 1 v).filter (fun p => !mask p)).length : Rat) ≠ 0 := by exact_mod_cast h0
        field_simp
  | max =>
    obtain ⟨h1, h2, h3⟩ := hm (Or.inl rfl)
    obtain ⟨p, hp, e, hq⟩ := maxLoop_attained val (m := lowest) h1 (fun p hp => (abs_le.1 (h3 p hp)).1)
    exact Or.inr ⟨p, hp, h2 p hp, congrArg some e, fun q hql _ => hq q hql⟩
  | min =>
    obtain ⟨h1, h2, h3⟩ := hm (Or.inr rfl)
    obtain ⟨p, hp, e, hq⟩ := maxLoop_attained (fun p => -val p) (m := lowest) h1
      (fun p hp => neg_le_neg (abs_le.1 (h3 p hp)).2)
    refine Or.inr ⟨p, hp, h2 p hp, ?_, fun q hql _ => neg_le_neg_iff.1 (hq q hql)⟩
    show some (-(maxLoop _ _ _)) = _
    rw [e, neg_neg]

/-- **C164**: `interp_grid` gives for each eddy, in the order of the file, the expected statistic of the grid on the pixels whose centre
is in the contour of the eddy, whatever the turn of its longitudes. Missing for the methods `max` and `min`: contours without pixel and
masked pixels (`max_masked_wrong`, `max_empty_wrong`). Missing for all: contours which leave the grid (`Inside`). -/
theorem interp_grid_partial {g : Grid} (hg : g.Regular) (hsize : g.circular = true → 10 ≤ g.nx) (mask : Int × Int → Bool)
    (val : Int × Int → Rat) (eddies : List (Rat × List Pt)) (hin : ∀ e ∈ eddies, Inside g e) (m : Method)
    (hm : m = .max ∨ m = .min → ∀ e ∈ eddies, ∀ l, PixelsOf g e l → l ≠ [] ∧ (∀ p ∈ l, mask p = false) ∧ ∀ p ∈ l, |val p| ≤ 10 ^ 40) :
    ∃ r, interpGrid g mask val eddies none m = some r ∧ List.Forall₂
      (fun e x => ∃ l, PixelsOf g e l ∧ Expected mask val l m x) eddies r := by
  refine ⟨_, rfl, ?_⟩
  rw [List.map_map, List.forall₂_map_right_iff, List.forall₂_same]
  intro e he
  have hp := inside_pixels hg hsize (hin e he)
  exact ⟨_, hp, statIn_expected mask val m (fun h => hm h e he _ hp)⟩

/-- With a selection, the values are those of the whole file at the selected indices: the turns do not depend on the selection. -/
theorem interp_grid_select (g : Grid) (mask : Int × Int → Bool) (val : Int × Int → Rat) (eddies : List (Rat × List Pt)) (l : List Nat)
    (m : Method) (hl : ∀ k ∈ l, k < eddies.length) : ∃ r s, interpGrid g mask val eddies none m = some r ∧
      interpGrid g mask val eddies (some l) m = some s ∧ s.length = l.length ∧ ∀ j k : Nat, l[j]? = some k → s[j]? = r[k]? := by
  have key : ∀ l : List Nat, (∀ k ∈ l, k < eddies.length) →
      l.mapM (fun k => (eddies.map (fun e => placed g e.1 e.2))[k]?) =
        some (l.map (fun k => (eddies.map (fun e => placed g e.1 e.2))[k]?.getD [])) := by
    intro l
    induction l with
    | nil => intro _; rfl
    | cons k l ih =>
      intro h
      have hk : k < (eddies.map (fun e => placed g e.1 e.2)).length := by simpa using h k (by simp)
      rw [List.mapM_cons, ih (fun q hq => h q (List.mem_cons_of_mem _ hq)), List.getElem?_eq_getElem hk]
      rw [List.map_cons, List.getElem?_eq_getElem hk]
      rfl
  refine ⟨_, l.map (fun k => statIn g mask val ((eddies.map (fun e => placed g e.1 e.2))[k]?.getD []) m), rfl, ?_, ?_, ?_⟩
  · simp only [interpGrid]
    rw [key l hl]
    simp [List.map_map, Function.comp_def]
  · simp
  · intro j k hj
    have hk : k < (eddies.map (fun e => placed g e.1 e.2)).length := by simpa using hl k (List.mem_of_getElem? hj)
    rw [List.getElem?_map, hj, List.getElem?_map, List.getElem?_eq_getElem hk]
    simp only [Option.map_some, Option.getD_some, List.getElem?_eq_getElem hk]

/-- A selected index out of the file raises. -/
theorem interp_grid_select_raises (g : Grid) (mask : Int × Int → Bool) (val : Int × Int → Rat) (eddies : List (Rat × List Pt))
    (l : List Nat) (m : Method) (hl : ∃ k ∈ l, eddies.length ≤ k) : interpGrid g mask val eddies (some l) m = none := by
  have key : ∀ l : List Nat, (∃ k ∈ l, eddies.length ≤ k) → l.mapM (fun k => (eddies.map (fun e => placed g e.1 e.2))[k]?) = none := by
    intro l
    induction l with
    | nil => rintro ⟨k, hk, _⟩; cases hk
    | cons a l ih =>
      rintro ⟨k, hk, hlt⟩
      rw [List.mapM_cons]
      cases ha : (eddies.map (fun e => placed g e.1 e.2))[a]? with
      | none => rfl
      | some v =>
        have hak : a < eddies.length := by
          have := (List.getElem?_eq_some_iff.1 ha).1
          simpa using this
        have hk' : k ∈ l := by
          rcases List.mem_cons.1 hk with rfl | hk
          · omega
          · exact hk
        rw [ih ⟨k, hk', hlt⟩]
        rfl
  simp only [interpGrid]
  rw [key l hl]
  rfl

theorem fmod_turn (x : Rat) (k : Int) : Py.fmod (x + 360 * k) 360 = Py.fmod x 360 := by
  obtain ⟨h0, h1, q, hq⟩ := Py.fmod_spec x (show (0 : Rat) < 360 by norm_num)
  refine fmod_unique h0 h1 (k := q - k) ?_
  rw [hq]
  push_cast
  ring

/-- The contour and the longitude of an eddy can be given in any turn. -/
theorem interp_grid_turn (g : Grid) (mask : Int × Int → Bool) (val : Int × Int → Rat) (lon : Rat) (c : List Pt) (a b : Int) (m : Method) :
    interpGrid g mask val [(lon + 360 * a, c.map (fun w => (w.1 + 360 * b, w.2)))] none m = interpGrid g mask val [(lon, c)] none m := by
  have h1 : ∀ x : Rat, Py.fmod (lon + 360 * a - x) 360 = Py.fmod (lon - x) 360 := by
    intro x
    rw [show lon + 360 * (a : Rat) - x = (lon - x) + 360 * (a : Rat) by ring]
    exact fmod_turn _ a
  have h2 : placed g (lon + 360 * a) (c.map (fun w => (w.1 + 360 * b, w.2))) = placed g lon c := by
    unfold placed
    rw [List.map_map]
    apply List.map_congr_left
    intro w _
    simp only [Function.comp_def, h1]
    refine Prod.ext ?_ rfl
    simp only
    rw [show w.1 + 360 * (b : Rat) - (Py.fmod (lon - g.x0) 360 + g.x0 - 180) =
      (w.1 - (Py.fmod (lon - g.x0) 360 + g.x0 - 180)) + 360 * (b : Rat) by ring, fmod_turn]
  simp only [interpGrid, List.map_cons, List.map_nil, h2]

/-! ### Disagreements -/

/-- The method `max` takes the value which is under the mask (the fill value), the method `mean` does not. -/
theorem max_masked_wrong : interpGrid regional (fun p => p == (4, 4)) (fun p => if p = (4, 4) then 1000 else 1)
      [(5, square (3, 3) (6, 5))] none .max = some [some 1000] ∧
    interpGrid regional (fun p => p == (4, 4)) (fun p => if p = (4, 4) then 1000 else 1)
      [(5, square (3, 3) (6, 5))] none .mean = some [some 1] := by decide +kernel

/-- Without pixel in the contour, `max` and `min` give `-1e40` and `1e40` whatever the grid, `mean` gives nan. -/
theorem max_empty_wrong {g : Grid} (mask : Int × Int → Bool) (val : Int × Int → Rat) {v : List Pt} (h : getPixels g 1 v = []) :
    statIn g mask val v .max = some (-(10 ^ 40)) ∧ statIn g mask val v .min = some (10 ^ 40) ∧ statIn g mask val v .mean = none := by
  refine ⟨?_, ?_, ?_⟩
  · simp only [statIn, maxIn, h, maxLoop, lowest]
  · simp only [statIn, maxIn, h, maxLoop, lowest, neg_neg]
  · simp [statIn, meanIn, h]

/-- A small contour has no pixel. -/
example : getPixels regional 1 (placed regional 5 (square (5, 5) (5 + 1 / 4, 5 + 1 / 4))) = [] := by decide +kernel

/-- The hypotheses of `interp_grid_partial` are met by an eddy across the limit of a circular grid and by an eddy of another turn. -/
example : ∀ e ∈ [((0 : Rat), square (-20, 20) (20, 40)), (715, square (700, 20) (720, 40))], Inside world e := by
  intro e he
  simp only [List.mem_cons, List.not_mem_nil, or_false] at he
  rcases he with rfl | rfl
  · exact ⟨by decide, by decide +kernel, fun _ => by decide +kernel, fun h => by cases h⟩
  · exact ⟨by decide, by decide +kernel, fun _ => by decide +kernel, fun h => by cases h⟩

example : interpGrid world (fun p => p == (35, 2)) (fun p => p.1 + 100 * p.2)
    [(0, square (-20, 20) (20, 40)), (715, square (700, 20) (720, 40))] none .mean = some [some (1905 / 7), some 301] ∧
  interpGrid world (fun _ => false) (fun p => p.1 + 100 * p.2)
    [(0, square (-20, 20) (20, 40)), (715, square (700, 20) (720, 40))] none .min = some [some 200, some 234] ∧
  interpGrid world (fun _ => false) (fun p => p.1 + 100 * p.2)
    [(0, square (-20, 20) (20, 40)), (715, square (700, 20) (720, 40))] (some [1, 0]) .count = some [some 4, some 8] := by
  decide +kernel

end Verif.Pixels
