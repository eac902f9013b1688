import Verif.Poly.Indexs

/-!
# Filled and coloured contours (C186, `src/py_eddy_tracker/observations/observation.py:1908-1963` (`filled`), `2086-2116`
(`display_color`))

Longitudes and values are exact rationals. The colour map of matplotlib is a table of `n` colours.
-/

namespace Verif.Lines

open Verif.Poly (minR maxR minR_spec maxR_spec fmod_unique)

/-- `wrap_longitude(x, y, ref)` without cut (generic.py:494-499). -/
def wrapPoint (ref : Rat) (p : Rat × Rat) : Rat × Rat := (Py.fmod (p.1 - ref) 360 + ref, p.2)

/-- The polygons which are drawn (observation.py:1938-1946, 2099-2111). -/
def filledVerts (ref : Option Rat) (contours : List (List (Rat × Rat))) : List (List (Rat × Rat)) :=
  match ref with
  | none => contours
  | some r => contours.map (fun c => c.map (wrapPoint r))

/-- The positions in the colour map (observation.py:1950-1955): `v = varname * factor`, `(v - vmin) / (vmax - vmin)`. `none` when the
two bounds are equal (divisions by zero) or when there is no value. -/
def filledShades (factor : Rat) (vmin vmax : Option Rat) (values : List Rat) : Option (List Rat) :=
  let v := values.map (fun x => x * factor)
  let lo := vmin.getD (minR v)
  let hi := vmax.getD (maxR v)
  if values = [] ∨ hi = lo then none else some (v.map (fun x => (x - lo) / (hi - lo)))

/-- `cmap(t)` of matplotlib with `n` colours: the number of the colour. The colours under 0 and over 1 are the first and the last
ones. -/
def colourOf (n : Nat) (t : Rat) : Nat := if t < 0 then 0 else min (n - 1) ⌊t * n⌋.toNat

/-! ### Specification -/

/-- `d` is `c` moved by whole turns. -/
def MovedByTurns (c d : List (Rat × Rat)) : Prop := ∃ k : Int, d = c.map (fun p => (p.1 + 360 * (k : Rat), p.2))

/-- The contour is, up to whole turns, in the map which begins at `ref`. -/
def InMap (ref : Rat) (c : List (Rat × Rat)) : Prop := ∃ k : Int, ∀ p ∈ c, ref ≤ p.1 + 360 * k ∧ p.1 + 360 * k < ref + 360

/-- Full statement: each polygon has the shape of the contour of its eddy. -/
def ShapesKept : Prop := ∀ ref contours, List.Forall₂ MovedByTurns contours (filledVerts ref contours)

/-! ### Proofs -/

theorem wrapPoint_spec (ref : Rat) (p : Rat × Rat) :
    ref ≤ (wrapPoint ref p).1 ∧ (wrapPoint ref p).1 < ref + 360 ∧ (wrapPoint ref p).2 = p.2 ∧ ∃ k : Int, (wrapPoint ref p).1 = p.1 + 360 * k := by
  obtain ⟨h1, h2, k, h3⟩ := Py.fmod_spec (p.1 - ref) (show (0 : Rat) < 360 by norm_num)
  refine ⟨?_, ?_, rfl, k, ?_⟩
  · show ref ≤ Py.fmod (p.1 - ref) 360 + ref; linarith
  · show Py.fmod (p.1 - ref) 360 + ref < ref + 360; linarith
  · show Py.fmod (p.1 - ref) 360 + ref = _
    rw [h3]; ring

theorem wrapPoint_in {ref : Rat} {p : Rat × Rat} {k : Int} (h1 : ref ≤ p.1 + 360 * k) (h2 : p.1 + 360 * k < ref + 360) :
    wrapPoint ref p = (p.1 + 360 * k, p.2) := by
  unfold wrapPoint
  rw [fmod_unique (z := p.1 + 360 * k - ref) (by linarith) (by linarith) (k := k) (by ring)]
  congr 1
  ring

/-- **C186** (shapes): the polygons of the contours which are in the map have the shape of the contours. Missing: contours which
cross the limit of the map. -/
theorem filled_shape_partial (ref : Option Rat) (contours : List (List (Rat × Rat)))
    (h : ∀ r, ref = some r → ∀ c ∈ contours, InMap r c) : List.Forall₂ MovedByTurns contours (filledVerts ref contours) := by
  unfold filledVerts
  cases ref with
  | none =>
    simp only
    rw [List.forall₂_same]
    intro c _
    exact ⟨0, by simp⟩
  | some r =>
    simp only
    rw [List.forall₂_map_right_iff, List.forall₂_same]
    intro c hc
    obtain ⟨k, hk⟩ := h r rfl c hc
    refine ⟨k, List.map_congr_left (fun p hp => ?_)⟩
    exact wrapPoint_in (hk p hp).1 (hk p hp).2

/-- Every vertex is drawn in the map, at its place up to whole turns, in the polygon of its eddy. -/
theorem filled_vertices (r : Rat) (contours : List (List (Rat × Rat))) :
    List.Forall₂ (List.Forall₂ (fun (p q : Rat × Rat) => r ≤ q.1 ∧ q.1 < r + 360 ∧ q.2 = p.2 ∧ ∃ k : Int, q.1 = p.1 + 360 * k)) contours
      (filledVerts (some r) contours) := by
  unfold filledVerts
  simp only
  rw [List.forall₂_map_right_iff, List.forall₂_same]
  intro c _
  rw [List.forall₂_map_right_iff, List.forall₂_same]
  intro p _
  exact wrapPoint_spec r p

/-- A contour across the limit of the map is drawn through the whole map. -/
theorem filled_shape_wrong : ¬ ShapesKept := by
  intro h
  have h1 := h (some 0) [[(359, 0), (361, 0), (360, 1), (359, 0)]]
  have e : filledVerts (some 0) [[(359, 0), (361, 0), (360, 1), (359, 0)]] = [[(359, 0), (1, 0), (0, 1), (359, 0)]] := by decide +kernel
  rw [e] at h1
  simp only [List.forall₂_cons, List.Forall₂.nil, and_true] at h1
  obtain ⟨k, hk⟩ := h1
  simp only [List.map_cons, List.map_nil, List.cons.injEq, Prod.mk.injEq, and_true] at hk
  obtain ⟨h2, h3, -⟩ := hk
  linarith

theorem colourOf_mono (n : Nat) {s t : Rat} (h : s ≤ t) : colourOf n s ≤ colourOf n t := by
  unfold colourOf
  by_cases hs : s < 0
  · rw [if_pos hs]; exact Nat.zero_le _
  · rw [if_neg hs, if_neg (by linarith)]
    have : ⌊s * n⌋ ≤ ⌊t * n⌋ := Int.floor_le_floor (mul_le_mul_of_nonneg_right h (Nat.cast_nonneg n))
    omega

theorem shade_mono {lo hi x y : Rat} (h : lo < hi) : (x - lo) / (hi - lo) ≤ (y - lo) / (hi - lo) ↔ x ≤ y := by
  rw [div_le_div_iff_of_pos_right (by linarith)]
  constructor <;> intro h <;> linarith

/-- **C186** (colours): one colour by eddy; with the default bounds the least value has the first colour, the greatest one the
last colour, and a greater value has never an earlier colour. -/
theorem filled_colours {n : Nat} (hn : 0 < n) {factor : Rat} {values shades : List Rat} (h : filledShades factor none none values = some shades) :
    shades.length = values.length ∧
    (∀ (i j : Nat) (x y s t : Rat), values[i]? = some x → values[j]? = some y → shades[i]? = some s → shades[j]? = some t →
      x * factor ≤ y * factor → colourOf n s ≤ colourOf n t) ∧
    ∀ (i : Nat) (x s : Rat), values[i]? = some x → shades[i]? = some s → 0 ≤ s ∧ s ≤ 1 ∧
      ((∀ y ∈ values, x * factor ≤ y * factor) → colourOf n s = 0) ∧ ((∀ y ∈ values, y * factor ≤ x * factor) → colourOf n s = n - 1) := by
  unfold filledShades at h
  simp only [Option.getD_none] at h
  split at h
  · cases h
  rename_i hne
  rw [not_or] at hne
  have hv : values.map (fun x => x * factor) ≠ [] := by simpa using hne.1
  have m1 := minR_spec hv
  have m2 := maxR_spec hv
  have hlt : minR (values.map (fun x => x * factor)) < maxR (values.map (fun x => x * factor)) :=
    lt_of_le_of_ne (m2.2 _ m1.1) (fun e => hne.2 e.symm)
  generalize minR (values.map (fun x => x * factor)) = lo at *
  generalize maxR (values.map (fun x => x * factor)) = hi at *
  cases h
  have hget : ∀ (i : Nat) (x s : Rat), values[i]? = some x →
      ((values.map (fun x => x * factor)).map (fun x => (x - lo) / (hi - lo)))[i]? = some s → s = (x * factor - lo) / (hi - lo) := by
    intro i x s hx hs
    rw [List.getElem?_map, List.getElem?_map, hx] at hs
    exact (Option.some.inj hs).symm
  have hpos : (0 : Rat) < hi - lo := by linarith
  refine ⟨by simp, ?_, ?_⟩
  · intro i j x y s t hx hy hs ht hle
    rw [hget i x s hx hs, hget j y t hy ht]
    exact colourOf_mono n ((shade_mono hlt).2 hle)
  · intro i x s hx hs
    have hx' : x * factor ∈ values.map (fun x => x * factor) := List.mem_map.2 ⟨x, List.mem_of_getElem? hx, rfl⟩
    have a1 := m1.2 _ hx'
    have a2 := m2.2 _ hx'
    rw [hget i x s hx hs]
    refine ⟨div_nonneg (by linarith) hpos.le, (div_le_one hpos).2 (by linarith), ?_, ?_⟩
    · intro hmin
      obtain ⟨y, hy, e⟩ := List.mem_map.1 m1.1
      have : x * factor = lo := le_antisymm (by have := hmin y hy; linarith) a1
      rw [this, sub_self, zero_div]
      unfold colourOf
      simp
    · intro hmax
      obtain ⟨y, hy, e⟩ := List.mem_map.1 m2.1
      have : x * factor = hi := le_antisymm a2 (by have := hmax y hy; linarith)
      rw [this, div_self (ne_of_gt hpos)]
      unfold colourOf
      rw [if_neg (by norm_num), one_mul, show ((n : Rat)) = ((n : Int) : Rat) by norm_cast, Int.floor_intCast]
      simp

/-- With bounds given by the user, the colours are still in the order of the values. -/
theorem filled_bounds {n : Nat} {factor lo hi : Rat} (hb : lo < hi) {values shades : List Rat}
    (h : filledShades factor (some lo) (some hi) values = some shades) :
    shades.length = values.length ∧ ∀ (i j : Nat) (x y s t : Rat), values[i]? = some x → values[j]? = some y → shades[i]? = some s →
      shades[j]? = some t → x * factor ≤ y * factor → colourOf n s ≤ colourOf n t := by
  unfold filledShades at h
  simp only [Option.getD_some] at h
  split at h
  · cases h
  cases h
  refine ⟨by simp, ?_⟩
  intro i j x y s t hx hy hs ht hle
  rw [List.getElem?_map, List.getElem?_map, hx] at hs
  rw [List.getElem?_map, List.getElem?_map, hy] at ht
  rw [← Option.some.inj hs, ← Option.some.inj ht]
  exact colourOf_mono n ((shade_mono hb).2 hle)

/-- There is no colour exactly when there is no eddy or when all have the same value. -/
theorem filled_none_iff (factor : Rat) (values : List Rat) :
    filledShades factor none none values = none ↔ ∀ x ∈ values, ∀ y ∈ values, x * factor = y * factor := by
  unfold filledShades
  simp only [Option.getD_none]
  by_cases hv : values = []
  · subst hv; simp
  have hv' : values.map (fun x => x * factor) ≠ [] := by simpa using hv
  have m1 := minR_spec hv'
  have m2 := maxR_spec hv'
  constructor
  · intro h x hx y hy
    have he : maxR (values.map (fun x => x * factor)) = minR (values.map (fun x => x * factor)) := by
      by_contra hne
      rw [if_neg (by rw [not_or]; exact ⟨hv, hne⟩)] at h
      cases h
    have hx' : x * factor ∈ values.map (fun x => x * factor) := List.mem_map.2 ⟨x, hx, rfl⟩
    have hy' : y * factor ∈ values.map (fun x => x * factor) := List.mem_map.2 ⟨y, hy, rfl⟩
    have a1 := m1.2 _ hx'
    have a2 := m2.2 _ hx'
    have b1 := m1.2 _ hy'
    have b2 := m2.2 _ hy'
    linarith
  · intro h
    obtain ⟨x, hx, ex⟩ := List.mem_map.1 m1.1
    obtain ⟨y, hy, ey⟩ := List.mem_map.1 m2.1
    rw [if_pos (Or.inr (by rw [← ex, ← ey]; exact h y hy x hx))]

/-- Amplitudes in centimetres, three colours. -/
example : (filledShades 100 none none [1 / 10, 3 / 10, 2 / 10]).map (List.map (colourOf 3)) = some [0, 2, 1] ∧
    (filledShades 100 (some 0) (some 20) [1 / 10, 3 / 10, -1 / 10]).map (List.map (colourOf 4)) = some [2, 3, 0] := by decide +kernel

/-- A contour two turns away, in the map from 100. -/
example : InMap 100 [(-250, 3), (-251, 4), (-249, 5)] ∧
    filledVerts (some 100) [[(-250, 3), (-251, 4), (-249, 5)]] = [[(110, 3), (109, 4), (111, 5)]] := by
  refine ⟨⟨1, ?_⟩, by decide +kernel⟩
  intro p hp
  simp only [List.mem_cons, List.not_mem_nil, or_false] at hp
  rcases hp with rfl | rfl | rfl <;> norm_num

end Verif.Lines
