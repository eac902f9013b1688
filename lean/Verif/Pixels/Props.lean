import Verif.Pixels.Model
import Verif.Poly.Winding
import Mathlib.Data.List.Nodup
import Mathlib.Tactic.Linarith
import Mathlib.Tactic.FieldSimp
import Mathlib.Tactic.LinearCombination

/-!
# C66: the pixels of a contour
-/

namespace Verif.Pixels

open Verif.Poly

theorem rint_bounds (x : Rat) : x - 1 / 2 ≤ (Amplitude.rint x : Rat) ∧ (Amplitude.rint x : Rat) ≤ x + 1 / 2 := by
  have h1 : (x.floor : Rat) ≤ x := Int.floor_le x
  have h2 : x < (x.floor : Rat) + 1 := Int.lt_floor_add_one x
  unfold Amplitude.rint
  split
  · constructor <;> linarith
  · rename_i h
    split
    · push_cast; constructor <;> linarith
    · rename_i h'
      split
      · constructor <;> linarith
      · push_cast; constructor <;> linarith

theorem rint_zero : Amplitude.rint 0 = 0 := by
  obtain ⟨h1, h2⟩ := rint_bounds 0
  have h3 : ((-1 : Int) : Rat) < (Amplitude.rint 0 : Rat) := by push_cast; linarith
  have h4 : (Amplitude.rint 0 : Rat) < ((1 : Int) : Rat) := by push_cast; linarith
  have h3' : -1 < Amplitude.rint 0 := by exact_mod_cast h3
  have h4' : Amplitude.rint 0 < 1 := by exact_mod_cast h4
  omega

theorem rint_mono {x y : Rat} (h : x ≤ y) : Amplitude.rint x ≤ Amplitude.rint y := by
  rcases lt_or_ge (Amplitude.rint y) (Amplitude.rint x) with hlt | hge
  · exfalso
    have hx := rint_bounds x
    have hy := rint_bounds y
    have h1 : ((Amplitude.rint y : Int) : Rat) + 1 ≤ (Amplitude.rint x : Rat) := by exact_mod_cast hlt
    have hxy : x = y := by linarith
    rw [hxy] at hlt
    exact lt_irrefl _ hlt
  · exact hge

theorem rint_le_of {x : Rat} {z : Int} (h : x ≤ z + 1 / 2) : Amplitude.rint x ≤ z + 1 := by
  have := (rint_bounds x).2
  have h2 : (Amplitude.rint x : Rat) ≤ ((z + 1 : Int) : Rat) := by push_cast; linarith
  exact_mod_cast h2

theorem le_rint_of {x : Rat} {z : Int} (h : (z : Rat) + 1 / 2 ≤ x) : z ≤ Amplitude.rint x := by
  have := (rint_bounds x).1
  have h2 : (z : Rat) ≤ (Amplitude.rint x : Rat) := by linarith
  exact_mod_cast h2

theorem lt_rint_of {x : Rat} {z : Int} (h : (z : Rat) + 1 / 2 < x) : z + 1 ≤ Amplitude.rint x := by
  have := (rint_bounds x).1
  have h2 : (z : Rat) < (Amplitude.rint x : Rat) := by linarith
  have h3 : z < Amplitude.rint x := by exact_mod_cast h2
  omega

/-! ### The lists -/

theorem gridIn_mem (xa ya : List Rat) (ix0 ix1 : Int) (size : Nat) (iy0 : Int) (v : List Pt) (p : Int × Int) :
    p ∈ gridIn xa ya ix0 ix1 size iy0 v ↔ ∃ i j : Nat, i < xa.length ∧ j < ya.length ∧ winding (xa.getD i 0, ya.getD j 0) v ≠ 0 ∧
      p = ((if ix1 < ix0 then ((i : Int) + ix0) % (size : Int) else (i : Int) + ix0), (j : Int) + iy0) := by
  unfold gridIn
  simp only
  split
  · simp only [List.map_map, List.mem_map, List.mem_filter, List.mem_product, List.mem_range, decide_eq_true_eq, Function.comp_apply,
      Prod.exists]
    constructor
    · rintro ⟨i, j, ⟨⟨h1, h2⟩, h3⟩, rfl⟩; exact ⟨i, j, h1, h2, h3, rfl⟩
    · rintro ⟨i, j, h1, h2, h3, rfl⟩; exact ⟨i, j, ⟨⟨h1, h2⟩, h3⟩, rfl⟩
  · simp only [List.mem_map, List.mem_filter, List.mem_product, List.mem_range, decide_eq_true_eq, Prod.exists]
    constructor
    · rintro ⟨i, j, ⟨⟨h1, h2⟩, h3⟩, rfl⟩; exact ⟨i, j, h1, h2, h3, rfl⟩
    · rintro ⟨i, j, h1, h2, h3, rfl⟩; exact ⟨i, j, ⟨⟨h1, h2⟩, h3⟩, rfl⟩

theorem gridIn_nodup (xa ya : List Rat) (ix0 ix1 : Int) (size : Nat) (iy0 : Int) (v : List Pt) (h : ix1 < ix0 → xa.length ≤ size) :
    (gridIn xa ya ix0 ix1 size iy0 v).Nodup := by
  unfold gridIn
  simp only
  have hn : (((List.range xa.length) ×ˢ (List.range ya.length)).filter
      (fun p => decide (winding (xa.getD p.1 0, ya.getD p.2 0) v ≠ 0))).Nodup :=
    (List.nodup_range.product List.nodup_range).filter _
  split
  · rename_i hlt
    rw [List.map_map]
    refine List.Nodup.map_on ?_ hn
    intro p hp q hq he
    have hp' := List.mem_product.1 (List.mem_of_mem_filter hp)
    have hq' := List.mem_product.1 (List.mem_of_mem_filter hq)
    simp only [List.mem_range] at hp' hq'
    simp only [Function.comp_apply, Prod.mk.injEq] at he
    have hs := h hlt
    have hd : (size : Int) ∣ ((p.1 : Int) + ix0) - ((q.1 : Int) + ix0) :=
      Int.dvd_of_emod_eq_zero (by rw [Int.sub_emod, he.1, Int.sub_self, Int.zero_emod])
    have h1 : (p.1 : Int) = q.1 := by
      obtain ⟨c, hc⟩ := hd
      rcases lt_trichotomy c 0 with h0 | h0 | h0
      · have : (size : Int) * c ≤ -(size : Int) := by nlinarith
        omega
      · subst h0; omega
      · have : (size : Int) ≤ (size : Int) * c := by nlinarith
        omega
    exact Prod.ext (by omega) (by omega)
  · refine hn.map ?_
    intro p q he
    simp only [Prod.mk.injEq] at he
    exact Prod.ext (by omega) (by omega)

theorem slice_length (n : Nat) (f : Nat → Rat) {s t : Int} (hs : 0 ≤ s) (ht : 0 ≤ t) :
    (slice ((List.range n).map f) s t).length = min t.toNat n - min s.toNat n := by
  unfold slice Py.bound
  rw [if_pos hs, if_pos ht]
  simp

theorem slice_getD (n : Nat) (f : Nat → Rat) {s t : Int} (hs : 0 ≤ s) (ht : 0 ≤ t) {m : Nat} (hm : m < min t.toNat n - min s.toNat n) :
    (slice ((List.range n).map f) s t).getD m 0 = f (s.toNat + m) := by
  have hlen := slice_length n f hs ht
  rw [List.getD_eq_getElem?_getD, List.getElem?_eq_getElem (by omega)]
  unfold slice Py.bound
  rw [Option.getD_some, List.getElem_drop, List.getElem_take, List.getElem_map, List.getElem_range, if_pos hs]
  simp only [List.length_map, List.length_range]
  congr 1
  omega

/-- The points with a winding number different from 0 are in the box. -/
theorem winding_box {p : Pt} {v : List Pt} (hv : v ≠ []) (h : winding p v ≠ 0) :
    minR (v.map Prod.fst) ≤ p.1 ∧ p.1 ≤ maxR (v.map Prod.fst) ∧ minR (v.map Prod.snd) ≤ p.2 ∧ p.2 ≤ maxR (v.map Prod.snd) := by
  have hne1 : v.map Prod.fst ≠ [] := by simpa using hv
  have hne2 : v.map Prod.snd ≠ [] := by simpa using hv
  refine ⟨?_, ?_, ?_, ?_⟩ <;> by_contra hc <;> apply h <;> apply winding_outside_box <;> rw [not_le] at hc
  · exact Or.inl fun w hw => lt_of_lt_of_le hc ((minR_spec hne1).2 _ (List.mem_map_of_mem hw))
  · exact Or.inr (Or.inl fun w hw => lt_of_le_of_lt ((maxR_spec hne1).2 _ (List.mem_map_of_mem hw)) hc)
  · exact Or.inr (Or.inr (Or.inl fun w hw => lt_of_lt_of_le hc ((minR_spec hne2).2 _ (List.mem_map_of_mem hw))))
  · exact Or.inr (Or.inr (Or.inr fun w hw => lt_of_le_of_lt ((maxR_spec hne2).2 _ (List.mem_map_of_mem hw)) hc))

/-! ### Specification -/

/-- A grid with positive steps; a circular grid covers a whole turn. -/
structure Grid.Regular (g : Grid) : Prop where
  xs_pos : 0 < g.xs
  ys_pos : 0 < g.ys
  turn : g.circular = true → (g.nx : Rat) * g.xs = 360

/-- The centre of the pixel is in the contour (winding number different from 0), on a circular grid at any turn. -/
def Contains (g : Grid) (v : List Pt) (i j : Nat) : Prop :=
  if g.circular then ∃ k : Int, winding (g.xc i + 360 * k, g.yc j) v ≠ 0 else winding (g.xc i, g.yc j) v ≠ 0

/-- The result lists exactly the pixels of the grid in the contour, once each. -/
def Exact (g : Grid) (v : List Pt) (l : List (Int × Int)) : Prop :=
  l.Nodup ∧ ∀ p, p ∈ l ↔ ∃ i j : Nat, i < g.nx ∧ j < g.ny ∧ p = ((i : Int), (j : Int)) ∧ Contains g v i j

/-- The line `j` of a pixel of the contour is in the slice of lines. -/
theorem rows_spec {g : Grid} (hg : g.Regular) {N : Nat} (hN : 1 ≤ N) {lo hi : Rat} (hlo : g.y0 + (N - 1 / 2) * g.ys < lo) (hle : lo ≤ hi) :
    0 ≤ Amplitude.rint ((lo - g.y0) / g.ys) - N ∧ 0 ≤ Amplitude.rint ((hi - g.y0) / g.ys) + N + 1 ∧
    ∀ j : Nat, lo ≤ g.yc j → g.yc j ≤ hi →
      Amplitude.rint ((lo - g.y0) / g.ys) - N ≤ j ∧ (j : Int) < Amplitude.rint ((hi - g.y0) / g.ys) + N + 1 := by
  have hy := hg.ys_pos
  have h1 : (((N : Int) - 1 : Int) : Rat) + 1 / 2 < (lo - g.y0) / g.ys := by
    rw [lt_div_iff₀ hy]; push_cast; linarith
  have h2 := lt_rint_of h1
  have h3 : Amplitude.rint ((lo - g.y0) / g.ys) ≤ Amplitude.rint ((hi - g.y0) / g.ys) :=
    rint_mono (div_le_div_of_nonneg_right (by linarith) hy.le)
  refine ⟨by omega, by omega, fun j ha hb => ⟨?_, ?_⟩⟩
  · have : (lo - g.y0) / g.ys ≤ ((j : Int) : Rat) + 1 / 2 := by
      rw [div_le_iff₀ hy]
      unfold Grid.yc at ha
      push_cast
      linarith
    have := rint_le_of this
    omega
  · have : ((j : Int) : Rat) + 1 / 2 ≤ (hi - g.y0) / g.ys := by
      rw [le_div_iff₀ hy]
      unfold Grid.yc at hb
      push_cast
      linarith
    have := le_rint_of this
    omega

/-- **C66** (grids which are not circular): exact for the contours which are between the first bound of longitude and one turn after,
and above the first line. Missing: contours which go beyond the west or the south of the grid (`west_wrong`, `south_wrong`). -/
theorem pixels_regional_partial {g : Grid} (hg : g.Regular) (hc : g.circular = false) {N : Nat} (hN : 1 ≤ N) {v : List Pt} (hv : v ≠ [])
    (hx : ∀ w ∈ v, g.x0 ≤ w.1 ∧ w.1 < g.x0 + 360) (hy : ∀ w ∈ v, g.y0 + (N - 1 / 2) * g.ys < w.2) : Exact g v (getPixels g N v) := by
  have hne1 : v.map Prod.fst ≠ [] := by simpa using hv
  have hne2 : v.map Prod.snd ≠ [] := by simpa using hv
  obtain ⟨x1, x2⟩ := minR_spec hne1
  obtain ⟨y1, y2⟩ := maxR_spec hne1
  obtain ⟨z1, z2⟩ := minR_spec hne2
  obtain ⟨t1, t2⟩ := maxR_spec hne2
  have hb : ∀ p, winding p v ≠ 0 → _ := fun p => winding_box (p := p) hv
  unfold getPixels bbox nearest
  simp only [hc, Bool.false_eq_true, if_false]
  generalize minR (v.map Prod.fst) = lx at *
  generalize maxR (v.map Prod.fst) = hx' at *
  generalize minR (v.map Prod.snd) = ly at *
  generalize maxR (v.map Prod.snd) = hy' at *
  obtain ⟨w1, hw1, rfl⟩ := List.mem_map.1 x1
  obtain ⟨w2, hw2, rfl⟩ := List.mem_map.1 y1
  obtain ⟨w3, hw3, rfl⟩ := List.mem_map.1 z1
  obtain ⟨w4, hw4, rfl⟩ := List.mem_map.1 t1
  have f1 : Py.fmod (w1.1 - g.x0) 360 = w1.1 - g.x0 := fmod_unique (k := 0) (by linarith [(hx w1 hw1).1]) (by linarith [(hx w1 hw1).2]) (by simp)
  have f2 : Py.fmod (w2.1 - g.x0) 360 = w2.1 - g.x0 := fmod_unique (k := 0) (by linarith [(hx w2 hw2).1]) (by linarith [(hx w2 hw2).2]) (by simp)
  rw [f1, f2]
  have hle : w1.1 ≤ w2.1 := x2 _ (List.mem_map_of_mem hw2)
  have hle2 : w3.2 ≤ w4.2 := z2 _ (List.mem_map_of_mem hw4)
  obtain ⟨r1, r2, r3⟩ := rows_spec hg hN (hy w3 hw3) hle2
  have hxs := hg.xs_pos
  have hmono : Amplitude.rint ((w1.1 - g.x0) / g.xs) ≤ Amplitude.rint ((w2.1 - g.x0) / g.xs) :=
    rint_mono (div_le_div_of_nonneg_right (by linarith) hxs.le)
  have h0 : -1 < Amplitude.rint ((w1.1 - g.x0) / g.xs) := by
    have := (rint_bounds ((w1.1 - g.x0) / g.xs)).1
    have h2 : (0 : Rat) ≤ (w1.1 - g.x0) / g.xs := div_nonneg (by linarith [(hx w1 hw1).1]) hxs.le
    have h3 : ((-1 : Int) : Rat) < (Amplitude.rint ((w1.1 - g.x0) / g.xs) : Rat) := by push_cast; linarith
    exact_mod_cast h3
  have hcol : ∀ i : Nat, w1.1 ≤ g.xc i → g.xc i ≤ w2.1 →
      max (Amplitude.rint ((w1.1 - g.x0) / g.xs) - N) 0 ≤ (i : Int) ∧ (i : Int) < Amplitude.rint ((w2.1 - g.x0) / g.xs) + N + 1 := by
    intro i ha hb
    unfold Grid.xc at ha hb
    have e1 : (w1.1 - g.x0) / g.xs ≤ ((i : Int) : Rat) + 1 / 2 := by
      rw [div_le_iff₀ hxs]; push_cast; linarith
    have e2 : ((i : Int) : Rat) + 1 / 2 ≤ (w2.1 - g.x0) / g.xs := by
      rw [le_div_iff₀ hxs]; push_cast; linarith
    have e3 := rint_le_of e1
    have e4 := le_rint_of e2
    omega
  generalize Amplitude.rint ((w1.1 - g.x0) / g.xs) = a at *
  generalize Amplitude.rint ((w2.1 - g.x0) / g.xs) = b at *
  generalize Amplitude.rint ((w3.2 - g.y0) / g.ys) - N = c at *
  generalize Amplitude.rint ((w4.2 - g.y0) / g.ys) + N + 1 = d at *
  unfold pixelsIn
  simp only
  have hns : ¬ b + N + 1 < max (a - N) 0 := by omega
  rw [if_neg hns]
  refine ⟨gridIn_nodup _ _ _ _ _ _ _ (fun h => absurd h hns), fun p => ?_⟩
  rw [gridIn_mem]
  simp only [Contains, hc, Bool.false_eq_true, if_false, if_neg hns]
  unfold Grid.xC Grid.yC
  rw [slice_length g.nx g.xc (by omega) (by omega), slice_length g.ny g.yc r1 r2]
  constructor
  · rintro ⟨i, j, hi, hj, hw, rfl⟩
    rw [slice_getD g.nx g.xc (by omega) (by omega) hi, slice_getD g.ny g.yc r1 r2 hj] at hw
    refine ⟨(max (a - N) 0).toNat + i, c.toNat + j, by omega, by omega, ?_, hw⟩
    refine Prod.ext ?_ ?_ <;> simp only <;> omega
  · rintro ⟨i, j, hi, hj, rfl, hw⟩
    obtain ⟨b1, b2, b3, b4⟩ := hb _ hw
    obtain ⟨c1, c2⟩ := hcol i b1 b2
    obtain ⟨d1, d2⟩ := r3 j b3 b4
    have hi' : i - (max (a - N) 0).toNat < min (b + N + 1).toNat g.nx - min (max (a - N) 0).toNat g.nx := by omega
    have hj' : j - c.toNat < min d.toNat g.ny - min c.toNat g.ny := by omega
    refine ⟨i - (max (a - N) 0).toNat, j - c.toNat, hi', hj', ?_, ?_⟩
    · rw [slice_getD g.nx g.xc (by omega) (by omega) hi', slice_getD g.ny g.yc r1 r2 hj',
        show (max (a - N) 0).toNat + (i - (max (a - N) 0).toNat) = i by omega, show c.toNat + (j - c.toNat) = j by omega]
      exact hw
    · refine Prod.ext ?_ ?_ <;> simp only <;> omega

/-! ### Circular grids -/

/-- Two ends less than a turn apart, taken modulo the number of columns. -/
theorem ends_mod {n A B : Int} (hn : 0 < n) (h1 : A < B) (h2 : B - A < n) :
    ∃ q : Int, A % n = A - n * q ∧ ((A % n < B % n ∧ B % n = B - n * q) ∨ (B % n < A % n ∧ B % n = B - n * (q + 1))) := by
  refine ⟨A / n, ?_, ?_⟩
  · have := Int.mul_ediv_add_emod A n; linarith
  · have a1 := Int.mul_ediv_add_emod A n
    have b1 := Int.mul_ediv_add_emod B n
    have a2 := Int.emod_nonneg A (ne_of_gt hn)
    have a3 := Int.emod_lt_of_pos A hn
    have b2 := Int.emod_nonneg B (ne_of_gt hn)
    have b3 := Int.emod_lt_of_pos B hn
    have hq : B / n = A / n ∨ B / n = A / n + 1 := by
      have c1 : A / n ≤ B / n := Int.ediv_le_ediv hn h1.le
      have c2 : B / n < A / n + 2 := by
        by_contra hc
        have : n * (A / n + 2) ≤ n * (B / n) := by nlinarith
        nlinarith
      omega
    rcases hq with hq | hq
    · rw [hq] at b1
      left; constructor <;> linarith
    · rw [hq] at b1
      right; constructor <;> linarith

/-- The contour starts in the turn of the grid, or crosses the limit between two turns. -/
def Placed (g : Grid) (v : List Pt) : Prop :=
  ((∀ w ∈ v, g.x0 ≤ w.1) ∧ ∃ w ∈ v, w.1 < g.x0 + 360) ∨ ∃ m : Int, ∃ w ∈ v, ∃ w' ∈ v, w.1 ≤ g.x0 + 360 * m ∧ g.x0 + 360 * m ≤ w'.1

theorem concat_get (n : Nat) (f : Nat → Rat) {s t : Int} (hs : 0 ≤ s) (hsn : s < n) (ht : 0 ≤ t) (hts : t < s) (h : Rat → Rat) :
    (((((List.range n).map f).drop (Py.bound n s)) ++ ((List.range n).map f).take (Py.bound n t)).map h).length = n - s.toNat + t.toNat ∧
    ∀ m : Nat, m < n - s.toNat + t.toNat →
      ((((List.range n).map f).drop (Py.bound n s) ++ ((List.range n).map f).take (Py.bound n t)).map h).getD m 0 =
        h (f ((s.toNat + m) % n)) := by
  have e1 : Py.bound n s = s.toNat := by unfold Py.bound; rw [if_pos hs]; omega
  have e2 : Py.bound n t = t.toNat := by unfold Py.bound; rw [if_pos ht]; omega
  rw [e1, e2]
  have hlen : (((((List.range n).map f).drop s.toNat) ++ ((List.range n).map f).take t.toNat).map h).length = n - s.toNat + t.toNat := by
    simp
    omega
  refine ⟨hlen, fun m hm => ?_⟩
  rw [List.getD_eq_getElem?_getD, List.getElem?_eq_getElem (by omega), Option.getD_some, List.getElem_map, List.getElem_append]
  simp only [List.length_drop, List.length_map, List.length_range]
  split
  · rename_i hlt
    rw [List.getElem_drop, List.getElem_map, List.getElem_range, Nat.mod_eq_of_lt (by omega)]
  · rename_i hge
    rw [List.getElem_take, List.getElem_map, List.getElem_range]
    congr 2
    rw [Nat.mod_eq_sub_mod (by omega), Nat.mod_eq_of_lt (by omega)]
    omega

/-- The slice of columns does not cross the limit of the grid. -/
theorem straight_exact {g : Grid} (hc : g.circular = true) {v : List Pt} {s t c d : Int} (hs : 0 ≤ s) (hsn : s < g.nx) (htn : t < g.nx) (hst : s ≤ t)
    (r1 : 0 ≤ c) (r2 : 0 ≤ d)
    (h : ∀ (i j : Nat) (k : Int), i < g.nx → winding (g.xc i + 360 * k, g.yc j) v ≠ 0 → k = 0 ∧ s ≤ i ∧ (i : Int) < t ∧ c ≤ j ∧ (j : Int) < d) :
    Exact g v (pixelsIn g v (s, t) (c, d)) := by
  unfold pixelsIn
  simp only
  have hns : ¬ t < s := by omega
  rw [if_neg hns]
  refine ⟨gridIn_nodup _ _ _ _ _ _ _ (fun h => absurd h hns), fun p => ?_⟩
  rw [gridIn_mem]
  simp only [Contains, hc, if_true, if_neg hns]
  unfold Grid.xC Grid.yC
  rw [slice_length g.nx g.xc hs (by omega), slice_length g.ny g.yc r1 r2]
  constructor
  · rintro ⟨i, j, hi, hj, hw, rfl⟩
    rw [slice_getD g.nx g.xc hs (by omega) hi, slice_getD g.ny g.yc r1 r2 hj] at hw
    refine ⟨s.toNat + i, c.toNat + j, by omega, by omega, ?_, 0, by simpa using hw⟩
    refine Prod.ext ?_ ?_ <;> simp only <;> omega
  · rintro ⟨i, j, hi, hj, rfl, k, hw⟩
    obtain ⟨rfl, h1, h2, h3, h4⟩ := h i j k hi hw
    have hi' : i - s.toNat < min t.toNat g.nx - min s.toNat g.nx := by omega
    have hj' : j - c.toNat < min d.toNat g.ny - min c.toNat g.ny := by omega
    refine ⟨i - s.toNat, j - c.toNat, hi', hj', ?_, ?_⟩
    · rw [slice_getD g.nx g.xc hs (by omega) hi', slice_getD g.ny g.yc r1 r2 hj', show s.toNat + (i - s.toNat) = i by omega,
        show c.toNat + (j - c.toNat) = j by omega]
      simpa using hw
    · refine Prod.ext ?_ ?_ <;> simp only <;> omega

/-- The slice of columns crosses the limit of the grid. -/
theorem crossing_exact {g : Grid} (hc : g.circular = true) {v : List Pt} {s t c d : Int} (hsn : s < g.nx) (ht : 0 ≤ t) (hts : t < s)
    (r1 : 0 ≤ c) (r2 : 0 ≤ d)
    (h : ∀ (i j : Nat) (k : Int), i < g.nx → winding (g.xc i + 360 * k, g.yc j) v ≠ 0 →
      ((v.headD (0, 0)).1 - 180 ≤ g.xc i + 360 * k ∧ g.xc i + 360 * k < (v.headD (0, 0)).1 + 180) ∧ (s ≤ i ∨ (i : Int) < t) ∧ c ≤ j ∧ (j : Int) < d) :
    Exact g v (pixelsIn g v (s, t) (c, d)) := by
  unfold pixelsIn
  simp only
  rw [if_pos hts]
  generalize (v.headD (0, 0)).1 = ref at h ⊢
  have hxCl : g.xC.length = g.nx := by simp [Grid.xC]
  obtain ⟨cl, cg⟩ := concat_get g.nx g.xc (by omega) hsn ht hts (fun x => Py.fmod (x - ref + 180) 360 + ref - 180)
  rw [hxCl]
  unfold Grid.xC Grid.yC
  refine ⟨gridIn_nodup _ _ _ _ _ _ _ (fun _ => by rw [cl]; omega), fun p => ?_⟩
  rw [gridIn_mem]
  simp only [Contains, hc, if_true, if_pos hts]
  rw [cl, slice_length g.ny g.yc r1 r2]
  constructor
  · rintro ⟨i, j, hi, hj, hw, rfl⟩
    rw [cg i hi, slice_getD g.ny g.yc r1 r2 hj] at hw
    refine ⟨(s.toNat + i) % g.nx, c.toNat + j, Nat.mod_lt _ (by omega), by omega, ?_, ?_⟩
    · refine Prod.ext ?_ ?_
      · simp only
        rw [Int.natCast_emod, Int.natCast_add, Int.toNat_of_nonneg (by omega), add_comm]
      · simp only; omega
    · obtain ⟨_, _, k, hk'⟩ := normal_spec ref (g.xc ((s.toNat + i) % g.nx))
      refine ⟨k, ?_⟩
      rw [← hk']
      exact hw
  · rintro ⟨i, j, hi, hj, rfl, k, hw⟩
    obtain ⟨⟨e1, e2⟩, h1, h3, h4⟩ := h i j k hi hw
    have hj' : j - c.toNat < min d.toNat g.ny - min c.toNat g.ny := by omega
    obtain ⟨m, hm, hmod⟩ : ∃ m, m < g.nx - s.toNat + t.toNat ∧ (s.toNat + m) % g.nx = i := by
      by_cases hsi : s ≤ i
      · exact ⟨i - s.toNat, by omega, by rw [show s.toNat + (i - s.toNat) = i by omega, Nat.mod_eq_of_lt hi]⟩
      · refine ⟨g.nx - s.toNat + i, by omega, ?_⟩
        rw [show s.toNat + (g.nx - s.toNat + i) = i + g.nx by omega, Nat.add_mod_right, Nat.mod_eq_of_lt hi]
    refine ⟨m, j - c.toNat, hm, hj', ?_, ?_⟩
    · rw [cg _ hm, slice_getD g.ny g.yc r1 r2 hj', show c.toNat + (j - c.toNat) = j by omega, hmod]
      have := normal_unique e1 e2
      unfold normal at this
      rw [this]
      exact hw
    · refine Prod.ext ?_ ?_
      · simp only
        rw [← hmod, Int.natCast_emod, Int.natCast_add, Int.toNat_of_nonneg (by omega), add_comm]
      · simp only; omega

theorem mul_bounds {n : Int} (hn : 0 < n) (q : Int) :
    (1 ≤ q → n ≤ n * q) ∧ (q ≤ -1 → n * q ≤ -n) ∧ (q ≤ -2 → n * q ≤ -2 * n) ∧ (0 ≤ q → 0 ≤ n * q) ∧ (q ≤ 0 → n * q ≤ 0) := by
  refine ⟨?_, ?_, ?_, ?_, ?_⟩ <;> intro h <;> nlinarith

set_option maxHeartbeats 800000 in
/-- **C66** (circular grids): exact for the contours narrower than 180° which start in the turn of the grid or cross its limit, above
the first line. Missing: contours in another turn which do not cross the limit (`turn_wrong`), the south. -/
theorem pixels_circular_partial {g : Grid} (hg : g.Regular) (hc : g.circular = true) {N : Nat} (hN : 1 ≤ N) (hsize : 4 * N + 6 ≤ g.nx)
    {v : List Pt} (hv : v ≠ []) (hnar : ∀ u ∈ v, ∀ w ∈ v, u.1 - w.1 < 180) (hpl : Placed g v)
    (hy : ∀ w ∈ v, g.y0 + (N - 1 / 2) * g.ys < w.2) : Exact g v (getPixels g N v) := by
  have hne1 : v.map Prod.fst ≠ [] := by simpa using hv
  have hne2 : v.map Prod.snd ≠ [] := by simpa using hv
  obtain ⟨x1, x2⟩ := minR_spec hne1
  obtain ⟨y1, y2⟩ := maxR_spec hne1
  obtain ⟨z1, z2⟩ := minR_spec hne2
  obtain ⟨t1, t2⟩ := maxR_spec hne2
  have hb : ∀ p, winding p v ≠ 0 → _ := fun p => winding_box (p := p) hv
  unfold getPixels bbox nearest
  simp only [hc, if_true]
  generalize minR (v.map Prod.fst) = lx at *
  generalize maxR (v.map Prod.fst) = hx' at *
  generalize minR (v.map Prod.snd) = ly at *
  generalize maxR (v.map Prod.snd) = hy' at *
  obtain ⟨w1, hw1, rfl⟩ := List.mem_map.1 x1
  obtain ⟨w2, hw2, rfl⟩ := List.mem_map.1 y1
  obtain ⟨w3, hw3, rfl⟩ := List.mem_map.1 z1
  obtain ⟨w4, hw4, rfl⟩ := List.mem_map.1 t1
  have hle : w1.1 ≤ w2.1 := x2 _ (List.mem_map_of_mem hw2)
  have hle2 : w3.2 ≤ w4.2 := z2 _ (List.mem_map_of_mem hw4)
  obtain ⟨r1, r2, r3⟩ := rows_spec hg hN (hy w3 hw3) hle2
  have hxs := hg.xs_pos
  have hturn := hg.turn hc
  have hW := hnar w2 hw2 w1 hw1
  have hnpos : (0 : Int) < g.nx := by omega
  -- turns of the two ends
  obtain ⟨fa0, fa1, ka, hka⟩ := Py.fmod_spec (w1.1 - g.x0) (show (0 : Rat) < 360 by norm_num)
  obtain ⟨fb0, fb1, kb, hkb⟩ := Py.fmod_spec (w2.1 - g.x0) (show (0 : Rat) < 360 by norm_num)
  generalize Py.fmod (w1.1 - g.x0) 360 = fa at *
  generalize Py.fmod (w2.1 - g.x0) 360 = fb at *
  have hk : ka = kb ∨ ka = kb + 1 := by
    have q1 : ((kb : Int) : Rat) < ((ka + 1 : Int) : Rat) := by push_cast; linarith
    have q2 : ((ka : Int) : Rat) < ((kb + 2 : Int) : Rat) := by push_cast; linarith
    have q1' : kb < ka + 1 := by exact_mod_cast q1
    have q2' : ka < kb + 2 := by exact_mod_cast q2
    omega
  have ra := rint_bounds (fa / g.xs)
  have rb := rint_bounds (fb / g.xs)
  obtain ⟨a, ha⟩ : ∃ a, a = Amplitude.rint (fa / g.xs) := ⟨_, rfl⟩
  obtain ⟨b, hb'⟩ : ∃ b, b = Amplitude.rint (fb / g.xs) := ⟨_, rfl⟩
  rw [← ha] at ra ⊢
  rw [← hb'] at rb ⊢
  have ha1 : a < g.nx + 1 := by
    have fan : fa / g.xs < g.nx := by rw [div_lt_iff₀ hxs, hturn]; exact fa1
    have h1 : ((a : Int) : Rat) < ((g.nx + 1 : Int) : Rat) := by push_cast; linarith
    exact_mod_cast h1
  have ha0 : -1 < a := by
    have fan : 0 ≤ fa / g.xs := div_nonneg fa0 hxs.le
    have h1 : ((-1 : Int) : Rat) < ((a : Int) : Rat) := by push_cast; linarith
    exact_mod_cast h1
  have hb0 : -1 < b := by
    have fbn : 0 ≤ fb / g.xs := div_nonneg fb0 hxs.le
    have h2 : ((-1 : Int) : Rat) < ((b : Int) : Rat) := by push_cast; linarith
    exact_mod_cast h2
  -- positions of the ends in columns
  have hcols : (ka - kb : Int) * (g.nx : Int) + b - a ≤ (g.nx : Int) / 2 + 1 ∧ 0 ≤ (ka - kb : Int) * (g.nx : Int) + b - a := by
    have hdiff : fb / g.xs + (ka - kb) * (g.nx : Rat) - fa / g.xs = (w2.1 - w1.1) / g.xs := by
      rw [eq_div_iff hxs.ne']
      have e1 : fb / g.xs * g.xs = fb := by field_simp
      have e2 : fa / g.xs * g.xs = fa := by field_simp
      calc (fb / g.xs + (ka - kb) * (g.nx : Rat) - fa / g.xs) * g.xs
          = fb / g.xs * g.xs + (ka - kb) * ((g.nx : Rat) * g.xs) - fa / g.xs * g.xs := by ring
        _ = w2.1 - w1.1 := by rw [e1, e2, hturn, hka, hkb]; ring
    have hw : (w2.1 - w1.1) / g.xs < (g.nx : Rat) / 2 := by
      rw [div_lt_iff₀ hxs]; linarith
    have hw0 : 0 ≤ (w2.1 - w1.1) / g.xs := div_nonneg (by linarith) hxs.le
    constructor
    · have h1 : (((ka - kb : Int) * (g.nx : Int) + b - a : Int) : Rat) < (g.nx : Rat) / 2 + 1 := by
        push_cast; linarith
      have h2 : ((2 * ((ka - kb : Int) * (g.nx : Int) + b - a) : Int) : Rat) < ((g.nx + 2 : Int) : Rat) := by
        push_cast at h1 ⊢; linarith
      have h3 : 2 * ((ka - kb : Int) * (g.nx : Int) + b - a) < g.nx + 2 := by exact_mod_cast h2
      omega
    · rcases hk with hk | hk
      · subst hk
        have : a ≤ b := by
          rw [ha, hb']
          apply rint_mono
          have : fb / g.xs - fa / g.xs = (w2.1 - w1.1) / g.xs := by rw [← hdiff]; ring
          linarith
        simp; omega
      · subst hk
        have : (kb + 1 - kb : Int) * (g.nx : Int) = g.nx := by ring
        omega
  obtain ⟨A, hA⟩ : ∃ A : Int, A = a - N := ⟨_, rfl⟩
  obtain ⟨B, hB⟩ : ∃ B : Int, B = (ka - kb : Int) * (g.nx : Int) + b + N + 1 := ⟨_, rfl⟩
  have hBmod : (b + N + 1) % (g.nx : Int) = B % (g.nx : Int) := by
    rw [hB, show (ka - kb : Int) * (g.nx : Int) + b + N + 1 = b + N + 1 + (g.nx : Int) * (ka - kb) by ring, Int.add_mul_emod_self_left]
  rw [hBmod, ← hA]
  have hcols1 := hcols.1
  have hcols2 := hcols.2
  obtain ⟨q, hq, hcase⟩ := ends_mod hnpos (show A < B by omega) (show B - A < g.nx by omega)
  -- columns of the pixels of the contour
  have hcol : ∀ (i : Nat) (k : Int), w1.1 ≤ g.xc i + 360 * k → g.xc i + 360 * k ≤ w2.1 →
      A ≤ (i : Int) + (g.nx : Int) * (k + ka) ∧ (i : Int) + (g.nx : Int) * (k + ka) < B := by
    intro i k h1 h2
    unfold Grid.xc at h1 h2
    constructor
    · have e1 : fa / g.xs ≤ (((i : Int) + (g.nx : Int) * (k + ka) : Int) : Rat) + 1 / 2 := by
        rw [div_le_iff₀ hxs, hka]
        push_cast
        have : ((g.nx : Rat) * (k + ka)) * g.xs = 360 * (k + ka) := by rw [← hturn]; ring
        nlinarith
      have := rint_le_of e1
      rw [← ha] at this
      omega
    · have e1 : (((i : Int) + (g.nx : Int) * (k + kb) : Int) : Rat) + 1 / 2 ≤ fb / g.xs := by
        rw [le_div_iff₀ hxs, hkb]
        push_cast
        have : ((g.nx : Rat) * (k + kb)) * g.xs = 360 * (k + kb) := by rw [← hturn]; ring
        nlinarith
      have := le_rint_of e1
      rw [← hb'] at this
      rw [hB]
      have e2 : (g.nx : Int) * (k + ka) = (g.nx : Int) * (k + kb) + (ka - kb) * (g.nx : Int) := by ring
      omega
  have hAm0 := Int.emod_nonneg A (ne_of_gt hnpos)
  have hAm1 := Int.emod_lt_of_pos A hnpos
  have hBm0 := Int.emod_nonneg B (ne_of_gt hnpos)
  have hBm1 := Int.emod_lt_of_pos B hnpos
  generalize Amplitude.rint ((w3.2 - g.y0) / g.ys) - N = c at *
  generalize Amplitude.rint ((w4.2 - g.y0) / g.ys) + N + 1 = d at *
  have hA' : A = A % (g.nx : Int) + (g.nx : Int) * q := by linarith
  clear ra rb hcols hBmod
  rcases hcase with ⟨hlt, hBq⟩ | ⟨hlt, hBq⟩
  · -- the slice does not cross the limit: the contour is in the turn of the grid
    have hA2 : a - N < g.nx := by omega
    -- no crossing
    have hsame : ka = kb := by
      rcases hk with hk | hk
      · exact hk
      · exfalso
        have hBn : (g.nx : Int) + 1 ≤ B := by
          rw [hB, hk, show (kb + 1 - kb : Int) * (g.nx : Int) = g.nx by ring]; omega
        have hq0 : q < 1 := by
          by_contra hc'
          have := (mul_bounds hnpos q).1
          omega
        have := (mul_bounds hnpos q).2.2.2.2
        omega
    have hka0 : ka = 0 := by
      rcases hpl with ⟨hp1, w, hw, hp2⟩ | ⟨m, w, hw, w', hw', hp1, hp2⟩
      · have hm1 := hp1 w1 hw1
        have hm2 : w1.1 ≤ w.1 := x2 _ (List.mem_map_of_mem hw)
        have h1 : ((ka : Int) : Rat) < ((1 : Int) : Rat) := by push_cast; linarith
        have h2 : ((-1 : Int) : Rat) < ((ka : Int) : Rat) := by push_cast; linarith
        have h1' : ka < 1 := by exact_mod_cast h1
        have h2' : -1 < ka := by exact_mod_cast h2
        omega
      · exfalso
        have hm1 : w1.1 ≤ g.x0 + 360 * m := le_trans (x2 _ (List.mem_map_of_mem hw)) hp1
        have hm2 : g.x0 + 360 * m ≤ w2.1 := le_trans hp2 (y2 _ (List.mem_map_of_mem hw'))
        have h1 : ((m : Int) : Rat) < ((-kb + 1 : Int) : Rat) := by push_cast; linarith
        have h2 : m < -kb + 1 := by exact_mod_cast h1
        have h3 : ((m : Int) : Rat) ≤ ((-kb : Int) : Rat) := by exact_mod_cast (show m ≤ -kb by omega)
        have h4 : fa = 0 := by
          rw [hsame] at hka
          push_cast at h3
          linarith
        have ha1 : a = 0 := by rw [ha, h4, zero_div, rint_zero]
        have hq1 : q = -1 := by
          have v1 : q < 0 := by
            by_contra hc'
            have := (mul_bounds hnpos q).2.2.2.1
            omega
          have v2 : -2 < q := by
            by_contra hc'
            have := (mul_bounds hnpos q).2.2.1
            omega
          omega
        rw [hq1] at hBq hA'
        omega
    apply straight_exact hc hAm0 hAm1 hBm1 hlt.le r1 r2
    intro i j k hi hw
    obtain ⟨b1, b2, b3, b4⟩ := hb _ hw
    obtain ⟨c1, c2⟩ := hcol i k b1 b2
    obtain ⟨d1, d2⟩ := r3 j b3 b4
    have hk0 : k = 0 := by
      simp only at b1 b2
      have hlo : g.x0 ≤ w1.1 := by rw [hka0] at hka; push_cast at hka; linarith
      have hhi : w2.1 < g.x0 + 360 := by rw [← hsame, hka0] at hkb; push_cast at hkb; linarith
      have hx0 : g.x0 ≤ g.xc i := by
        unfold Grid.xc
        have : (0 : Rat) ≤ i * g.xs := by positivity
        linarith
      have hx1 : g.xc i < g.x0 + 360 := by
        unfold Grid.xc
        have : ((i : Rat) + 1) * g.xs ≤ (g.nx : Rat) * g.xs := by
          apply mul_le_mul_of_nonneg_right _ hxs.le
          exact_mod_cast hi
        nlinarith
      have h1 : ((k : Int) : Rat) < ((1 : Int) : Rat) := by push_cast; linarith
      have h2 : ((-1 : Int) : Rat) < ((k : Int) : Rat) := by push_cast; linarith
      have h1' : k < 1 := by exact_mod_cast h1
      have h2' : -1 < k := by exact_mod_cast h2
      omega
    refine ⟨hk0, ?_⟩
    rw [hka0, hk0] at c1 c2
    simp only [add_zero, mul_zero] at c1 c2
    have hq0 : q = 0 := by
      have v1 : q < 1 := by
        by_contra hc'
        have := (mul_bounds hnpos q).1
        omega
      have v2 : -1 < q := by
        by_contra hc'
        have := (mul_bounds hnpos q).2.1
        omega
      omega
    rw [hq0] at hq hBq
    simp only [mul_zero, sub_zero] at hq hBq
    omega
  · -- the slice crosses the limit
    apply crossing_exact hc hAm1 hBm0 hlt r1 r2
    intro i j k hi hw
    obtain ⟨b1, b2, b3, b4⟩ := hb _ hw
    obtain ⟨c1, c2⟩ := hcol i k b1 b2
    obtain ⟨d1, d2⟩ := r3 j b3 b4
    refine ⟨?_, ?_, d1, d2⟩
    · obtain ⟨w0, l, rfl⟩ := List.exists_cons_of_ne_nil hv
      have g1 := hnar w0 (by simp) w1 hw1
      have g2 := hnar w2 hw2 w0 (by simp)
      simp only [List.headD_cons] at b1 b2 ⊢
      constructor <;> linarith
    · have e : (g.nx : Int) * (q + 1) = (g.nx : Int) * q + g.nx := by ring
      rcases lt_or_ge (k + ka) (q + 1) with h1 | h1
      · left
        have : (g.nx : Int) * (k + ka) ≤ (g.nx : Int) * q := Int.mul_le_mul_of_nonneg_left (by omega) hnpos.le
        omega
      · right
        have : (g.nx : Int) * (q + 1) ≤ (g.nx : Int) * (k + ka) := Int.mul_le_mul_of_nonneg_left (by omega) hnpos.le
        omega

end Verif.Pixels
