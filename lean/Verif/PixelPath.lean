import Verif.Py
import Mathlib.Tactic.Linarith
import Mathlib.Tactic.Ring
import Mathlib.Tactic.FieldSimp
import Mathlib.Algebra.Order.Floor.Ring
import Mathlib.Data.Rat.Floor

/-!
# C48: `compute_pixel_path` of /repo/src/py_eddy_tracker/dataset/grid.py

Exact rationals for the slope (the division of the code is in floats). The pixels of the ends are parameters: they come from `round_`
(grid.py:2266-2269).
-/

namespace Verif.PixelPath

/-- Conversion of a float to an integer, toward zero (assignment to an array of integers, grid.py:2311, 2316). -/
def trunc (q : Rat) : Int := if 0 ≤ q then ⌊q⌋ else ⌈q⌉

/-- The ends of one path, in pixels. -/
structure Segment where
  ix0 : Int
  iy0 : Int
  ix1 : Int
  iy1 : Int

/-- `d_x` (grid.py:2271-2272). -/
def dx (nb : Int) (s : Segment) : Int := (s.ix1 - s.ix0 + nb / 2) % nb - nb / 2

/-- `d_y` (grid.py:2275). -/
def dy (s : Segment) : Int := s.iy1 - s.iy0

/-- `d_max` (grid.py:2280). -/
def dMax (nb : Int) (s : Segment) : Nat := max (dx nb s).natAbs (dy s).natAbs

/-- `sup` (grid.py:2298, 2303, 2309, 2314). -/
def sup (d : Int) : Int := if d < 0 then -1 else 1

/-- `arange(start, stop + sup, sup)` with `sup` 1 or -1. -/
def arange (start stop : Int) (sup : Int) : List Int :=
  (List.range ((stop + sup - start) * sup).toNat).map fun k : Nat => start + k * sup

/-- One path (grid.py:2291-2317), before the modulo. An assignment of arrays of different lengths raises (`none`). -/
def path (nb : Int) (s : Segment) : Option (List (Int × Int)) :=
  let dX := dx nb s
  let ix1 := s.ix0 + dX
  let delta := dMax nb s
  let assign := fun (i j : List Int) => if i.length = delta + 1 ∧ j.length = delta + 1 then some (i.zip j) else none
  let full := fun (v : Int) => List.replicate (delta + 1) v
  if delta = 0 then assign (full s.ix0) (full s.iy0)
  else if dX = 0 then assign (full s.ix0) (arange s.iy0 s.iy1 (sup (dy s)))
  else if dy s = 0 then assign (arange s.ix0 ix1 (sup dX)) (full s.iy0)
  else
    let a : Rat := ((ix1 - s.ix0 : Int) : Rat) / ((s.iy1 - s.iy0 : Int) : Rat)
    if (dX).natAbs ≥ (dy s).natAbs then
      let value := arange s.ix0 ix1 (sup dX)
      assign value (value.map fun v : Int => trunc (((v - s.ix0 : Int) : Rat) / a + (s.iy0 : Rat)))
    else
      let value := arange s.iy0 s.iy1 (sup (dy s))
      assign (value.map fun v : Int => trunc (((v - s.iy0 : Int) : Rat) * a + (s.ix0 : Rat))) value

/-- `compute_pixel_path` (grid.py:2255-2320): all the paths one after the other, columns modulo `nb_x`, and `d_max`. -/
def pixelPath (nb : Int) (l : List Segment) : Option (List (Int × Int) × List Nat) :=
  match l.mapM (path nb) with
  | none => none
  | some ps => some (ps.flatten.map fun p => (p.1 % nb, p.2), l.map (dMax nb))

/-! ### Specification -/

/-- Two pixels of a grid of `nb` columns, the same or side by side (also by a corner), with columns modulo `nb`. -/
def Neighbour (nb : Int) (p q : Int × Int) : Prop :=
  (∃ e : Int, -1 ≤ e ∧ e ≤ 1 ∧ q.1 % nb = (p.1 + e) % nb) ∧ (p.2 - q.2).natAbs ≤ 1

theorem trunc_int (z : Int) : trunc (z : Rat) = z := by
  unfold trunc
  split <;> simp

theorem trunc_step {p q : Rat} (h : |q - p| ≤ 1) : (trunc q - trunc p).natAbs ≤ 1 := by
  have key : ∀ p q : Rat, p ≤ q → q - p ≤ 1 → 0 ≤ trunc q - trunc p ∧ trunc q - trunc p ≤ 1 := by
    intro p q h1 h2
    unfold trunc
    by_cases hp : 0 ≤ p
    · have hq : 0 ≤ q := le_trans hp h1
      rw [if_pos hp, if_pos hq]
      have a1 : ⌊p⌋ ≤ ⌊q⌋ := Int.floor_mono h1
      have a2 : ⌊q⌋ ≤ ⌊p + 1⌋ := Int.floor_mono (by linarith)
      rw [Int.floor_add_one] at a2
      omega
    · rw [if_neg hp]
      by_cases hq : 0 ≤ q
      · rw [if_pos hq]
        have b1 : (0 : Int) ≤ ⌊q⌋ := Int.floor_nonneg.2 hq
        have b2 : ⌈p⌉ ≤ 0 := Int.ceil_le.2 (by push_cast; linarith)
        have b3 : ((⌊q⌋ : Int) : Rat) ≤ q := Int.floor_le q
        have b4 : p ≤ ((⌈p⌉ : Int) : Rat) := Int.le_ceil p
        have b5 : ((⌊q⌋ - ⌈p⌉ : Int) : Rat) ≤ ((1 : Int) : Rat) := by push_cast; linarith
        have b6 : ⌊q⌋ - ⌈p⌉ ≤ 1 := by exact_mod_cast b5
        omega
      · rw [if_neg hq]
        have a1 : ⌈p⌉ ≤ ⌈q⌉ := Int.ceil_mono h1
        have a2 : ⌈q⌉ ≤ ⌈p + 1⌉ := Int.ceil_mono (by linarith)
        rw [Int.ceil_add_one] at a2
        omega
  rw [abs_le] at h
  rcases le_total p q with hpq | hpq
  · have := key p q hpq h.2
    omega
  · have := key q p hpq (by linarith [h.1])
    omega

theorem sup_cases (d : Int) : (d < 0 ∧ sup d = -1) ∨ (0 ≤ d ∧ sup d = 1) := by
  unfold sup
  split <;> omega

/-- The values of the ranges: `n + 1` values from the first end to the last one. -/
theorem arange_eq (s d : Int) : arange s (s + d) (sup d) = (List.range (d.natAbs + 1)).map fun k : Nat => s + k * sup d := by
  unfold arange
  have : ((s + d + sup d - s) * sup d).toNat = d.natAbs + 1 := by
    rcases sup_cases d with ⟨h, e⟩ | ⟨h, e⟩ <;> rw [e] <;> omega
  rw [this]

/-- The path goes the short way around. -/
theorem dx_range {nb : Int} (hnb : 0 < nb) (s : Segment) :
    -(nb / 2) ≤ dx nb s ∧ dx nb s < nb - nb / 2 ∧ (s.ix0 + dx nb s) % nb = s.ix1 % nb := by
  unfold dx
  have h1 := Int.emod_nonneg (s.ix1 - s.ix0 + nb / 2) (ne_of_gt hnb)
  have h2 := Int.emod_lt_of_pos (s.ix1 - s.ix0 + nb / 2) hnb
  refine ⟨by omega, by omega, ?_⟩
  have h3 := Int.mul_ediv_add_emod (s.ix1 - s.ix0 + nb / 2) nb
  have : s.ix0 + ((s.ix1 - s.ix0 + nb / 2) % nb - nb / 2) = s.ix1 + nb * (-((s.ix1 - s.ix0 + nb / 2) / nb)) := by
    have : (s.ix1 - s.ix0 + nb / 2) % nb = s.ix1 - s.ix0 + nb / 2 - nb * ((s.ix1 - s.ix0 + nb / 2) / nb) := by linarith
    rw [this]; ring
  rw [this, Int.add_mul_emod_self_left]

/-- Shape of a path: the `k`-th pixel. -/
structure Shape (nb : Int) (s : Segment) (f : Nat → Int × Int) : Prop where
  path : path nb s = some ((List.range (dMax nb s + 1)).map f)
  first : f 0 = (s.ix0, s.iy0)
  last : f (dMax nb s) = (s.ix0 + dx nb s, s.iy1)
  step : ∀ k, k < dMax nb s → ((f (k + 1)).1 - (f k).1).natAbs ≤ 1 ∧ ((f (k + 1)).2 - (f k).2).natAbs ≤ 1
  different : ∀ k, k < dMax nb s → f (k + 1) ≠ f k

theorem zip_map (n : Nat) (f g : Nat → Int) :
    ((List.range n).map f).zip ((List.range n).map g) = (List.range n).map fun k => (f k, g k) := by
  rw [List.zip_map, List.zip_self_eq, List.map_map]
  rfl
where
  List.zip_self_eq : ∀ {l : List Nat}, l.zip l = l.map fun a => (a, a) := by
    intro l
    induction l with
    | nil => rfl
    | cons a l ih => rw [List.zip_cons_cons, ih, List.map_cons]

theorem replicate_map (n : Nat) (v : Int) : List.replicate n v = (List.range n).map fun _ => v := by
  apply List.ext_getElem <;> simp

theorem sup_mul (d : Int) : (d.natAbs : Int) * sup d = d := by
  rcases sup_cases d with ⟨h, e⟩ | ⟨h, e⟩ <;> rw [e] <;> omega

theorem sup_abs (d : Int) : (sup d).natAbs = 1 := by
  rcases sup_cases d with ⟨h, e⟩ | ⟨h, e⟩ <;> rw [e] <;> rfl

theorem sup_ratio {d e : Int} (hd : d ≠ 0) (h : e.natAbs ≤ d.natAbs) : |((sup d : Int) : Rat) * e / d| ≤ 1 := by
  have hd' : (0 : Rat) < |(d : Rat)| := abs_pos.2 (by exact_mod_cast hd)
  have hs : |((sup d : Int) : Rat)| = 1 := by
    rcases sup_cases d with ⟨_, e⟩ | ⟨_, e⟩ <;> rw [e] <;> simp
  rw [abs_div, abs_mul, hs, one_mul, div_le_one hd']
  have : |e| ≤ |d| := by rw [Int.abs_eq_natAbs, Int.abs_eq_natAbs]; exact_mod_cast h
  exact_mod_cast this

/-- Each path has a shape: starts at the first pixel, ends at the last one, by steps of at most one pixel in both directions. -/
theorem path_shape (nb : Int) (s : Segment) : ∃ f, Shape nb s f := by
  have hY : s.iy1 = s.iy0 + dy s := by unfold dy; ring
  by_cases h0 : dMax nb s = 0
  · have hz : (dx nb s).natAbs = 0 ∧ (dy s).natAbs = 0 := by unfold dMax at h0; omega
    refine ⟨fun _ => (s.ix0, s.iy0), ?_, rfl, ?_, fun k hk => by omega, fun k hk => by omega⟩
    · unfold path
      simp only [h0, if_true, List.length_replicate, and_self]
      rfl
    · rw [hY, show dx nb s = 0 by omega, show dy s = 0 by omega]; simp
  · by_cases hx : dx nb s = 0
    · have hm : dMax nb s = (dy s).natAbs := by unfold dMax; rw [hx]; simp
      refine ⟨fun k : Nat => (s.ix0, s.iy0 + k * sup (dy s)), ?_, by simp, ?_, ?_, ?_⟩
      · unfold path
        simp only
        rw [if_neg h0, if_pos hx, hY]
        have : sup (dy { s with iy1 := s.iy0 + dy s }) = sup (dy s) := by rw [← hY]
        rw [arange_eq, replicate_map, if_pos (by simp [hm]), hm, zip_map]
      · simp only [hm, sup_mul, ← hY, hx, add_zero]
      · intro k hk
        have := sup_abs (dy s)
        refine ⟨by simp, ?_⟩
        have : s.iy0 + ((k + 1 : Nat) : Int) * sup (dy s) - (s.iy0 + (k : Int) * sup (dy s)) = sup (dy s) := by push_cast; ring
        rw [this]; omega
      · intro k hk h
        have h2 := congrArg Prod.snd h
        simp only at h2
        have := sup_abs (dy s)
        have : ((k + 1 : Nat) : Int) * sup (dy s) = (k : Int) * sup (dy s) + sup (dy s) := by push_cast; ring
        omega
    · by_cases hy : dy s = 0
      · have hm : dMax nb s = (dx nb s).natAbs := by unfold dMax; rw [hy]; simp
        refine ⟨fun k : Nat => (s.ix0 + k * sup (dx nb s), s.iy0), ?_, by simp, ?_, ?_, ?_⟩
        · unfold path
          simp only
          rw [if_neg h0, if_neg hx, if_pos hy, arange_eq, replicate_map, if_pos (by simp [hm]), hm, zip_map]
        · simp only [hm, sup_mul, hY, hy, add_zero]
        · intro k hk
          have := sup_abs (dx nb s)
          refine ⟨?_, by simp⟩
          have : s.ix0 + ((k + 1 : Nat) : Int) * sup (dx nb s) - (s.ix0 + (k : Int) * sup (dx nb s)) = sup (dx nb s) := by push_cast; ring
          rw [this]; omega
        · intro k hk h
          have h2 := congrArg Prod.fst h
          simp only at h2
          have := sup_abs (dx nb s)
          have : ((k + 1 : Nat) : Int) * sup (dx nb s) = (k : Int) * sup (dx nb s) + sup (dx nb s) := by push_cast; ring
          omega
      · have hxq : ((dx nb s : Int) : Rat) ≠ 0 := by exact_mod_cast hx
        have hyq : ((dy s : Int) : Rat) ≠ 0 := by exact_mod_cast hy
        have ea : ((s.ix0 + dx nb s - s.ix0 : Int) : Rat) / ((s.iy1 - s.iy0 : Int) : Rat) = (dx nb s : Rat) / (dy s : Rat) := by
          unfold dy
          congr 2
          ring
        by_cases hc : (dx nb s).natAbs ≥ (dy s).natAbs
        · have hm : dMax nb s = (dx nb s).natAbs := by unfold dMax; omega
          have hv : ∀ k : Nat, (((s.ix0 + (k : Int) * sup (dx nb s) - s.ix0 : Int) : Rat) / ((dx nb s : Rat) / (dy s : Rat)) + (s.iy0 : Rat)) =
              (s.iy0 : Rat) + k * (((sup (dx nb s) : Int) : Rat) * dy s / dx nb s) := by
            intro k
            push_cast
            field_simp
            ring
          refine ⟨fun k : Nat => (s.ix0 + k * sup (dx nb s),
            trunc ((s.iy0 : Rat) + k * (((sup (dx nb s) : Int) : Rat) * dy s / dx nb s))), ?_, ?_, ?_, ?_, ?_⟩
          · unfold path
            simp only
            rw [if_neg h0, if_neg hx, if_neg hy, if_pos hc, ea, arange_eq, List.map_map, if_pos (by simp [hm]), hm, zip_map]
            congr 1
            apply List.map_congr_left
            intro k _
            simp only [Function.comp_apply, hv]
          · simp only [Nat.cast_zero, zero_mul, add_zero, trunc_int]
          · simp only [hm, sup_mul]
            have : ((dx nb s).natAbs : Rat) * (((sup (dx nb s) : Int) : Rat) * dy s / dx nb s) = ((dy s : Int) : Rat) := by
              have h1 : (((dx nb s).natAbs : Int) : Rat) * ((sup (dx nb s) : Int) : Rat) = (dx nb s : Rat) := by
                exact_mod_cast sup_mul (dx nb s)
              rw [show (((dx nb s).natAbs : Nat) : Rat) = (((dx nb s).natAbs : Int) : Rat) by exact (Int.cast_natCast _).symm, ← mul_div_assoc, ← mul_assoc,
                h1]
              field_simp
            rw [this]
            have h2 : (s.iy0 : Rat) + ((dy s : Int) : Rat) = ((s.iy1 : Int) : Rat) := by rw [hY]; push_cast; ring
            rw [h2, trunc_int]
          · intro k hk
            constructor
            · have := sup_abs (dx nb s)
              have : s.ix0 + ((k + 1 : Nat) : Int) * sup (dx nb s) - (s.ix0 + (k : Int) * sup (dx nb s)) = sup (dx nb s) := by push_cast; ring
              simp only
              rw [this]; omega
            · apply trunc_step
              have : (s.iy0 : Rat) + ((k + 1 : Nat) : Rat) * (((sup (dx nb s) : Int) : Rat) * dy s / dx nb s) -
                ((s.iy0 : Rat) + (k : Rat) * (((sup (dx nb s) : Int) : Rat) * dy s / dx nb s)) =
                  ((sup (dx nb s) : Int) : Rat) * dy s / dx nb s := by push_cast; ring
              rw [this]
              exact sup_ratio hx hc
          · intro k hk h
            have h2 := congrArg Prod.fst h
            simp only at h2
            have := sup_abs (dx nb s)
            have : ((k + 1 : Nat) : Int) * sup (dx nb s) = (k : Int) * sup (dx nb s) + sup (dx nb s) := by push_cast; ring
            omega
        · have hm : dMax nb s = (dy s).natAbs := by unfold dMax; omega
          have hv : ∀ k : Nat, (((s.iy0 + (k : Int) * sup (dy s) - s.iy0 : Int) : Rat) * ((dx nb s : Rat) / (dy s : Rat)) + (s.ix0 : Rat)) =
              (s.ix0 : Rat) + k * (((sup (dy s) : Int) : Rat) * dx nb s / dy s) := by
            intro k
            push_cast
            field_simp
            ring
          refine ⟨fun k : Nat => (trunc ((s.ix0 : Rat) + k * (((sup (dy s) : Int) : Rat) * dx nb s / dy s)),
            s.iy0 + k * sup (dy s)), ?_, ?_, ?_, ?_, ?_⟩
          · unfold path
            simp only
            rw [if_neg h0, if_neg hx, if_neg hy, if_neg hc, ea]
            have e1 : arange s.iy0 s.iy1 (sup (dy s)) = (List.range ((dy s).natAbs + 1)).map fun k : Nat => s.iy0 + k * sup (dy s) := by
              conv_lhs => rw [hY]
              exact arange_eq _ _
            rw [e1, List.map_map, if_pos (by simp [hm]), hm, zip_map]
            congr 1
            apply List.map_congr_left
            intro k _
            simp only [Function.comp_apply, hv]
          · simp only [Nat.cast_zero, zero_mul, add_zero, trunc_int]
          · simp only [hm, sup_mul, ← hY]
            have : ((dy s).natAbs : Rat) * (((sup (dy s) : Int) : Rat) * dx nb s / dy s) = ((dx nb s : Int) : Rat) := by
              have h1 : (((dy s).natAbs : Int) : Rat) * ((sup (dy s) : Int) : Rat) = (dy s : Rat) := by
                exact_mod_cast sup_mul (dy s)
              rw [show (((dy s).natAbs : Nat) : Rat) = (((dy s).natAbs : Int) : Rat) by exact (Int.cast_natCast _).symm, ← mul_div_assoc, ← mul_assoc, h1]
              field_simp
            rw [this]
            have h2 : (s.ix0 : Rat) + ((dx nb s : Int) : Rat) = ((s.ix0 + dx nb s : Int) : Rat) := by push_cast; ring
            rw [h2, trunc_int]
          · intro k hk
            constructor
            · apply trunc_step
              have : (s.ix0 : Rat) + ((k + 1 : Nat) : Rat) * (((sup (dy s) : Int) : Rat) * dx nb s / dy s) -
                ((s.ix0 : Rat) + (k : Rat) * (((sup (dy s) : Int) : Rat) * dx nb s / dy s)) =
                  ((sup (dy s) : Int) : Rat) * dx nb s / dy s := by push_cast; ring
              rw [this]
              exact sup_ratio hy (by omega)
            · have := sup_abs (dy s)
              have : s.iy0 + ((k + 1 : Nat) : Int) * sup (dy s) - (s.iy0 + (k : Int) * sup (dy s)) = sup (dy s) := by push_cast; ring
              simp only
              rw [this]; omega
          · intro k hk h
            have h2 := congrArg Prod.snd h
            simp only at h2
            have := sup_abs (dy s)
            have : ((k + 1 : Nat) : Int) * sup (dy s) = (k : Int) * sup (dy s) + sup (dy s) := by push_cast; ring
            omega

/-- A path of pixels of a grid with `nb` columns from `(x0, y0)` to `(x1, y1)`: columns of the grid, first and last pixels, consecutive
pixels are neighbours. -/
structure Connected (nb : Int) (s : Segment) (l : List (Int × Int)) : Prop where
  column : ∀ p ∈ l, 0 ≤ p.1 ∧ p.1 < nb
  first : l.head? = some (s.ix0 % nb, s.iy0)
  last : l.getLast? = some (s.ix1 % nb, s.iy1)
  chain : ∀ (k : Nat) p q, l[k]? = some p → l[k + 1]? = some q → Neighbour nb p q

/-- The signed shift of columns modulo `nb` of least size. -/
structure Shortest (nb : Int) (s : Segment) (d : Int) : Prop where
  ends : (s.ix0 + d) % nb = s.ix1 % nb
  least : ∀ e : Int, (s.ix0 + e) % nb = s.ix1 % nb → d.natAbs ≤ e.natAbs

theorem dx_shortest {nb : Int} (hnb : 0 < nb) (s : Segment) : Shortest nb s (dx nb s) := by
  obtain ⟨h1, h2, h3⟩ := dx_range hnb s
  refine ⟨h3, fun e he => ?_⟩
  rw [← h3] at he
  have hd : nb ∣ (s.ix0 + e) - (s.ix0 + dx nb s) := Int.dvd_of_emod_eq_zero (by rw [Int.sub_emod, he, Int.sub_self, Int.zero_emod])
  obtain ⟨c, hc⟩ := hd
  have he' : e = dx nb s + nb * c := by linarith
  rcases lt_trichotomy c 0 with hc0 | hc0 | hc0
  · have : nb * c ≤ -nb := by nlinarith
    omega
  · subst hc0; simp at he'; omega
  · have : nb ≤ nb * c := by nlinarith
    omega

/-- **C48**: `compute_pixel_path` never raises and gives, for each segment, a connected path between its ends of
`max(|dx|, |dy|) + 1` pixels, where `dx` is the shortest shift of columns modulo `nb_x`; the paths follow each other in the result. -/
theorem pixelPath_spec {nb : Int} (hnb : 0 < nb) (l : List Segment) : ∃ ps : List (List (Int × Int)),
    pixelPath nb l = some (ps.flatten, ps.map (·.length - 1)) ∧ ps.length = l.length ∧
    ∀ (k : Nat) s p, l[k]? = some s → ps[k]? = some p →
      Connected nb s p ∧ ∃ d, Shortest nb s d ∧ p.length = max d.natAbs (s.iy1 - s.iy0).natAbs + 1 := by
  choose f hf using fun s => path_shape nb s
  have hm : ∀ l : List Segment, l.mapM (path nb) = some (l.map fun s => (List.range (dMax nb s + 1)).map (f s)) := by
    intro l
    induction l with
    | nil => rfl
    | cons s l ih => rw [List.mapM_cons, (hf s).path, ih]; rfl
  refine ⟨l.map fun s => ((List.range (dMax nb s + 1)).map (f s)).map fun p => (p.1 % nb, p.2), ?_, by simp, ?_⟩
  · unfold pixelPath
    rw [hm]
    simp only [Option.some.injEq, Prod.mk.injEq]
    constructor
    · rw [List.map_flatten, List.map_map]; rfl
    · rw [List.map_map]
      apply List.map_congr_left
      intro s _
      simp
  · intro k s p hs hp
    rw [List.getElem?_map, hs] at hp
    simp only [Option.map_some, Option.some.injEq] at hp
    subst hp
    have sh := hf s
    have hget : ∀ j : Nat, (((List.range (dMax nb s + 1)).map (f s)).map fun p => (p.1 % nb, p.2))[j]? =
        if j < dMax nb s + 1 then some ((f s j).1 % nb, (f s j).2) else none := by
      intro j
      by_cases hj : j < dMax nb s + 1
      · rw [if_pos hj]; simp [hj]
      · rw [if_neg hj]; simp; omega
    refine ⟨⟨?_, ?_, ?_, ?_⟩, dx nb s, dx_shortest hnb s, by simp [dMax, dy]⟩
    · intro p hp
      rw [List.mem_map] at hp
      obtain ⟨q, -, rfl⟩ := hp
      exact ⟨Int.emod_nonneg _ (ne_of_gt hnb), Int.emod_lt_of_pos _ hnb⟩
    · rw [List.head?_eq_getElem?, hget, if_pos (by omega), sh.first]
    · rw [List.getLast?_eq_getElem?, hget]
      simp only [List.length_map, List.length_range]
      rw [if_pos (by omega), Nat.add_sub_cancel, sh.last, (dx_range hnb s).2.2]
    · intro j p q hp hq
      rw [hget] at hp hq
      split at hp <;> [skip; cases hp]
      split at hq <;> [skip; cases hq]
      rename_i hj
      rw [Option.some.injEq] at hp hq
      subst hp hq
      obtain ⟨a1, a2⟩ := sh.step j (by omega)
      refine ⟨⟨(f s (j + 1)).1 - (f s j).1, by omega, by omega, ?_⟩, by simp only; omega⟩
      simp only
      rw [Int.emod_emod, Int.add_emod, Int.emod_emod, ← Int.add_emod]
      congr 1; ring

/-- Across the bound of the grid, with a slope. -/
example : pixelPath 10 [⟨8, 3, 2, 1⟩, ⟨5, 5, 5, 5⟩] =
    some ([(8, 3), (9, 2), (0, 2), (1, 1), (2, 1), (5, 5)], [4, 0]) := by decide +kernel

end Verif.PixelPath
