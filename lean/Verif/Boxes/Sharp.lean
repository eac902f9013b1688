import Verif.Boxes.Props

/-!
# The cells of `grid_box_stat`

The cell of an observation without the functions of the code: the box between the edges of the cell (observation.py:2531-2536).
-/

namespace Verif.Boxes

/-- **C33** (cells): on a grid which is not circular, an observation is of the cell `(i, j)` exactly when it lies in the box whose edges are
`i` and `i + 1` steps from the origin in longitude, and `j` and `j + 1` steps in latitude. -/
theorem cell_box {g : Grid} (hx : 0 < g.xstep) (hy : 0 < g.ystep) (o : Obs) (i j : Int) :
    cellOf g false o = (i, j) ↔ (g.x0 + i * g.xstep ≤ o.x ∧ o.x < g.x0 + (i + 1) * g.xstep) ∧
      (g.y0 + j * g.ystep ≤ o.y ∧ o.y < g.y0 + (j + 1) * g.ystep) := by
  unfold cellOf rawCell
  simp only [Bool.false_eq_true, if_false, Prod.mk.injEq]
  rw [Int.floor_eq_iff, Int.floor_eq_iff, le_div_iff₀ hx, div_lt_iff₀ hx, le_div_iff₀ hy, div_lt_iff₀ hy]
  constructor
  · rintro ⟨⟨h1, h2⟩, h3, h4⟩
    exact ⟨⟨by linarith, by linarith⟩, by linarith, by linarith⟩
  · rintro ⟨⟨h1, h2⟩, h3, h4⟩
    exact ⟨⟨by linarith, by linarith⟩, by linarith, by linarith⟩

/-- **C33** (cells): on a circular grid which covers one turn, an observation is of the cell `(i, j)` exactly when its longitude, up to whole
turns, lies in the box. -/
theorem cell_circular {g : Grid} (hx : 0 < g.xstep) (hy : 0 < g.ystep) (hn : 0 < g.nbX) (hturn : g.nbX * g.xstep = 360) (o : Obs) (i j : Int)
    (hi : 0 ≤ i) (hi' : i < g.nbX) :
    cellOf g true o = (i, j) ↔ (∃ k : Int, g.x0 + i * g.xstep ≤ o.x + k * 360 ∧ o.x + k * 360 < g.x0 + (i + 1) * g.xstep) ∧
      (g.y0 + j * g.ystep ≤ o.y ∧ o.y < g.y0 + (j + 1) * g.ystep) := by
  have hj := cell_box hx hy o (rawCell g o).1 j
  have key : ∀ a : Int, (rawCell g o).1 = a ↔ g.x0 + a * g.xstep ≤ o.x ∧ o.x < g.x0 + (a + 1) * g.xstep := by
    intro a
    have := cell_box hx hy o a (rawCell g o).2
    unfold cellOf at this
    simp only [Bool.false_eq_true, if_false] at this
    constructor
    · intro h; exact (this.1 (by rw [← h])).1
    · intro h
      have h2 := ((cell_box hx hy o (rawCell g o).1 (rawCell g o).2).1 rfl).2
      rw [this.2 ⟨h, h2⟩]
  have key2 : ∀ b : Int, (rawCell g o).2 = b ↔ g.y0 + b * g.ystep ≤ o.y ∧ o.y < g.y0 + (b + 1) * g.ystep := by
    intro b
    constructor
    · intro h; have := ((cell_box hx hy o (rawCell g o).1 (rawCell g o).2).1 rfl).2; rwa [h] at this
    · intro h
      have h2 := ((cell_box hx hy o (rawCell g o).1 (rawCell g o).2).1 rfl).1
      have := (cell_box hx hy o (rawCell g o).1 b).2 ⟨h2, h⟩
      unfold cellOf at this
      simp only [Bool.false_eq_true, if_false] at this
      rw [this]
  unfold cellOf
  simp only [if_true, Prod.mk.injEq]
  rw [key2]
  refine and_congr_left' ?_
  constructor
  · intro h
    refine ⟨-((rawCell g o).1 / g.nbX), ?_⟩
    have hd := Int.emod_add_mul_ediv (rawCell g o).1 g.nbX
    rw [h] at hd
    have hk := (key ((rawCell g o).1)).1 rfl
    have hq : ((rawCell g o).1 : Rat) = i + g.nbX * (((rawCell g o).1 / g.nbX : Int) : Rat) := by
      conv_lhs => rw [← hd]
      push_cast
      ring
    rw [hq] at hk
    have e : (((rawCell g o).1 / g.nbX : Int) : Rat) * 360 = g.nbX * (((rawCell g o).1 / g.nbX : Int) : Rat) * g.xstep := by
      rw [← hturn]; ring
    push_cast
    constructor <;> nlinarith [hk.1, hk.2]
  · rintro ⟨k, h1, h2⟩
    have := (key (i - k * g.nbX)).2 (by
      have e : (k : Rat) * 360 = k * g.nbX * g.xstep := by rw [← hturn]; ring
      push_cast
      constructor <;> nlinarith)
    rw [this, Int.sub_mul_emod_self_right]
    exact Int.emod_eq_of_lt hi hi'

/-- A grid of four boxes of ninety degrees. -/
def turn4 : Grid := ⟨0, 0, 90, 1, 4, 2⟩

example : (0 : Rat) < turn4.xstep ∧ (0 : Rat) < turn4.ystep ∧ 0 < turn4.nbX ∧ (turn4.nbX : Rat) * turn4.xstep = 360 ∧
    cellOf turn4 true ⟨-10, 1, 0⟩ = (3, 1) ∧ cellOf turn4 false ⟨100, 1 / 2, 0⟩ = (1, 0) := by decide +kernel

end Verif.Boxes
