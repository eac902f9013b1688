import Verif.Geos.Props
import Verif.Stencil.Mirror

/-!
# C225: geostrophic velocities in the mirror and from another meridian

`add_uv` (src/py_eddy_tracker/dataset/grid.py:1844-1906) of heights whose longitudes or latitudes are taken in the other direction, or which begin at another
meridian.
-/

namespace Verif.Geos

open Verif.Stencil

/-! ### Specification -/

/-- The opposite velocity. -/
def Val.opposite : Val → Val
  | .masked => .masked
  | .infinite => .infinite
  | .val q => .val (-q)

/-- The other hemisphere: latitudes from the last one to the first one, with the other sign. -/
def Geometry.south (g : Geometry) (ny : Nat) : Geometry := { g with cosLat := fun j => g.cosLat (ny - 1 - j), sinLat := fun j => -g.sinLat (ny - 1 - j) }

/-! ### Proofs -/

/-- Inside of the domain the former values of the variables are not used. -/
theorem line_junk {nb : Nat} (h4 : 4 ≤ nb) (circular : Bool) (a : Line) (junk junk' : Int → Rat) (halfwidth : Int) (d : Rat) {i : Nat} (hi : i < nb)
    (hin : Inside nb circular halfwidth i) : line nb circular a junk halfwidth d i = line nb circular a junk' halfwidth d i := by
  refine cell_ext (fun k h1 h2 => ?_) (fun k h1 h2 => ?_)
  · rw [bufAt_spec h4 circular a junk i hi k h1 h2, bufAt_spec h4 circular a junk' i hi k h1 h2]
    cases pos nb circular i k with
    | none => dsimp only; split <;> rfl
    | some c => rfl
  · have hw4 : width halfwidth ≤ 4 := by unfold width; split <;> [omega; (split <;> [omega; (split <;> omega)])]
    rw [bufAt_spec h4 circular a junk i hi k (by omega) (by omega), bufAt_spec h4 circular a junk' i hi k (by omega) (by omega)]
    cases hp : pos nb circular i k with
    | some c => rfl
    | none =>
      exfalso
      rcases hin with rfl | ⟨l1, l2⟩
      · simp [pos] at hp
      · cases circular with
        | true => simp [pos] at hp
        | false =>
          simp only [pos, Bool.false_eq_true, if_false] at hp
          rw [if_pos (by omega)] at hp
          cases hp

theorem scaled_neg (g : Geometry) (j : Nat) (s : Rat) (o : Option Rat) : scaled g j s (o.map (fun v => -v)) = (scaled g j s o).opposite := by
  cases o with
  | none => rfl
  | some q =>
    simp only [scaled, Option.map_some]
    split
    · rfl
    · simp only [Val.opposite, Val.val.injEq]; ring

theorem opposite_opposite (v : Val) : v.opposite.opposite = v := by
  cases v <;> simp [Val.opposite]

theorem scaled_south (g : Geometry) {ny j : Nat} (hj : j < ny) (s : Rat) (o : Option Rat) :
    scaled (g.south ny) (ny - 1 - j) s o = (scaled g j s o).opposite := by
  have hc : coriolis (g.south ny) (ny - 1 - j) = -coriolis g j := by
    simp only [coriolis, Geometry.south, show ny - 1 - (ny - 1 - j) = j by omega]
    ring
  cases o with
  | none => rfl
  | some q =>
    simp only [scaled, hc, neg_eq_zero]
    split
    · rfl
    · simp only [Val.opposite, Val.val.injEq, div_neg]; ring

/-- **C225** (east and west): heights in the mirror have the same zonal velocity and the opposite meridional velocity at the same place. -/
theorem add_uv_east_west {nx ny : Nat} (hx : 4 ≤ nx) (hy : 4 ≤ ny) (circular : Bool) (a : Nat → Nat → Rat × Bool) (jv ju jv' ju' : Nat → Int → Rat) (hw : Int)
    (g : Geometry) {i j : Nat} (hi : i < nx) (hj : j < ny) (hin : Inside nx circular (clamp hw) i) (hjn : Inside ny false (clamp hw) j) :
    addUV nx ny circular (fun i j => a (nx - 1 - i) j) jv' ju' hw g (nx - 1 - i) j =
      ((addUV nx ny circular a jv ju hw g i j).1, (addUV nx ny circular a jv ju hw g i j).2.opposite) := by
  have e1 : stencil nx ny circular (fun i j => a (nx - 1 - i) j) ju' true (clamp hw) (fun _ => perLat g) (nx - 1 - i) j =
      stencil nx ny circular a ju true (clamp hw) (fun _ => perLat g) i j := by
    simp only [stencil, if_true, show nx - 1 - (nx - 1 - i) = i by omega]
    exact line_junk hy false _ _ _ _ _ hj hjn
  have e2 : stencil nx ny circular (fun i j => a (nx - 1 - i) j) jv' false (clamp hw) (perLon g) (nx - 1 - i) j =
      (stencil nx ny circular a jv false (clamp hw) (perLon g) i j).map (fun v => -v) := by
    simp only [stencil, Bool.false_eq_true, if_false]
    exact stencil_mirror hx circular (fun k => a k j) _ _ _ _ hi hin
  simp only [addUV, e1, e2, scaled_neg]

/-- **C225** (hemispheres): the same heights in the other hemisphere have the same zonal velocity and the opposite meridional velocity at the opposite latitude. -/
theorem add_uv_south {nx ny : Nat} (hx : 4 ≤ nx) (hy : 4 ≤ ny) (circular : Bool) (a : Nat → Nat → Rat × Bool) (jv ju jv' ju' : Nat → Int → Rat) (hw : Int)
    (g : Geometry) {i j : Nat} (hi : i < nx) (hj : j < ny) (hin : Inside nx circular (clamp hw) i) (hjn : Inside ny false (clamp hw) j) :
    addUV nx ny circular (fun i j => a i (ny - 1 - j)) jv' ju' hw (g.south ny) i (ny - 1 - j) =
      ((addUV nx ny circular a jv ju hw g i j).1, (addUV nx ny circular a jv ju hw g i j).2.opposite) := by
  have e1 : stencil nx ny circular (fun i j => a i (ny - 1 - j)) ju' true (clamp hw) (fun _ => perLat (g.south ny)) i (ny - 1 - j) =
      (stencil nx ny circular a ju true (clamp hw) (fun _ => perLat g) i j).map (fun v => -v) := by
    simp only [stencil, if_true]
    exact stencil_mirror hy false (fun k => a i k) _ _ _ _ hj hjn
  have e2 : stencil nx ny circular (fun i j => a i (ny - 1 - j)) jv' false (clamp hw) (perLon (g.south ny)) i (ny - 1 - j) =
      stencil nx ny circular a jv false (clamp hw) (perLon g) i j := by
    simp only [stencil, Bool.false_eq_true, if_false, perLon, Geometry.south, show ny - 1 - (ny - 1 - j) = j by omega]
    exact line_junk hx circular _ _ _ _ _ hi hin
  simp only [addUV, e1, e2, scaled_neg, scaled_south g hj, opposite_opposite]

/-- **C225** (meridian): on a grid which makes the turn of the Earth the velocities do not depend on the meridian where it begins. -/
theorem add_uv_turned {nx ny : Nat} (hx : 4 ≤ nx) (hy : 4 ≤ ny) (a : Nat → Nat → Rat × Bool) (jv ju jv' ju' : Nat → Int → Rat) (hw : Int)
    (g : Geometry) (s : Nat) {i j : Nat} (hi : i < nx) (hj : j < ny) (hjn : Inside ny false (clamp hw) j) :
    addUV nx ny true (fun i j => a ((i + s) % nx) j) jv' ju' hw g i j = addUV nx ny true a jv ju hw g ((i + s) % nx) j := by
  have e1 : stencil nx ny true (fun i j => a ((i + s) % nx) j) ju' true (clamp hw) (fun _ => perLat g) i j =
      stencil nx ny true a ju true (clamp hw) (fun _ => perLat g) ((i + s) % nx) j := by
    simp only [stencil, if_true]
    exact line_junk hy false _ _ _ _ _ hj hjn
  have e2 : stencil nx ny true (fun i j => a ((i + s) % nx) j) jv' false (clamp hw) (perLon g) i j =
      stencil nx ny true a jv false (clamp hw) (perLon g) ((i + s) % nx) j := by
    simp only [stencil, Bool.false_eq_true, if_false]
    exact stencil_turned hx (fun k => a k j) _ _ _ _ s hi
  simp only [addUV, e1, e2]

/-- A slope on a grid of five by five, with a masked cell. -/
def mirrorHeights : Nat → Nat → Rat × Bool := fun i j => ((i : Rat) ^ 2 + 3 * j, decide (i = 4 ∧ j = 2))
/-- A geometry whose Coriolis factor varies with the latitude. -/
def mirrorGeometry : Geometry := ⟨3, 1, 1, fun _ => 1 / 2, fun j => (j + 1 : Rat) / 10⟩

example : Inside 5 true (clamp 1) 3 ∧ Inside 5 false (clamp 1) 2 ∧
    ∃ u v : Rat, u ≠ 0 ∧ v ≠ 0 ∧ addUV 5 5 true mirrorHeights (fun _ _ => 0) (fun _ _ => 0) 1 mirrorGeometry 3 2 = (.val u, .val v) ∧
      addUV 5 5 true (fun i j => mirrorHeights (5 - 1 - i) j) (fun _ _ => 8) (fun _ _ => 9) 1 mirrorGeometry 1 2 = (.val u, .val (-v)) ∧
      addUV 5 5 true (fun i j => mirrorHeights i (5 - 1 - j)) (fun _ _ => 8) (fun _ _ => 9) 1 (mirrorGeometry.south 5) 3 2 = (.val u, .val (-v)) := by
  have h1 : Inside 5 true (clamp 1) 3 := Or.inl rfl
  have h2 : Inside 5 false (clamp 1) 2 := Or.inr (by decide)
  refine ⟨h1, h2, -((3 : Rat) * perLat mirrorGeometry * (gravity / coriolis mirrorGeometry 2)), 5 * perLon mirrorGeometry 2 * (gravity / coriolis mirrorGeometry 2), ?_⟩
  decide +kernel

end Verif.Geos
