import Verif.Geos.Model
import Verif.Stencil.Props
import Mathlib.Tactic.Ring
import Mathlib.Tactic.FieldSimp
import Mathlib.Tactic.LinearCombination

/-!
# C127: geostrophic velocities
-/

namespace Verif.Geos

open Verif.Stencil Polynomial

/-- The gravity of the Earth, 9.807 m/s². -/
def earthGravity : Rat := 9.807

/-- The radius of the sphere, 6370.997 km. -/
def earthRadius : Rat := 6370.997 * 1000

/-- The sidereal day, 86164.1 s. -/
def siderealDay : Rat := 86164.1

/-- The rotation of the Earth by second is `2 π / day`; the parameter of Coriolis is twice this rotation times the sine of the latitude. -/
def f (g : Geometry) (j : Nat) : Rat := 2 * (2 * g.pi / siderealDay) * g.sinLat j

theorem day_ne : day ≠ 0 := by unfold day; norm_num

theorem earth_ne : earth ≠ 0 := by unfold earth; norm_num

theorem gravity_eq : earthGravity = gravity := by unfold earthGravity gravity; norm_num

theorem radius_eq : earthRadius = earth := by unfold earthRadius earth; norm_num

theorem day_eq : siderealDay = day := by unfold siderealDay day; norm_num

theorem coriolis_eq (g : Geometry) (j : Nat) : coriolis g j = f g j := by
  unfold coriolis f
  rw [day_eq]
  ring

theorem f_eq_zero {g : Geometry} (hpi : g.pi ≠ 0) (j : Nat) : f g j = 0 ↔ g.sinLat j = 0 := by
  unfold f
  simp [hpi, day_eq, day_ne]

theorem stencil_masked {nx ny : Nat} (hx : 4 ≤ nx) (hy : 4 ≤ ny) {circular : Bool} {a : Nat → Nat → Rat × Bool} {junk : Nat → Int → Rat}
    {vertical : Bool} {hw : Int} {d : Nat → Rat} {i j : Nat} (hi : i < nx) (hj : j < ny) :
    stencil nx ny circular a junk vertical hw d i j = none ↔ (a i j).2 = true := by
  unfold stencil
  cases vertical with
  | true => simp only [if_true]; exact line_masked_iff hy _ _ _ _ _ hj
  | false => simp only [Bool.false_eq_true, if_false]; exact line_masked_iff hx _ _ _ _ _ hi

/-- The velocities are masked exactly where the height is. -/
theorem add_uv_masked {nx ny : Nat} (hx : 4 ≤ nx) (hy : 4 ≤ ny) {circular : Bool} {a : Nat → Nat → Rat × Bool} {jv ju : Nat → Int → Rat}
    {hw : Int} {g : Geometry} {i j : Nat} (hi : i < nx) (hj : j < ny) :
    ((addUV nx ny circular a jv ju hw g i j).1 = .masked ↔ (a i j).2 = true) ∧
    ((addUV nx ny circular a jv ju hw g i j).2 = .masked ↔ (a i j).2 = true) := by
  have key : ∀ (sg : Rat) (o : Option Rat), scaled g j sg o = .masked ↔ o = none := by
    intro sg o
    cases o with
    | none => simp [scaled]
    | some q =>
      simp only [scaled, reduceCtorEq, iff_false]
      split <;> simp
  unfold addUV
  exact ⟨by rw [key]; exact stencil_masked hx hy hi hj, by rw [key]; exact stencil_masked hx hy hi hj⟩

/-- They are not finite exactly on the equator. -/
theorem add_uv_infinite {nx ny : Nat} (hx : 4 ≤ nx) (hy : 4 ≤ ny) {circular : Bool} {a : Nat → Nat → Rat × Bool} {jv ju : Nat → Int → Rat}
    {hw : Int} {g : Geometry} (hpi : g.pi ≠ 0) {i j : Nat} (hi : i < nx) (hj : j < ny) :
    ((addUV nx ny circular a jv ju hw g i j).1 = .infinite ↔ (a i j).2 = false ∧ g.sinLat j = 0) ∧
    ((addUV nx ny circular a jv ju hw g i j).2 = .infinite ↔ (a i j).2 = false ∧ g.sinLat j = 0) := by
  have key : ∀ (sg : Rat) (o : Option Rat), scaled g j sg o = .infinite ↔ o ≠ none ∧ g.sinLat j = 0 := by
    intro sg o
    cases o with
    | none => simp [scaled]
    | some q =>
      simp only [scaled, ne_eq, reduceCtorEq, not_false_eq_true, true_and]
      rw [coriolis_eq, ← f_eq_zero hpi]
      split <;> simp_all
  unfold addUV
  refine ⟨?_, ?_⟩
  · rw [key, Ne, stencil_masked hx hy hi hj]; simp
  · rw [key, Ne, stencil_masked hx hy hi hj]; simp

/-- **C127**: at a cell which is not masked and not on the equator, with the slopes `gx` and `gy` of the stencils: `f v = g gx`,
`f u = - g gy`. So the velocity follows the level lines (no slope along it), with the high heights at its right in the northern
hemisphere (`0 < f`), and its norm is `g / f` times the norm of the slope. -/
theorem add_uv_balance {nx ny : Nat} (hx : 4 ≤ nx) (hy : 4 ≤ ny) {circular : Bool} {a : Nat → Nat → Rat × Bool} {jv ju : Nat → Int → Rat}
    {hw : Int} {g : Geometry} (hpi : g.pi ≠ 0) {i j : Nat} (hi : i < nx) (hj : j < ny) (hm : (a i j).2 = false) (hs : g.sinLat j ≠ 0) :
    ∃ gx gy u v : Rat, stencil nx ny circular a jv false (clamp hw) (perLon g) i j = some gx ∧
      stencil nx ny circular a ju true (clamp hw) (fun _ => perLat g) i j = some gy ∧
      addUV nx ny circular a jv ju hw g i j = (.val u, .val v) ∧
      f g j * v = earthGravity * gx ∧ f g j * u = -earthGravity * gy ∧
      u * gx + v * gy = 0 ∧ f g j * (gx * v - gy * u) = earthGravity * (gx ^ 2 + gy ^ 2) ∧
      f g j ^ 2 * (u ^ 2 + v ^ 2) = earthGravity ^ 2 * (gx ^ 2 + gy ^ 2) := by
  rw [gravity_eq]
  have hf : f g j ≠ 0 := fun e => hs ((f_eq_zero hpi j).1 e)
  obtain ⟨gx, hgx⟩ := Option.ne_none_iff_exists'.1 (fun e => by
    rw [(stencil_masked (circular := circular) (junk := jv) (vertical := false) (hw := clamp hw) (d := perLon g) hx hy hi hj).1 e] at hm
    simp at hm : stencil nx ny circular a jv false (clamp hw) (perLon g) i j ≠ none)
  obtain ⟨gy, hgy⟩ := Option.ne_none_iff_exists'.1 (fun e => by
    rw [(stencil_masked (circular := circular) (junk := ju) (vertical := true) (hw := clamp hw) (d := fun _ => perLat g) hx hy hi hj).1 e] at hm
    simp at hm : stencil nx ny circular a ju true (clamp hw) (fun _ => perLat g) i j ≠ none)
  refine ⟨gx, gy, -1 * gy * (gravity / f g j), 1 * gx * (gravity / f g j), hgx, hgy, ?_, ?_⟩
  · unfold addUV
    rw [hgx, hgy]
    simp only [scaled, coriolis_eq, if_neg hf]
  · have e : f g j * (gravity / f g j) = gravity := by field_simp
    generalize gravity / f g j = k at *
    refine ⟨?_, ?_, ?_, ?_, ?_⟩
    · linear_combination gx * e
    · linear_combination -gy * e
    · ring
    · linear_combination (gx ^ 2 + gy ^ 2) * e
    · linear_combination (gx ^ 2 + gy ^ 2) * (f g j * k + gravity) * e

theorem clamp_width (hw : Int) : (width (clamp hw) : Int) = clamp hw := by
  have h1 : 1 ≤ clamp hw := by unfold clamp; omega
  have h2 : clamp hw ≤ 4 := by unfold clamp; omega
  unfold width
  generalize clamp hw = w at *
  split
  · omega
  · split
    · omega
    · split <;> omega

/-- The half width `w` which is applied when `hw` is asked: the one asked from 1 to 4, the nearest of them otherwise. -/
def Applied (hw : Int) (w : Nat) : Prop := (hw ≤ 1 ∧ w = 1) ∨ (1 ≤ hw ∧ hw ≤ 4 ∧ (w : Int) = hw) ∨ (4 ≤ hw ∧ w = 4)

/-- Inside of the grid and of the data the slopes are those of the field in metres: for heights which are polynomials of degree at most twice
the half width along the line and along the column (in degrees), the velocities are exact. One degree of latitude is `2 π R / 360` metres,
one degree of longitude is this times the cosine. -/
theorem add_uv_exact {nx ny : Nat} (hx : 4 ≤ nx) (hy : 4 ≤ ny) {circular : Bool} {a : Nat → Nat → Rat × Bool} (jv ju : Nat → Int → Rat)
    {hw : Int} {g : Geometry} {x0 y0 : Rat} {p q : ℚ[X]} {w i j : Nat} (hw0 : Applied hw w)
    (hpi : g.pi ≠ 0) (hxs : g.xstep ≠ 0) (hys : g.ystep ≠ 0) (hc : g.cosLat j ≠ 0) (hs : g.sinLat j ≠ 0)
    (hp : p.natDegree ≤ 2 * w) (hq : q.natDegree ≤ 2 * w)
    (hi0 : w ≤ i) (hi1 : i + w < nx) (hj0 : w ≤ j) (hj1 : j + w < ny)
    (hrow : ∀ c : Nat, i - w ≤ c → c ≤ i + w → a c j = (p.eval (x0 + c * g.xstep), false))
    (hcol : ∀ c : Nat, j - w ≤ c → c ≤ j + w → a i c = (q.eval (y0 + c * g.ystep), false)) :
    ∃ u v : Rat, addUV nx ny circular a jv ju hw g i j = (.val u, .val v) ∧
      f g j * v = earthGravity * (p.derivative.eval (x0 + i * g.xstep) / (2 * g.pi * earthRadius / 360 * g.cosLat j)) ∧
      f g j * u = -earthGravity * (q.derivative.eval (y0 + j * g.ystep) / (2 * g.pi * earthRadius / 360)) := by
  rw [gravity_eq, radius_eq]
  have ew : width (clamp hw) = w := by
    have := clamp_width hw
    unfold Applied at hw0
    unfold clamp at this ⊢
    omega
  have hf : f g j ≠ 0 := fun e => hs ((f_eq_zero hpi j).1 e)
  have he := earth_ne
  have h1 : stencil nx ny circular a jv false (clamp hw) (perLon g) i j =
      some (p.derivative.eval (x0 + i * g.xstep) * g.xstep * perLon g j) := by
    unfold stencil
    simp only [Bool.false_eq_true, if_false]
    exact stencil_exact hx circular _ _ _ x0 g.xstep p (by omega) (by omega) (by omega) (by rw [ew]; exact hrow)
  have h2 : stencil nx ny circular a ju true (clamp hw) (fun _ => perLat g) i j =
      some (q.derivative.eval (y0 + j * g.ystep) * g.ystep * perLat g) := by
    unfold stencil
    simp only [if_true]
    exact stencil_exact hy false _ _ _ y0 g.ystep q (by omega) (by omega) (by omega) (by rw [ew]; exact hcol)
  refine ⟨-1 * (q.derivative.eval (y0 + j * g.ystep) * g.ystep * perLat g) * (gravity / f g j),
    1 * (p.derivative.eval (x0 + i * g.xstep) * g.xstep * perLon g j) * (gravity / f g j), ?_, ?_, ?_⟩
  · unfold addUV
    rw [h1, h2]
    simp only [scaled, coriolis_eq, if_neg hf]
  · unfold perLon
    field_simp
  · unfold perLat
    field_simp

/-- A constant added to all the heights changes no velocity: only the slopes count. -/
theorem bufAt_shift (nb : Nat) (circular : Bool) (a : Line) (junk : Int → Rat) (c : Rat) (i : Nat) (k : Int) :
    bufAt nb circular (fun k => ((a k).1 + c, (a k).2)) (fun k => junk k + c) i k =
      ((bufAt nb circular a junk i k).1 + c, (bufAt nb circular a junk i k).2) := by
  have roll_shift : ∀ (b b' : Buffer) (i : Nat), (∀ k, b' k = ((b k).1 + c, (b k).2)) → ∀ k,
      roll nb circular (fun k => ((a k).1 + c, (a k).2)) i b' k = ((roll nb circular a i b k).1 + c, (roll nb circular a i b k).2) := by
    intro b b' i h k
    unfold roll
    simp only [h]
    split
    · split
      · split <;> rfl
      · rfl
    · rfl
  induction i generalizing k with
  | zero =>
    refine roll_shift _ _ 0 (fun k => ?_) k
    unfold init
    split
    · split <;> rfl
    · rfl
  | succ i ih => exact roll_shift _ _ (i + 1) ih k

theorem add_uv_shift (nx ny : Nat) (circular : Bool) (a : Nat → Nat → Rat × Bool) (jv ju : Nat → Int → Rat) (hw : Int) (g : Geometry) (c : Rat)
    (i j : Nat) :
    addUV nx ny circular (fun i j => ((a i j).1 + c, (a i j).2)) (fun i k => jv i k + c) (fun i k => ju i k + c) hw g i j =
      addUV nx ny circular a jv ju hw g i j := by
  have hc : ∀ (b b' : Buffer) (hw : Int) (d : Rat), (∀ k, b' k = ((b k).1 + c, (b k).2)) → cell b' hw d = cell b hw d := by
    intro b b' hw d h
    unfold cell
    simp only [h, add_sub_add_right_eq_sub]
  have hl : ∀ (nb : Nat) (circular : Bool) (a : Line) (junk : Int → Rat) (hw : Int) (d : Rat) (i : Nat),
      line nb circular (fun k => ((a k).1 + c, (a k).2)) (fun k => junk k + c) hw d i = line nb circular a junk hw d i := by
    intro nb circular a junk hw d i
    exact hc _ _ _ _ (bufAt_shift nb circular a junk c i)
  unfold addUV stencil
  simp only [if_true, Bool.false_eq_true, if_false]
  rw [hl ny false (fun k => a i k) (ju i), hl nx circular (fun k => a k j) (jv j)]

/-- What the documentation of `add_uv` writes: `u = g / f dh/dy`, `v = - g / f dh/dx`. -/
def Documented : Prop := ∀ (nx ny : Nat) (circular : Bool) (a : Nat → Nat → Rat × Bool) (jv ju : Nat → Int → Rat) (hw : Int) (g : Geometry) (i j : Nat)
  (gx gy u v : Rat), 4 ≤ nx → 4 ≤ ny → i < nx → j < ny → g.pi ≠ 0 → g.sinLat j ≠ 0 →
  stencil nx ny circular a jv false (clamp hw) (perLon g) i j = some gx →
  stencil nx ny circular a ju true (clamp hw) (fun _ => perLat g) i j = some gy →
  addUV nx ny circular a jv ju hw g i j = (.val u, .val v) →
  f g j * u = earthGravity * gy ∧ f g j * v = -earthGravity * gx

/-- A slope of one metre by degree towards the east and two towards the north. -/
def exField : Nat → Nat → Rat × Bool := fun i j => ((i : Rat) + 2 * j, false)

/-- A rough geometry. -/
def exGeometry : Geometry := ⟨22 / 7, 1, 1, fun _ => 4 / 5, fun _ => 3 / 5⟩

theorem documented_wrong : ¬ Documented := by
  intro h
  obtain ⟨gx, gy, u, v, h1, h2, h3, h4, h5, _⟩ := add_uv_balance (nx := 9) (ny := 9) (by omega) (by omega) (circular := false) (a := exField)
    (jv := fun _ _ => 0) (ju := fun _ _ => 0) (hw := 1) (g := exGeometry) (i := 4) (j := 4) (by unfold exGeometry; norm_num) (by omega) (by omega)
    rfl (by unfold exGeometry; norm_num)
  have hd := (h 9 9 false exField _ _ 1 exGeometry 4 4 gx gy u v (by omega) (by omega) (by omega) (by omega) (by unfold exGeometry; norm_num)
    (by unfold exGeometry; norm_num) h1 h2 h3).2
  rw [h4] at hd
  have hg : gx = 1 * perLon exGeometry 4 := by
    have : stencil 9 9 false exField (fun _ _ => 0) false (clamp 1) (perLon exGeometry) 4 4 = some (1 * perLon exGeometry 4) := by decide +kernel
    rw [this] at h1
    exact (Option.some.inj h1).symm
  have hne : perLon exGeometry 4 ≠ 0 := by decide +kernel
  rw [hg] at hd
  have hgr : earthGravity ≠ 0 := by unfold earthGravity; norm_num
  have : 2 * earthGravity * perLon exGeometry 4 = 0 := by linear_combination hd
  simp [hgr, hne] at this

/-- The height grows with both coordinates: in the north the water flows towards the west and the north, exactly along the level lines. -/
example : ∃ u v : Rat, addUV 9 9 false exField (fun _ _ => 0) (fun _ _ => 0) 4 exGeometry 4 4 = (.val u, .val v) ∧
    f exGeometry 4 * v = earthGravity * (1 / (2 * (22 / 7) * earthRadius / 360 * (4 / 5))) ∧ f exGeometry 4 * u = -earthGravity * (2 / (2 * (22 / 7) * earthRadius / 360)) := by
  have hd : ∀ b c : Rat, (Polynomial.C b * X + Polynomial.C c : ℚ[X]).natDegree ≤ 2 * 4 := fun b c => natDegree_linear_le.trans (by omega)
  obtain ⟨u, v, h1, h2, h3⟩ := add_uv_exact (nx := 9) (ny := 9) (by omega) (by omega) (circular := false) (a := exField) (fun _ _ => 0) (fun _ _ => 0)
    (hw := 4) (g := exGeometry) (x0 := 0) (y0 := 0) (p := Polynomial.C 1 * X + Polynomial.C 8) (q := Polynomial.C 2 * X + Polynomial.C 4) (w := 4) (i := 4) (j := 4)
    (Or.inr (Or.inr ⟨by omega, rfl⟩)) (by unfold exGeometry; norm_num) (by unfold exGeometry; norm_num) (by unfold exGeometry; norm_num) (by unfold exGeometry; norm_num)
    (by unfold exGeometry; norm_num) (hd _ _) (hd _ _) (by omega) (by omega) (by omega) (by omega)
    (fun c _ _ => by simp [exField, exGeometry]; norm_num) (fun c _ _ => by simp [exField, exGeometry]; ring)
  refine ⟨u, v, h1, ?_, ?_⟩
  · rw [h2]
    simp [exGeometry]
  · rw [h3]
    simp [exGeometry]

end Verif.Geos
