import Verif.Amplitude.Props

/-!
# The tolerance of the test of the heights

`EPSILON` of /repo/src/py_eddy_tracker/eddy_feature.py:36 as a number: the test of the pixels is exact up to `1e-8`.
-/

namespace Verif.Amplitude

/-- **C53** (tolerance): a contour with a pixel above the level of the contour by more than `1e-8` is not a cyclone. -/
theorem below_rejects {f : Field} {h0 sec : Rat} {mle : Nat} {level : Rat} {p : Nat × Nat} (hp : p ∈ f.pixels)
    (h : h0 + 1 / 100000000 < f.val p.1 p.2) : below f h0 sec mle level = none := by
  cases hb : below f h0 sec mle level with
  | none => rfl
  | some x =>
    have := ((below_accepts_iff f h0 sec mle level).1 (by rw [hb]; rfl)).2.1 p hp
    have he : eps = 1 / 100000000 := rfl
    rw [he] at this
    linarith

/-- **C53** (tolerance): a contour with a pixel below the level of the contour by more than `1e-8` is not an anticyclone. -/
theorem above_rejects {f : Field} {h0 sec : Rat} {mle : Nat} {level : Rat} {p : Nat × Nat} (hp : p ∈ f.pixels)
    (h : f.val p.1 p.2 < h0 - 1 / 100000000) : above f h0 sec mle level = none := by
  rw [above_eq_below_neg]
  exact below_rejects (f := neg f) (p := p) hp (by show -h0 + 1 / 100000000 < -f.val p.1 p.2; linarith)

/-- **C53** (tolerance): differences up to `1e-8` never reject a contour: the verdict of a contour with one extremum, without masked pixels. -/
theorem below_tolerates {f : Field} {h0 sec : Rat} {mle : Nat} {level : Rat} (hm : ∀ p ∈ f.pixels, f.mask p.1 p.2 = false)
    (h : ∀ p ∈ f.pixels, f.val p.1 p.2 ≤ h0 + 1 / 100000000) (h1 : (detect f mle 1).length = 1) :
    (below f h0 sec mle level).isSome = true :=
  (below_accepts_iff f h0 sec mle level).2 ⟨hm, h, Or.inl h1⟩

/-- A field of one pixel which is above the level by one hundredth. -/
def bump : Field := ⟨3, 3, fun _ _ => 1 / 100, fun _ _ => false, [(1, 1)]⟩

example : (1, 1) ∈ bump.pixels ∧ (0 : Rat) + 1 / 100000000 < bump.val 1 1 := by decide +kernel

/-- A pit of one pixel in a flat field. -/
def pit : Field := ⟨3, 3, fun i j => if i = 1 ∧ j = 1 then -1 else 0, fun _ _ => false, [(1, 1)]⟩

example : (∀ p ∈ pit.pixels, pit.mask p.1 p.2 = false) ∧ (∀ p ∈ pit.pixels, pit.val p.1 p.2 ≤ 0 + 1 / 100000000) ∧ (detect pit 1 1).length = 1 := by
  decide +kernel

end Verif.Amplitude
