import Mathlib.Data.Rat.Lemmas
import Mathlib.Algebra.Order.Ring.Rat
import Mathlib.Tactic.Ring

/-!
C171: `EddyId` searches eddies in the heights with the scales asked, with the velocities asked.

Model of the options of `eddy_id` and of `identification` (`/repo/src/py_eddy_tracker/appli/grid.py:58-186`) up to the call of
`eddy_identification`: which heights and velocities it reads. The fields of the file are values of any type `F`; the geostrophic velocities
and the low pass filter are parameters (their properties are C127 and C81). `none` is an exception.
-/

namespace Verif.App

/-! ### Model -/

/-- The variables of the grid: those of the file, read when they are used (`grid`, grid.py:519-566), or those computed. -/
abbrev Vars (F : Type) := String → Option F

/-- `self.vars[name] = value`. -/
def Vars.set {F : Type} (vars : Vars F) (name : String) (value : F) : Vars F := fun k => if k = name then some value else vars k

/-- What the grids compute: velocities of heights, and low pass filter at a wavelength. -/
structure Computations (F : Type) where
  u : F → F
  v : F → F
  low : Rat → F → F

/-- `add_uv(h)`, grid.py:1844-1906: the heights are read once, `v` then `u` are written. -/
def addUv {F : Type} (c : Computations F) (vars : Vars F) (h : String) : Option (Vars F) :=
  (vars h).map (fun x => (vars.set "v" (c.v x)).set "u" (c.u x))

/-- `bessel_low_filter`, grid.py:1595-1604. -/
def lowFilter {F : Type} (c : Computations F) (vars : Vars F) (h : String) (w : Rat) : Option (Vars F) :=
  (vars h).map (fun x => vars.set h (c.low w x))

/-- `bessel_high_filter`, grid.py:1570-1593. -/
def highFilter {F : Type} [Sub F] (c : Computations F) (vars : Vars F) (h : String) (w : Rat) : Option (Vars F) :=
  (vars h).map (fun x => vars.set h (x - c.low w x))

/-- The heights and velocities used by `eddy_identification`. -/
structure Inputs (F : Type) where
  h : F
  u : F
  v : F
deriving DecidableEq, Repr

/-- The first step of `eddy_identification`, grid.py:683 and 698: the grids are read by their names. -/
def readInputs {F : Type} (vars : Vars F) (h u v : String) : Option (Inputs F) := do
  let fu ← vars u
  let fv ← vars v
  let fh ← vars h
  some ⟨fh, fu, fv⟩

/-- Lines 175-177: velocities are computed when both names are `None`; unregular grids have no `add_uv`. -/
def velocities {F : Type} (c : Computations F) (unregular : Bool) (vars : Vars F) (h u v : String) : Option (Vars F × String × String) :=
  if u = "None" ∧ v = "None" then (if unregular then none else (addUv c vars h).map (fun x => (x, "u", "v"))) else some (vars, u, v)

/-- Lines 179-182: filters with a wavelength different of 0; unregular grids have neither `bessel_low_filter` nor
`bessel_high_filter`. -/
def filters {F : Type} [Sub F] (c : Computations F) (unregular : Bool) (vars : Vars F) (h : String) (inf sup : Rat) : Option (Vars F) := do
  let x ← if inf ≠ 0 then (if unregular then none else lowFilter c vars h inf) else some vars
  if sup ≠ 0 then (if unregular then none else highFilter c x h sup) else some x

/-- `identification`, lines 155-183. -/
def identification {F : Type} [Sub F] (c : Computations F) (unregular : Bool) (file : Vars F) (h u v : String) (inf sup : Rat) : Option (Inputs F) := do
  let x ← velocities c unregular file h u v
  let y ← filters c unregular x.1 h inf sup
  readInputs y h x.2.1 x.2.2

/-- The wavelengths of `--cut_wavelength`, lines 113-119. -/
def cutWavelengths : List Rat → Option (Rat × Rat)
  | [sup] => some (0, sup)
  | [inf, sup] => some (inf, sup)
  | _ => none

/-- `eddy_id`, lines 108-150. -/
def eddyId {F : Type} [Sub F] (c : Computations F) (unregular : Bool) (file : Vars F) (h u v : String) (cut : List Rat) (pixelLimit : List Nat) :
    Option (Inputs F) :=
  if pixelLimit.length ≠ 2 then none else (cutWavelengths cut).bind (fun w => identification c unregular file h u v w.1 w.2)

/-! ### Specification -/

/-- Fields by wavelength: a filter multiplies each wavelength by its response. -/
def multiplier (response : Rat → Rat → Rat) (u v : (Rat → Rat) → Rat → Rat) : Computations (Rat → Rat) :=
  ⟨u, v, fun w f l => response w l * f l⟩

/-- The ideal low pass: it keeps the wavelengths above the cut. -/
def ideal (w l : Rat) : Rat := if w < l then 1 else 0

/-- The wavelengths to keep: one value removes the larger ones, with two values the first one removes the smaller ones; 0 removes
nothing. -/
def Kept (cut : List Rat) (l : Rat) : Prop :=
  match cut with
  | [sup] => sup = 0 ∨ l ≤ sup
  | [inf, sup] => (inf = 0 ∨ inf < l) ∧ (sup = 0 ∨ l ≤ sup)
  | _ => False

/-! ### Property -/

theorem Vars.set_self {F : Type} (vars : Vars F) (k : String) (x : F) : vars.set k x k = some x := by simp [Vars.set]

theorem Vars.set_ne {F : Type} (vars : Vars F) {k k' : String} (h : k' ≠ k) (x : F) : vars.set k x k' = vars k' := by simp [Vars.set, h]

/-- The filters change the heights only. -/
theorem filters_spec {F : Type} [Sub F] (c : Computations F) (vars : Vars F) (h : String) (inf sup : Rat) (x : F) (hx : vars h = some x) :
    ∃ y, filters c false vars h inf sup = some y ∧ (∀ k, k ≠ h → y k = vars k) ∧
      y h = some (let x1 := if inf ≠ 0 then c.low inf x else x; if sup ≠ 0 then x1 - c.low sup x1 else x1) := by
  unfold filters lowFilter highFilter
  by_cases h1 : inf = 0 <;> by_cases h2 : sup = 0 <;> simp [h1, h2, hx, Vars.set_self]
  · intro k hk; exact Vars.set_ne _ hk _
  · intro k hk; exact Vars.set_ne _ hk _
  · intro k hk; rw [Vars.set_ne _ hk, Vars.set_ne _ hk]

/-- The velocities used, when the names are different. -/
theorem identification_spec {F : Type} [Sub F] (c : Computations F) (file : Vars F) (h u v : String) (inf sup : Rat) (x : F) (hx : file h = some x)
    (fu fv : F)
    (hv : (u = "None" ∧ v = "None" ∧ h ≠ "u" ∧ h ≠ "v" ∧ fu = c.u x ∧ fv = c.v x) ∨
      (u ≠ "None" ∧ v ≠ "None" ∧ u ≠ h ∧ v ≠ h ∧ file u = some fu ∧ file v = some fv)) :
    identification c false file h u v inf sup =
      some ⟨let x1 := if inf ≠ 0 then c.low inf x else x; if sup ≠ 0 then x1 - c.low sup x1 else x1, fu, fv⟩ := by
  rcases hv with ⟨rfl, rfl, h1, h2, rfl, rfl⟩ | ⟨h1, h2, h3, h4, e1, e2⟩
  · have hx' : ((file.set "v" (c.v x)).set "u" (c.u x)) h = some x := by
      rw [Vars.set_ne _ h1, Vars.set_ne _ h2, hx]
    obtain ⟨y, hy, hk, hyh⟩ := filters_spec c _ h inf sup x hx'
    have hu : y "u" = some (c.u x) := by rw [hk "u" h1.symm, Vars.set_self]
    have hv : y "v" = some (c.v x) := by rw [hk "v" h2.symm, Vars.set_ne _ (by decide), Vars.set_self]
    simp only [identification, velocities, addUv, hx, Option.map_some, if_true, and_self, Option.bind_eq_bind, Option.bind_some, hy,
      Bool.false_eq_true, if_false, readInputs, hu, hv, hyh]
  · obtain ⟨y, hy, hk, hyh⟩ := filters_spec c file h inf sup x hx
    have hu : y u = some fu := by rw [hk u h3, e1]
    have hv : y v = some fv := by rw [hk v h4, e2]
    simp only [identification, velocities, h1, h2, and_self, if_false, Option.bind_eq_bind, Option.bind_some, hy, readInputs, hu, hv, hyh]

/-- C171 (partial). On a regular grid, with an ideal filter, the eddies are searched in the heights whose wavelengths are those which the
option describes, with the velocities of the file, or those of the heights before the filter when both names are `None`. Other numbers
of values are refused. Missing: unregular grids, see `unregular_raises`; one name `None`, see `one_none_wrong`; heights named `u` or
`v`, see `name_wrong`. -/
theorem eddy_id_partial (cu cv : (Rat → Rat) → Rat → Rat) (file : Vars (Rat → Rat)) (h u v : String) (cut : List Rat) (pixelLimit : List Nat) :
    (∀ (x fu fv : Rat → Rat), file h = some x → pixelLimit.length = 2 → cut.length = 1 ∨ cut.length = 2 →
      (u = "None" ∧ v = "None" ∧ h ≠ "u" ∧ h ≠ "v" ∧ fu = cu x ∧ fv = cv x) ∨
        (u ≠ "None" ∧ v ≠ "None" ∧ u ≠ h ∧ v ≠ h ∧ file u = some fu ∧ file v = some fv) →
      ∃ out, eddyId (multiplier ideal cu cv) false file h u v cut pixelLimit = some out ∧ out.u = fu ∧ out.v = fv ∧
        ∀ l, (Kept cut l → out.h l = x l) ∧ (¬ Kept cut l → out.h l = 0)) ∧
    (pixelLimit.length ≠ 2 ∨ (cut.length ≠ 1 ∧ cut.length ≠ 2) → eddyId (multiplier ideal cu cv) false file h u v cut pixelLimit = none) := by
  constructor
  · intro x fu fv hx hp hc hv
    unfold eddyId
    rw [if_neg (by simpa using hp)]
    have key : ∀ inf sup l : Rat, ∀ b1 b2 : Prop, (b1 ↔ (inf = 0 ∨ inf < l)) → (b2 ↔ (sup = 0 ∨ l ≤ sup)) →
        ((b1 ∧ b2 → (let x1 := if inf ≠ 0 then (multiplier ideal cu cv).low inf x else x
          if sup ≠ 0 then x1 - (multiplier ideal cu cv).low sup x1 else x1) l = x l) ∧
        (¬ (b1 ∧ b2) → (let x1 := if inf ≠ 0 then (multiplier ideal cu cv).low inf x else x
          if sup ≠ 0 then x1 - (multiplier ideal cu cv).low sup x1 else x1) l = 0)) := by
      intro inf sup l b1 b2 e1 e2
      rw [e1, e2, ← not_lt]
      by_cases h1 : inf = 0
      · by_cases h2 : sup = 0 <;> by_cases h4 : sup < l <;> simp [h1, h2, h4, multiplier, ideal]
      · by_cases h2 : sup = 0 <;> by_cases h3 : inf < l <;> by_cases h4 : sup < l <;> simp [h1, h2, h3, h4, multiplier, ideal]
    match cut, hc with
    | [sup], _ =>
      refine ⟨_, identification_spec (multiplier ideal cu cv) file h u v 0 sup x hx fu fv hv, rfl, rfl, ?_⟩
      · intro l
        have := key 0 sup l True (Kept [sup] l) (by simp) Iff.rfl
        simpa using this
    | [inf, sup], _ =>
      refine ⟨_, identification_spec (multiplier ideal cu cv) file h u v inf sup x hx fu fv hv, rfl, rfl, ?_⟩
      · intro l
        exact key inf sup l _ _ Iff.rfl Iff.rfl
  · intro h
    unfold eddyId
    rcases h with h | ⟨h1, h2⟩
    · rw [if_pos h]
    · split
      · rfl
      · match cut, h1, h2 with
        | [], _, _ => rfl
        | [_], h1, _ => exact absurd rfl h1
        | [_, _], _, h2 => exact absurd rfl h2
        | _ :: _ :: _ :: _, _, _ => rfl

/-- A file with heights and velocities, at the wavelengths of the numbers. -/
def exFile : Vars (Rat → Rat) := fun k => if k = "adt" then some (fun l => 2 * l) else if k = "ugos" then some (fun _ => 5)
  else if k = "vgos" then some (fun _ => 7) else none

/-- A band: 300 is kept, 100 and 800 are not; velocities of the file or computed. -/
example : (eddyId (multiplier ideal (fun x l => x l / 10) (fun x l => - x l / 10)) false exFile "adt" "None" "None" [200, 700] [5, 2000]).map
      (fun o => ([100, 300, 800].map o.h, o.u 100, o.v 100)) = some ([0, 600, 0], 20, -20) ∧
    (eddyId (multiplier ideal (fun x l => x l / 10) (fun x l => - x l / 10)) false exFile "adt" "ugos" "vgos" [700] [5, 2000]).map
      (fun o => ([100, 300, 800].map o.h, o.u 100, o.v 100)) = some ([200, 600, 0], 5, 7) := by decide +kernel

/-- C171, negation. The script raises for all unregular grids, unless the filter is switched off with 0 and the velocities are given. -/
theorem unregular_raises {F : Type} [Sub F] (c : Computations F) (file : Vars F) (h u v : String) (cut : List Rat) (pixelLimit : List Nat)
    (hbad : (u = "None" ∧ v = "None") ∨ ∃ w ∈ cut, w ≠ 0) : eddyId c true file h u v cut pixelLimit = none := by
  unfold eddyId
  split
  · rfl
  · have key : ∀ inf sup : Rat, (u = "None" ∧ v = "None") ∨ inf ≠ 0 ∨ sup ≠ 0 → identification c true file h u v inf sup = none := by
      intro inf sup hb
      unfold identification velocities filters
      rcases hb with ⟨rfl, rfl⟩ | hb
      · rfl
      · by_cases hn : u = "None" ∧ v = "None"
        · simp [hn]
        · by_cases h1 : inf = 0
          · have h2 : sup ≠ 0 := by
              rcases hb with hb | hb
              · exact absurd h1 hb
              · exact hb
            simp [hn, h1, h2]
          · simp [hn, h1]
    match cut with
    | [] => rfl
    | [sup] =>
      apply key
      rcases hbad with hb | ⟨w, hw, hne⟩
      · exact Or.inl hb
      · simp only [List.mem_singleton] at hw
        subst hw
        exact Or.inr (Or.inr hne)
    | [inf, sup] =>
      apply key
      rcases hbad with hb | ⟨w, hw, hne⟩
      · exact Or.inl hb
      · simp only [List.mem_cons, List.not_mem_nil, or_false] at hw
        rcases hw with rfl | rfl
        · exact Or.inr (Or.inl hne)
        · exact Or.inr (Or.inr hne)
    | _ :: _ :: _ :: _ => rfl

/-- The default wavelength is 500: the option `--unregular` alone never works. -/
example : ∃ w ∈ ([500] : List Rat), w ≠ 0 := by decide

/-- C171, negation. With one name `None`, the other one given, nothing is deduced: the script raises since no variable has this name. -/
theorem one_none_wrong {F : Type} [Sub F] (c : Computations F) (unregular : Bool) (file : Vars F) (hfile : file "None" = none) (h u v : String)
    (hh : h ≠ "None") (cut : List Rat) (pixelLimit : List Nat) (hone : (u = "None" ∧ v ≠ "None") ∨ (u ≠ "None" ∧ v = "None")) :
    eddyId c unregular file h u v cut pixelLimit = none := by
  have key : ∀ inf sup : Rat, identification c unregular file h u v inf sup = none := by
    intro inf sup
    have hv : velocities c unregular file h u v = some (file, u, v) := by
      unfold velocities
      rw [if_neg]
      rintro ⟨e1, e2⟩
      rcases hone with ⟨_, h2⟩ | ⟨h1, _⟩
      · exact h2 e2
      · exact h1 e1
    have hf : ∀ y, filters c unregular file h inf sup = some y → y "None" = none := by
      intro y hy
      unfold filters lowFilter highFilter at hy
      cases hx : file h with
      | none =>
        cases unregular <;> by_cases h1 : inf = 0 <;> by_cases h2 : sup = 0 <;> simp [h1, h2, hx] at hy <;> (try subst hy; exact hfile)
      | some x =>
        cases unregular <;> by_cases h1 : inf = 0 <;> by_cases h2 : sup = 0 <;> simp [h1, h2, hx, Vars.set_self] at hy <;>
          (subst hy; simp [Vars.set, hh.symm, hfile])
    unfold identification
    rw [hv]
    simp only [Option.bind_eq_bind, Option.bind_some]
    cases e : filters c unregular file h inf sup with
    | none => rfl
    | some y =>
      have hn := hf y e
      rw [Option.bind_some]
      unfold readInputs
      rcases hone with ⟨rfl, _⟩ | ⟨_, rfl⟩
      · rw [hn]; rfl
      · cases hyu : y u with
        | none => rfl
        | some a => simp [hn]
  unfold eddyId
  split
  · rfl
  · cases cutWavelengths cut with
    | none => rfl
    | some w => exact key _ _

/-- C171, negation. When the heights are named `u`, the eddies are searched in the velocity, without any error. -/
theorem name_wrong : (eddyId (multiplier ideal (fun x l => x l / 10) (fun x l => - x l / 10)) false
    (fun k => if k = "u" then some (fun l => 2 * l) else none) "u" "None" "None" [0] [5, 2000]).map (fun o => [o.h 100, o.u 100, o.v 100]) =
    some [20, 20, -20] := by decide +kernel

end Verif.App
