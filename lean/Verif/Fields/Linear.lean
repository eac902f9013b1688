import Verif.Collect.Props
import Verif.Geos.Props

/-!
# Superposition of fields

The interpolation of a grid (`interp2d_geo`, generic.py:184-300, and `GridCollection.interp`, grid.py:2393-2415), the derivatives
(`compute_stencil`, grid.py:2902-3013, and `compute_finite_difference`, grid.py:1673-1703) and the velocities of heights (`add_uv`,
grid.py:1844-1906) are linear in the field: what they give for a combination of two fields on the same valid pixels is the combination of
what they give for each of them, and is defined in the same places.
-/

namespace Verif.Fields

open Verif.Poly (Pt)
open Verif.Interp (Corners)
open Verif.Stencil (Line Buffer)
open Verif.Geos (Val Geometry)

/-- A combination of two values which may be missing: missing as soon as one of them is. -/
def plus (c c' : Rat) (a b : Option Rat) : Option Rat := a.bind (fun u => b.map (fun v => c * u + c' * v))

/-- The same axes and the same mask, another field. -/
def withZ (g : Interp.Grid) (f : Int → Int → Rat) : Interp.Grid := { g with z := f }

/-- The combination of two fields. -/
def comb (c c' : Rat) (f f' : Int → Int → Rat) : Int → Int → Rat := fun i j => c * f i j + c' * f' i j

theorem nearest_withZ (g : Interp.Grid) (p : Pt) : ∃ (o : Bool) (i j : Int), ∀ f : Int → Int → Rat,
    Interp.nearestOne (withZ g f) p = if o then none else some (f i j) := by
  refine ⟨decide (Interp.wrap g (Amplitude.rint ((p.1 - Interp.ref g.xs) / Interp.step g.xs)) ≥ g.xs.length ∨
    Interp.wrap g (Amplitude.rint ((p.1 - Interp.ref g.xs) / Interp.step g.xs)) < 0 ∨
    Amplitude.rint ((p.2 - Interp.ref g.ys) / Interp.step g.ys) < 0 ∨ Amplitude.rint ((p.2 - Interp.ref g.ys) / Interp.step g.ys) ≥ g.ys.length),
    Interp.wrap g (Amplitude.rint ((p.1 - Interp.ref g.xs) / Interp.step g.xs)), Amplitude.rint ((p.2 - Interp.ref g.ys) / Interp.step g.ys), fun f => ?_⟩
  simp only [decide_eq_true_eq]
  rfl

theorem nearest_linear (g : Interp.Grid) (f f' : Int → Int → Rat) (c c' : Rat) (p : Pt) :
    Interp.nearestOne (withZ g (comb c c' f f')) p = plus c c' (Interp.nearestOne (withZ g f) p) (Interp.nearestOne (withZ g f') p) := by
  obtain ⟨o, i, j, h⟩ := nearest_withZ g p
  rw [h, h, h]
  cases o <;> rfl

theorem corners_withZ (g : Interp.Grid) (f : Int → Int → Rat) (i0 i1 j0 j1 : Int) :
    Interp.corners (withZ g f) i0 i1 j0 j1 =
      (Interp.corners g i0 i1 j0 j1).map (fun _ => (⟨f i0 j0, f i0 j1, f i1 j0, f i1 j1⟩ : Corners)) := by
  unfold Interp.corners
  by_cases h : i1 ≥ g.xs.length ∨ i0 < 0 ∨ j0 < 0 ∨ j1 ≥ g.ys.length
  · rw [if_pos h, if_pos (show i1 ≥ (withZ g f).xs.length ∨ i0 < 0 ∨ j0 < 0 ∨ j1 ≥ (withZ g f).ys.length from h)]
    rfl
  · rw [if_neg h, if_neg (show ¬ (i1 ≥ (withZ g f).xs.length ∨ i0 < 0 ∨ j0 < 0 ∨ j1 ≥ (withZ g f).ys.length) from h)]
    show (if (g.m i0 j0 || g.m i0 j1 || g.m i1 j0 || g.m i1 j1) then _ else _) = _
    split <;> rfl

theorem value_withZ (g : Interp.Grid) (p : Pt) : ∃ (o : Bool) (i0 i1 j0 j1 : Int) (x y : Rat), ∀ f : Int → Int → Rat,
    Interp.value (withZ g f) p = if o then some (Interp.blend ⟨f i0 j0, f i0 j1, f i1 j0, f i1 j1⟩ x y) else none := by
  obtain ⟨x, hx⟩ : ∃ x : Rat, x = (p.1 - Interp.ref g.xs) / Interp.step g.xs := ⟨_, rfl⟩
  obtain ⟨y, hy⟩ : ∃ y : Rat, y = (p.2 - Interp.ref g.ys) / Interp.step g.ys := ⟨_, rfl⟩
  refine ⟨(Interp.corners g (Interp.wrap g ⌊x⌋) (Interp.wrap g (⌊x⌋ + 1)) ⌊y⌋ (⌊y⌋ + 1)).isSome, Interp.wrap g ⌊x⌋, Interp.wrap g (⌊x⌋ + 1), ⌊y⌋, ⌊y⌋ + 1,
    x - ⌊x⌋, y - ⌊y⌋, fun f => ?_⟩
  have e : Interp.value (withZ g f) p = (Interp.corners (withZ g f) (Interp.wrap g ⌊x⌋) (Interp.wrap g (⌊x⌋ + 1)) ⌊y⌋ (⌊y⌋ + 1)).map
      (fun c => Interp.blend c (x - ⌊x⌋) (y - ⌊y⌋)) := by
    rw [hx, hy]
    rfl
  rw [e, corners_withZ]
  cases Interp.corners g (Interp.wrap g ⌊x⌋) (Interp.wrap g (⌊x⌋ + 1)) ⌊y⌋ (⌊y⌋ + 1) <;> rfl

theorem value_linear (g : Interp.Grid) (f f' : Int → Int → Rat) (c c' : Rat) (p : Pt) :
    Interp.value (withZ g (comb c c' f f')) p = plus c c' (Interp.value (withZ g f) p) (Interp.value (withZ g f') p) := by
  obtain ⟨o, i0, i1, j0, j1, x, y, h⟩ := value_withZ g p
  rw [h, h, h]
  cases o
  · rfl
  · simp only [plus, comb, Interp.blend, if_true, Option.bind_some, Option.map_some]
    congr 1
    ring

theorem at_linear (near : Bool) (g : Interp.Grid) (f f' : Int → Int → Rat) (c c' : Rat) (p : Pt) :
    Collect.at_ near (withZ g (comb c c' f f')) p = plus c c' (Collect.at_ near (withZ g f) p) (Collect.at_ near (withZ g f') p) := by
  cases near
  · exact value_linear g f f' c c' p
  · exact nearest_linear g f f' c c' p

theorem zipWith_maps {β γ δ : Type} (u : β → γ → δ) (a : Pt → β) (b : Pt → γ) (l : List Pt) :
    List.zipWith u (l.map a) (l.map b) = l.map (fun p => u (a p) (b p)) := by
  induction l with
  | nil => rfl
  | cons x l ih => rw [List.map_cons, List.map_cons, List.map_cons, List.zipWith_cons_cons, ih]

/-- **C212** (one grid): the interpolation of a combination of two fields is the combination of the interpolations. -/
theorem interp_linear (g : Interp.Grid) (f f' : Int → Int → Rat) (c c' : Rat) (junk junk' junk'' : Corners) (near : Bool) {pts : List Pt}
    (h : Collect.Free g pts) :
    Interp.geo (withZ g (comb c c' f f')) junk near pts =
      List.zipWith (plus c c') (Interp.geo (withZ g f) junk' near pts) (Interp.geo (withZ g f') junk'' near pts) := by
  rw [Collect.geo_at (g := withZ g (comb c c' f f')) h, Collect.geo_at (g := withZ g f) h, Collect.geo_at (g := withZ g f') h, zipWith_maps]
  exact List.map_congr_left (fun p _ => at_linear near g f f' c c' p)

/-- A constant added to the field is added to every value which is defined, and no other value becomes defined. -/
theorem interp_offset (g : Interp.Grid) (f : Int → Int → Rat) (c : Rat) (junk junk' : Corners) (near : Bool) {pts : List Pt}
    (h : Collect.Free g pts) :
    Interp.geo (withZ g (fun i j => f i j + c)) junk near pts = (Interp.geo (withZ g f) junk' near pts).map (Option.map (· + c)) := by
  rw [Collect.geo_at (g := withZ g (fun i j => f i j + c)) h, Collect.geo_at (g := withZ g f) h, List.map_map]
  refine List.map_congr_left (fun p _ => ?_)
  cases near
  · show Interp.value _ p = (Interp.value _ p).map _
    obtain ⟨o, i0, i1, j0, j1, x, y, h⟩ := value_withZ g p
    rw [h, h]
    cases o
    · rfl
    · simp only [Interp.blend, if_true, Option.map_some]
      congr 1
      ring
  · show Interp.nearestOne _ p = (Interp.nearestOne _ p).map _
    obtain ⟨o, i, j, h⟩ := nearest_withZ g p
    rw [h, h]
    cases o <;> rfl

/-! ## Between two dates -/

/-- A date of a collection with two fields on the same pixels. -/
structure Dated where
  date : Rat
  grid : Interp.Grid
  f : Int → Int → Rat
  f' : Int → Int → Rat

/-- The collection of the fields chosen by `u`. -/
def collection (u : Dated → Int → Int → Rat) (ds : List Dated) : List (Rat × Interp.Grid) := ds.map (fun d => (d.date, withZ d.grid (u d)))

theorem getItem_collection (u : Dated → Int → Int → Rat) (ds : List Dated) (t : Rat) :
    Collect.getItem (collection u ds) t = (ds.find? (fun d => decide (d.date = t))).map (fun d => withZ d.grid (u d)) := by
  unfold Collect.getItem collection
  induction ds with
  | nil => rfl
  | cons d l ih =>
    rw [List.map_cons, List.find?_cons, List.find?_cons]
    cases decide (d.date = t) with
    | true => rfl
    | false => exact ih

theorem mix_plus (w c c' : Rat) (a b a' b' : Option Rat) :
    Collect.mix w (plus c c' a b) (plus c c' a' b') = plus c c' (Collect.mix w a a') (Collect.mix w b b') := by
  cases a <;> cases b <;> cases a' <;> cases b' <;> simp [Collect.mix, plus]
  ring

/-- **C212** (a collection): so is the interpolation between two dates, for all the points and all the times; the same times are refused. -/
theorem collection_linear (ds : List Dated) (c c' : Rat) (junk junk' junk'' : Corners) (near : Bool) (t : Rat) {pts : List Pt}
    (h : ∀ d ∈ ds, Collect.Free d.grid pts) :
    Collect.interp (collection (fun d => comb c c' d.f d.f') ds) junk near t pts =
      (Collect.interp (collection Dated.f ds) junk' near t pts).bind (fun a =>
        (Collect.interp (collection Dated.f' ds) junk'' near t pts).map (fun b => List.zipWith (plus c c') a b)) := by
  unfold Collect.interp
  simp only [getItem_collection]
  cases e0 : ds.find? (fun d => decide (d.date = ((Collect.pyInt t : Int) : Rat))) with
  | none => simp
  | some d0 =>
    cases e1 : ds.find? (fun d => decide (d.date = ((Collect.pyInt t + 1 : Int) : Rat))) with
    | none => simp
    | some d1 =>
      have f0 := h d0 (List.mem_of_find?_eq_some e0)
      have f1 := h d1 (List.mem_of_find?_eq_some e1)
      simp only [Option.map_some, Option.bind_some, Option.some.injEq]
      have k : ∀ (d : Dated) (u : Int → Int → Rat) (j : Corners), Collect.Free d.grid pts →
          Interp.geo (withZ d.grid u) j near pts = pts.map (Collect.at_ near (withZ d.grid u)) :=
        fun d u j hf => Collect.geo_at (g := withZ d.grid u) hf
      rw [k d0 _ _ f0, k d1 _ _ f1, k d0 _ _ f0, k d1 _ _ f1, k d0 _ _ f0, k d1 _ _ f1, zipWith_maps, zipWith_maps, zipWith_maps, zipWith_maps]
      refine List.map_congr_left (fun p _ => ?_)
      rw [at_linear, at_linear, mix_plus]

/-! ## Derivatives and velocities -/

/-- The combination of two lines with the mask of the first one. -/
def combLine (c c' : Rat) (a a' : Nat → Rat × Bool) : Nat → Rat × Bool := fun k => (c * (a k).1 + c' * (a' k).1, (a k).2)

theorem buffer_linear (nb : Nat) (circular : Bool) {a a' : Line} (hm : ∀ k, (a k).2 = (a' k).2) (junk junk' : Int → Rat) (c c' : Rat) (i : Nat)
    (k : Int) :
    Stencil.bufAt nb circular (combLine c c' a a') (fun k => c * junk k + c' * junk' k) i k =
      (c * (Stencil.bufAt nb circular a junk i k).1 + c' * (Stencil.bufAt nb circular a' junk' i k).1, (Stencil.bufAt nb circular a junk i k).2) ∧
    (Stencil.bufAt nb circular a junk i k).2 = (Stencil.bufAt nb circular a' junk' i k).2 := by
  have roll_ok : ∀ (b b1 b2 : Buffer) (i : Nat), (∀ k, b k = (c * (b1 k).1 + c' * (b2 k).1, (b1 k).2) ∧ (b1 k).2 = (b2 k).2) → ∀ k,
      Stencil.roll nb circular (combLine c c' a a') i b k =
        (c * (Stencil.roll nb circular a i b1 k).1 + c' * (Stencil.roll nb circular a' i b2 k).1, (Stencil.roll nb circular a i b1 k).2) ∧
      (Stencil.roll nb circular a i b1 k).2 = (Stencil.roll nb circular a' i b2 k).2 := by
    intro b b1 b2 i h k
    unfold Stencil.roll
    split_ifs
    · exact ⟨rfl, hm _⟩
    · exact ⟨by rw [(h 4).1], rfl⟩
    · exact ⟨rfl, hm _⟩
    · exact h (k + 1)
  induction i generalizing k with
  | zero =>
    refine roll_ok _ _ _ 0 (fun k => ?_) k
    unfold Stencil.init
    split_ifs
    · exact ⟨rfl, hm _⟩
    · exact ⟨rfl, rfl⟩
    · exact ⟨rfl, hm _⟩
  | succ i ih => exact roll_ok _ _ _ (i + 1) ih k

theorem cell_linear {b b1 b2 : Buffer} {c c' : Rat} (h : ∀ k, b k = (c * (b1 k).1 + c' * (b2 k).1, (b1 k).2) ∧ (b1 k).2 = (b2 k).2)
    (halfwidth : Int) (d : Rat) : Stencil.cell b halfwidth d = plus c c' (Stencil.cell b1 halfwidth d) (Stencil.cell b2 halfwidth d) := by
  have h1 : ∀ k, b k = (c * (b1 k).1 + c' * (b2 k).1, (b1 k).2) := fun k => (h k).1
  have h2 : ∀ k, (b2 k).2 = (b1 k).2 := fun k => (h k).2.symm
  unfold Stencil.cell
  simp only [h1, h2]
  split_ifs <;> simp only [plus, Option.bind_some, Option.map_some, Option.bind_none] <;> first | rfl | (congr 1; ring)

theorem line_linear (nb : Nat) (circular : Bool) {a a' : Line} (hm : ∀ k, (a k).2 = (a' k).2) (junk junk' : Int → Rat) (c c' : Rat)
    (halfwidth : Int) (d : Rat) (i : Nat) :
    Stencil.line nb circular (combLine c c' a a') (fun k => c * junk k + c' * junk' k) halfwidth d i =
      plus c c' (Stencil.line nb circular a junk halfwidth d i) (Stencil.line nb circular a' junk' halfwidth d i) :=
  cell_linear (buffer_linear nb circular hm junk junk' c c' i) halfwidth d

/-- The combination of two grids with the mask of the first one. -/
def combGrid (c c' : Rat) (a a' : Nat → Nat → Rat × Bool) : Nat → Nat → Rat × Bool := fun i j => (c * (a i j).1 + c' * (a' i j).1, (a i j).2)

/-- **C212** (derivatives): the gradient of a combination of two fields with the same mask is the combination of the gradients, near a mask
and at the borders as elsewhere, for every width. -/
theorem stencil_linear (nx ny : Nat) (circular : Bool) {a a' : Nat → Nat → Rat × Bool} (hm : ∀ i j, (a i j).2 = (a' i j).2)
    (junk junk' : Nat → Int → Rat) (c c' : Rat) (vertical : Bool) (halfwidth : Int) (d : Nat → Rat) (i j : Nat) :
    Stencil.stencil nx ny circular (combGrid c c' a a') (fun n k => c * junk n k + c' * junk' n k) vertical halfwidth d i j =
      plus c c' (Stencil.stencil nx ny circular a junk vertical halfwidth d i j) (Stencil.stencil nx ny circular a' junk' vertical halfwidth d i j) := by
  unfold Stencil.stencil
  cases vertical
  · exact line_linear nx circular (fun k => hm k j) (junk j) (junk' j) c c' halfwidth (d j) i
  · exact line_linear ny false (fun k => hm i k) (junk i) (junk' i) c c' halfwidth (d i) j

/-- The finite difference with a step too. -/
theorem finite_linear (n : Nat) (wrap : Bool) (s : Nat) (h h' : Nat → Option Rat) (c c' d : Rat) (i : Nat) :
    Stencil.finite n wrap s (fun k => plus c c' (h k) (h' k)) d i = plus c c' (Stencil.finite n wrap s h d i) (Stencil.finite n wrap s h' d i) := by
  have k : ∀ u u' v v' : Option Rat,
      (match plus c c' u u', plus c c' v v' with | some x, some y => some ((x - y) / d) | _, _ => none) =
        plus c c' (match u, v with | some x, some y => some ((x - y) / d) | _, _ => none)
          (match u', v' with | some x, some y => some ((x - y) / d) | _, _ => none) := by
    intro u u' v v'
    cases u <;> cases u' <;> cases v <;> cases v' <;> simp [plus]
    ring
  unfold Stencil.finite
  simp only
  have e1 : (if i + s < n then plus c c' (h (i + s)) (h' (i + s)) else if wrap = true then plus c c' (h (i + s - n)) (h' (i + s - n)) else none) =
      plus c c' (if i + s < n then h (i + s) else if wrap = true then h (i + s - n) else none)
        (if i + s < n then h' (i + s) else if wrap = true then h' (i + s - n) else none) := by
    split_ifs <;> rfl
  have e2 : (if s ≤ i then plus c c' (h (i - s)) (h' (i - s)) else if wrap = true then plus c c' (h (i + n - s)) (h' (i + n - s)) else none) =
      plus c c' (if s ≤ i then h (i - s) else if wrap = true then h (i + n - s) else none)
        (if s ≤ i then h' (i - s) else if wrap = true then h' (i + n - s) else none) := by
    split_ifs <;> rfl
  rw [e1, e2]
  exact k _ _ _ _

/-- A velocity is the combination of two others: masked together, infinite together (on the equator), else the combination of the numbers. -/
def Combined (c c' : Rat) : Val → Val → Val → Prop
  | .masked, .masked, .masked => True
  | .infinite, .infinite, .infinite => True
  | .val q, .val q1, .val q2 => q = c * q1 + c' * q2
  | _, _, _ => False

theorem stencil_mask (nx ny : Nat) (circular : Bool) {a a' : Nat → Nat → Rat × Bool} (hm : ∀ i j, (a i j).2 = (a' i j).2)
    (junk junk' : Nat → Int → Rat) (vertical : Bool) (halfwidth : Int) (d : Nat → Rat) (i j : Nat) :
    (Stencil.stencil nx ny circular a junk vertical halfwidth d i j).isSome =
      (Stencil.stencil nx ny circular a' junk' vertical halfwidth d i j).isSome := by
  have hc : ∀ (b1 b2 : Buffer) (d : Rat), (b1 0).2 = (b2 0).2 → (Stencil.cell b1 halfwidth d).isSome = (Stencil.cell b2 halfwidth d).isSome := by
    have one : ∀ (b : Buffer) (d : Rat), (Stencil.cell b halfwidth d).isSome = !(b 0).2 := by
      intro b d
      unfold Stencil.cell
      simp only
      split_ifs <;> simp_all
    intro b1 b2 d h
    rw [one, one, h]
  unfold Stencil.stencil Stencil.line
  cases vertical
  · exact hc _ _ _ (buffer_linear nx circular (fun k => hm k j) (junk j) (junk' j) 0 0 i 0).2
  · exact hc _ _ _ (buffer_linear ny false (fun k => hm i k) (junk i) (junk' i) 0 0 j 0).2

/-- **C212** (velocities): the velocities of a combination of two heights are the combination of the velocities. -/
theorem velocities_linear (nx ny : Nat) (circular : Bool) {a a' : Nat → Nat → Rat × Bool} (hm : ∀ i j, (a i j).2 = (a' i j).2)
    (jv jv' ju ju' : Nat → Int → Rat) (c c' : Rat) (halfwidth : Int) (g : Geometry) (i j : Nat) :
    let w := Geos.addUV nx ny circular (combGrid c c' a a') (fun n k => c * jv n k + c' * jv' n k) (fun n k => c * ju n k + c' * ju' n k)
      halfwidth g i j
    let w1 := Geos.addUV nx ny circular a jv ju halfwidth g i j
    let w2 := Geos.addUV nx ny circular a' jv' ju' halfwidth g i j
    Combined c c' w.1 w1.1 w2.1 ∧ Combined c c' w.2 w1.2 w2.2 := by
  have key : ∀ (s : Rat) (x y : Option Rat), x.isSome = y.isSome →
      Combined c c' (Geos.scaled g j s (plus c c' x y)) (Geos.scaled g j s x) (Geos.scaled g j s y) := by
    intro s x y h
    cases x <;> cases y <;> simp at h
    · exact trivial
    · simp only [plus, Option.bind_some, Option.map_some, Geos.scaled]
      split_ifs
      · exact trivial
      · show _ = _
        ring
  refine ⟨?_, ?_⟩
  · unfold Geos.addUV
    simp only
    rw [stencil_linear nx ny circular hm]
    exact key _ _ _ (stencil_mask nx ny circular hm ju ju' true _ _ i j)
  · unfold Geos.addUV
    simp only
    rw [stencil_linear nx ny circular hm]
    exact key _ _ _ (stencil_mask nx ny circular hm jv jv' false _ _ i j)

/-- Two fields on a grid of four pixels. -/
example : Collect.Free (Interp.small fun _ _ => false) [(1 / 2, 1 / 2)] ∧
    Interp.geo (withZ (Interp.small fun _ _ => false) (comb 2 3 (fun i _ => i) (fun _ j => j))) ⟨0, 0, 0, 0⟩ false [(1 / 2, 1 / 2)] = [some (5 / 2)] ∧
    Interp.geo (withZ (Interp.small fun _ _ => false) (fun i _ => i)) ⟨0, 0, 0, 0⟩ false [(1 / 2, 1 / 2)] = [some (1 / 2)] := by
  refine ⟨?_, by decide +kernel, by decide +kernel⟩
  intro p hp
  cases hp
  decide +kernel

/-- Two slopes. -/
example : Stencil.stencil 9 9 false (combGrid 2 3 (fun i _ => ((i : Rat), false)) (fun i j => ((i * j : Nat), false))) (fun _ _ => 0) false 1 (fun _ => 1) 4 5 = some 17 := by
  decide +kernel

end Verif.Fields
