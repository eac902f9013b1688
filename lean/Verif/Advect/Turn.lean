import Verif.Advect.Unsteady

/-!
# C201, C202: particles around the globe, steady and uniform currents
-/

namespace Verif.Advect

variable {Q W : Type} {a : Axes} {x0 xs y0 ys : Rat} {nx ny : Nat}

/-- The particle moved by `k` turns toward the east. -/
def turned (k : Int) (p : Particle) : Particle := ⟨p.pos.map (fun x : Rat × Rat => (x.1 + 360 * (k : Rat), x.2)), p.m⟩

/-- What a field must fulfil: it is the same one turn away. -/
structure Periodic (f : Field Q W) : Prop where
  cell : ∀ (x y : Rat) (k : Int), f.cell (x + 360 * k, y) = f.cell (x, y)
  vel : ∀ (x y : Rat) (k : Int) (w : W) (q : Q), f.vel (x + 360 * k, y) w q = f.vel (x, y) w q

theorem velAt_turn {f : Field Q W} (hf : Periodic f) (x y : Rat) (k : Int) (w : W) : velAt f (x + 360 * k, y) w = velAt f (x, y) w := by
  unfold velAt
  rw [hf.cell]
  exact congrArg (fun g => Option.map g _) (funext fun q => hf.vel x y k w q)

theorem eulerP_cons (f : Field Q W) (w : W) (ws : List W) (p : Rat × Rat) :
    eulerP f (w :: ws) p = (velAt f p w).bind (fun v => eulerP f ws (p.1 + v.1, p.2 + v.2)) := by
  rw [eulerP, velAt]
  cases f.lk (f.cell p) <;> rfl

theorem eulerP_turn {f : Field Q W} (hf : Periodic f) (k : Int) : ∀ (ws : List W) (x y : Rat),
    eulerP f ws (x + 360 * k, y) = (eulerP f ws (x, y)).map (fun r : Rat × Rat => (r.1 + 360 * (k : Rat), r.2))
  | [], x, y => rfl
  | w :: ws, x, y => by
    rw [eulerP_cons, eulerP_cons, velAt_turn hf]
    cases velAt f (x, y) w with
    | none => rfl
    | some v =>
      simp only [Option.bind_some]
      rw [show x + 360 * (k : Rat) + v.1 = x + v.1 + 360 * k by ring]
      exact eulerP_turn hf k ws _ _

theorem rkStepP_turn {f : Field Q W} (hf : Periodic f) (k : Int) (w1 w2 w3 w4 : W) (x y : Rat) :
    rkStepP f w1 w2 w3 w4 (x + 360 * k, y) = (rkStepP f w1 w2 w3 w4 (x, y)).map (fun r : Rat × Rat => (r.1 + 360 * (k : Rat), r.2)) := by
  have e : ∀ (d y : Rat) (w : W), velAt f (x + 360 * k + d, y) w = velAt f (x + d, y) w := by
    intro d y w
    rw [show x + 360 * (k : Rat) + d = x + d + 360 * k by ring]
    exact velAt_turn hf _ _ _ _
  unfold rkStepP
  simp only [e]
  rw [velAt_turn hf]
  cases velAt f (x, y) w1 with
  | none => rfl
  | some k1 =>
    simp only [Option.bind_some]
    cases velAt f (x + k1.1 * (1 / 2), y + k1.2 * (1 / 2)) w2 with
    | none => rfl
    | some k2 =>
      simp only [Option.bind_some]
      cases velAt f (x + k2.1 * (1 / 2), y + k2.2 * (1 / 2)) w3 with
      | none => rfl
      | some k3 =>
        simp only [Option.bind_some]
        cases velAt f (x + k3.1, y + k3.2) w4 with
        | none => rfl
        | some k4 =>
          simp only [Option.map_some, Option.some.injEq]
          refine Prod.ext ?_ rfl
          simp only
          ring

theorem rkP_turn {f : Field Q W} (hf : Periodic f) (k : Int) : ∀ (ws : List (W × W × W × W)) (x y : Rat),
    rkP f ws (x + 360 * k, y) = (rkP f ws (x, y)).map (fun r : Rat × Rat => (r.1 + 360 * (k : Rat), r.2))
  | [], x, y => rfl
  | (w1, w2, w3, w4) :: ws, x, y => by
    rw [rkP, rkP, rkStepP_turn hf]
    cases rkStepP f w1 w2 w3 w4 (x, y) with
    | none => rfl
    | some r => exact rkP_turn hf k ws r.1 r.2

theorem moveP_turn {mv : Rat × Rat → Option (Rat × Rat)} {k : Int}
    (h : ∀ x y, mv (x + 360 * k, y) = (mv (x, y)).map (fun r : Rat × Rat => (r.1 + 360 * (k : Rat), r.2))) (p : Particle) :
    moveP mv (turned k p) = turned k (moveP mv p) := by
  obtain ⟨x | x, _ | _⟩ := p <;> simp only [moveP, turned, Option.map_some, Option.map_none]
  rw [h x.1 x.2]
  cases mv (x.1, x.2) <;> simp

/-- A grid around the globe: `nx` longitudes from `x0` by steps of `xs`, which make one turn. -/
structure Around (a : Axes) (x0 xs : Rat) (nx : Nat) : Prop where
  xg : a.xg = (List.range nx).map (fun k : Nat => x0 + (k : Rat) * xs)
  two : 2 ≤ nx
  one : nx * xs = 360

theorem Around.ref (h : Around a x0 xs nx) : a.xRef = x0 ∧ a.xStep = xs := by
  have h0 : a.xRef = x0 := by
    unfold Axes.xRef
    rw [h.xg, List.getD_eq_getElem?_getD, List.getElem?_map, List.getElem?_range (by have := h.two; omega)]
    simp
  refine ⟨h0, ?_⟩
  unfold Axes.xStep
  rw [h0, h.xg, List.getD_eq_getElem?_getD, List.getElem?_map, List.getElem?_range (by have := h.two; omega)]
  simp

theorem Around.xs_ne (h : Around a x0 xs nx) : xs ≠ 0 := by
  intro e
  have := h.one
  rw [e, mul_zero] at this
  norm_num at this

theorem floor_turn (h : Around a x0 xs nx) (x : Rat) (k : Int) : (x + 360 * k - x0) / xs = (x - x0) / xs + ((nx * k : Int) : Rat) := by
  have hx := h.xs_ne
  rw [← h.one]
  push_cast
  field_simp
  ring

theorem cellOf_turn (h : Around a x0 xs nx) (x y : Rat) (k : Int) : cellOf a (x + 360 * k, y) = cellOf a (x, y) := by
  have hn := (circular_of_turn h.xg h.two h.one).2
  have h0 : nx ≠ 0 := by have := h.two; omega
  unfold cellOf
  rw [hn, if_pos h0, if_pos h0, h.ref.1, h.ref.2]
  simp only
  rw [floor_turn h, Int.floor_add_intCast, Int.add_mul_emod_self_left]

theorem weights_turn (h : Around a x0 xs nx) (x y : Rat) (k : Int) : weights a (x + 360 * k, y) = weights a (x, y) := by
  unfold weights
  rw [h.ref.1, h.ref.2]
  simp only
  rw [floor_turn h, Int.floor_add_intCast]
  refine Prod.ext ?_ rfl
  simp only
  push_cast
  ring

theorem periodic (h : Around a x0 xs nx) (g : Layer) : Periodic (field a g) :=
  ⟨cellOf_turn h, fun x y k _ q => congrArg (fun d => interp d q) (weights_turn h x y k)⟩

theorem periodic2 (h : Around a x0 xs nx) (g0 g1 : Layer) : Periodic (field2 a g0 g1) :=
  ⟨cellOf_turn h, fun x y k w q => congrArg (fun d => interp2 d w q) (weights_turn h x y k)⟩

theorem Around.clear (h : Around a x0 xs nx) {k : Int} (hk : k < 0) (p : Particle) : Clear a k p :=
  clear_circular (by rw [(circular_of_turn h.xg h.two h.one).2]; have := h.two; omega) hk p

theorem zip_turn {φ : Particle → Particle} (h : ∀ k p, φ (turned k p) = turned k (φ p)) (ks : List Int) (ps : List Particle) :
    (List.zipWith turned ks ps).map φ = List.zipWith turned ks (ps.map φ) := by
  rw [List.map_zipWith, List.zipWith_map_right]
  exact congrArg (fun f => List.zipWith f ks ps) (funext fun k => funext fun p => h k p)

/-- **C201** (Euler): on a grid around the globe, particles moved by whole turns, each one by its own number `k` of turns, go along the same paths,
moved by the same turns, and the same ones are lost. -/
theorem advect_turn (h : Around a x0 xs nx) (g : Layer) (n : Nat) (ks : List Int) (ps : List Particle) :
    advect a g n (List.zipWith turned ks ps) = List.zipWith turned ks (advect a g n ps) := by
  rw [advect_eq a g n _ (fun p _ => h.clear (by decide) p), advect_eq a g n _ (fun p _ => h.clear (by decide) p)]
  exact zip_turn (fun k p => moveP_turn (eulerP_turn (periodic h g) k _) p) ks ps

/-- **C201** (RK4). -/
theorem advectRk4_turn (h : Around a x0 xs nx) (g : Layer) (n : Nat) (ks : List Int) (ps : List Particle) :
    advectRk4 a g n (List.zipWith turned ks ps) = List.zipWith turned ks (advectRk4 a g n ps) := by
  rw [advectRk4_eq a g n _ (fun p _ => h.clear (by decide) p), advectRk4_eq a g n _ (fun p _ => h.clear (by decide) p)]
  exact zip_turn (fun k p => moveP_turn (rkP_turn (periodic h g) k _) p) ks ps

/-- **C201** (currents which change with time). -/
theorem advectT_turn (h : Around a x0 xs nx) (g0 g1 : Layer) (ws : List Rat) (ks : List Int) (ps : List Particle) :
    advectT a g0 g1 ws (List.zipWith turned ks ps) = List.zipWith turned ks (advectT a g0 g1 ws ps) := by
  rw [advectT_eq a g0 g1 ws _ (fun p _ => h.clear (by decide) p), advectT_eq a g0 g1 ws _ (fun p _ => h.clear (by decide) p)]
  exact zip_turn (fun k p => moveP_turn (eulerP_turn (periodic2 h g0 g1) k _) p) ks ps

/-- **C201** (currents which change with time, RK4). -/
theorem advectTRk4_turn (h : Around a x0 xs nx) (g0 g1 : Layer) (ws : List Rat) (half : Rat) (ks : List Int) (ps : List Particle) :
    advectTRk4 a g0 g1 ws half (List.zipWith turned ks ps) = List.zipWith turned ks (advectTRk4 a g0 g1 ws half ps) := by
  rw [advectTRk4_eq a g0 g1 ws half _ (fun p _ => h.clear (by decide) p), advectTRk4_eq a g0 g1 ws half _ (fun p _ => h.clear (by decide) p)]
  exact zip_turn (fun k p => moveP_turn (rkP_turn (periodic2 h g0 g1) k _) p) ks ps

/-! ### Steady currents -/

theorem velAt_steady (a : Axes) (g : Layer) (p : Rat × Rat) (w : Rat) : velAt (field2 a g g) p w = velAt (field a g) p () := by
  unfold velAt field2 field look2
  simp only
  cases look a g (cellOf a p) with
  | none => rfl
  | some q =>
    simp only [Option.map_some, Option.some.injEq]
    unfold interp2
    refine Prod.ext ?_ ?_ <;> simp only <;> ring

theorem eulerP_steady (a : Axes) (g : Layer) : ∀ (ws : List Rat) (p : Rat × Rat),
    eulerP (field2 a g g) ws p = eulerP (field a g) (List.replicate ws.length ()) p
  | [], _ => rfl
  | w :: ws, p => by
    rw [List.length_cons, List.replicate_succ, eulerP_cons, eulerP_cons, velAt_steady]
    exact congrArg (fun f => Option.bind _ f) (funext fun v => eulerP_steady a g ws _)

theorem rkP_steady (a : Axes) (g : Layer) (half : Rat) : ∀ (ws : List Rat) (p : Rat × Rat),
    rkP (field2 a g g) (ws.map (fun w => (w, w - half, w - half, w - half - half))) p = rkP (field a g) (List.replicate ws.length ((), (), (), ())) p
  | [], _ => rfl
  | w :: ws, p => by
    rw [List.map_cons, List.length_cons, List.replicate_succ, rkP, rkP]
    have e : rkStepP (field2 a g g) w (w - half) (w - half) (w - half - half) p = rkStepP (field a g) () () () () p := by
      unfold rkStepP
      simp only [velAt_steady]
    rw [e]
    exact congrArg (fun f => Option.bind _ f) (funext fun v => rkP_steady a g half ws v)

/-- **C202** (Euler): between two equal layers the particles move as in the current of one layer, whatever the weights of the layers. -/
theorem advect_steady (a : Axes) (g : Layer) (ws : List Rat) (ps : List Particle) (h : ∀ p ∈ ps, Clear a (-100000) p) :
    advectT a g g ws ps = advect a g ws.length ps := by
  rw [advectT_eq a g g ws ps h, advect_eq a g _ ps h]
  exact List.map_congr_left fun p _ => congrArg (moveP · p) (funext (eulerP_steady a g ws))

/-- **C202** (RK4). -/
theorem advectRk4_steady (a : Axes) (g : Layer) (ws : List Rat) (half : Rat) (ps : List Particle) (h : ∀ p ∈ ps, Clear a (-1000000) p) :
    advectTRk4 a g g ws half ps = advectRk4 a g ws.length ps := by
  rw [advectTRk4_eq a g g ws half ps h, advectRk4_eq a g _ ps h]
  exact List.map_congr_left fun p _ => congrArg (moveP · p) (funext (rkP_steady a g half ws))

/-! ### Uniform currents -/

/-- The current is `(U, V)` at all the points of the grid. -/
def Uniform (g : Layer) (nx ny : Nat) (U V : Rat) : Prop :=
  ∀ i j : Nat, i < nx → j < ny → g.u i j = U ∧ g.v i j = V ∧ g.m i j = false

/-- The latitude is between the first and the last one. -/
def Band (y0 ys : Rat) (ny : Nat) (y : Rat) : Prop := y0 ≤ y ∧ y < y0 + ((ny : Rat) - 1) * ys

theorem velAt_uniform (h : Regular a x0 xs y0 ys nx ny) (ht : nx * xs = 360) {g : Layer} {U V : Rat} (hg : Uniform g nx ny U V)
    {p : Rat × Rat} (hp : Band y0 ys ny p.2) : velAt (field a g) p () = some (U, V) := by
  obtain ⟨hc, hn⟩ := circular_of_turn h.xg h.nx_two ht
  have h0 : nx ≠ 0 := by have := h.nx_two; omega
  have hz : (nx : Int) ≠ 0 := by exact_mod_cast h0
  have hpos : (0 : Int) < nx := by have := h.nx_two; omega
  obtain ⟨i, hi⟩ := Int.eq_ofNat_of_zero_le (Int.emod_nonneg ⌊(p.1 - x0) / xs⌋ hz)
  have hil : i < nx := by have := Int.emod_lt_of_pos ⌊(p.1 - x0) / xs⌋ hpos; omega
  obtain ⟨i', hi'⟩ := Int.eq_ofNat_of_zero_le (Int.emod_nonneg ((i : Int) + 1) hz)
  have hil' : i' < nx := by have := Int.emod_lt_of_pos ((i : Int) + 1) hpos; omega
  obtain ⟨j, hj⟩ := Int.eq_ofNat_of_zero_le (Int.floor_nonneg.2 (div_nonneg (by linarith [hp.1]) h.ys_pos.le : 0 ≤ (p.2 - y0) / ys))
  have hjl : j + 1 < ny := by
    have h1 : (p.2 - y0) / ys < (((ny : Int) - 1 : Int) : Rat) := by
      rw [div_lt_iff₀ h.ys_pos]
      push_cast
      linarith [hp.2]
    have := Int.floor_lt.2 h1
    omega
  have ecell : cellOf a p = ((i : Int), (j : Int)) := by
    unfold cellOf
    rw [hn, if_pos h0, h.xRef, h.yRef, h.xStep, h.yStep, hi, hj]
  have w : ∀ (n k : Nat), wrapIdx n (k : Int) = k := fun n k => if_neg (by omega)
  obtain ⟨a1, a2, a3⟩ := hg i j hil (by omega)
  obtain ⟨b1, b2, b3⟩ := hg i (j + 1) hil hjl
  obtain ⟨c1, c2, c3⟩ := hg i' j hil' (by omega)
  obtain ⟨d1, d2, d3⟩ := hg i' (j + 1) hil' hjl
  have eq : look a g (cellOf a p) = some ⟨U, U, U, U, V, V, V, V⟩ := by
    rw [ecell]
    unfold look
    rw [if_neg (by simp [hc])]
    unfold getQuad
    simp only
    rw [hn, if_pos h0, hi', h.lenX, h.lenY, if_neg (by omega)]
    rw [show ((j : Int) + 1) = ((j + 1 : Nat) : Int) by push_cast; rfl, w, w, w, w, a1, a2, a3, b1, b2, b3, c1, c2, c3, d1, d2, d3]
    rfl
  show (look a g (cellOf a p)).map _ = _
  rw [eq]
  show some (interp _ _) = _
  unfold interp
  simp only [Option.some.injEq]
  refine Prod.ext ?_ ?_ <;> simp only <;> ring

theorem band_between {y0 ys y V t : Rat} {ny n : Nat} (h0 : Band y0 ys ny y) (h1 : Band y0 ys ny (y + n * V)) (t0 : 0 ≤ t) (t1 : t ≤ n) :
    Band y0 ys ny (y + t * V) := by
  obtain ⟨a1, a2⟩ := h0
  obtain ⟨b1, b2⟩ := h1
  rcases le_or_gt 0 V with hv | hv
  · have e1 : 0 ≤ t * V := mul_nonneg t0 hv
    have e2 : t * V ≤ n * V := mul_le_mul_of_nonneg_right t1 hv
    exact ⟨by linarith, by linarith⟩
  · have e1 : t * V ≤ 0 := mul_nonpos_of_nonneg_of_nonpos t0 hv.le
    have e2 : n * V ≤ t * V := mul_le_mul_of_nonpos_right t1 hv.le
    exact ⟨by linarith, by linarith⟩

theorem eulerP_uniform (h : Regular a x0 xs y0 ys nx ny) (ht : nx * xs = 360) {g : Layer} {U V : Rat} (hg : Uniform g nx ny U V) :
    ∀ (n : Nat) (p : Rat × Rat), Band y0 ys ny p.2 → Band y0 ys ny (p.2 + n * V) →
      eulerP (field a g) (List.replicate n ()) p = some (p.1 + n * U, p.2 + n * V)
  | 0, p, _, _ => by
    rw [List.replicate_zero, eulerP]
    simp
  | n + 1, p, h0, h1 => by
    have hs := band_between (t := 1) h0 h1 (by norm_num) (by push_cast; linarith [Nat.cast_nonneg (α := Rat) n])
    rw [one_mul] at hs
    rw [List.replicate_succ, eulerP_cons, velAt_uniform h ht hg h0, Option.bind_some]
    rw [eulerP_uniform h ht hg n _ hs (by simp only; rw [show p.2 + V + (n : Rat) * V = p.2 + ((n + 1 : Nat) : Rat) * V by push_cast; ring]; exact h1)]
    simp only [Option.some.injEq]
    refine Prod.ext ?_ ?_ <;> simp only <;> push_cast <;> ring

theorem rkP_uniform (h : Regular a x0 xs y0 ys nx ny) (ht : nx * xs = 360) {g : Layer} {U V : Rat} (hg : Uniform g nx ny U V) :
    ∀ (n : Nat) (p : Rat × Rat), Band y0 ys ny p.2 → Band y0 ys ny (p.2 + n * V) →
      rkP (field a g) (List.replicate n ((), (), (), ())) p = some (p.1 + n * U, p.2 + n * V)
  | 0, p, _, _ => by
    rw [List.replicate_zero, rkP]
    simp
  | n + 1, p, h0, h1 => by
    have hc : (1 : Rat) ≤ ((n + 1 : Nat) : Rat) := by push_cast; linarith [Nat.cast_nonneg (α := Rat) n]
    have hs := band_between (t := 1) h0 h1 (by norm_num) hc
    have hh := band_between (t := 1 / 2) h0 h1 (by norm_num) (by linarith)
    rw [one_mul] at hs
    have e : rkStepP (field a g) () () () () p = some (p.1 + U, p.2 + V) := by
      unfold rkStepP
      rw [velAt_uniform h ht hg h0, Option.bind_some]
      rw [velAt_uniform h ht hg (p := (p.1 + U * (1 / 2), p.2 + V * (1 / 2))) (by simp only; rw [mul_comm V]; exact hh), Option.bind_some]
      rw [velAt_uniform h ht hg (p := (p.1 + U * (1 / 2), p.2 + V * (1 / 2))) (by simp only; rw [mul_comm V]; exact hh), Option.bind_some]
      rw [velAt_uniform h ht hg (p := (p.1 + U, p.2 + V)) hs, Option.map_some]
      simp only [Option.some.injEq]
      refine Prod.ext ?_ ?_ <;> simp only <;> ring
    rw [List.replicate_succ, rkP, e, Option.bind_some]
    rw [rkP_uniform h ht hg n _ hs (by simp only; rw [show p.2 + V + (n : Rat) * V = p.2 + ((n + 1 : Nat) : Rat) * V by push_cast; ring]; exact h1)]
    simp only [Option.some.injEq]
    refine Prod.ext ?_ ?_ <;> simp only <;> push_cast <;> ring

/-- **C202** (uniform current around the globe): `n` steps move a particle by `n` times the current, whatever its longitude and the number of
times it passes the border of the grid, if its latitudes at the start and at the end are in the grid. The same with both methods. -/
theorem advect_uniform (h : Regular a x0 xs y0 ys nx ny) (ht : nx * xs = 360) {g : Layer} {U V : Rat} (hg : Uniform g nx ny U V) {n : Nat} {x y : Rat}
    (h0 : Band y0 ys ny y) (h1 : Band y0 ys ny (y + n * V)) :
    advect a g n [⟨some (x, y), false⟩] = [⟨some (x + n * U, y + n * V), false⟩] ∧
      advectRk4 a g n [⟨some (x, y), false⟩] = [⟨some (x + n * U, y + n * V), false⟩] := by
  have ha : Around a x0 xs nx := ⟨h.xg, h.nx_two, ht⟩
  rw [advect_eq a g n _ (fun p _ => ha.clear (by decide) p), advectRk4_eq a g n _ (fun p _ => ha.clear (by decide) p)]
  simp only [List.map_cons, List.map_nil, moveP]
  rw [eulerP_uniform h ht hg n (x, y) h0 h1, rkP_uniform h ht hg n (x, y) h0 h1]
  exact ⟨rfl, rfl⟩

/-- **C202** (there and back): the opposite current brings the particle back to its start. -/
theorem there_and_back (h : Regular a x0 xs y0 ys nx ny) (ht : nx * xs = 360) {g g' : Layer} {U V : Rat} (hg : Uniform g nx ny U V)
    (hg' : Uniform g' nx ny (-U) (-V)) {n : Nat} {x y : Rat} (h0 : Band y0 ys ny y) (h1 : Band y0 ys ny (y + n * V)) :
    advect a g' n (advect a g n [⟨some (x, y), false⟩]) = [⟨some (x, y), false⟩] ∧
      advectRk4 a g' n (advectRk4 a g n [⟨some (x, y), false⟩]) = [⟨some (x, y), false⟩] := by
  have e : ∀ z W : Rat, z + n * W + n * -W = z := fun z W => by ring
  have h2 := advect_uniform h ht hg' (n := n) (x := x + n * U) (y := y + n * V) h1 (by rw [e]; exact h0)
  rw [e, e] at h2
  rw [(advect_uniform h ht hg h0 h1).1, (advect_uniform h ht hg h0 h1).2]
  exact h2

/-! Four longitudes around the globe and three latitudes; a current of 100 degrees by step toward the east, which a particle follows more than two
times around the globe. -/

def globe : Axes := ⟨[0, 90, 180, 270], [0, 1, 2]⟩

theorem globe_around : Around globe 0 90 4 := ⟨by decide +kernel, by decide, by norm_num⟩

theorem globe_regular : Regular globe 0 90 0 1 4 3 where
  xs_pos := by norm_num
  ys_pos := by norm_num
  nx_two := by decide
  ny_two := by decide
  xg := by decide +kernel
  yg := by decide +kernel
  turn := fun _ => by norm_num

def eastward : Layer := ⟨fun _ _ => 100, fun _ _ => 1 / 10, fun _ _ => false⟩

example : advect globe eastward 8 [⟨some (-30, 1 / 2), false⟩] = [⟨some (770, 13 / 10), false⟩] := by
  have := (advect_uniform globe_regular (by norm_num) (g := eastward) (U := 100) (V := 1 / 10) (fun _ _ _ _ => ⟨rfl, rfl, rfl⟩) (n := 8) (x := -30)
    (y := 1 / 2) (by constructor <;> norm_num) (by constructor <;> norm_num)).1
  norm_num at this
  exact this

/-- A current from the south to the north at the east of 180 only, and a mask at 270: the particle at 100 + 720 is moved, the one at 200 is lost. -/
def half : Layer := ⟨fun _ _ => 10, fun i _ => if i = 2 then 1 / 10 else 0, fun i _ => decide (i = 3)⟩

example : advect globe half 1 (List.zipWith turned [2, -1] [⟨some (108, 1 / 2), false⟩, ⟨some (200, 1 / 2), false⟩]) =
    [⟨some (838, 26 / 50), false⟩, ⟨none, true⟩] := by decide +kernel

example : List.zipWith turned [2, -1] (advect globe half 1 [⟨some (108, 1 / 2), false⟩, ⟨some (200, 1 / 2), false⟩]) =
    [⟨some (838, 26 / 50), false⟩, ⟨none, true⟩] := by decide +kernel

example : advectT globe half half [1, 1 / 2] [⟨some (108, 1 / 2), false⟩] = advect globe half 2 [⟨some (108, 1 / 2), false⟩] :=
  advect_steady globe half _ _ (fun p _ => globe_around.clear (by decide) p)

end Verif.Advect
