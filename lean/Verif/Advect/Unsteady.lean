import Verif.Advect.Cell

/-!
# C45, C65: circular grids, and currents which change with time
-/

namespace Verif.Advect

variable {a : Axes} {x0 xs y0 ys : Rat} {nx ny : Nat}

/-! ### Circular grids -/

theorem last_eq (hx : a.xg = (List.range nx).map (fun k : Nat => x0 + (k : Rat) * xs)) (hn : 2 ≤ nx) :
    a.xg.getLastD 0 = a.xRef - a.xStep + nx * xs := by
  obtain ⟨n, rfl⟩ : ∃ n, nx = n + 2 := ⟨nx - 2, by omega⟩
  unfold Axes.xStep Axes.xRef
  rw [hx, List.range_succ, List.map_append, List.map_cons, List.map_nil, List.getLastD_concat]
  have h0 : (List.map (fun k : Nat => x0 + (k : Rat) * xs) (List.range (n + 1)) ++ [x0 + ((n + 1 : Nat) : Rat) * xs]).getD 0 0 = x0 := by
    simp [List.range_succ_eq_map]
  have h1 : (List.map (fun k : Nat => x0 + (k : Rat) * xs) (List.range (n + 1)) ++ [x0 + ((n + 1 : Nat) : Rat) * xs]).getD 1 0 = x0 + xs := by
    cases n with
    | zero => simp
    | succ n => simp [List.range_succ_eq_map]
  rw [h0, h1]
  push_cast
  ring

/-- **C45**: a grid which covers exactly one turn is circular. -/
theorem circular_of_turn (hx : a.xg = (List.range nx).map (fun k : Nat => x0 + (k : Rat) * xs)) (hn : 2 ≤ nx) (h : nx * xs = 360) :
    a.circular = true ∧ a.nbX = nx := by
  have hc : a.circular = true := by
    unfold Axes.circular
    rw [last_eq hx hn, h, decide_eq_true_eq]
    have e : Py.fmod (a.xRef - a.xStep + 360) 360 = Py.fmod (a.xRef - a.xStep) 360 := by
      unfold Py.fmod
      rw [add_div, div_self (by norm_num), Int.floor_add_one]
      push_cast
      ring
    rw [e, sub_self, abs_zero]
    norm_num
  refine ⟨hc, ?_⟩
  unfold Axes.nbX
  rw [if_pos hc, hx]
  simp

/-- **C45**: a grid which covers less than one turn is not circular (by one hundred thousandth of a degree). -/
theorem not_circular (hx : a.xg = (List.range nx).map (fun k : Nat => x0 + (k : Rat) * xs)) (hn : 2 ≤ nx) (h1 : 1 / 100000 ≤ nx * xs)
    (h2 : nx * xs ≤ 360 - 1 / 100000) : a.circular = false ∧ a.nbX = 0 := by
  have hc : a.circular = false := by
    unfold Axes.circular
    rw [last_eq hx hn, decide_eq_false_iff_not, not_lt]
    obtain ⟨_, _, k, hk⟩ := Py.fmod_spec (a.xRef - a.xStep) (show (0 : Rat) < 360 by norm_num)
    obtain ⟨_, _, l, hl⟩ := Py.fmod_spec (a.xRef - a.xStep + nx * xs) (show (0 : Rat) < 360 by norm_num)
    rw [hk, hl]
    have e : a.xRef - a.xStep + nx * xs + l * 360 - (a.xRef - a.xStep + k * 360) = nx * xs + ((l - k : Int) : Rat) * 360 := by push_cast; ring
    rw [e]
    rcases le_or_gt 0 (l - k) with h | h
    · have : (0 : Rat) ≤ ((l - k : Int) : Rat) := by exact_mod_cast h
      rw [abs_of_nonneg (by linarith)]
      linarith
    · have : ((l - k : Int) : Rat) ≤ -1 := by exact_mod_cast (show l - k ≤ -1 by omega)
      rw [abs_of_nonpos (by linarith)]
      linarith
  refine ⟨hc, ?_⟩
  unfold Axes.nbX
  rw [if_neg (by simp [hc])]

/-! ### Currents which change with time -/

/-- A current which is affine in the coordinates, with coefficients which are affine in time, at the date `t`. -/
def AffineAt (g : Layer) (x0 xs y0 ys : Rat) (nx ny : Nat) (A B C A' B' C' : Rat → Rat) (t : Rat) : Prop :=
  Affine g x0 xs y0 ys nx ny (A t) (B t) (C t) (A' t) (B' t) (C' t)

/-- Affine in time. -/
def Linear (f : Rat → Rat) : Prop := ∃ b c, ∀ t, f t = b * t + c

theorem Linear.mean {f : Rat → Rat} (h : Linear f) {t0 t1 t w : Rat} (hw : t = t0 * w + t1 * (1 - w)) : f t = f t0 * w + f t1 * (1 - w) := by
  obtain ⟨b, c, h⟩ := h
  rw [h, h, h, hw]
  ring

/-- **C65** (time): between two layers at the dates `t0` and `t1`, with the weight of the date `t`, the velocity of a current which is affine in space and in
time is exact. -/
theorem interp2_affine (h : Regular a x0 xs y0 ys nx ny) (hcirc : a.circular = false) {g0 g1 : Layer} {A B C A' B' C' : Rat → Rat} {t0 t1 t w : Rat}
    (hl : Linear A ∧ Linear B ∧ Linear C ∧ Linear A' ∧ Linear B' ∧ Linear C') (hg0 : AffineAt g0 x0 xs y0 ys nx ny A B C A' B' C' t0)
    (hg1 : AffineAt g1 x0 xs y0 ys nx ny A B C A' B' C' t1) (hw : t = t0 * w + t1 * (1 - w)) {p k : Rat × Rat} (hy : y0 ≤ p.2)
    (hk : velAt (field2 a g0 g1) p w = some k) : k = (A t * p.1 + B t * p.2 + C t, A' t * p.1 + B' t * p.2 + C' t) := by
  unfold velAt field2 at hk
  simp only [Option.map_eq_some_iff] at hk
  obtain ⟨q, hq, rfl⟩ := hk
  unfold look2 at hq
  cases e0 : look a g0 (cellOf a p) with
  | none => rw [e0] at hq; simp at hq
  | some q0 =>
    cases e1 : look a g1 (cellOf a p) with
    | none => rw [e0, e1] at hq; simp at hq
    | some q1 =>
      rw [e0, e1] at hq
      simp only [Option.some.injEq] at hq
      subst hq
      unfold interp2
      rw [interp_affine h hcirc hg0 hy e0, interp_affine h hcirc hg1 hy e1]
      obtain ⟨l1, l2, l3, l4, l5, l6⟩ := hl
      rw [l1.mean hw, l2.mean hw, l3.mean hw, l4.mean hw, l5.mean hw, l6.mean hw]
      refine Prod.ext ?_ ?_ <;> simp only <;> ring

theorem clear_of_north (h : Regular a x0 xs y0 ys nx ny) {p : Rat × Rat} (hy : y0 ≤ p.2) {k : Int} (hk : k < 0) :
    ∀ q ∈ [(⟨some p, false⟩ : Particle)], ∀ x, q.pos = some x → cellOf a x ≠ (k, k) := by
  intro q hq x hx hcell
  rw [List.mem_singleton.1 hq] at hx
  simp only [Option.some.injEq] at hx
  subst hx
  have : 0 ≤ (cellOf a p).2 := by
    unfold cellOf
    rw [h.yRef, h.yStep]
    exact Int.floor_nonneg.2 (div_nonneg (by linarith) h.ys_pos.le)
  rw [hcell] at this
  simp only at this
  omega

/-- **C65** (Euler): one step moves a particle by the velocity at its position at the date of the step. -/
theorem euler_step (h : Regular a x0 xs y0 ys nx ny) (hcirc : a.circular = false) {g0 g1 : Layer} {A B C A' B' C' : Rat → Rat} {t0 t1 t w : Rat}
    (hl : Linear A ∧ Linear B ∧ Linear C ∧ Linear A' ∧ Linear B' ∧ Linear C') (hg0 : AffineAt g0 x0 xs y0 ys nx ny A B C A' B' C' t0)
    (hg1 : AffineAt g1 x0 xs y0 ys nx ny A B C A' B' C' t1) (hw : t = t0 * w + t1 * (1 - w)) {p p' : Rat × Rat} (hy : y0 ≤ p.2)
    (hrun : advectT a g0 g1 [w] [⟨some p, false⟩] = [⟨some p', false⟩]) :
    p' = (p.1 + (A t * p.1 + B t * p.2 + C t), p.2 + (A' t * p.1 + B' t * p.2 + C' t)) := by
  rw [advectT_eq a g0 g1 [w] _ (clear_of_north h hy (by decide))] at hrun
  simp only [List.map_cons, List.map_nil, moveP] at hrun
  cases hs : eulerP (field2 a g0 g1) [w] p with
  | none => rw [hs] at hrun; simp at hrun
  | some r =>
    rw [hs] at hrun
    simp only [List.cons.injEq, Particle.mk.injEq, Option.some.injEq, and_true] at hrun
    subst hrun
    unfold eulerP at hs
    cases hq : (field2 a g0 g1).lk ((field2 a g0 g1).cell p) with
    | none => rw [hq] at hs; simp at hs
    | some q =>
      rw [hq] at hs
      simp only [eulerP, Option.some.injEq] at hs
      have hk : velAt (field2 a g0 g1) p w = some ((field2 a g0 g1).vel p w q) := by
        unfold velAt
        rw [hq]
        rfl
      have := interp2_affine h hcirc hl hg0 hg1 hw hy hk
      rw [this] at hs
      exact hs.symm

/-- **C65** (RK4 with time): in a current which is the same everywhere and affine in time, one step moves a particle by the velocity at the middle of
the step, which is the exact displacement. The positions used must not be at the south of the grid. -/
theorem rk4_time (h : Regular a x0 xs y0 ys nx ny) (hcirc : a.circular = false) {g0 g1 : Layer} {C C' : Rat → Rat} {t0 t1 t w half : Rat}
    (hl : Linear C ∧ Linear C') (hg0 : AffineAt g0 x0 xs y0 ys nx ny (fun _ => 0) (fun _ => 0) C (fun _ => 0) (fun _ => 0) C' t0)
    (hg1 : AffineAt g1 x0 xs y0 ys nx ny (fun _ => 0) (fun _ => 0) C (fun _ => 0) (fun _ => 0) C' t1) (ht : t = t0 * (w - half) + t1 * (1 - (w - half)))
    {p p' : Rat × Rat} (hy : y0 ≤ p.2) (s2 : y0 ≤ p.2 + C' (t0 * w + t1 * (1 - w)) / 2) (s3 : y0 ≤ p.2 + C' t / 2) (s4 : y0 ≤ p.2 + C' t)
    (hrun : advectTRk4 a g0 g1 [w] half [⟨some p, false⟩] = [⟨some p', false⟩]) :
    p' = (p.1 + C t, p.2 + C' t) := by
  rw [advectTRk4_eq a g0 g1 [w] half _ (clear_of_north h hy (by decide))] at hrun
  simp only [List.map_cons, List.map_nil, moveP, rkP] at hrun
  have hz : Linear (fun _ : Rat => (0 : Rat)) := ⟨0, 0, fun t => by simp⟩
  have hvel : ∀ {r k : Rat × Rat} {v : Rat}, y0 ≤ r.2 → velAt (field2 a g0 g1) r v = some k → k = (C (t0 * v + t1 * (1 - v)), C' (t0 * v + t1 * (1 - v))) := by
    intro r k v hr hk
    have := interp2_affine h hcirc ⟨hz, hz, hl.1, hz, hz, hl.2⟩ hg0 hg1 (t := t0 * v + t1 * (1 - v)) rfl hr hk
    simpa using this
  cases hs : rkStepP (field2 a g0 g1) w (w - half) (w - half) (w - half - half) p with
  | none => rw [hs] at hrun; simp at hrun
  | some r =>
    rw [hs] at hrun
    simp only [Option.bind_some, List.cons.injEq, Particle.mk.injEq, Option.some.injEq, and_true] at hrun
    subst hrun
    unfold rkStepP at hs
    simp only [Option.bind_eq_some_iff, Option.map_eq_some_iff] at hs
    obtain ⟨k1, e1, k2, e2, k3, e3, k4, e4, rfl⟩ := hs
    have k1e := hvel hy e1
    have k2e := hvel (by rw [k1e]; simp only; linarith) e2
    have k3e := hvel (by rw [k2e]; simp only; rw [← ht]; linarith) e3
    have k4e := hvel (by rw [k3e]; simp only; rw [← ht]; linarith) e4
    rw [k1e, k2e, k3e, k4e, ht]
    obtain ⟨⟨b, c, hC⟩, b', c', hC'⟩ := hl
    simp only [hC, hC']
    refine Prod.ext ?_ ?_ <;> simp only <;> ring

/-! A current which goes from 0 to 1 cell by step toward the east and the north: half a cell during the whole interval. -/

def grid4 : Axes := ⟨[0, 1, 2, 3], [0, 1, 2, 3]⟩

theorem grid4_regular : Regular grid4 0 1 0 1 4 4 where
  xs_pos := by norm_num
  ys_pos := by norm_num
  nx_two := by norm_num
  ny_two := by norm_num
  xg := by decide +kernel
  yg := by decide +kernel
  turn := fun h => absurd h (by decide +kernel)

def atRest : Layer := ⟨fun _ _ => 0, fun _ _ => 0, fun _ _ => false⟩

def moving : Layer := ⟨fun _ _ => 1, fun _ _ => 1, fun _ _ => false⟩

example : advectTRk4 grid4 atRest moving [1] (1 / 2) [⟨some (1, 1), false⟩] = [⟨some (3 / 2, 3 / 2), false⟩] := by decide +kernel

example : (3 / 2, 3 / 2) = ((1 : Rat) + (1 / 2 : Rat), (1 : Rat) + (1 / 2 : Rat)) :=
  rk4_time (g0 := atRest) (g1 := moving) grid4_regular (by decide +kernel) (C := fun t => t) (C' := fun t => t) (t0 := 0) (t1 := 1) (t := 1 / 2) (w := 1) (half := 1 / 2)
    (p := (1, 1)) ⟨⟨1, 0, fun t => by ring⟩, ⟨1, 0, fun t => by ring⟩⟩
    ⟨fun i j _ _ => by simp [atRest], fun i j _ _ => by simp [atRest]⟩ ⟨fun i j _ _ => by simp [moving], fun i j _ _ => by simp [moving]⟩
    (by norm_num) (by norm_num) (by norm_num) (by norm_num) (by norm_num) (by decide +kernel)

end Verif.Advect
