import Verif.Advect.Model
import Mathlib.Tactic.Ring
import Mathlib.Tactic.FieldSimp
import Mathlib.Algebra.Order.Ring.Rat

/-!
# C44: particles do not influence each other
-/

namespace Verif.Advect

variable {Q W : Type}

/-! ### The loops without cache -/

/-- `euler` without cache. -/
def eulerP (f : Field Q W) : List W → Rat × Rat → Option (Rat × Rat)
  | [], p => some p
  | w :: ws, p =>
    match f.lk (f.cell p) with
    | none => none
    | some q => eulerP f ws (p.1 + (f.vel p w q).1, p.2 + (f.vel p w q).2)

/-- Velocity at a position. -/
def velAt (f : Field Q W) (p : Rat × Rat) (w : W) : Option (Rat × Rat) := (f.lk (f.cell p)).map (f.vel p w)

/-- One step of RK4 without cache. -/
def rkStepP (f : Field Q W) (w1 w2 w3 w4 : W) (p : Rat × Rat) : Option (Rat × Rat) :=
  (velAt f p w1).bind fun k1 =>
  (velAt f (p.1 + k1.1 * (1 / 2), p.2 + k1.2 * (1 / 2)) w2).bind fun k2 =>
  (velAt f (p.1 + k2.1 * (1 / 2), p.2 + k2.2 * (1 / 2)) w3).bind fun k3 =>
  (velAt f (p.1 + k3.1, p.2 + k3.2) w4).map fun k4 =>
    (p.1 + (k1.1 + 2 * k2.1 + 2 * k3.1 + k4.1) / 6, p.2 + (k1.2 + 2 * k2.2 + 2 * k3.2 + k4.2) / 6)

/-- `rk` without cache. -/
def rkP (f : Field Q W) : List (W × W × W × W) → Rat × Rat → Option (Rat × Rat)
  | [], p => some p
  | (w1, w2, w3, w4) :: ws, p => (rkStepP f w1 w2 w3 w4 p).bind (rkP f ws)

/-- The cache holds the content of its cell. -/
def Good (f : Field Q W) (c : Cache Q) : Prop :=
  (c.masked = true ∧ f.lk c.key = none) ∨ (c.masked = false ∧ f.lk c.key = some c.q)

theorem refresh_good (f : Field Q W) {c : Cache Q} {k : Cell} (h : Good f c ∨ k ≠ c.key) :
    Good f (refresh f.lk c k) ∧ (refresh f.lk c k).key = k := by
  unfold refresh
  by_cases hk : k = c.key
  · rw [if_neg (by simp [hk])]
    rcases h with h | h
    · exact ⟨h, hk.symm⟩
    · exact absurd hk h
  · rw [if_pos hk]
    cases hl : f.lk k with
    | none => exact ⟨Or.inl ⟨rfl, hl⟩, rfl⟩
    | some q => exact ⟨Or.inr ⟨rfl, hl⟩, rfl⟩

theorem euler_good (f : Field Q W) : ∀ (ws : List W) (c : Cache Q) (p : Rat × Rat), Good f c ∨ f.cell p ≠ c.key →
    (euler f ws c p).2 = eulerP f ws p ∧ (Good f (euler f ws c p).1 ∨ (euler f ws c p).1 = c)
  | [], c, p, _ => ⟨rfl, Or.inr rfl⟩
  | w :: ws, c, p, h => by
    obtain ⟨hg, hk⟩ := refresh_good f h
    rw [euler, eulerP]
    rcases hg with ⟨h1, h2⟩ | ⟨h1, h2⟩
    · rw [if_pos h1, show f.lk (f.cell p) = none by rw [← h2, hk]]
      exact ⟨rfl, Or.inl (Or.inl ⟨h1, h2⟩)⟩
    · have hl : f.lk (f.cell p) = some (refresh f.lk c (f.cell p)).q := by rw [← h2, hk]
      simp only [hl]
      rw [if_neg (by simp [h1])]
      obtain ⟨a1, a2⟩ := euler_good f ws (refresh f.lk c (f.cell p))
        (p.1 + (f.vel p w (refresh f.lk c (f.cell p)).q).1, p.2 + (f.vel p w (refresh f.lk c (f.cell p)).q).2)
        (Or.inl (Or.inr ⟨h1, h2⟩))
      refine ⟨a1, Or.inl ?_⟩
      rcases a2 with a2 | a2
      · exact a2
      · rw [a2]; exact Or.inr ⟨h1, h2⟩

/-- A stage reads the content of its cell, from a cache which is right and not masked. -/
theorem stage_good (f : Field Q W) {c : Cache Q} (hg : Good f c) (hm : c.masked = false) (p : Rat × Rat) (w : W) :
    (stage f c p w).2 = velAt f p w ∧ Good f (stage f c p w).1 ∧ ((stage f c p w).2 ≠ none → (stage f c p w).1.masked = false) := by
  obtain ⟨hg', hk⟩ := refresh_good f (k := f.cell p) (Or.inl hg)
  unfold stage velAt
  simp only
  rcases hg' with ⟨h1, h2⟩ | ⟨h1, h2⟩
  · have hne : f.cell p ≠ c.key := by
      intro h
      rcases hg with ⟨a, _⟩ | ⟨_, a⟩
      · rw [hm] at a; cases a
      · rw [hk, h, a] at h2; cases h2
    rw [if_pos ⟨hne, h1⟩, show f.lk (f.cell p) = none by rw [← h2, hk]]
    exact ⟨rfl, Or.inl ⟨h1, h2⟩, fun h => absurd rfl h⟩
  · rw [if_neg (by simp [h1])]
    have hl : f.lk (f.cell p) = some (refresh f.lk c (f.cell p)).q := by rw [← h2, hk]
    exact ⟨by rw [hl]; rfl, Or.inr ⟨h1, h2⟩, fun _ => h1⟩

theorem rkStep_good (f : Field Q W) (w1 w2 w3 w4 : W) {c : Cache Q} {p : Rat × Rat} (h : Good f c ∨ f.cell p ≠ c.key) :
    (rkStep f w1 w2 w3 w4 c p).2 = rkStepP f w1 w2 w3 w4 p ∧ Good f (rkStep f w1 w2 w3 w4 c p).1 := by
  obtain ⟨hg, hk⟩ := refresh_good f h
  unfold rkStep rkStepP
  simp only
  rcases hg with ⟨h1, h2⟩ | ⟨h1, h2⟩
  · rw [if_pos h1]
    have hl : velAt f p w1 = none := by unfold velAt; rw [← hk, h2]; rfl
    rw [hl]
    exact ⟨rfl, Or.inl ⟨h1, h2⟩⟩
  · rw [if_neg (by simp [h1])]
    have hl : velAt f p w1 = some (f.vel p w1 (refresh f.lk c (f.cell p)).q) := by
      unfold velAt; rw [show f.lk (f.cell p) = some (refresh f.lk c (f.cell p)).q by rw [← h2, hk]]; rfl
    rw [hl, Option.bind_some]
    generalize f.vel p w1 (refresh f.lk c (f.cell p)).q = k1
    have hg1 : Good f (refresh f.lk c (f.cell p)) := Or.inr ⟨h1, h2⟩
    generalize refresh f.lk c (f.cell p) = c1 at h1 hg1 ⊢
    obtain ⟨s1, s2, s3⟩ := stage_good f hg1 h1 (p.1 + k1.1 * (1 / 2), p.2 + k1.2 * (1 / 2)) w2
    rw [← s1]
    rcases he : stage f c1 (p.1 + k1.1 * (1 / 2), p.2 + k1.2 * (1 / 2)) w2 with ⟨c2, _ | k2⟩
    · rw [he] at s2; exact ⟨rfl, s2⟩
    · rw [he] at s2 s3
      have m2 := s3 (by simp)
      simp only [Option.bind_some]
      obtain ⟨s4, s5, s6⟩ := stage_good f s2 m2 (p.1 + k2.1 * (1 / 2), p.2 + k2.2 * (1 / 2)) w3
      rw [← s4]
      rcases he3 : stage f c2 (p.1 + k2.1 * (1 / 2), p.2 + k2.2 * (1 / 2)) w3 with ⟨c3, _ | k3⟩
      · rw [he3] at s5; exact ⟨rfl, s5⟩
      · rw [he3] at s5 s6
        have m3 := s6 (by simp)
        simp only [Option.bind_some]
        obtain ⟨s7, s8, _⟩ := stage_good f s5 m3 (p.1 + k3.1, p.2 + k3.2) w4
        rw [← s7]
        rcases he4 : stage f c3 (p.1 + k3.1, p.2 + k3.2) w4 with ⟨c4, _ | k4⟩
        · rw [he4] at s8; exact ⟨rfl, s8⟩
        · rw [he4] at s8; exact ⟨rfl, s8⟩

theorem rk_good (f : Field Q W) : ∀ (ws : List (W × W × W × W)) (c : Cache Q) (p : Rat × Rat), Good f c ∨ f.cell p ≠ c.key →
    (rk f ws c p).2 = rkP f ws p ∧ (Good f (rk f ws c p).1 ∨ (rk f ws c p).1 = c)
  | [], c, p, _ => ⟨rfl, Or.inr rfl⟩
  | (w1, w2, w3, w4) :: ws, c, p, h => by
    obtain ⟨h1, h2⟩ := rkStep_good f w1 w2 w3 w4 h
    rw [rk, rkP, ← h1]
    rcases he : rkStep f w1 w2 w3 w4 c p with ⟨c', _ | p'⟩
    · rw [he] at h2; exact ⟨rfl, Or.inl h2⟩
    · rw [he] at h2
      simp only [Option.bind_some]
      obtain ⟨a1, a2⟩ := rk_good f ws c' p' (Or.inl h2)
      refine ⟨a1, Or.inl ?_⟩
      rcases a2 with a2 | a2
      · exact a2
      · rw [a2]; exact h2

/-- One particle without cache. -/
def moveP (mv : Rat × Rat → Option (Rat × Rat)) (p : Particle) : Particle :=
  match p.m, p.pos with
  | false, some x =>
    match mv x with
    | some x => ⟨some x, false⟩
    | none => ⟨none, true⟩
  | _, _ => p

theorem particles_eq (f : Field Q W) (move : Cache Q → Rat × Rat → Cache Q × Option (Rat × Rat)) (mv : Rat × Rat → Option (Rat × Rat))
    (c0 : Cache Q)
    (hmove : ∀ c p, Good f c ∨ f.cell p ≠ c.key → (move c p).2 = mv p ∧ (Good f (move c p).1 ∨ (move c p).1 = c)) :
    ∀ (ps : List Particle) (c : Cache Q), (Good f c ∨ c = c0) → (∀ p ∈ ps, ∀ x, p.pos = some x → f.cell x ≠ c0.key) →
      particles move ps c = ps.map (moveP mv)
  | [], _, _, _ => rfl
  | p :: ps, c, hc, hs => by
    have ih := fun c' (h : Good f c' ∨ c' = c0) =>
      particles_eq f move mv c0 hmove ps c' h (fun q hq => hs q (List.mem_cons_of_mem _ hq))
    rw [particles, List.map_cons, moveP]
    rcases hm : p.m with _ | _
    · rcases hp : p.pos with _ | x
      · simp only
        rw [ih c hc]
      · simp only
        have hx := hs p (by simp) x hp
        have hcond : Good f c ∨ f.cell x ≠ c.key := by
          rcases hc with hc | rfl
          · exact Or.inl hc
          · exact Or.inr hx
        obtain ⟨a1, a2⟩ := hmove c x hcond
        have a2' : Good f (move c x).1 ∨ (move c x).1 = c0 := by
          rcases a2 with a2 | a2
          · exact Or.inl a2
          · rw [a2]; exact hc
        rw [← a1]
        rcases he : move c x with ⟨c', _ | x'⟩
        · rw [he] at a2'
          simp only
          rw [ih c' a2']
        · rw [he] at a2'
          simp only
          rw [ih c' a2']
    · simp only
      rw [ih c hc]

theorem advect_eq (a : Axes) (g : Layer) (n : Nat) (ps : List Particle)
    (h : ∀ p ∈ ps, ∀ x, p.pos = some x → cellOf a x ≠ (-100000, -100000)) :
    advect a g n ps = ps.map (moveP (eulerP (field a g) (List.replicate n ()))) :=
  particles_eq (field a g) _ _ ⟨(-100000, -100000), false, zero⟩ (euler_good _ _) ps _ (Or.inr rfl) h

theorem advectRk4_eq (a : Axes) (g : Layer) (n : Nat) (ps : List Particle)
    (h : ∀ p ∈ ps, ∀ x, p.pos = some x → cellOf a x ≠ (-1000000, -1000000)) :
    advectRk4 a g n ps = ps.map (moveP (rkP (field a g) (List.replicate n ((), (), (), ())))) :=
  particles_eq (field a g) _ _ ⟨(-1000000, -1000000), false, zero⟩ (rk_good _ _) ps _ (Or.inr rfl) h

theorem advectT_eq (a : Axes) (g0 g1 : Layer) (ws : List Rat) (ps : List Particle)
    (h : ∀ p ∈ ps, ∀ x, p.pos = some x → cellOf a x ≠ (-100000, -100000)) :
    advectT a g0 g1 ws ps = ps.map (moveP (eulerP (field2 a g0 g1) ws)) :=
  particles_eq (field2 a g0 g1) _ _ ⟨(-100000, -100000), false, (zero, zero)⟩ (euler_good _ _) ps _ (Or.inr rfl) h

theorem advectTRk4_eq (a : Axes) (g0 g1 : Layer) (ws : List Rat) (half : Rat) (ps : List Particle)
    (h : ∀ p ∈ ps, ∀ x, p.pos = some x → cellOf a x ≠ (-1000000, -1000000)) :
    advectTRk4 a g0 g1 ws half ps =
      ps.map (moveP (rkP (field2 a g0 g1) (ws.map (fun w => (w, w - half, w - half, w - half - half))))) :=
  particles_eq (field2 a g0 g1) _ _ ⟨(-1000000, -1000000), false, (zero, zero)⟩ (rk_good _ _) ps _ (Or.inr rfl) h

theorem alone {F : List Particle → List Particle} {φ : Particle → Particle} {ok : Particle → Prop}
    (h : ∀ ps, (∀ p ∈ ps, ok p) → F ps = ps.map φ) (ps : List Particle) (hps : ∀ p ∈ ps, ok p) :
    F ps = ps.flatMap (fun p => F [p]) := by
  rw [h ps hps]
  induction ps with
  | nil => rfl
  | cons p ps ih =>
    rw [List.flatMap_cons, ← ih (fun q hq => hps q (List.mem_cons_of_mem _ hq)),
      h [p] (fun q hq => hps q (by rw [List.mem_singleton.1 hq]; simp))]
    rfl

/-- The start of a particle is not in the cell which stands for an empty cache. -/
def Clear (a : Axes) (k : Int) (p : Particle) : Prop := ∀ x, p.pos = some x → cellOf a x ≠ (k, k)

/-- On a circular grid no particle is in this cell. -/
theorem clear_circular {a : Axes} (hc : a.nbX ≠ 0) {k : Int} (hk : k < 0) (p : Particle) : Clear a k p := by
  intro x _ h
  have h1 := congrArg Prod.fst h
  simp only [cellOf, if_pos hc] at h1
  have := Int.emod_nonneg ⌊(x.1 - a.xRef) / a.xStep⌋ (show (a.nbX : Int) ≠ 0 by exact_mod_cast hc)
  omega

/-- **C44**, Euler: particles moved together are moved as each one alone. -/
theorem advect_alone (a : Axes) (g : Layer) (n : Nat) (ps : List Particle) (h : ∀ p ∈ ps, Clear a (-100000) p) :
    advect a g n ps = ps.flatMap (fun p => advect a g n [p]) :=
  alone (advect_eq a g n) ps h

/-- **C44**, RK4. -/
theorem advectRk4_alone (a : Axes) (g : Layer) (n : Nat) (ps : List Particle) (h : ∀ p ∈ ps, Clear a (-1000000) p) :
    advectRk4 a g n ps = ps.flatMap (fun p => advectRk4 a g n [p]) :=
  alone (advectRk4_eq a g n) ps h

/-- **C44**, two layers. -/
theorem advectT_alone (a : Axes) (g0 g1 : Layer) (ws : List Rat) (ps : List Particle) (h : ∀ p ∈ ps, Clear a (-100000) p) :
    advectT a g0 g1 ws ps = ps.flatMap (fun p => advectT a g0 g1 ws [p]) :=
  alone (advectT_eq a g0 g1 ws) ps h

/-- **C44**, two layers and RK4. -/
theorem advectTRk4_alone (a : Axes) (g0 g1 : Layer) (ws : List Rat) (half : Rat) (ps : List Particle)
    (h : ∀ p ∈ ps, Clear a (-1000000) p) :
    advectTRk4 a g0 g1 ws half ps = ps.flatMap (fun p => advectTRk4 a g0 g1 ws half [p]) :=
  alone (advectTRk4_eq a g0 g1 ws half) ps h

/-! ### Several calls -/

theorem eulerP_append (f : Field Q W) : ∀ (w1 w2 : List W) (p : Rat × Rat), eulerP f (w1 ++ w2) p = (eulerP f w1 p).bind (eulerP f w2)
  | [], _, _ => rfl
  | w :: w1, w2, p => by
    rw [List.cons_append, eulerP, eulerP]
    cases f.lk (f.cell p) with
    | none => rfl
    | some q => exact eulerP_append f w1 w2 _

theorem rkP_append (f : Field Q W) : ∀ (w1 w2 : List (W × W × W × W)) (p : Rat × Rat), rkP f (w1 ++ w2) p = (rkP f w1 p).bind (rkP f w2)
  | [], _, _ => rfl
  | (a, b, c, d) :: w1, w2, p => by
    rw [List.cons_append, rkP, rkP]
    cases rkStepP f a b c d p with
    | none => rfl
    | some q => exact rkP_append f w1 w2 _

theorem moveP_bind (f g : Rat × Rat → Option (Rat × Rat)) (p : Particle) :
    moveP (fun x => (f x).bind g) p = moveP g (moveP f p) := by
  obtain ⟨x | x, _ | _⟩ := p <;> simp only [moveP]
  cases f x <;> simp

/-- Two calls of `n` and `k` steps move as one call of `n + k` steps. -/
theorem advect_add (a : Axes) (g : Layer) (n k : Nat) (ps : List Particle) (h : ∀ p ∈ ps, Clear a (-100000) p)
    (h' : ∀ p ∈ advect a g n ps, Clear a (-100000) p) : advect a g (n + k) ps = advect a g k (advect a g n ps) := by
  rw [advect_eq a g k _ h', advect_eq a g n ps h, advect_eq a g (n + k) ps h, List.map_map]
  refine List.map_congr_left fun p _ => ?_
  rw [Function.comp, ← moveP_bind, List.replicate_add]
  exact congrArg (moveP · p) (funext (eulerP_append _ _ _))

/-- The same for RK4. -/
theorem advectRk4_add (a : Axes) (g : Layer) (n k : Nat) (ps : List Particle) (h : ∀ p ∈ ps, Clear a (-1000000) p)
    (h' : ∀ p ∈ advectRk4 a g n ps, Clear a (-1000000) p) : advectRk4 a g (n + k) ps = advectRk4 a g k (advectRk4 a g n ps) := by
  rw [advectRk4_eq a g k _ h', advectRk4_eq a g n ps h, advectRk4_eq a g (n + k) ps h, List.map_map]
  refine List.map_congr_left fun p _ => ?_
  rw [Function.comp, ← moveP_bind, List.replicate_add]
  exact congrArg (moveP · p) (funext (rkP_append _ _ _))

/-- Masked particles do not move, lost ones are masked without position. -/
theorem moveP_spec (mv : Rat × Rat → Option (Rat × Rat)) (p : Particle) :
    (p.m = true → moveP mv p = p) ∧ (p.m = false → (moveP mv p).m = true → (moveP mv p).pos = none) := by
  obtain ⟨x | x, _ | _⟩ := p <;> simp only [moveP] <;> try simp
  cases mv x <;> simp

/-! ### The cell of the empty cache -/

/-- Layer without current nor mask. -/
def still : Layer := ⟨fun _ _ => 1, fun _ _ => 0, fun _ _ => false⟩

/-- A grid of 3 × 3 points. -/
def small : Axes := ⟨[0, 1, 2], [0, 1, 2]⟩

/-- In this cell (outside of the grid) a particle alone stays, though it is lost after another particle. -/
theorem sentinel_wrong :
    advect small still 1 [⟨some (-100000, -100000), false⟩] = [⟨some (-100000, -100000), false⟩] ∧
    advect small still 1 [⟨some (0, 0), false⟩, ⟨some (-100000, -100000), false⟩] = [⟨some (1, 0), false⟩, ⟨none, true⟩] := by
  decide +kernel

example : advect small still 2 [⟨some (1 / 2, 0), false⟩, ⟨some (0, 1), false⟩, ⟨some (1, 1), true⟩] =
    [⟨some (5 / 2, 0), false⟩, ⟨some (2, 1), false⟩, ⟨some (1, 1), true⟩] := by decide +kernel

example : advectRk4 small still 1 [⟨some (1 / 3, 0), false⟩, ⟨some (0, 1), false⟩] =
    [⟨some (4 / 3, 0), false⟩, ⟨some (1, 1), false⟩] := by decide +kernel

end Verif.Advect
