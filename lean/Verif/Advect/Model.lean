import Verif.Py

/-!
Model of the advection of particles of /repo/src/py_eddy_tracker/dataset/grid.py: `get_grid_indices`, `get_uv_quad`, `interp_uv`,
`advect`, `advect_rk4`, `advect_t`, `advect_t_rk4`. Positions and velocities are exact rationals; a position `none` is nan. `prange` is
`range`, because the functions are not compiled with `parallel=True`.
-/

namespace Verif.Advect

/-- Indices of a cell: longitude, latitude. -/
abbrev Cell := Int × Int

/-- Velocities of the four corners: `u00 u01 u10 u11 v00 v01 v10 v11` (grid.py:2716-2717). -/
structure Quad where
  u00 : Rat
  u01 : Rat
  u10 : Rat
  u11 : Rat
  v00 : Rat
  v01 : Rat
  v10 : Rat
  v11 : Rat
deriving DecidableEq

/-- A layer of current: velocities and mask. The element `(i, j)` of the arrays is given for all integers: outside of the array it is
the unknown content of the memory, which the compiled code reads without any test. -/
structure Layer where
  u : Int → Int → Rat
  v : Int → Int → Rat
  m : Int → Int → Bool

/-- The coordinates of the grid. -/
structure Axes where
  xg : List Rat
  yg : List Rat

/-- `x_ref` (grid.py:2112). -/
def Axes.xRef (a : Axes) : Rat := a.xg.getD 0 0

/-- `y_ref` (grid.py:2112). -/
def Axes.yRef (a : Axes) : Rat := a.yg.getD 0 0

/-- `x_step` (grid.py:2113). -/
def Axes.xStep (a : Axes) : Rat := a.xg.getD 1 0 - a.xRef

/-- `y_step` (grid.py:2113). -/
def Axes.yStep (a : Axes) : Rat := a.yg.getD 1 0 - a.yRef

/-- `is_circular` (grid.py:2114). -/
def Axes.circular (a : Axes) : Bool :=
  decide (|Py.fmod (a.xg.getLastD 0) 360 - Py.fmod (a.xRef - a.xStep) 360| < 1 / 100000)

/-- `nb_x` (grid.py:2116): 0 when the grid is not circular. -/
def Axes.nbX (a : Axes) : Nat := if a.circular then a.xg.length else 0

/-- `get_grid_indices` (grid.py:2722-2742): the cell. -/
def cellOf (a : Axes) (p : Rat × Rat) : Cell :=
  (if a.nbX ≠ 0 then ⌊(p.1 - a.xRef) / a.xStep⌋ % (a.nbX : Int) else ⌊(p.1 - a.xRef) / a.xStep⌋, ⌊(p.2 - a.yRef) / a.yStep⌋)

/-- `get_grid_indices` (grid.py:2722-2742): the weights. -/
def weights (a : Axes) (p : Rat × Rat) : Rat × Rat :=
  ((p.1 - a.xRef) / a.xStep - ⌊(p.1 - a.xRef) / a.xStep⌋, (p.2 - a.yRef) / a.yStep - ⌊(p.2 - a.yRef) / a.yStep⌋)

/-- Position in the array of an index: a negative index counts from the end. -/
def wrapIdx (n : Nat) (k : Int) : Int := if k < 0 then k + n else k

/-- `get_uv_quad` (grid.py:2691-2718); `none` when masked. The shape of `m` is the one of the grid. -/
def getQuad (a : Axes) (g : Layer) (c : Cell) : Option Quad :=
  let i1 := if a.nbX ≠ 0 then (c.1 + 1) % (a.nbX : Int) else c.1 + 1
  let j1 := c.2 + 1
  if i1 ≥ a.xg.length ∨ j1 ≥ a.yg.length then none
  else
    let I0 := wrapIdx a.xg.length c.1
    let I1 := wrapIdx a.xg.length i1
    let J0 := wrapIdx a.yg.length c.2
    let J1 := wrapIdx a.yg.length j1
    if g.m I0 J0 || g.m I0 J1 || g.m I1 J0 || g.m I1 J1 then none
    else some ⟨g.u I0 J0, g.u I0 J1, g.u I1 J0, g.u I1 J1, g.v I0 J0, g.v I0 J1, g.v I1 J0, g.v I1 J1⟩

/-- The content of the cache for a new cell (grid.py:2136-2141); `none` when masked. -/
def look (a : Axes) (g : Layer) (c : Cell) : Option Quad :=
  if ¬ a.circular ∧ (c.1 < 0 ∨ c.1 > a.xg.length) then none else getQuad a g c

/-- The same for two layers (grid.py:2664-2673): masked if one of them is masked. -/
def look2 (a : Axes) (g0 g1 : Layer) (c : Cell) : Option (Quad × Quad) :=
  match look a g0 c, look a g1 c with
  | some q0, some q1 => some (q0, q1)
  | _, _ => none

/-- `interp_uv` (grid.py:2746-2765). -/
def interp (d : Rat × Rat) (q : Quad) : Rat × Rat :=
  ((q.u00 * (1 - d.1) + q.u10 * d.1) * (1 - d.2) + (q.u01 * (1 - d.1) + q.u11 * d.1) * d.2,
   (q.v00 * (1 - d.1) + q.v10 * d.1) * (1 - d.2) + (q.v01 * (1 - d.1) + q.v11 * d.1) * d.2)

/-- Interpolation in time (grid.py:2680-2687, 2810-2812) with the weight `w` of the first layer. -/
def interp2 (d : Rat × Rat) (w : Rat) (q : Quad × Quad) : Rat × Rat :=
  ((interp d q.1).1 * w + (interp d q.2).1 * (1 - w), (interp d q.1).2 * w + (interp d q.2).2 * (1 - w))

/-- The cache: `i_cache, j_cache`, `masked`, and the velocities, which are not used when masked. -/
structure Cache (Q : Type) where
  key : Cell
  masked : Bool
  q : Q

/-- Update of the cache (grid.py:2134-2141). -/
def refresh {Q : Type} (lk : Cell → Option Q) (c : Cache Q) (k : Cell) : Cache Q :=
  if k ≠ c.key then
    match lk k with
    | none => ⟨k, true, c.q⟩
    | some q => ⟨k, false, q⟩
  else c

/-- A particle: position (`none` is nan) and mask. -/
structure Particle where
  pos : Option (Rat × Rat)
  m : Bool
deriving DecidableEq

/-- What the loops depend on: cells, content of the cells, and velocity at a position for a weight, the velocities of a cell given. -/
structure Field (Q W : Type) where
  cell : Rat × Rat → Cell
  lk : Cell → Option Q
  vel : Rat × Rat → W → Q → Rat × Rat

variable {Q W : Type}

/-- The steps of one particle in `advect` and `advect_t` (grid.py:2230-2251, 2658-2687); `none` when the particle is lost. -/
def euler (f : Field Q W) : List W → Cache Q → Rat × Rat → Cache Q × Option (Rat × Rat)
  | [], c, p => (c, some p)
  | w :: ws, c, p =>
    let c := refresh f.lk c (f.cell p)
    if c.masked then (c, none)
    else euler f ws c (p.1 + (f.vel p w c.q).1, p.2 + (f.vel p w c.q).2)

/-- One of the three last stages of RK4 (grid.py:2148-2161): the mask is tested only for a new cell. -/
def stage (f : Field Q W) (c : Cache Q) (p : Rat × Rat) (w : W) : Cache Q × Option (Rat × Rat) :=
  let c' := refresh f.lk c (f.cell p)
  if f.cell p ≠ c.key ∧ c'.masked then (c', none) else (c', some (f.vel p w c'.q))

/-- One step of RK4 (grid.py:2129-2199, 2799-2890) with the weights of the stages. -/
def rkStep (f : Field Q W) (w1 w2 w3 w4 : W) (c : Cache Q) (p : Rat × Rat) : Cache Q × Option (Rat × Rat) :=
  let c := refresh f.lk c (f.cell p)
  if c.masked then (c, none)
  else
    let k1 := f.vel p w1 c.q
    match stage f c (p.1 + k1.1 * (1 / 2), p.2 + k1.2 * (1 / 2)) w2 with
    | (c, none) => (c, none)
    | (c, some k2) =>
      match stage f c (p.1 + k2.1 * (1 / 2), p.2 + k2.2 * (1 / 2)) w3 with
      | (c, none) => (c, none)
      | (c, some k3) =>
        match stage f c (p.1 + k3.1, p.2 + k3.2) w4 with
        | (c, none) => (c, none)
        | (c, some k4) =>
          (c, some (p.1 + (k1.1 + 2 * k2.1 + 2 * k3.1 + k4.1) / 6, p.2 + (k1.2 + 2 * k2.2 + 2 * k3.2 + k4.2) / 6))

/-- The steps of one particle in `advect_rk4` and `advect_t_rk4`. -/
def rk (f : Field Q W) : List (W × W × W × W) → Cache Q → Rat × Rat → Cache Q × Option (Rat × Rat)
  | [], c, p => (c, some p)
  | (w1, w2, w3, w4) :: ws, c, p =>
    match rkStep f w1 w2 w3 w4 c p with
    | (c, none) => (c, none)
    | (c, some p) => rk f ws c p

/-- The loop on the particles (grid.py:2122-2206): masked particles are skipped, the cache is kept from one to the next. -/
def particles (move : Cache Q → Rat × Rat → Cache Q × Option (Rat × Rat)) : List Particle → Cache Q → List Particle
  | [], _ => []
  | p :: ps, c =>
    match p.m, p.pos with
    | false, some x =>
      match move c x with
      | (c, some x) => ⟨some x, false⟩ :: particles move ps c
      | (c, none) => ⟨none, true⟩ :: particles move ps c
    | _, _ => p :: particles move ps c

/-- Velocities of 0. -/
def zero : Quad := ⟨0, 0, 0, 0, 0, 0, 0, 0⟩

/-- The field of `advect` and `advect_rk4`. -/
def field (a : Axes) (g : Layer) : Field Quad Unit := ⟨cellOf a, look a g, fun p _ q => interp (weights a p) q⟩

/-- The field of `advect_t` and `advect_t_rk4`. -/
def field2 (a : Axes) (g0 g1 : Layer) : Field (Quad × Quad) Rat :=
  ⟨cellOf a, look2 a g0 g1, fun p w q => interp2 (weights a p) w q⟩

/-- `advect` (grid.py:2212-2251). -/
def advect (a : Axes) (g : Layer) (nbStep : Nat) (ps : List Particle) : List Particle :=
  particles (euler (field a g) (List.replicate nbStep ())) ps ⟨(-100000, -100000), false, zero⟩

/-- `advect_rk4` (grid.py:2109-2208). -/
def advectRk4 (a : Axes) (g : Layer) (nbStep : Nat) (ps : List Particle) : List Particle :=
  particles (rk (field a g) (List.replicate nbStep ((), (), (), ()))) ps ⟨(-1000000, -1000000), false, zero⟩

/-- `advect_t` (grid.py:2639-2687). -/
def advectT (a : Axes) (g0 g1 : Layer) (ws : List Rat) (ps : List Particle) : List Particle :=
  particles (euler (field2 a g0 g1) ws) ps ⟨(-100000, -100000), false, (zero, zero)⟩

/-- `advect_t_rk4` (grid.py:2768-2891); `w_ = w - half_w`, then `w_ -= half_w`. -/
def advectTRk4 (a : Axes) (g0 g1 : Layer) (ws : List Rat) (half : Rat) (ps : List Particle) : List Particle :=
  particles (rk (field2 a g0 g1) (ws.map (fun w => (w, w - half, w - half, w - half - half)))) ps
    ⟨(-1000000, -1000000), false, (zero, zero)⟩

end Verif.Advect
