import Verif.Speed.Model
import Verif.Interp.Props
import Verif.Detection.Props
import Mathlib.Tactic.FieldSimp
import Mathlib.Tactic.Linarith
import Mathlib.Algebra.Order.BigOperators.Group.List
import Mathlib.Algebra.BigOperators.Ring.List

/-!
# C144: the mean speed of a contour; C145: the contour of maximal speed
-/

namespace Verif.Speed

open Verif.Poly (Pt)
open Verif.Interp (Grid Corners value)

/-! ### C144 -/

theorem nanmean_none_iff (l : List (Option Rat)) : nanmean l = none ↔ ∀ o ∈ l, o = none := by
  unfold nanmean
  by_cases h : l.filterMap id = []
  · simp only [h, if_true, true_iff]
    rw [List.filterMap_eq_nil_iff] at h
    exact h
  · simp only [h, if_false]
    constructor
    · intro hc; cases hc
    · intro hc
      exact absurd (List.filterMap_eq_nil_iff.2 hc) h

theorem sum_between {lo hi : Rat} : ∀ {v : List Rat}, (∀ x ∈ v, lo ≤ x ∧ x ≤ hi) → lo * v.length ≤ v.sum ∧ v.sum ≤ hi * v.length
  | [], _ => by simp
  | x :: v, h => by
    obtain ⟨h1, h2⟩ := sum_between (v := v) fun y hy => h y (List.mem_cons_of_mem _ hy)
    obtain ⟨h3, h4⟩ := h x (by simp)
    rw [List.sum_cons, List.length_cons]
    push_cast
    constructor <;> linarith

/-- The mean is between the bounds of the values. -/
theorem nanmean_between {l : List (Option Rat)} {lo hi r : Rat} (h : ∀ x, some x ∈ l → lo ≤ x ∧ x ≤ hi) (hr : nanmean l = some r) : lo ≤ r ∧ r ≤ hi := by
  unfold nanmean at hr
  simp only at hr
  split at hr
  · cases hr
  · rename_i hne
    have e := Option.some.inj hr
    obtain ⟨h1, h2⟩ := sum_between (v := l.filterMap id) (lo := lo) (hi := hi) (by
      intro x hx
      obtain ⟨o, ho, e⟩ := List.mem_filterMap.1 hx
      rw [id] at e
      exact h x (e ▸ ho))
    have hpos : (0 : Rat) < (l.filterMap id).length := by
      have := List.length_pos_iff.2 hne
      exact_mod_cast this
    rw [← e, le_div_iff₀ hpos, div_le_iff₀ hpos]
    exact ⟨h1, h2⟩

/-- The mean does not depend on the order. -/
theorem nanmean_perm {l l' : List (Option Rat)} (h : l.Perm l') : nanmean l = nanmean l' := by
  have hp : (l.filterMap id).Perm (l'.filterMap id) := h.filterMap id
  unfold nanmean
  simp only
  by_cases hn : l.filterMap id = []
  · rw [if_pos hn, if_pos]
    rw [hn] at hp
    exact hp.symm.eq_nil
  · rw [if_neg hn, if_neg, hp.sum_eq, hp.length_eq]
    intro hc
    rw [hc] at hp
    exact hn hp.eq_nil

/-- Values multiplied by a number. -/
theorem nanmean_mul (k : Rat) (l : List (Option Rat)) : nanmean (l.map (Option.map (k * ·))) = (nanmean l).map (k * ·) := by
  have e : (l.map (Option.map (k * ·))).filterMap id = (l.filterMap id).map (k * ·) := by
    induction l with
    | nil => rfl
    | cons o l ih => cases o <;> simp_all
  unfold nanmean
  simp only [e, List.map_eq_nil_iff, List.length_map]
  split
  · rfl
  · rw [Option.map_some, Option.some.injEq, List.sum_map_mul_left, List.map_id']
    rw [mul_div_assoc]

theorem blend_between {c : Corners} {xd yd lo hi : Rat} (h0 : 0 ≤ xd) (h1 : xd ≤ 1) (h2 : 0 ≤ yd) (h3 : yd ≤ 1) (a : lo ≤ c.z00 ∧ c.z00 ≤ hi)
    (b : lo ≤ c.z01 ∧ c.z01 ≤ hi) (d : lo ≤ c.z10 ∧ c.z10 ≤ hi) (e : lo ≤ c.z11 ∧ c.z11 ≤ hi) :
    lo ≤ Interp.blend c xd yd ∧ Interp.blend c xd yd ≤ hi := by
  have mix : ∀ {u v t : Rat}, 0 ≤ t → t ≤ 1 → lo ≤ u ∧ u ≤ hi → lo ≤ v ∧ v ≤ hi → lo ≤ u * (1 - t) + v * t ∧ u * (1 - t) + v * t ≤ hi := by
    intro u v t t0 t1 hu hv
    constructor
    · nlinarith [mul_nonneg (sub_nonneg.2 t1) (sub_nonneg.2 hu.1), mul_nonneg t0 (sub_nonneg.2 hv.1)]
    · nlinarith [mul_nonneg (sub_nonneg.2 t1) (sub_nonneg.2 hu.2), mul_nonneg t0 (sub_nonneg.2 hv.2)]
  unfold Interp.blend
  exact mix h2 h3 (mix h0 h1 a d) (mix h0 h1 b e)

/-- The bounds of the values of the pixels which are not masked. -/
def Bounded (g : Grid) (lo hi : Rat) : Prop := ∀ i j : Int, 0 ≤ i → i < g.xs.length → 0 ≤ j → j < g.ys.length → g.m i j = false → lo ≤ g.z i j ∧ g.z i j ≤ hi

theorem corners_some {g : Grid} {i0 i1 j0 j1 : Int} {c : Corners} (h : Interp.corners g i0 i1 j0 j1 = some c) :
    i1 < g.xs.length ∧ 0 ≤ i0 ∧ 0 ≤ j0 ∧ j1 < g.ys.length ∧ g.m i0 j0 = false ∧ g.m i0 j1 = false ∧ g.m i1 j0 = false ∧ g.m i1 j1 = false ∧
      c = ⟨g.z i0 j0, g.z i0 j1, g.z i1 j0, g.z i1 j1⟩ := by
  unfold Interp.corners at h
  split at h
  · cases h
  · rename_i h1
    split at h
    · cases h
    · rename_i h2
      simp only [Bool.or_eq_true, not_or, Bool.not_eq_true] at h2
      simp only [ge_iff_le, not_or, not_le, not_lt] at h1
      exact ⟨h1.1, h1.2.1, h1.2.2.1, h1.2.2.2, h2.1.1.1, h2.1.1.2, h2.1.2, h2.2, (Option.some.inj h).symm⟩

theorem wrap_range (g : Grid) (i : Int) (h0 : 0 ≤ Interp.wrap g i) (h1 : Interp.wrap g (i + 1) < g.xs.length) :
    Interp.wrap g i < g.xs.length ∧ 0 ≤ Interp.wrap g (i + 1) := by
  unfold Interp.wrap at h0 h1 ⊢
  split at h0
  · rename_i hc
    rw [if_pos hc] at h1
    rw [if_pos hc, if_pos hc]
    by_cases hn : (g.xs.length : Int) = 0
    · rw [hn] at h1 h0 ⊢
      simp only [Int.emod_zero] at h1 h0 ⊢
      omega
    · have := Int.emod_lt_of_pos i (b := g.xs.length) (by omega)
      have := Int.emod_nonneg (i + 1) hn
      exact ⟨by assumption, by assumption⟩
  · rename_i hc
    rw [if_neg hc] at h1
    rw [if_neg hc, if_neg hc]
    omega

theorem value_between {g : Grid} {lo hi : Rat} (hb : Bounded g lo hi) {p : Pt} {v : Rat} (h : value g p = some v) : lo ≤ v ∧ v ≤ hi := by
  unfold Interp.value at h
  simp only [Option.map_eq_some_iff] at h
  obtain ⟨c, hc, rfl⟩ := h
  obtain ⟨a1, a2, a3, a4, m1, m2, m3, m4, rfl⟩ := corners_some hc
  obtain ⟨a5, a6⟩ := wrap_range g _ a2 a1
  apply blend_between
  · linarith [Int.floor_le ((p.1 - Interp.ref g.xs) / Interp.step g.xs)]
  · linarith [Int.lt_floor_add_one ((p.1 - Interp.ref g.xs) / Interp.step g.xs)]
  · linarith [Int.floor_le ((p.2 - Interp.ref g.ys) / Interp.step g.ys)]
  · linarith [Int.lt_floor_add_one ((p.2 - Interp.ref g.ys) / Interp.step g.ys)]
  · exact hb _ _ a2 a5 a3 (by omega) m1
  · exact hb _ _ a2 a5 (by omega) a4 m2
  · exact hb _ _ a6 a1 a3 (by omega) m3
  · exact hb _ _ a6 a1 (by omega) a4 m4

/-- The second vertex is not in the cell of the initial marks of the interpolation, 10⁸ columns and 10⁷ rows before the grid. -/
def Near (g : Grid) (pts : List Pt) : Prop :=
  ∀ p, pts.tail.head? = some p →
    ¬ (⌊(p.1 - Interp.ref g.xs) / Interp.step g.xs⌋ = -100000000 ∧ ⌊(p.2 - Interp.ref g.ys) / Interp.step g.ys⌋ = -10000000)

/-- **C144**: the mean speed is the mean of the interpolated speeds at the vertices but the first, those without value are left. -/
theorem speed_mean_eq {g : Grid} {junk : Corners} {pts : List Pt} (h : Near g pts) : speedMean g junk pts = nanmean (pts.tail.map (value g)) := by
  unfold speedMean Interp.geo
  rw [if_neg (by decide), Interp.bilinear_pointwise g junk _ h]

/-- **C144** (closed contours): each vertex of a closed contour is used once, the mean does not depend on the vertex where it starts. -/
theorem speed_mean_closed {g : Grid} {junk junk' : Corners} {p q : Pt} {a b : List Pt} (h : Near g (p :: a ++ q :: b ++ [p]))
    (h' : Near g (q :: b ++ p :: a ++ [q])) :
    speedMean g junk (p :: a ++ q :: b ++ [p]) = nanmean ((p :: a ++ q :: b).map (value g)) ∧
      speedMean g junk (p :: a ++ q :: b ++ [p]) = speedMean g junk' (q :: b ++ p :: a ++ [q]) := by
  rw [speed_mean_eq h, speed_mean_eq h']
  constructor
  · apply nanmean_perm
    apply List.Perm.map
    simp only [List.cons_append, List.tail_cons]
    exact (List.perm_append_singleton p (a ++ q :: b))
  · apply nanmean_perm
    apply List.Perm.map
    simp only [List.cons_append, List.tail_cons]
    refine (List.perm_append_singleton p (a ++ q :: b)).trans ?_
    refine List.Perm.trans ?_ (List.perm_append_singleton q (b ++ p :: a)).symm
    have : ((p :: a) ++ (q :: b)).Perm ((q :: b) ++ (p :: a)) := List.perm_append_comm
    simpa using this

/-- **C144** (bounds): the mean speed is between the least and the greatest speeds of the pixels. -/
theorem speed_mean_between {g : Grid} {junk : Corners} {pts : List Pt} (h : Near g pts) {lo hi r : Rat} (hb : Bounded g lo hi)
    (hr : speedMean g junk pts = some r) : lo ≤ r ∧ r ≤ hi := by
  rw [speed_mean_eq h] at hr
  refine nanmean_between (fun x hx => ?_) hr
  obtain ⟨p, _, e⟩ := List.mem_map.1 hx
  exact value_between hb e

/-- **C144** (nan): there is no mean speed exactly when no vertex has four valid pixels around it. -/
theorem speed_mean_none_iff {g : Grid} {junk : Corners} {pts : List Pt} (h : Near g pts) :
    speedMean g junk pts = none ↔ ∀ p ∈ pts.tail, value g p = none := by
  rw [speed_mean_eq h, nanmean_none_iff]
  exact List.forall_mem_map

/-- The same grid with another unit of speed. -/
def scaled (k : Rat) (g : Grid) : Grid := { g with z := fun i j => k * g.z i j }

theorem value_scaled (k : Rat) (g : Grid) (p : Pt) : value (scaled k g) p = (value g p).map (k * ·) := by
  unfold Interp.value scaled
  simp only [Option.map_map]
  have e : ∀ i0 i1 j0 j1, Interp.corners { g with z := fun i j => k * g.z i j } i0 i1 j0 j1 =
      (Interp.corners g i0 i1 j0 j1).map (fun c => ⟨k * c.z00, k * c.z01, k * c.z10, k * c.z11⟩) := by
    intro i0 i1 j0 j1
    unfold Interp.corners
    simp only
    split
    · rfl
    · split <;> rfl
  have w : ∀ i, Interp.wrap { g with z := fun i j => k * g.z i j } i = Interp.wrap g i := fun _ => rfl
  rw [e, w, w, Option.map_map]
  congr 1
  funext c
  simp only [Function.comp, Interp.blend]
  ring

/-- **C144** (unit): with speeds in another unit the mean is the same in this unit. -/
theorem speed_mean_scaled (k : Rat) {g : Grid} {junk junk' : Corners} {pts : List Pt} (h : Near g pts) :
    speedMean (scaled k g) junk' pts = (speedMean g junk pts).map (k * ·) := by
  rw [speed_mean_eq h, speed_mean_eq (g := scaled k g) h, ← nanmean_mul, List.map_map]
  congr 1
  apply List.map_congr_left
  intro p _
  exact value_scaled k g p

/-- **C144** (turn): on a global grid a contour moved by whole turns has the same mean speed. -/
theorem speed_mean_turn {g : Grid} {a d : Rat} (hx : Interp.Regular g.xs a d) (hg : Interp.Global g d) {junk junk' : Corners} (k : Int) {pts : List Pt}
    (h : Near g pts) (h' : Near g (pts.map (fun p => (p.1 + 360 * k, p.2)))) :
    speedMean g junk' (pts.map (fun p => (p.1 + 360 * k, p.2))) = speedMean g junk pts := by
  rw [speed_mean_eq h, speed_mean_eq h', ← List.map_tail, List.map_map]
  congr 1
  apply List.map_congr_left
  intro p _
  exact Interp.bilinear_turn hx hg p k

/-- **C144** (unregular grids): the mean is between the bounds of the speeds of the nodes, and it exists when one vertex has a valid node among its
nearest ones. -/
theorem speed_unregular_between {z : Nat → Option Rat} {near : Pt → List Nat} {pts : List Pt} {lo hi : Rat}
    (hz : ∀ k v, z k = some v → lo ≤ v ∧ v ≤ hi) :
    (∀ r, speedUnregular z near pts = some r → lo ≤ r ∧ r ≤ hi) ∧
      (speedUnregular z near pts = none ↔ ∀ p ∈ pts.tail, ∀ k ∈ near p, z k = none) := by
  unfold speedUnregular
  constructor
  · intro r hr
    refine nanmean_between (fun x hx => ?_) hr
    obtain ⟨p, _, e⟩ := List.mem_map.1 hx
    refine nanmean_between (fun y hy => ?_) e
    obtain ⟨k, _, e⟩ := List.mem_map.1 hy
    exact hz k y e
  · rw [nanmean_none_iff]
    simp only [List.mem_map, forall_exists_index, and_imp, forall_apply_eq_imp_iff₂, nanmean_none_iff]

/-- Four pixels of speeds 1, 2, 3, 4 and a row which is masked. -/
def exGrid : Grid := ⟨[0, 1, 2], [0, 1], fun i j => 1 + i * 2 + j, fun i _ => decide (i = 2)⟩

/-- A closed contour. -/
def exPts : List Pt := [(1 / 2, 1 / 2), (3 / 2, 1 / 2), (1 / 4, 1 / 4), (1 / 2, 1 / 2)]

example : speedMean exGrid ⟨0, 0, 0, 0⟩ exPts = some (17 / 8) ∧ value exGrid (3 / 2, 1 / 2) = none := by decide +kernel

/-! ### C145 -/

variable {κ : Type} {speed : κ → Option Rat} {nb : κ → Nat} {pixelMin : Nat}

/-- The speeds and numbers of pixels seen without nan. -/
def speed' (speed : κ → Option Rat) (c : κ) : Rat := (speed c).getD 0

@[inherit_doc speed']
def nb' (speed : κ → Option Rat) (nb : κ → Nat) (c : κ) : Nat := if (speed c).isNone then 0 else nb c

/-- The same variables. -/
def Same (s : Uavg κ) (t : Detection.Uavg κ) : Prop :=
  s.maxSpeed = some t.maxSpeed ∧ s.selected = t.selected ∧ s.inner = t.inner ∧ s.contours = t.contours ∧ s.iMax = t.iMax ∧ s.iInner = t.iInner

theorem step_same {s : Uavg κ} {t : Detection.Uavg κ} (h : Same s t) (i : Nat) (c : κ) :
    Same (uavgStep speed nb pixelMin i s c) (Detection.uavgStep (speed' speed) (nb' speed nb) pixelMin i t c) := by
  obtain ⟨h1, h2, h3, h4, h5, h6⟩ := h
  unfold uavgStep Detection.uavgStep
  cases hs : speed c with
  | none =>
    have e1 : ¬ (pixelMin < nb c ∧ ge none s.maxSpeed = true) := by simp [ge]
    have e2 : ¬ (pixelMin < nb' speed nb c ∧ speed' speed c ≥ t.maxSpeed) := by simp [nb', hs]
    rw [if_neg e1, if_neg e2]
    exact ⟨h1, h2, rfl, by rw [h4], h5, rfl⟩
  | some v =>
    have e : (pixelMin < nb c ∧ ge (some v) s.maxSpeed = true) ↔ (pixelMin < nb' speed nb c ∧ speed' speed c ≥ t.maxSpeed) := by
      rw [h1]
      simp [nb', speed', hs, ge]
    by_cases hc : pixelMin < nb' speed nb c ∧ speed' speed c ≥ t.maxSpeed
    · rw [if_pos (e.2 hc), if_pos hc]
      exact ⟨by simp [speed', hs], rfl, rfl, by rw [h4], rfl, rfl⟩
    · rw [if_neg (fun h => hc (e.1 h)), if_neg hc]
      exact ⟨h1, h2, rfl, by rw [h4], h5, rfl⟩

theorem loop_same {nearest : Nat → Option κ} {inside : κ → Bool} : ∀ (ls : List Nat) (i : Nat) {s : Uavg κ} {t : Detection.Uavg κ}, Same s t →
    Same (uavgLoop nearest inside speed nb pixelMin ls i s) (Detection.uavgLoop nearest inside (speed' speed) (nb' speed nb) pixelMin ls i t)
  | [], _, _, _, h => h
  | l :: ls, i, s, t, h => by
    unfold uavgLoop Detection.uavgLoop
    cases nearest l with
    | none => exact h
    | some c =>
      simp only
      split
      · exact loop_same ls (i + 1) (step_same h i c)
      · exact h

theorem uavg_same (n : Nat) (nearest : Nat → Option κ) (inside : κ → Bool) {orig : κ} {v : Rat} (ho : speed orig = some v) (anti : Bool) (start : Int) :
    Same (getUavg n nearest inside speed nb orig anti start pixelMin)
      (Detection.getUavg n nearest inside (speed' speed) (nb' speed nb) orig anti start pixelMin) := by
  obtain ⟨h1, h2, h3, h4, h5, h6⟩ := loop_same (speed := speed) (nb := nb) (pixelMin := pixelMin) (nearest := nearest) (inside := inside)
    (Detection.iterFrom n (start + if anti then 1 else -1) anti) 0 (s := ⟨speed orig, orig, orig, [speed orig], [orig], -1, -1⟩)
    (t := ⟨speed' speed orig, orig, orig, [speed' speed orig], [orig], -1, -1⟩) ⟨by simp [speed', ho], rfl, rfl, rfl, rfl, rfl⟩
  unfold getUavg Detection.getUavg
  exact ⟨h1, h2, h3, h4, by simp only [h5], by simp only [h6]⟩

/-- **C145**: when the original contour has a mean speed, the contour chosen has a mean speed, which is the greatest of the mean speeds of the original
one and of the scanned ones with more than `pixelMin` pixels; the contours without mean speed are never chosen unless they are the original. Missing:
the original contour without mean speed (`uavg_nan`). -/
theorem uavg_nan_partial (n pos : Nat) (hp : pos < n) (nearest : Nat → Option κ) (inside : κ → Bool) {orig : κ} {v : Rat} (ho : speed orig = some v)
    (anti : Bool) :
    ∃ vs : List (Nat × κ),
      Detection.Scanned nearest inside (if anti then List.range' (pos + 1) (n - (pos + 1)) else (List.range pos).reverse) vs ∧
      let r := getUavg n nearest inside speed nb orig anti (if anti then (pos : Int) else (pos : Int) - n) pixelMin
      ∃ m, r.maxSpeed = some m ∧ speed r.selected = some m ∧ v ≤ m ∧
        (∀ w ∈ vs, pixelMin < nb w.2 → ∀ x, speed w.2 = some x → x ≤ m) ∧ r.contours = orig :: vs.map (fun w => w.2) ∧
        ∃ l, Py.idx n r.iMax = some l ∧ ((l = pos ∧ r.selected = orig) ∨ ∃ w ∈ vs, w.1 = l ∧ r.selected = w.2 ∧ pixelMin < nb w.2) := by
  obtain ⟨vs, hs, h⟩ := Detection.get_uavg_spec (speed := speed' speed) (nb := nb' speed nb) (pixelMin := pixelMin) n pos hp nearest inside orig anti
  obtain ⟨s1, s2, s3, s4, s5, s6⟩ := uavg_same (nb := nb) (pixelMin := pixelMin) n nearest inside ho anti (if anti then (pos : Int) else (pos : Int) - n)
  simp only at h
  obtain ⟨_, h2, h3, h4, h5, ⟨l, h6, h7⟩, _⟩ := h
  refine ⟨vs, hs, ?_⟩
  simp only
  refine ⟨_, s1, ?_, ?_, ?_, ?_, l, ?_, ?_⟩
  · rw [s2, h3]
    rcases h7 with ⟨_, e⟩ | ⟨w, _, _, e, hw⟩
    · rw [e, ho]; simp [speed', ho]
    · rw [e]
      cases hc : speed w.2 with
      | none => simp [nb', hc] at hw
      | some x => simp [speed', hc]
  · simpa [speed', ho] using h4
  · intro w hw hpix x hx
    have := h5 w hw (by simpa [nb', hx] using hpix)
    simpa [speed', hx] using this
  · rw [s4, h2]
  · rw [s5]; exact h6
  · rw [s2]
    rcases h7 with e | ⟨w, hw, e1, e2, e3⟩
    · exact Or.inl e
    · refine Or.inr ⟨w, hw, e1, e2, ?_⟩
      unfold nb' at e3
      split at e3
      · exact absurd e3 (by omega)
      · exact e3

theorem loop_nan {nearest : Nat → Option κ} {inside : κ → Bool} : ∀ (ls : List Nat) (i : Nat) (s : Uavg κ), s.maxSpeed = none →
    (uavgLoop nearest inside speed nb pixelMin ls i s).maxSpeed = none ∧ (uavgLoop nearest inside speed nb pixelMin ls i s).selected = s.selected ∧
      (uavgLoop nearest inside speed nb pixelMin ls i s).iMax = s.iMax
  | [], _, _, h => ⟨h, rfl, rfl⟩
  | l :: ls, i, s, h => by
    unfold uavgLoop
    cases nearest l with
    | none => exact ⟨h, rfl, rfl⟩
    | some c =>
      simp only
      split
      · have e : uavgStep speed nb pixelMin i s c = ⟨s.maxSpeed, s.selected, c, s.speeds ++ [speed c], s.contours ++ [c], s.iMax, i⟩ := by
          unfold uavgStep
          rw [if_neg]
          rw [h]
          cases speed c <;> simp [ge]
        rw [e]
        exact loop_nan ls (i + 1) _ h
      · exact ⟨h, rfl, rfl⟩

/-- **C145** refuted when the original contour has no mean speed: it is always the one chosen, whatever the speeds of the other ones. -/
theorem uavg_nan (n : Nat) (nearest : Nat → Option κ) (inside : κ → Bool) {orig : κ} (ho : speed orig = none) (anti : Bool) (start : Int) :
    (getUavg n nearest inside speed nb orig anti start pixelMin).maxSpeed = none ∧
      (getUavg n nearest inside speed nb orig anti start pixelMin).selected = orig := by
  obtain ⟨h1, h2, _⟩ := loop_nan (speed := speed) (nb := nb) (pixelMin := pixelMin) (nearest := nearest) (inside := inside)
    (Detection.iterFrom n (start + if anti then 1 else -1) anti) 0 ⟨speed orig, orig, orig, [speed orig], [orig], -1, -1⟩ ho
  exact ⟨h1, h2⟩

/-- A contour of level 1 with a speed in the original contour which has none. -/
theorem uavg_nan_wrong : (getUavg 2 (fun l => some l) (fun _ => true) (fun c => if c = 1 then some 5 else none) (fun _ => 10) 0 true 0 3).selected = 0 ∧
    (getUavg 2 (fun l => some l) (fun _ => true) (fun c => if c = 1 then some 5 else none) (fun _ => 10) 0 true 0 3).speeds = [none, some 5] := by
  decide +kernel

/-- The same variables with speeds multiplied by `k`. -/
def Times (k : Rat) (s t : Uavg κ) : Prop :=
  t.maxSpeed = s.maxSpeed.map (k * ·) ∧ t.speeds = s.speeds.map (Option.map (k * ·)) ∧ s.selected = t.selected ∧ s.inner = t.inner ∧
    s.contours = t.contours ∧ s.iMax = t.iMax ∧ s.iInner = t.iInner

theorem ge_times {k : Rat} (hk : 0 < k) (a b : Option Rat) : ge (a.map (k * ·)) (b.map (k * ·)) = ge a b := by
  cases a <;> cases b <;> simp [ge, mul_le_mul_iff_right₀ hk]

theorem loop_times {k : Rat} (hk : 0 < k) {nearest : Nat → Option κ} {inside : κ → Bool} : ∀ (ls : List Nat) (i : Nat) {s t : Uavg κ}, Times k s t →
    Times k (uavgLoop nearest inside speed nb pixelMin ls i s) (uavgLoop nearest inside (fun c => (speed c).map (k * ·)) nb pixelMin ls i t)
  | [], _, _, _, h => h
  | l :: ls, i, s, t, h => by
    unfold uavgLoop
    cases nearest l with
    | none => exact h
    | some c =>
      simp only
      split
      · apply loop_times hk ls (i + 1)
        obtain ⟨h1, h2, h3, h4, h5, h6, h7⟩ := h
        unfold uavgStep
        simp only [h1, ge_times hk]
        split
        · exact ⟨rfl, by simp [h2], rfl, rfl, by rw [h5], rfl, rfl⟩
        · exact ⟨rfl, by simp [h2], h3, rfl, by rw [h5], h6, rfl⟩
      · exact h

/-- **C145** (unit): with velocities in another unit the same contours are chosen, with the speeds in this unit. -/
theorem uavg_unit {k : Rat} (hk : 0 < k) (n : Nat) (nearest : Nat → Option κ) (inside : κ → Bool) (orig : κ) (anti : Bool) (start : Int) :
    Times k (getUavg n nearest inside speed nb orig anti start pixelMin)
      (getUavg n nearest inside (fun c => (speed c).map (k * ·)) nb orig anti start pixelMin) := by
  obtain ⟨h1, h2, h3, h4, h5, h6, h7⟩ := loop_times (speed := speed) (nb := nb) (pixelMin := pixelMin) (nearest := nearest) (inside := inside) hk
    (Detection.iterFrom n (start + if anti then 1 else -1) anti) 0 (s := ⟨speed orig, orig, orig, [speed orig], [orig], -1, -1⟩)
    (t := ⟨(speed orig).map (k * ·), orig, orig, [(speed orig).map (k * ·)], [orig], -1, -1⟩) ⟨rfl, rfl, rfl, rfl, rfl, rfl, rfl⟩
  unfold getUavg
  exact ⟨h1, h2, h3, h4, h5, by simp only [h6], by simp only [h7]⟩

example : (getUavg 4 (fun l => some l) (fun _ => true) (fun c => if c = 2 then none else some (c : Rat)) (fun _ => 10) 0 true 0 3).selected = 3 := by
  decide +kernel

end Verif.Speed
