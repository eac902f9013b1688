import Verif.Poly.Indexs

/-!
# C78: particles meshed in contours

Model of `create_meshed_particles` (src/py_eddy_tracker/poly.py) and its properties. Coordinates are exact rationals.
-/

namespace Verif.Poly

/-! ### Model -/

/-- `while x <= hi: ...; x += step` (poly.py:303-309): values of the variable. -/
def walk (step hi : Rat) : Nat → Rat → List Rat
  | 0, _ => []
  | fuel + 1, x => if x ≤ hi then x :: walk step hi fuel (x + step) else []

/-- Number of tests after which the loop is over (`walk_fuel`). -/
def turns (step lo hi : Rat) : Nat := (⌊(hi - lo) / step⌋ + 2).toNat

/-- The two loops for one contour, poly.py:299-309; `c` is the contour, `v` the one without its padding. -/
def meshOne (step : Rat) (c v : List Pt) : List Pt :=
  let lonMin := minR (c.map (·.1)); let lonMax := maxR (c.map (·.1))
  let latMin := minR (c.map (·.2)); let latMax := maxR (c.map (·.2))
  let y0 := latMin - Py.fmod latMin step
  let x0 := lonMin - Py.fmod lonMin step
  (walk step lonMax (turns step x0 lonMax) x0).flatMap (fun x =>
    ((walk step latMax (turns step y0 latMax) y0).filter (fun y => decide (winding (x, y) v ≠ 0))).map (fun y => (x, y)))

/-- Loop on the contours, poly.py:296-298. -/
def meshLoop (step : Rat) : Nat → List (List Pt) → Option (List (Pt × Nat))
  | _, [] => some []
  | i, c :: l =>
    (reduceSize c).bind (fun v => (meshLoop step (i + 1) l).map (fun r => (meshOne step c v).map (fun p => (p, i)) ++ r))

/-- `create_meshed_particles`, poly.py:293-310: `x_out, y_out, i_out`. -/
def meshedParticles (step : Rat) (contours : List (List Pt)) : Option (List (Pt × Nat)) := meshLoop step 0 contours

/-! ### Specification -/

/-- A point of the lattice of the step. -/
def OnMesh (step : Rat) (p : Pt) : Prop := ∃ a b : Int, p = (step * a, step * b)

/-! ### Lemmas -/

theorem turns_enough {step lo hi : Rat} (hs : 0 < step) : hi < lo + step * turns step lo hi := by
  have h1 := Int.lt_floor_add_one ((hi - lo) / step)
  have h2 : (⌊(hi - lo) / step⌋ + 2 : Int) ≤ ((turns step lo hi : Nat) : Int) := Int.self_le_toNat _
  have h3 : ((⌊(hi - lo) / step⌋ : Int) : Rat) + 2 ≤ (turns step lo hi : Rat) := by exact_mod_cast h2
  have h4 : (hi - lo) / step < turns step lo hi := by linarith
  rw [div_lt_iff₀ hs] at h4
  linarith

theorem walk_mem {step hi : Rat} (hs : 0 < step) : ∀ (fuel : Nat) (lo : Rat), hi < lo + step * fuel → ∀ z : Rat,
    z ∈ walk step hi fuel lo ↔ (∃ k : Nat, z = lo + step * k) ∧ z ≤ hi
  | 0, lo, h, z => by
    simp only [walk, List.not_mem_nil, false_iff]
    rintro ⟨⟨k, rfl⟩, hk⟩
    have : (0 : Rat) ≤ k := Nat.cast_nonneg k
    have := mul_nonneg hs.le this
    push_cast at h
    linarith
  | fuel + 1, lo, h, z => by
    rw [walk]
    by_cases hle : lo ≤ hi
    · rw [if_pos hle, List.mem_cons, walk_mem hs fuel (lo + step) (by push_cast at h; linarith) z]
      constructor
      · rintro (rfl | ⟨⟨k, rfl⟩, hk⟩)
        · exact ⟨⟨0, by simp⟩, hle⟩
        · exact ⟨⟨k + 1, by push_cast; ring⟩, hk⟩
      · rintro ⟨⟨k, rfl⟩, hk⟩
        cases k with
        | zero => exact Or.inl (by simp)
        | succ k => exact Or.inr ⟨⟨k, by push_cast; ring⟩, hk⟩
    · rw [if_neg hle]
      simp only [List.not_mem_nil, false_iff]
      rintro ⟨⟨k, rfl⟩, hk⟩
      have : (0 : Rat) ≤ k := Nat.cast_nonneg k
      have := mul_nonneg hs.le this
      linarith

theorem walk_sorted {step hi : Rat} (hs : 0 < step) : ∀ (fuel : Nat) (lo : Rat), (walk step hi fuel lo).Pairwise (· < ·) ∧ ∀ z ∈ walk step hi fuel lo, lo ≤ z
  | 0, lo => by simp [walk]
  | fuel + 1, lo => by
    rw [walk]
    obtain ⟨h1, h2⟩ := walk_sorted (hi := hi) hs fuel (lo + step)
    by_cases hle : lo ≤ hi
    · rw [if_pos hle]
      refine ⟨List.pairwise_cons.2 ⟨fun z hz => by have := h2 z hz; linarith, h1⟩, fun z hz => ?_⟩
      rcases List.mem_cons.1 hz with rfl | hz
      · exact le_refl _
      · have := h2 z hz
        linarith
    · rw [if_neg hle]
      simp

/-- The fuel of `walk` is no limit: with more of it the values are the same. -/
theorem walk_fuel {step hi : Rat} : ∀ (fuel extra : Nat) (lo : Rat), hi < lo + step * fuel → 0 < step →
    walk step hi (fuel + extra) lo = walk step hi fuel lo
  | 0, 0, _, _, _ => rfl
  | 0, extra + 1, lo, h, _ => by
    rw [Nat.zero_add, walk, walk, if_neg]
    push_cast at h
    linarith
  | fuel + 1, extra, lo, h, hs => by
    rw [show fuel + 1 + extra = (fuel + extra) + 1 by omega, walk, walk, walk_fuel fuel extra (lo + step) (by push_cast at h; linarith) hs]

/-- The values of a loop which starts at the lattice point before `lo`: the lattice points up to `hi`. -/
theorem walk_lattice {step lo hi : Rat} (hs : 0 < step) (z : Rat) :
    z ∈ walk step hi (turns step (lo - Py.fmod lo step) hi) (lo - Py.fmod lo step) ↔ (∃ k : Int, z = step * k) ∧ lo - Py.fmod lo step ≤ z ∧ z ≤ hi := by
  obtain ⟨_, _, m, hm⟩ := Py.fmod_spec lo hs
  rw [walk_mem hs _ _ (turns_enough hs) z]
  have hst : lo - Py.fmod lo step = step * ((-m : Int) : Rat) := by rw [hm]; push_cast; ring
  rw [hst]
  constructor
  · rintro ⟨⟨k, rfl⟩, hk⟩
    refine ⟨⟨-m + k, by push_cast; ring⟩, ?_, hk⟩
    have : (0 : Rat) ≤ k := Nat.cast_nonneg k
    have := mul_nonneg hs.le this
    linarith
  · rintro ⟨⟨k, rfl⟩, h1, h2⟩
    refine ⟨⟨(k + m).toNat, ?_⟩, h2⟩
    have h3 : ((-m : Int) : Rat) ≤ (k : Rat) := le_of_mul_le_mul_left h1 hs
    have h4 : -m ≤ k := by exact_mod_cast h3
    have h5 : (((k + m).toNat : Nat) : Int) = k + m := Int.toNat_of_nonneg (by omega)
    have h6 : (((k + m).toNat : Nat) : Rat) = (k : Rat) + m := by exact_mod_cast h5
    rw [h6]
    push_cast
    ring

theorem meshOne_mem {step : Rat} (hs : 0 < step) {c v : List Pt} (hred : reduceSize c = some v) (p : Pt) :
    p ∈ meshOne step c v ↔ OnMesh step p ∧ winding p c ≠ 0 := by
  have hwin : ∀ q, winding q v = winding q c := reduce_size_winding hred
  unfold meshOne
  simp only [List.mem_flatMap, List.mem_map, List.mem_filter, decide_eq_true_eq]
  constructor
  · rintro ⟨x, hx, y, ⟨hy, hw⟩, rfl⟩
    obtain ⟨⟨a, rfl⟩, _⟩ := (walk_lattice hs x).1 hx
    obtain ⟨⟨b, rfl⟩, _⟩ := (walk_lattice hs y).1 hy
    exact ⟨⟨a, b, rfl⟩, by rwa [hwin] at hw⟩
  · rintro ⟨⟨a, b, rfl⟩, hw⟩
    have bx : ¬ OutsideBox (step * (a : Rat), step * (b : Rat)) c := fun h' => hw (winding_outside_box h')
    unfold OutsideBox at bx
    push Not at bx
    obtain ⟨⟨u1, hu1, g1⟩, ⟨u2, hu2, g2⟩, ⟨u3, hu3, g3⟩, ⟨u4, hu4, g4⟩⟩ := bx
    have hne1 : c.map (·.1) ≠ [] := by
      intro h0
      rw [List.map_eq_nil_iff] at h0
      rw [h0] at hu1
      cases hu1
    have hne2 : c.map (·.2) ≠ [] := by
      intro h0
      rw [List.map_eq_nil_iff] at h0
      rw [h0] at hu1
      cases hu1
    have m1 := (minR_spec hne1).2 _ (List.mem_map.2 ⟨u1, hu1, rfl⟩)
    have m2 := (maxR_spec hne1).2 _ (List.mem_map.2 ⟨u2, hu2, rfl⟩)
    have m3 := (minR_spec hne2).2 _ (List.mem_map.2 ⟨u3, hu3, rfl⟩)
    have m4 := (maxR_spec hne2).2 _ (List.mem_map.2 ⟨u4, hu4, rfl⟩)
    have f1 := (Py.fmod_spec (minR (c.map (·.1))) hs).1
    have f2 := (Py.fmod_spec (minR (c.map (·.2))) hs).1
    simp only at g1 g2 g3 g4
    refine ⟨step * a, (walk_lattice hs _).2 ⟨⟨a, rfl⟩, ?_, ?_⟩, step * b, ⟨(walk_lattice hs _).2 ⟨⟨b, rfl⟩, ?_, ?_⟩, ?_⟩, rfl⟩
    · linarith
    · linarith
    · linarith
    · linarith
    · rw [hwin]; exact hw

theorem meshOne_nodup {step : Rat} (hs : 0 < step) (c v : List Pt) : (meshOne step c v).Nodup := by
  unfold meshOne
  simp only
  rw [List.nodup_flatMap]
  refine ⟨fun x _ => ?_, ?_⟩
  · refine List.Nodup.map (fun y z h => (Prod.mk.inj h).2) (List.Nodup.filter _ ?_)
    exact (walk_sorted hs _ _).1.imp (fun h => ne_of_lt h)
  · refine (walk_sorted hs _ _).1.imp (fun {x z} hlt => ?_)
    intro p hp hq
    obtain ⟨y, _, rfl⟩ := List.mem_map.1 hp
    obtain ⟨y', _, e⟩ := List.mem_map.1 hq
    have := (Prod.mk.inj e).1
    linarith

theorem meshLoop_spec {step : Rat} (hs : 0 < step) : ∀ (contours : List (List Pt)) (i : Nat), (∀ c ∈ contours, ∃ u ∈ c, ∃ w ∈ c, u ≠ w) →
    ∃ out, meshLoop step i contours = some out ∧ out.Nodup ∧ ∀ (p : Pt) (m : Nat), (p, m) ∈ out ↔
      ∃ n : Nat, m = i + n ∧ ∃ c, contours[n]? = some c ∧ OnMesh step p ∧ winding p c ≠ 0
  | [], i, _ => ⟨[], rfl, List.nodup_nil, fun p m => by simp⟩
  | c :: l, i, hv => by
    obtain ⟨v, hred, _⟩ := reduce_of_varied (hv c (by simp))
    obtain ⟨r, hr, nd, hmem⟩ := meshLoop_spec hs l (i + 1) (fun d hd => hv d (by simp [hd]))
    refine ⟨(meshOne step c v).map (fun p => (p, i)) ++ r, by rw [meshLoop, hred, Option.bind_some, hr, Option.map_some], ?_, ?_⟩
    · rw [List.nodup_append]
      refine ⟨List.Nodup.map (fun p q h => (Prod.mk.inj h).1) (meshOne_nodup hs c v), nd, ?_⟩
      intro a ha b hb hab
      subst hab
      obtain ⟨p, _, rfl⟩ := List.mem_map.1 ha
      obtain ⟨n, hn, _⟩ := (hmem p i).1 hb
      omega
    · intro p m
      rw [List.mem_append, hmem p m]
      constructor
      · rintro (h | ⟨n, rfl, d, hd, h1⟩)
        · obtain ⟨q, hq, e⟩ := List.mem_map.1 h
          obtain ⟨rfl, rfl⟩ := Prod.mk.inj e
          exact ⟨0, rfl, c, rfl, (meshOne_mem hs hred q).1 hq⟩
        · exact ⟨n + 1, by omega, d, by simpa using hd, h1⟩
      · rintro ⟨n, rfl, d, hd, h1⟩
        cases n with
        | zero =>
          simp only [List.getElem?_cons_zero, Option.some.injEq] at hd
          subst hd
          exact Or.inl (List.mem_map.2 ⟨p, (meshOne_mem hs hred p).2 h1, rfl⟩)
        | succ n => exact Or.inr ⟨n, by omega, d, by simpa using hd, h1⟩

/-! ### C78 -/

/-- **C78**: the particles are exactly the points of the lattice of the step which are inside a contour, each one once by contour, with the
row of its contour. Missing: a contour with all its vertices equal, see `mesh_point_undefined`. -/
theorem meshed_particles_partial {step : Rat} (hs : 0 < step) (contours : List (List Pt)) (hv : ∀ c ∈ contours, ∃ u ∈ c, ∃ w ∈ c, u ≠ w) :
    ∃ out, meshedParticles step contours = some out ∧ out.Nodup ∧ ∀ (p : Pt) (i : Nat), (p, i) ∈ out ↔
      ∃ c, contours[i]? = some c ∧ OnMesh step p ∧ winding p c ≠ 0 := by
  obtain ⟨out, h1, h2, h3⟩ := meshLoop_spec hs contours 0 hv
  refine ⟨out, h1, h2, fun p i => ?_⟩
  rw [h3 p i]
  constructor
  · rintro ⟨n, rfl, h⟩
    rwa [Nat.zero_add]
  · intro h
    exact ⟨i, (Nat.zero_add i).symm, h⟩

/-- Two contours which have the same lattice point inside get one particle each there: the mesh does not depend on the contour. -/
theorem mesh_common {step : Rat} (hs : 0 < step) {contours : List (List Pt)} (hv : ∀ c ∈ contours, ∃ u ∈ c, ∃ w ∈ c, u ≠ w) {out : List (Pt × Nat)}
    (h : meshedParticles step contours = some out) {p : Pt} {i j : Nat} (hi : (p, i) ∈ out) {c : List Pt} (hj : contours[j]? = some c)
    (hw : winding p c ≠ 0) : (p, j) ∈ out := by
  obtain ⟨out', h1, _, h3⟩ := meshed_particles_partial hs contours hv
  obtain rfl : out' = out := Option.some.inj (h1.symm.trans h)
  obtain ⟨_, _, hm, _⟩ := (h3 p i).1 hi
  exact (h3 p j).2 ⟨c, hj, hm, hw⟩

/-- A contour reduced to a point: the array of vertices is left. -/
theorem mesh_point_undefined (step : Rat) (a : Pt) (n : Nat) (l : List (List Pt)) : meshedParticles step (List.replicate n a :: l) = none := by
  unfold meshedParticles
  rw [meshLoop, reduce_size_constant]
  rfl

/-- Two squares and a step of one degree. -/
example : meshedParticles 1 [[(1 / 2, 1 / 2), (5 / 2, 1 / 2), (5 / 2, 3 / 2), (1 / 2, 3 / 2)]] = some [((1, 1), 0), ((2, 1), 0)] := by
  decide +kernel

end Verif.Poly
