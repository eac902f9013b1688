import Verif.Trackers.Region
import Verif.Trackers.Run
import Verif.Matching.Chelton

/-!
# C215: the links of the tracker of Chelton depend on the observations around only

The tracker of Chelton (src/py_eddy_tracker/featured_tracking/old_tracker_reference.py:17-76), on two datasets and in the loop of
src/py_eddy_tracker/tracking.py:365-403.
-/

namespace Verif.Trackers

open Verif.Match Verif.Tracking Verif.Tracking.Region Matching

/-! ### Specification -/

open Classical in
/-- The two observations would be linked if they were alone. -/
noncomputable def lone (g : Ground) (p q : Obs) : Bool := decide (cheltonTracking g [p] [q] = some [(0, 0)])

/-- The great-circle distance of two observations. -/
noncomputable def far (p q : Obs) : ℝ := Sphere.distance p.lon p.lat q.lon q.lat

/-- Observations of positive sizes, without repetition; an observation has no two possible followers at the same distance, and an observation no two possible
predecessors of the same amplitude. -/
structure Clear (g : Ground) (A B : List Obs) : Prop where
  size : ∀ p ∈ A, 0 < p.amp ∧ 0 < p.rad
  nodup0 : A.Nodup
  nodup1 : B.Nodup
  dist : ∀ p ∈ A, ∀ q ∈ B, ∀ q' ∈ B, lone g p q = true → lone g p q' = true → far p q = far p q' → q = q'
  amp : ∀ p ∈ A, ∀ p' ∈ A, ∀ q ∈ B, lone g p q = true → lone g p' q = true → p.amp = p'.amp → p = p'

/-- `q` is the nearest possible follower of `p`. -/
def Follows (g : Ground) (B : List Obs) (p q : Obs) : Prop :=
  q ∈ B ∧ lone g p q = true ∧ ∀ q' ∈ B, lone g p q' = true → far p q ≤ far p q'

/-- `q` is the nearest possible follower of `p`, and `p` the one of the largest amplitude of those with this nearest follower. -/
def Followed (g : Ground) (A B : List Obs) (p q : Obs) : Prop :=
  p ∈ A ∧ Follows g B p q ∧ ∀ p' ∈ A, Follows g B p' q → p'.amp ≤ p.amp

/-! ### The ground, couple by couple -/

/-- The pixels of the path of a couple. -/
def line (nb : Int) (s : PixelPath.Segment) : List (Int × Int) := ((PixelPath.path nb s).getD []).map (fun x => (x.1 % nb, x.2))

/-- No pixel of ground on the path. -/
def freePath (g : Ground) (p q : Obs) : Bool := (line g.nx (ends g p q)).all (fun x => !g.land x)

theorem line_length (nb : Int) (s : PixelPath.Segment) : (line nb s).length = PixelPath.dMax nb s + 1 := by
  obtain ⟨f, hf⟩ := PixelPath.path_shape nb s
  simp [line, hf.path]

theorem pixel_path_lines (nb : Int) : ∀ l : List PixelPath.Segment, PixelPath.pixelPath nb l = some ((l.map (line nb)).flatten, l.map (PixelPath.dMax nb)) := by
  have hm : ∀ l : List PixelPath.Segment, l.mapM (PixelPath.path nb) = some (l.map (fun s => (PixelPath.path nb s).getD [])) := by
    intro l
    induction l with
    | nil => rfl
    | cons s l ih =>
      obtain ⟨f, hf⟩ := PixelPath.path_shape nb s
      rw [List.mapM_cons, ih, hf.path, List.map_cons, hf.path]
      rfl
  intro l
  unfold PixelPath.pixelPath
  simp only [hm, Option.some.injEq, Prod.mk.injEq, and_true]
  rw [List.map_flatten, List.map_map]
  rfl

theorem across_exact (g : Ground) (couples : List (Obs × Obs)) : acrossGround g couples = some (couples.map (fun c => freePath g c.1 c.2)) := by
  obtain ⟨ps, hps⟩ : ∃ ps, ps = couples.map (fun c => line g.nx (ends g c.1 c.2)) := ⟨_, rfl⟩
  have e : PixelPath.pixelPath g.nx (couples.map (fun c => ends g c.1 c.2)) =
      some (ps.flatten, (couples.map (fun c => ends g c.1 c.2)).map (PixelPath.dMax g.nx)) := by
    rw [pixel_path_lines, List.map_map, hps]
    rfl
  have hlen : ps.length = couples.length := by rw [hps, List.length_map]
  have hcount : ((couples.map (fun c => ends g c.1 c.2)).map (PixelPath.dMax g.nx)).map (· + 1) = ps.map List.length := by
    rw [hps, List.map_map, List.map_map, List.map_map]
    refine List.map_congr_left (fun c _ => ?_)
    simp only [Function.comp, line_length]
  unfold acrossGround
  simp only [e, hcount, Option.some.injEq]
  apply List.ext_getElem?
  intro k
  by_cases hk : k < couples.length
  · rw [List.getElem?_map, List.getElem?_map, List.getElem?_range hk, List.getElem?_eq_getElem hk]
    simp only [Option.map_some, Option.some.injEq]
    have hkp : k < ps.length := by omega
    have hpk : ps[k]? = some ps[k] := List.getElem?_eq_getElem hkp
    have hline : ps[k] = line g.nx (ends g couples[k].1 couples[k].2) := by simp [hps]
    have hmem : k ∈ Py.unique (Py.select (ps.flatten.map g.land) (Py.rep (List.range couples.length) (ps.map List.length))) ↔
        ∃ x ∈ ps[k], g.land x = true := by
      rw [Py.mem_unique, List.range_eq_range', ← hlen, mem_select_rep]
      constructor
      · rintro ⟨i, p', e1, e2, h⟩
        rw [Nat.zero_add] at e2
        subst e2
        rw [hpk] at e1
        injection e1 with e1
        subst e1
        exact h
      · exact fun h => ⟨k, ps[k], hpk, by omega, h⟩
    generalize Py.unique (Py.select (ps.flatten.map g.land) (Py.rep (List.range couples.length) (ps.map List.length))) = u at hmem
    unfold freePath
    rw [← hline]
    by_cases hg : ∃ x ∈ ps[k], g.land x = true
    · have h := scatter_mem (u.map (fun k => (k, false))) (fun _ => true) k ⟨(k, false), List.mem_map.2 ⟨k, hmem.2 hg, rfl⟩, rfl⟩
      obtain ⟨k', _, hk'⟩ := List.mem_map.1 h
      injection hk' with _ hk'
      rw [← hk']
      obtain ⟨x, hx, hl⟩ := hg
      symm
      rw [List.all_eq_false]
      exact ⟨x, hx, by simp [hl]⟩
    · rw [scatter_of_not_mem _ _ _ (by
        intro w hw hwk
        obtain ⟨k', hk2, rfl⟩ := List.mem_map.1 hw
        simp only at hwk
        subst hwk
        exact hg (hmem.1 hk2))]
      symm
      rw [List.all_eq_true]
      intro x hx
      cases hl : g.land x with
      | false => rfl
      | true => exact absurd ⟨x, hx, hl⟩ hg
  · rw [List.getElem?_eq_none (by simpa using hk), List.getElem?_eq_none (by simpa using hk)]

/-! ### The mask, couple by couple -/

theorem mask_exact (g : Ground) (self_ other : List Obs) (ha : ∀ p ∈ self_, 0 < p.amp ∧ 0 < p.rad) :
    ∃ m, cheltonMask g self_ other = some m ∧
      ∀ i j, m i j = true ↔ ∃ p q, self_[i]? = some p ∧ other[j]? = some q ∧ Near p q ∧ freePath g p q = true := by
  obtain ⟨rows, e, hrows⟩ := near_mask_spec self_ other ha
  obtain ⟨m, hm⟩ : ∃ m : Nat → Nat → Bool, m = fun i j => ((rows[i]?).bind (fun r => r[j]?)).getD false := ⟨_, rfl⟩
  have hmi : ∀ i j, m i j = true ↔ ∃ p q, self_[i]? = some p ∧ other[j]? = some q ∧ Near p q := by rw [hm]; exact hrows
  obtain ⟨closest, hcl⟩ : ∃ c, c = Matching.whereMask self_.length other.length m := ⟨_, rfl⟩
  have hmem : ∀ i j, (i, j) ∈ closest ↔ m i j = true := by
    intro i j
    rw [hcl, Matching.mem_whereMask]
    constructor
    · exact fun h => h.2.2
    · intro h
      obtain ⟨p, q, e1, e2, _⟩ := (hmi i j).1 h
      exact ⟨(List.getElem?_eq_some_iff.1 e1).1, (List.getElem?_eq_some_iff.1 e2).1, h⟩
  have hnd : closest.Nodup := hcl ▸ Matching.whereMask_nodup _ _ _
  obtain ⟨pair, hpair⟩ : ∃ f : Nat × Nat → Option (Obs × Obs), f = fun c =>
    (self_[c.1]?).bind (fun p => (other[c.2]?).map (fun q => (p, q))) := ⟨_, rfl⟩
  have hps : ∀ c ∈ closest, ∃ x, pair c = some x := by
    intro c hc
    obtain ⟨p, q, e1, e2, _⟩ := (hmi c.1 c.2).1 ((hmem _ _).1 hc)
    exact ⟨(p, q), by rw [hpair]; simp [e1, e2]⟩
  have hfm : ∀ cl : List (Nat × Nat), (∀ c ∈ cl, ∃ x, pair c = some x) →
      (cl.filterMap pair).length = cl.length ∧ ∀ (k : Nat) c, cl[k]? = some c → (cl.filterMap pair)[k]? = pair c := by
    intro cl
    induction cl with
    | nil => simp
    | cons c cl ih =>
      intro h
      obtain ⟨x, hx⟩ := h c List.mem_cons_self
      obtain ⟨i1, i2⟩ := ih (fun d hd => h d (List.mem_cons_of_mem _ hd))
      rw [List.filterMap_cons_some hx]
      refine ⟨by simp [i1], fun k d hd => ?_⟩
      cases k with
      | zero =>
        simp only [List.getElem?_cons_zero, Option.some.injEq] at hd ⊢
        rw [← hd, hx]
      | succ k => simpa using i2 k d (by simpa using hd)
  obtain ⟨hl1, hl2⟩ := hfm closest hps
  obtain ⟨free, hfree⟩ : ∃ f, f = (closest.filterMap pair).map (fun c => freePath g c.1 c.2) := ⟨_, rfl⟩
  have ef : acrossGround g (closest.filterMap pair) = some free := by rw [hfree]; exact across_exact g _
  have hlf : free.length = closest.length := by rw [hfree, List.length_map, hl1]
  have hmask : cheltonMask g self_ other = some (setCells m (closest.zip free)) := by
    unfold cheltonMask
    simp only [e, Option.bind_eq_bind, Option.bind_some, ← hm, ← hcl, ← hpair, ef]
  have hz : (closest.zip free).map (·.1) = closest := by
    rw [show (fun c : (Nat × Nat) × Bool => c.1) = Prod.fst from rfl, List.map_fst_zip (by omega)]
  have hval : ∀ i j, m i j = true → ∃ (k : Nat) (b : Bool), closest[k]? = some (i, j) ∧ free[k]? = some b ∧ setCells m (closest.zip free) i j = b := by
    intro i j h
    obtain ⟨k, hk⟩ := List.getElem?_of_mem ((hmem i j).2 h)
    have hk' := (List.getElem?_eq_some_iff.1 hk).1
    have hfk : free[k]? = some free[k] := List.getElem?_eq_getElem (by omega)
    refine ⟨k, free[k], hk, hfk, ?_⟩
    have hin : ((i, j), free[k]) ∈ closest.zip free := by
      apply List.mem_of_getElem? (i := k)
      rw [List.getElem?_zip_eq_some]
      exact ⟨hk, hfk⟩
    exact setCells_at _ m (by rw [hz]; exact hnd) _ hin
  have hoth : ∀ i j, m i j = false → setCells m (closest.zip free) i j = false := by
    intro i j h
    rw [setCells_other, h]
    intro c hc he
    have : (i, j) ∈ closest := by
      rw [← hz]
      exact List.mem_map.2 ⟨c, hc, he⟩
    rw [hmem, h] at this
    exact absurd this (by simp)
  refine ⟨_, hmask, fun i j => ?_⟩
  constructor
  · intro h
    cases hmij : m i j with
    | false => rw [hoth i j hmij] at h; exact absurd h (by simp)
    | true =>
      obtain ⟨p, q, e1, e2, hN⟩ := (hmi i j).1 hmij
      obtain ⟨k, b, hk, hb, hv⟩ := hval i j hmij
      have hpq : (closest.filterMap pair)[k]? = some (p, q) := by
        rw [hl2 k _ hk, hpair]
        simp [e1, e2]
      rw [hfree, List.getElem?_map, hpq] at hb
      injection hb with hb
      exact ⟨p, q, e1, e2, hN, by rw [show freePath g p q = b from hb, ← hv]; exact h⟩
  · rintro ⟨p, q, e1, e2, hN, hF⟩
    have hmij := (hmi i j).2 ⟨p, q, e1, e2, hN⟩
    obtain ⟨k, b, hk, hb, hv⟩ := hval i j hmij
    have hpq : (closest.filterMap pair)[k]? = some (p, q) := by
      rw [hl2 k _ hk, hpair]
      simp [e1, e2]
    rw [hfree, List.getElem?_map, hpq] at hb
    injection hb with hb
    rw [hv, ← hb]
    exact hF

/-! ### The links -/

/-- The links of any two datasets with rows, before the spec of the ties: `trackingChelton` on the exact mask. -/
theorem chelton_form (g : Ground) {A B : List Obs} (ha : ∀ p ∈ A, 0 < p.amp ∧ 0 < p.rad) :
    ∃ (m : Nat → Nat → Bool) (dist : Nat → Nat → Option ℝ),
      (∀ i j, m i j = true ↔ ∃ p q, A[i]? = some p ∧ B[j]? = some q ∧ Near p q ∧ freePath g p q = true) ∧
      (∀ i j p q, A[i]? = some p → B[j]? = some q → Near p q → dist i j = some (far p q / 1000)) ∧
      cheltonTracking g A B = (match trackingChelton A.length B.length m dist (fun i => (((A[i]?).map (·.amp)).getD 0 : Rat)) with
        | .ok links => some links
        | .error _ => none) := by
  obtain ⟨m, em, hm⟩ := mask_exact g A B ha
  refine ⟨m, fun i j => (A[i]?).bind (fun p => (B[j]?).bind (fun q => Sphere.gridCell p.lon p.lat q.lon q.lat)), hm, ?_, ?_⟩
  · intro i j p q e1 e2 h
    simp only [e1, e2, Option.bind_some, near_cell h]
    rfl
  · unfold cheltonTracking
    simp only [em, Option.bind_some]
    rfl

theorem lone_iff {g : Ground} {p q : Obs} (hp : 0 < p.amp ∧ 0 < p.rad) : lone g p q = true ↔ Near p q ∧ freePath g p q = true := by
  obtain ⟨m, dist, hm, hd, e⟩ := chelton_form g (A := [p]) (B := [q]) (by simpa using hp)
  have hdom : ∀ i j, m i j = true → i < [p].length ∧ j < [q].length := by
    intro i j h
    obtain ⟨_, _, e1, e2, _⟩ := (hm i j).1 h
    exact ⟨(List.getElem?_eq_some_iff.1 e1).1, (List.getElem?_eq_some_iff.1 e2).1⟩
  obtain ⟨links, f, n1, n2, c1, c2⟩ := tracking_chelton_one_to_one [p].length [q].length m dist (fun i => ((([p][i]?).map (·.amp)).getD 0 : Rat))
    (by simp) (by simp) hdom
    (fun i j h => by
      obtain ⟨p', q', e1, e2, h, _⟩ := (hm i j).1 h
      exact ⟨_, hd i j p' q' e1 e2 h⟩)
  rw [f] at e
  have hm0 : m 0 0 = true ↔ Near p q ∧ freePath g p q = true := by
    rw [hm]
    constructor
    · rintro ⟨p', q', e1, e2, h⟩
      injection e1 with e1
      injection e2 with e2
      subst e1 e2
      exact h
    · exact fun h => ⟨p, q, rfl, rfl, h⟩
  unfold lone
  rw [decide_eq_true_iff, ← hm0, e]
  constructor
  · intro h
    injection h with h
    exact (c1 (0, 0) (by rw [h]; exact List.mem_cons_self)).1
  · intro h
    obtain ⟨l, hl, _⟩ := c2 0 ⟨0, h⟩
    have hall : ∀ x ∈ links, x = (0, 0) := by
      intro x hx
      obtain ⟨x1, x2⟩ := hdom _ _ (c1 x hx).1
      simp only [List.length_singleton, Nat.lt_one_iff] at x1 x2
      exact Prod.ext x1 x2
    match links, hl, n1, hall with
    | [], hl, _, _ => cases hl
    | [x], _, _, hall => rw [hall x List.mem_cons_self]
    | x :: y :: r, _, n1, hall =>
      rw [hall x List.mem_cons_self, hall y (List.mem_cons_of_mem _ List.mem_cons_self)] at n1
      simp at n1

/-- **C215** the links of the tracker of Chelton: those of the spec exactly, without repetition, in the order of the rows. -/
theorem chelton_links {g : Ground} {A B : List Obs} (h : Clear g A B) (hA : A ≠ []) (hB : B ≠ []) :
    ∃ links, cheltonTracking g A B = some links ∧ links.Pairwise (fun a b => a.1 < b.1) ∧ (∀ m ∈ links, m.1 < A.length ∧ m.2 < B.length) ∧
      (links.filterMap (obsOf A B)).Nodup ∧ ∀ p q, (p, q) ∈ links.filterMap (obsOf A B) ↔ Followed g A B p q := by
  obtain ⟨m, dist, hm, hd, e⟩ := chelton_form g (A := A) (B := B) h.size
  have hcell : ∀ (i j : Nat) p q, A[i]? = some p → B[j]? = some q → m i j = lone g p q := by
    intro i j p q e1 e2
    rw [Bool.eq_iff_iff, lone_iff (h.size p (List.mem_of_getElem? e1)), hm]
    constructor
    · rintro ⟨p', q', f1, f2, hh⟩
      rw [e1] at f1; rw [e2] at f2
      injection f1 with f1
      injection f2 with f2
      subst f1 f2
      exact hh
    · exact fun hh => ⟨p, q, e1, e2, hh⟩
  obtain ⟨links, f, s, v, n, hk⟩ := chelton_exact (near := lone g) (score := fun p q => far p q / 1000) (amp := fun p => (p.amp : ℝ)) h.nodup0 h.nodup1 hA hB
    ⟨fun a ha b hb b' hb' h1 h2 he => h.dist a ha b hb b' hb' h1 h2 (by
        have : far a b / 1000 = far a b' / 1000 := he
        linarith),
      fun a ha a' ha' b hb h1 h2 he => h.amp a ha a' ha' b hb h1 h2 (by exact_mod_cast he)⟩
    (cand := m) (cost := dist) (ampI := fun i => (((A[i]?).map (·.amp)).getD 0 : Rat))
    (fun i j hij => by
      obtain ⟨_, _, e1, e2, _⟩ := (hm i j).1 hij
      exact ⟨(List.getElem?_eq_some_iff.1 e1).1, (List.getElem?_eq_some_iff.1 e2).1⟩)
    hcell (fun i j a b e1 e2 hn => hd i j a b e1 e2 ((lone_iff (h.size a (List.mem_of_getElem? e1))).1 hn).1)
    (fun i a e1 => by simp [e1])
  refine ⟨links, by rw [e, f], s, v, n, fun p q => ?_⟩
  rw [hk]
  have hw : ∀ p q, Wants (lone g) (fun p q => far p q / 1000) B p q ↔ Follows g B p q := by
    intro p q
    unfold Wants Follows
    refine and_congr_right (fun _ => and_congr_right (fun _ => forall_congr' (fun q' => forall_congr' (fun _ => forall_congr' (fun _ => ?_)))))
    constructor <;> intro hle <;> linarith
  unfold Keeps Followed
  simp only [hw, Rat.cast_le]

/-- **C215** the order of the rows does not change the couples linked. -/
theorem chelton_order {g : Ground} {A A' B B' : List Obs} (h : Clear g A B) (hA : A ≠ []) (hB : B ≠ []) (pA : A.Perm A') (pB : B.Perm B') :
    ∃ links links', cheltonTracking g A B = some links ∧ cheltonTracking g A' B' = some links' ∧
      (links'.filterMap (obsOf A' B')).Perm (links.filterMap (obsOf A B)) := by
  obtain ⟨links, e, _, _, n, hk⟩ := chelton_links h hA hB
  have h' : Clear g A' B' := ⟨fun p hp => h.size p (pA.mem_iff.2 hp), pA.nodup h.nodup0, pB.nodup h.nodup1,
    fun p hp q hq q' hq' => h.dist p (pA.mem_iff.2 hp) q (pB.mem_iff.2 hq) q' (pB.mem_iff.2 hq'),
    fun p hp p' hp' q hq => h.amp p (pA.mem_iff.2 hp) p' (pA.mem_iff.2 hp') q (pB.mem_iff.2 hq)⟩
  obtain ⟨links', e', _, _, n', hk'⟩ := chelton_links h' (fun hn => hA (by rw [hn] at pA; exact pA.eq_nil)) (fun hn => hB (by rw [hn] at pB; exact pB.eq_nil))
  refine ⟨links, links', e, e', (List.perm_ext_iff_of_nodup n' n).2 ?_⟩
  rintro ⟨p, q⟩
  rw [hk, hk']
  unfold Followed Follows
  simp only [pA.mem_iff, pB.mem_iff]

theorem followed_part {g : Ground} {P : Obs → Bool} {A B : List Obs} (hreg : ∀ a ∈ A, ∀ b ∈ B, lone g a b = true → P a = P b) (a b : Obs) :
    Followed g (A.filter P) (B.filter P) a b ↔ Followed g A B a b ∧ P a = true := by
  have := keeps_part (near := lone g) (score := far) (amp := fun p : Obs => (p.amp : ℝ)) (inA := P) (inB := P) hreg a b
  unfold Keeps Wants at this
  unfold Followed Follows
  simpa only [Rat.cast_le] using this

theorem clear_part {g : Ground} {P : Obs → Bool} {A B : List Obs} (h : Clear g A B) : Clear g (A.filter P) (B.filter P) :=
  ⟨fun p hp => h.size p (List.mem_filter.1 hp).1, h.nodup0.filter _, h.nodup1.filter _,
    fun p hp q hq q' hq' => h.dist p (List.mem_filter.1 hp).1 q (List.mem_filter.1 hq).1 q' (List.mem_filter.1 hq').1,
    fun p hp p' hp' q hq => h.amp p (List.mem_filter.1 hp).1 p' (List.mem_filter.1 hp').1 q (List.mem_filter.1 hq).1⟩

/-- **C215** the tracker of Chelton is local: in a region of which no observation would be linked alone with one outside, with observations at both dates, the
links are those of the whole ocean. -/
theorem chelton_local_at {g : Ground} {P : Obs → Bool} {round : ℝ → Rat} {n : Nat} {p c : List Obs} (h : Clear g p c) (hp0 : p.filter P ≠ [])
    (hc0 : c.filter P ≠ []) (hreg : ∀ a ∈ p, ∀ b ∈ c, lone g a b = true → P a = P b) : LocalAt P (cheltonCfg g round n).tracking p c := by
  obtain ⟨links, e, s, v, nd, hk⟩ := chelton_links h (fun hn => hp0 (by rw [hn]; rfl)) (fun hn => hc0 (by rw [hn]; rfl))
  obtain ⟨links', e', s', v', nd', hk'⟩ := chelton_links (clear_part (P := P) h) hp0 hc0
  have hin : ∀ m ∈ links, inR P p m.1 = inR P c m.2 := by
    intro m hm
    obtain ⟨v1, v2⟩ := v m hm
    have e1 := List.getElem?_eq_getElem v1
    have e2 := List.getElem?_eq_getElem v2
    obtain ⟨h1, h2, _⟩ := (hk _ _).1 (List.mem_filterMap.2 ⟨m, hm, obsOf_iff.2 ⟨e1, e2⟩⟩)
    rw [inR_some e1, inR_some e2]
    exact hreg _ h1 _ h2.1 h2.2.1
  have hperm : (links'.filterMap (obsOf (p.filter P) (c.filter P))).Perm ((links.filterMap (obsOf p c)).filter (fun t => P t.1)) := by
    refine (List.perm_ext_iff_of_nodup nd' (nd.filter _)).2 ?_
    rintro ⟨a, b⟩
    rw [hk', followed_part hreg, List.mem_filter, hk]
  have hrows := rows_part h.nodup0 h.nodup1 s s' v v' hin hperm
  have ht : (cheltonCfg g round n).tracking p c = links.map (fun l => (l.1, l.2,
      (((p[l.1]?).bind (fun a => (c[l.2]?).bind (fun b => Sphere.gridCell a.lon a.lat b.lon b.lat))).map round).getD 0)) := by
    simp only [cheltonCfg, e]
  refine ⟨?_, ?_, ?_⟩
  · intro m hm
    rw [ht] at hm
    obtain ⟨l, hl, rfl⟩ := List.mem_map.1 hm
    exact (v l hl).2
  · intro m hm
    rw [ht] at hm
    obtain ⟨l, hl, rfl⟩ := List.mem_map.1 hm
    exact hin l hl
  · rw [ht]
    simp only [cheltonCfg, e']
    rw [hrows, List.map_map, List.filter_map (l := links), List.map_map]
    refine List.map_congr_left (fun l hl => ?_)
    obtain ⟨h1, h2⟩ := List.mem_filter.1 hl
    obtain ⟨v1, v2⟩ := v l h1
    have ha := List.getElem?_eq_getElem v1
    have hb := List.getElem?_eq_getElem v2
    have h2 : inR P p l.1 = true := h2
    have pa : P p[l.1] = true := by rw [← inR_some (P := P) ha]; exact h2
    have pb : P c[l.2] = true := by rw [← inR_some (P := P) hb, ← hin l h1]; exact h2
    simp only [Function.comp]
    rw [get_part ha pa, get_part hb pb, ha, hb]

/-- At each date of the tracking of the whole ocean, the region has observations, none of them would be linked alone with one outside and conversely, there are
no ties, and the lost observations stay in their part of the ocean. -/
def ApartChelton (P : Obs → Bool) (g : Ground) (round : ℝ → Rat) (n : Nat) : St Obs Position → List (List Obs) → Prop
  | _, [] => True
  | s, f :: fs => (∀ u p, mergeVirtual (swap s f) = some u → u.previous = some p →
        Clear g p f ∧ p.filter P ≠ [] ∧ f.filter P ≠ [] ∧ ∀ a ∈ p, ∀ b ∈ f, lone g a b = true → P a = P b) ∧
      ∀ s', step (cheltonCfg g round n) s f = some s' → (0 < n → StaysAt P (cheltonCfg g round n) s') ∧ ApartChelton P g round n s' fs

theorem apart_chelton {P : Obs → Bool} {g : Ground} {round : ℝ → Rat} {n : Nat} : ∀ {fs : List (List Obs)} {s : St Obs Position},
    ApartChelton P g round n s fs → LocalRun P (cheltonCfg g round n) s fs
  | [], _, _ => trivial
  | _ :: _, _, h => ⟨fun u p h1 h2 => by
        obtain ⟨x1, x2, x3, x4⟩ := h.1 u p h1 h2
        exact chelton_local_at x1 x2 x3 x4,
      fun s' hs => ⟨fun hv => (h.2 s' hs).1 (of_decide_eq_true hv), apart_chelton (h.2 s' hs).2⟩⟩

/-- **C215** the tracking with the class of Chelton of the files of a region gives the tables of the whole ocean restricted to the region. -/
theorem chelton_region {P : Obs → Bool} {g : Ground} {round : ℝ → Rat} {n : Nat} {f : List Obs} {rest : List (List Obs)}
    (h : ApartChelton P g round n (swap init f) rest) {s : St Obs Position} (hs : track (cheltonCfg g round n) (f :: rest) = some s) :
    ∃ (t : St Obs Position) (G : Nat → Bool) (ctx : List (Ctx Obs)),
      track (cheltonCfg g round n) ((f :: rest).map (List.filter P)) = some t ∧ Restricted P (f :: rest) s t G ctx :=
  track_region (apart_chelton h) hs

theorem lone_close {g : Ground} {p q : Obs} (hp : 0 < p.amp ∧ 0 < p.rad) (h : lone g p q = true) : |q.lat - p.lat| ≤ 2 :=
  (near_close ((lone_iff hp).1 h).1).1

/-- **C215** a date without observation of the region is another matter: the whole ocean is tracked, the region alone raises. -/
theorem chelton_empty_wrong (g : Ground) : ∃ (P : Obs → Bool) (A B : List Obs), Clear g A B ∧ (∃ links, cheltonTracking g A B = some links) ∧
    (∀ a ∈ A, ∀ b ∈ B, lone g a b = true → P a = P b) ∧ A.filter P ≠ [] ∧ cheltonTracking g (A.filter P) (B.filter P) = none := by
  have hsize : ∀ p ∈ ([⟨0, 0, 1, 1⟩] : List Obs), 0 < p.amp ∧ 0 < p.rad := by
    intro p hp
    rw [List.mem_singleton.1 hp]
    norm_num
  have hcl : Clear g [⟨0, 0, 1, 1⟩] [⟨0, 10, 1, 1⟩] := ⟨hsize, by simp, by simp,
    fun p _ q hq q' hq' _ _ _ => by rw [List.mem_singleton.1 hq, List.mem_singleton.1 hq'],
    fun p hp p' hp' q _ _ _ _ => by rw [List.mem_singleton.1 hp, List.mem_singleton.1 hp']⟩
  obtain ⟨links, e, _⟩ := chelton_links hcl (by simp) (by simp)
  refine ⟨fun o => decide (o.lat < 5), [⟨0, 0, 1, 1⟩], [⟨0, 10, 1, 1⟩], hcl, ⟨links, e⟩, ?_, by decide +kernel, ?_⟩
  · intro a ha b hb h
    have := lone_close (hsize a ha) h
    rw [List.mem_singleton.1 ha, List.mem_singleton.1 hb] at this
    norm_num [abs_le] at this
  · rw [show ([⟨0, 10, 1, 1⟩] : List Obs).filter (fun o => decide (o.lat < 5)) = [] from by rw [List.filter_cons_of_neg] <;> norm_num]
    obtain ⟨m, dist, _, _, e⟩ := chelton_form g (A := ([⟨0, 0, 1, 1⟩] : List Obs).filter (fun o => decide (o.lat < 5))) (B := [])
      (fun p hp => hsize p (List.mem_filter.1 hp).1)
    rw [e]
    simp [trackingChelton, solveFirst]

/-! ### Examples -/

/-- Open sea. -/
def sea : Ground := ⟨0, -90, 1, 1, 360, fun _ => false⟩

/-- Two eddies at each date, one in the north. -/
def twoA : List Obs := [⟨0, 0, 1, 1⟩, ⟨0, 60, 1, 1⟩]

@[inherit_doc twoA]
def twoB : List Obs := [⟨0, 1 / 2, 1, 1⟩, ⟨0, 61, 1, 1⟩]

theorem two_lone {p q : Obs} (hp : p ∈ twoA) (hq : q ∈ twoB) (h : lone sea p q = true) :
    (p = ⟨0, 0, 1, 1⟩ ∧ q = ⟨0, 1 / 2, 1, 1⟩) ∨ (p = ⟨0, 60, 1, 1⟩ ∧ q = ⟨0, 61, 1, 1⟩) := by
  simp only [twoA, twoB, List.mem_cons, List.not_mem_nil, or_false] at hp hq
  rcases hp with rfl | rfl <;> rcases hq with rfl | rfl
  · exact Or.inl ⟨rfl, rfl⟩
  · have := lone_close (by norm_num) h
    norm_num [abs_le] at this
  · have := lone_close (by norm_num) h
    norm_num [abs_le] at this
  · exact Or.inr ⟨rfl, rfl⟩

theorem two_clear : Clear sea twoA twoB := by
  refine ⟨?_, by simp [twoA], by norm_num [twoB], ?_, ?_⟩
  · simp only [twoA, List.mem_cons, List.not_mem_nil, or_false]
    rintro p (rfl | rfl) <;> norm_num
  · intro p hp q hq q' hq' h1 h2 _
    rcases two_lone hp hq h1 with ⟨rfl, rfl⟩ | ⟨rfl, rfl⟩ <;> rcases two_lone hp hq' h2 with ⟨e, rfl⟩ | ⟨e, rfl⟩
    · rfl
    · norm_num at e
    · norm_num at e
    · rfl
  · intro p hp p' hp' q hq h1 h2 _
    rcases two_lone hp hq h1 with ⟨rfl, rfl⟩ | ⟨rfl, rfl⟩ <;> rcases two_lone hp' hq h2 with ⟨rfl, e⟩ | ⟨rfl, e⟩
    · rfl
    · norm_num at e
    · norm_num at e
    · rfl

/-- The two eddies of the equator are linked when they are alone. -/
theorem two_linked : lone sea ⟨0, 0, 1, 1⟩ ⟨0, 1 / 2, 1, 1⟩ = true := by
  rw [lone_iff (by norm_num)]
  refine ⟨⟨⟨0, ?_⟩, ?_, ?_⟩, by decide +kernel⟩
  · rw [show |(0 : Rat)| = 0 from abs_zero]
    unfold InEllipse clamp
    norm_num
  · unfold Comparable
    norm_num
  · unfold Comparable
    norm_num

/-- The north is apart at each date. -/
example (round : ℝ → Rat) : ApartChelton (fun o => decide (30 ≤ o.lat)) sea round 2 (swap init twoA) [twoB] := by
  refine ⟨fun u p h1 h2 => ?_, fun s' hs => ⟨fun _ => ?_, trivial⟩⟩
  · obtain rfl : swap (swap init twoA) twoB = u := Option.some.inj h1
    obtain rfl : twoA = p := Option.some.inj h2
    refine ⟨two_clear, by decide +kernel, by decide +kernel, fun a ha b hb h => ?_⟩
    rcases two_lone ha hb h with ⟨rfl, rfl⟩ | ⟨rfl, rfl⟩ <;> decide +kernel
  · have hc : s'.corrs.length = 1 ∧ s'.prevVirtualObs = none := by
      have := Option.some.inj hs
      rw [← this]
      exact ⟨rfl, rfl⟩
    refine ⟨fun c1 c2 rest p2 p h => ?_, fun c1 rest vs _ h => ?_⟩
    · rw [h] at hc
      simp at hc
    · rw [hc.2] at h
      cases h

end Verif.Trackers
