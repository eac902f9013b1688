import Verif.Trackers.Chelton
import Verif.Trackers.Default
import Verif.Trackers.Area

/-!
# C195: the links do not depend on the convention of longitudes

The three trackers of C104, C105 and C107 (src/py_eddy_tracker/observations/observation.py:1524-1546,
featured_tracking/area_tracker.py:37-49, featured_tracking/old_tracker_reference.py:22-76) for datasets whose longitudes are changed by
turns, which can be different from one observation to the other.
-/

namespace Verif.Trackers

open Verif.Poly Verif.Match Sphere

/-! ### Specification -/

/-- The same observation in another turn. -/
def SameObs (p q : Obs) : Prop := ∃ k : Int, q = { p with lon := p.lon + 360 * k }

/-- The same observation in another turn, with exact reals. -/
def SameRObs (p q : RObs) : Prop := ∃ k : Int, q = { p with lon := p.lon + 360 * k }

/-- The same contour in another turn. -/
def SameContour (c d : List Pt) : Prop := ∃ k : Int, d = turned k c

/-- Areas do not depend on the turn. -/
structure TurnFree (g : Areas) : Prop where
  area : ∀ k c, g.area (turned k c) = g.area c
  inter : ∀ k c d, g.inter (turned k c) (turned k d) = g.inter c d

/-! ### Lists -/

theorem forall_get {γ : Type} {R : γ → γ → Prop} : ∀ {l l' : List γ}, List.Forall₂ R l l' → ∀ i : Nat,
    (l[i]? = none ∧ l'[i]? = none) ∨ ∃ a b, l[i]? = some a ∧ l'[i]? = some b ∧ R a b
  | _, _, .nil, i => by simp
  | _, _, .cons h t, 0 => by simpa using h
  | _, _, .cons h t, i + 1 => by simpa using forall_get t i

theorem forall_mapM {γ δ : Type} {R : γ → γ → Prop} {F G : γ → Option δ} (hF : ∀ a b, R a b → F a = G b) : ∀ {l l' : List γ},
    List.Forall₂ R l l' → l.mapM F = l'.mapM G
  | _, _, .nil => rfl
  | _, _, .cons h t => by rw [List.mapM_cons, List.mapM_cons, hF _ _ h, forall_mapM hF t]

theorem forall_map {γ δ : Type} {R : γ → γ → Prop} {F G : γ → δ} (hF : ∀ a b, R a b → F a = G b) : ∀ {l l' : List γ},
    List.Forall₂ R l l' → l.map F = l'.map G
  | _, _, .nil => rfl
  | _, _, .cons h t => by rw [List.map_cons, List.map_cons, hF _ _ h, forall_map hF t]

/-! ### The default tracker -/

theorem grid_cell_turn (lon0 lat0 lon1 lat1 : ℝ) (j k : ℤ) :
    gridCell (lon0 + 360 * j) lat0 (lon1 + 360 * k) lat1 = gridCell lon0 lat0 lon1 lat1 := by
  obtain ⟨h1, m, hm⟩ := foldLon_spec lon0 lon1
  rw [grid_cell_spec (lon0 + 360 * j) lat0 (lon1 + 360 * k) lat1 (foldLon lon0 lon1) ⟨h1, m + j - k, by rw [hm]; push_cast; congr 1; ring⟩,
    grid_cell_spec lon0 lat0 lon1 lat1 _ (foldLon_spec lon0 lon1), distance_period]

/-- **C195** (default tracker): the links are the same. -/
theorem default_turn {self_ self' other other' : List RObs} (h0 : List.Forall₂ SameRObs self_ self') (h1 : List.Forall₂ SameRObs other other') :
    defaultTracking self' other' = defaultTracking self_ other := by
  have hcell : ∀ p p' q q', SameRObs p p' → SameRObs q q' → gridCell p'.lon p'.lat q'.lon q'.lat = gridCell p.lon p.lat q.lon q.lat := by
    rintro p _ q _ ⟨j, rfl⟩ ⟨k, rfl⟩
    exact grid_cell_turn _ _ _ _ j k
  have hm : defaultMask self' other' = defaultMask self_ other := by
    have hg : distanceGrid (self'.map (fun p => (p.lon, p.lat))) (other'.map (fun q => (q.lon, q.lat))) =
        distanceGrid (self_.map (fun p => (p.lon, p.lat))) (other.map (fun q => (q.lon, q.lat))) := by
      unfold distanceGrid
      simp only [List.map_map]
      refine (forall_map (fun p p' hp => ?_) h0).symm
      exact forall_map (fun q q' hq => (hcell p p' q q' hp hq).symm) h1
    unfold defaultMask
    rw [hg]
  have hc : defaultCosts self' other' = defaultCosts self_ other := by
    funext i j
    unfold defaultCosts
    rcases forall_get h0 i with ⟨e, e'⟩ | ⟨p, p', e, e', hp⟩
    · rw [e, e']; rfl
    · rcases forall_get h1 j with ⟨x, x'⟩ | ⟨q, q', x, x', hq⟩
      · rw [e, e', x, x']; rfl
      · rw [e, e', x, x']
        simp only [Option.bind_some]
        rw [hcell p p' q q' hp hq]
        obtain ⟨a, rfl⟩ := hp
        obtain ⟨b, rfl⟩ := hq
        rfl
  unfold defaultTracking
  rw [hm, hc, h0.length_eq, h1.length_eq]

/-! ### The tracker of Chelton -/

theorem gap_turn (x c : Rat) (j k : Int) : gap (x + 360 * j) (c + 360 * k) = gap x c := by
  obtain ⟨⟨a, ha⟩, ha'⟩ := gap_spec x c
  obtain ⟨⟨b, hb⟩, hb'⟩ := gap_spec (x + 360 * j) (c + 360 * k)
  refine le_antisymm ?_ ?_
  · have := hb' (a - j + k)
    rw [ha]
    refine le_trans this (le_of_eq ?_)
    congr 1
    push_cast
    ring
  · have := ha' (b + j - k)
    rw [hb]
    refine le_trans this (le_of_eq ?_)
    congr 1
    push_cast
    ring

theorem fmod_turn (x : Rat) (k : Int) : Py.fmod (x + 360 * k) 360 = Py.fmod x 360 := by
  obtain ⟨a1, a2, m, hm⟩ := Py.fmod_spec x (show (0 : Rat) < 360 by norm_num)
  exact fmod_unique a1 a2 (k := m - k) (by rw [hm]; push_cast; ring)

theorem ellipse_turn (minor major : Rat) {p p' q q' : Obs} (hp : SameObs p p') (hq : SameObs q q') :
    ellipseCell minor major p' q' = ellipseCell minor major p q := by
  obtain ⟨j, rfl⟩ := hp
  obtain ⟨k, rfl⟩ := hq
  unfold ellipseCell
  simp only
  rw [show (p.lon + 360 * (j : Rat) - (major - minor) + (p.lon + 360 * j)) * (1 / 2) =
    (p.lon - (major - minor) + p.lon) * (1 / 2) + 360 * j by ring, gap_turn]

theorem path_turn (g : Ground) {p p' q q' : Obs} (hp : SameObs p p') (hq : SameObs q q') : ends g p' q' = ends g p q := by
  obtain ⟨j, rfl⟩ := hp
  obtain ⟨k, rfl⟩ := hq
  unfold ends
  simp only
  rw [show p.lon + 360 * (j : Rat) - g.x0 = p.lon - g.x0 + 360 * j by ring, show q.lon + 360 * (k : Rat) - g.x0 = q.lon - g.x0 + 360 * k by ring,
    fmod_turn, fmod_turn]

theorem across_congr (g : Ground) {c c' : List (Obs × Obs)} (h : c.map (fun c => ends g c.1 c.2) = c'.map (fun c => ends g c.1 c.2)) :
    acrossGround g c = acrossGround g c' := by
  have hl : c.length = c'.length := by
    have := congrArg List.length h
    simpa using this
  unfold acrossGround
  rw [h, hl]

theorem near_turn {self_ self' other other' : List Obs} (h0 : List.Forall₂ SameObs self_ self') (h1 : List.Forall₂ SameObs other other') :
    nearMask self' other' = nearMask self_ other := by
  unfold nearMask
  refine (forall_mapM (fun p p' hp => ?_) h0).symm
  have hlat : p'.lat = p.lat := by obtain ⟨k, rfl⟩ := hp; rfl
  rw [hlat]
  congr 1
  funext y
  refine forall_mapM (fun q q' hq => ?_) h1
  rw [ellipse_turn _ _ hp hq]
  congr 1
  funext m
  obtain ⟨j, rfl⟩ := hp
  obtain ⟨k, rfl⟩ := hq
  rfl

theorem mask_turn (g : Ground) {self_ self' other other' : List Obs} (h0 : List.Forall₂ SameObs self_ self')
    (h1 : List.Forall₂ SameObs other other') : cheltonMask g self' other' = cheltonMask g self_ other := by
  unfold cheltonMask
  rw [near_turn h0 h1, h0.length_eq, h1.length_eq]
  congr 1
  funext rows
  have hc : ∀ cl : List (Nat × Nat),
      acrossGround g (cl.filterMap (fun c => (self'[c.1]?).bind (fun p => (other'[c.2]?).map (fun q => (p, q))))) =
      acrossGround g (cl.filterMap (fun c => (self_[c.1]?).bind (fun p => (other[c.2]?).map (fun q => (p, q))))) := by
    intro cl
    refine across_congr g ?_
    rw [List.map_filterMap, List.map_filterMap]
    congr 1
    funext c
    rcases forall_get h0 c.1 with ⟨e, e'⟩ | ⟨p, p', e, e', hp⟩
    · rw [e, e']; rfl
    · rcases forall_get h1 c.2 with ⟨x, x'⟩ | ⟨q, q', x, x', hq⟩
      · rw [e, e', x, x']; rfl
      · rw [e, e', x, x']
        simp only [Option.bind_some, Option.map_some]
        rw [path_turn g hp hq]
  simp only [hc]

/-- **C195** (tracker of Chelton): the links are the same, whatever the grid of the ground. -/
theorem chelton_turn (g : Ground) {self_ self' other other' : List Obs} (h0 : List.Forall₂ SameObs self_ self')
    (h1 : List.Forall₂ SameObs other other') : cheltonTracking g self' other' = cheltonTracking g self_ other := by
  unfold cheltonTracking
  rw [mask_turn g h0 h1]
  congr 1
  funext m
  have hd : (fun (i j : Nat) => (self'[i]?).bind (fun p => (other'[j]?).bind (fun q => Sphere.gridCell p.lon p.lat q.lon q.lat))) =
      (fun (i j : Nat) => (self_[i]?).bind (fun p => (other[j]?).bind (fun q => Sphere.gridCell p.lon p.lat q.lon q.lat))) := by
    funext i j
    rcases forall_get h0 i with ⟨e, e'⟩ | ⟨p, p', e, e', hp⟩
    · rw [e, e']; rfl
    · rcases forall_get h1 j with ⟨x, x'⟩ | ⟨q, q', x, x', hq⟩
      · rw [e, e', x, x']; rfl
      · rw [e, e', x, x']
        obtain ⟨a, rfl⟩ := hp
        obtain ⟨b, rfl⟩ := hq
        simp only [Option.bind_some]
        push_cast
        exact grid_cell_turn _ _ _ _ a b
  have ha : ∀ i : Nat, (((self'[i]?).map (·.amp)).getD 0 : Rat) = (((self_[i]?).map (·.amp)).getD 0 : Rat) := by
    intro i
    rcases forall_get h0 i with ⟨e, e'⟩ | ⟨p, p', e, e', hp⟩
    · rw [e, e']
    · rw [e, e']
      obtain ⟨a, rfl⟩ := hp
      rfl
  simp only [hd, ha, h0.length_eq, h1.length_eq]

/-! ### The tracker by area -/

theorem turned_turned (j k : Int) (c : List Pt) : turned j (turned k c) = turned (j + k) c := by
  unfold turned
  rw [List.map_map]
  congr 1
  funext w
  simp only [Function.comp]
  refine Prod.ext ?_ rfl
  push_cast
  ring

theorem iou_turn {g : Areas} (hg : TurnFree g) (a b k : Int) (c d : List Pt) :
    iou g (turned a c) (turned k (turned b d)) = iou g c (turned (k + b - a) d) := by
  have e : turned k (turned b d) = turned a (turned (k + b - a) d) := by
    rw [turned_turned, turned_turned]
    congr 1
    omega
  unfold iou
  rw [e, hg.inter, hg.area, hg.area, hg.area]

theorem cost_iff {g : Areas} (hg : Coherent g) {cmin : Rat} (hc : 0 ≤ cmin) {l0 l1 : List (List Pt)} (h0 : [] ∉ l0)
    (h1 : [] ∉ l1) (hw : ∀ c ∈ l0, ∀ d ∈ l1, Narrow c d) (i j : Nat) (v : Rat) : areaCosts g cmin l0 l1 i j = some v ↔
      ∃ c d k, l0[i]? = some c ∧ l1[j]? = some d ∧ cmin < iou g c (turned k d) ∧ v = 1 - iou g c (turned k d) := by
  obtain ⟨hnd, hm⟩ := match_partial hg {} 0 l0 l1 h0 h1 hw
  unfold areaCosts
  rw [maskCmin_spec cmin _ _ hnd]
  simp only [reduceCtorEq, and_false, or_false, hm]
  constructor
  · rintro ⟨s, ⟨c, d, e1, e2, _, k, _, rfl⟩, e4, rfl⟩
    rw [scoreAt_iou hg] at e4 ⊢
    exact ⟨c, d, k, e1, e2, e4, rfl⟩
  · rintro ⟨c, d, k, e1, e2, e3, rfl⟩
    refine ⟨_, ⟨c, d, e1, e2, (by linarith : (0 : Rat) ≤ iou g c (turned k d)), k, ?_, (scoreAt_iou hg k c d).symm⟩, e3, rfl⟩
    by_contra hn
    unfold iou at e3
    rw [hg.apart _ _ hn, zero_div] at e3
    linarith

theorem same_nil {l l' : List (List Pt)} (h : List.Forall₂ SameContour l l') (hn : [] ∉ l) : [] ∉ l' := by
  intro hm
  obtain ⟨i, hi⟩ := List.getElem?_of_mem hm
  rcases forall_get h i with ⟨_, e⟩ | ⟨c, d, e, e', k, rfl⟩
  · rw [e] at hi; cases hi
  · rw [e'] at hi
    have : c = [] := by simpa [turned] using hi
    exact hn (this ▸ List.mem_of_getElem? e)

theorem narrow_turn {c d : List Pt} (h : Narrow c d) (j k : Int) : Narrow (turned j c) (turned k d) := by
  intro u hu u' hu' w hw w' hw'
  obtain ⟨a, ha, rfl⟩ := List.mem_map.1 hu
  obtain ⟨a', ha', rfl⟩ := List.mem_map.1 hu'
  obtain ⟨b, hb, rfl⟩ := List.mem_map.1 hw
  obtain ⟨b', hb', rfl⟩ := List.mem_map.1 hw'
  have := h a ha a' ha' b hb b' hb'
  simp only
  linarith

theorem same_mem {l l' : List (List Pt)} (h : List.Forall₂ SameContour l l') {d : List Pt} (hd : d ∈ l') : ∃ c ∈ l, SameContour c d := by
  obtain ⟨i, hi⟩ := List.getElem?_of_mem hd
  rcases forall_get h i with ⟨_, e⟩ | ⟨c, d', e, e', hs⟩
  · rw [e] at hi; cases hi
  · rw [e'] at hi
    cases hi
    exact ⟨c, List.mem_of_getElem? e, hs⟩

/-- **C195** (tracker by area): the links and their costs are the same, when two contours are together narrower than 180 degrees. -/
theorem area_turn {g : Areas} (hg : Coherent g) (ht : TurnFree g) {cmin : Rat} (hc : 0 ≤ cmin) {l0 l0' l1 l1' : List (List Pt)} (h0 : [] ∉ l0)
    (h1 : [] ∉ l1) (hw : ∀ c ∈ l0, ∀ d ∈ l1, Narrow c d) (s0 : List.Forall₂ SameContour l0 l0') (s1 : List.Forall₂ SameContour l1 l1') :
    areaTracking g cmin l0' l1' = areaTracking g cmin l0 l1 := by
  have hw' : ∀ c ∈ l0', ∀ d ∈ l1', Narrow c d := by
    intro c hc d hd
    obtain ⟨c0, hc0, j, rfl⟩ := same_mem s0 hc
    obtain ⟨d0, hd0, k, rfl⟩ := same_mem s1 hd
    exact narrow_turn (hw c0 hc0 d0 hd0) j k
  have hm : areaCosts g cmin l0' l1' = areaCosts g cmin l0 l1 := by
    funext i j
    apply Option.ext
    intro v
    rw [cost_iff hg hc (same_nil s0 h0) (same_nil s1 h1) hw', cost_iff hg hc h0 h1 hw]
    constructor
    · rintro ⟨c, d, k, e1, e2, e3, rfl⟩
      rcases forall_get s0 i with ⟨_, x⟩ | ⟨c0, c', x, x', a, rfl⟩
      · rw [x] at e1; cases e1
      rcases forall_get s1 j with ⟨_, y⟩ | ⟨d0, d', y, y', b, rfl⟩
      · rw [y] at e2; cases e2
      rw [x'] at e1; cases e1
      rw [y'] at e2; cases e2
      rw [iou_turn ht] at e3 ⊢
      exact ⟨c0, d0, _, x, y, e3, rfl⟩
    · rintro ⟨c, d, k, e1, e2, e3, rfl⟩
      rcases forall_get s0 i with ⟨x, _⟩ | ⟨c0, c', x, x', a, rfl⟩
      · rw [x] at e1; cases e1
      rcases forall_get s1 j with ⟨y, _⟩ | ⟨d0, d', y, y', b, rfl⟩
      · rw [y] at e2; cases e2
      rw [x] at e1; cases e1
      rw [y] at e2; cases e2
      have e : k + a - b + b - a = k := by omega
      refine ⟨turned a c, turned b d, k + a - b, x', y', ?_, ?_⟩
      · rw [iou_turn ht, e]; exact e3
      · rw [iou_turn ht, e]
  unfold areaTracking
  simp only [hm, s0.length_eq, s1.length_eq]

/-- Two observations near the border, the second in the other convention. -/
example : List.Forall₂ SameObs [⟨359, 10, 1, 1⟩, ⟨1, 20, 1, 1⟩] [⟨-1, 10, 1, 1⟩, ⟨1, 20, 1, 1⟩] :=
  .cons ⟨-1, by norm_num⟩ (.cons ⟨0, by norm_num⟩ .nil)

/-- Areas which are coherent and do not depend on the turn: boxes which meet have a half in common. -/
example : TurnFree half := by
  refine ⟨fun _ _ => rfl, fun k c d => ?_⟩
  have : BoxesMeet (turned k c) (turned k d) ↔ BoxesMeet c d := by
    constructor
    · rintro ⟨⟨u, hu, w, hw, h1⟩, ⟨u2, hu2, w2, hw2, h2⟩, ⟨u3, hu3, w3, hw3, h3⟩, ⟨u4, hu4, w4, hw4, h4⟩⟩
      simp only [turned, List.mem_map] at hu hw hu2 hw2 hu3 hw3 hu4 hw4
      obtain ⟨u, hu, rfl⟩ := hu
      obtain ⟨w, hw, rfl⟩ := hw
      obtain ⟨u2, hu2, rfl⟩ := hu2
      obtain ⟨w2, hw2, rfl⟩ := hw2
      obtain ⟨u3, hu3, rfl⟩ := hu3
      obtain ⟨w3, hw3, rfl⟩ := hw3
      obtain ⟨u4, hu4, rfl⟩ := hu4
      obtain ⟨w4, hw4, rfl⟩ := hw4
      exact ⟨⟨u, hu, w, hw, by simpa using h1⟩, ⟨u2, hu2, w2, hw2, by simpa using h2⟩, ⟨u3, hu3, w3, hw3, h3⟩, ⟨u4, hu4, w4, hw4, h4⟩⟩
    · rintro ⟨⟨u, hu, w, hw, h1⟩, ⟨u2, hu2, w2, hw2, h2⟩, ⟨u3, hu3, w3, hw3, h3⟩, ⟨u4, hu4, w4, hw4, h4⟩⟩
      exact ⟨⟨_, List.mem_map_of_mem hu, _, List.mem_map_of_mem hw, by simpa using h1⟩,
        ⟨_, List.mem_map_of_mem hu2, _, List.mem_map_of_mem hw2, by simpa using h2⟩,
        ⟨_, List.mem_map_of_mem hu3, _, List.mem_map_of_mem hw3, h3⟩, ⟨_, List.mem_map_of_mem hu4, _, List.mem_map_of_mem hw4, h4⟩⟩
  unfold half
  simp only
  by_cases h : BoxesMeet c d
  · rw [if_pos h, if_pos (this.2 h)]
  · rw [if_neg h, if_neg (fun h' => h (this.1 h'))]

end Verif.Trackers
