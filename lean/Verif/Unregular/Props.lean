import Verif.Unregular.Model
import Verif.Pixels.Props
import Verif.Boxes.Props

/-!
# C142: the pixels of an unregular grid in a contour; C143: the low pass filter of unregular grids
-/

namespace Verif.Unregular

open Verif.Poly

variable {g : Grid} {query : Pt → Nat}

/-! ### C142 -/

/-- What is known of the tree: it gives a nearest node. -/
def Tree (g : Grid) (query : Pt → Nat) : Prop :=
  ∀ p, query p < g.nx * g.ny ∧ ∀ k, k < g.nx * g.ny → dist2 p (g.node (query p)) ≤ dist2 p (g.node k)

theorem decode_eq (g : Grid) (k : Nat) : decode g k = (k / g.ny, k % g.ny) := by
  unfold decode
  congr 1
  rcases Nat.eq_zero_or_pos g.ny with h | h
  · rw [h]; simp
  · have := Nat.div_add_mod k g.ny
    rw [show k - k % g.ny = g.ny * (k / g.ny) by omega, Nat.mul_div_cancel_left _ h]

/-- **C142** (nearest): the indices given for a position are the ones of a node, and no node is nearer. -/
theorem nearest_spec (ht : Tree g query) (p : Pt) :
    (nearest g query p).1 < g.nx ∧ (nearest g query p).2 < g.ny ∧ ∀ i j : Nat, i < g.nx → j < g.ny →
      dist2 p (g.x (nearest g query p).1 (nearest g query p).2, g.y (nearest g query p).1 (nearest g query p).2) ≤ dist2 p (g.x i j, g.y i j) := by
  obtain ⟨h1, h2⟩ := ht p
  have hy : 0 < g.ny := by
    rcases Nat.eq_zero_or_pos g.ny with h | h
    · rw [h] at h1; simp at h1
    · exact h
  unfold nearest
  rw [decode_eq]
  refine ⟨Nat.div_lt_of_lt_mul (by rwa [Nat.mul_comm] at h1), Nat.mod_lt _ hy, fun i j hi hj => ?_⟩
  have hk : i * g.ny + j < g.nx * g.ny := by
    have : (i + 1) * g.ny ≤ g.nx * g.ny := Nat.mul_le_mul_right _ hi
    rw [Nat.add_mul] at this
    omega
  have := h2 (i * g.ny + j) hk
  unfold Grid.node at this
  rw [show (i * g.ny + j) / g.ny = i by
      rw [Nat.mul_comm, Nat.mul_add_div hy, Nat.div_eq_of_lt hj, Nat.add_zero],
    show (i * g.ny + j) % g.ny = j by rw [Nat.mul_comm, Nat.mul_add_mod, Nat.mod_eq_of_lt hj]] at this
  exact this

theorem foldl_min_spec : ∀ (l : List Nat) (a : Nat), l.foldl min a ≤ a ∧ (∀ x ∈ l, l.foldl min a ≤ x) ∧ (l.foldl min a = a ∨ l.foldl min a ∈ l)
  | [], a => ⟨Nat.le_refl _, by simp, Or.inl rfl⟩
  | x :: l, a => by
    obtain ⟨h1, h2, h3⟩ := foldl_min_spec l (min a x)
    rw [List.foldl_cons]
    refine ⟨by omega, ?_, ?_⟩
    · intro y hy
      rcases List.mem_cons.1 hy with rfl | hy
      · omega
      · exact h2 y hy
    · rcases h3 with h3 | h3
      · rw [h3]
        rcases Nat.le_total a x with h | h
        · exact Or.inl (Nat.min_eq_left h)
        · rw [Nat.min_eq_right h]; exact Or.inr (by simp)
      · exact Or.inr (List.mem_cons_of_mem _ h3)

theorem foldl_max_spec : ∀ (l : List Nat) (a : Nat), a ≤ l.foldl max a ∧ (∀ x ∈ l, x ≤ l.foldl max a) ∧ (l.foldl max a = a ∨ l.foldl max a ∈ l)
  | [], a => ⟨Nat.le_refl _, by simp, Or.inl rfl⟩
  | x :: l, a => by
    obtain ⟨h1, h2, h3⟩ := foldl_max_spec l (max a x)
    rw [List.foldl_cons]
    refine ⟨by omega, ?_, ?_⟩
    · intro y hy
      rcases List.mem_cons.1 hy with rfl | hy
      · omega
      · exact h2 y hy
    · rcases h3 with h3 | h3
      · rw [h3]
        rcases Nat.le_total a x with h | h
        · rw [Nat.max_eq_right h]; exact Or.inr (by simp)
        · exact Or.inl (Nat.max_eq_left h)
      · exact Or.inr (List.mem_cons_of_mem _ h3)

theorem least_spec {l : List Nat} (h : l ≠ []) : least l ∈ l ∧ ∀ x ∈ l, least l ≤ x := by
  cases l with
  | nil => exact absurd rfl h
  | cons a l =>
    obtain ⟨h1, h2, h3⟩ := foldl_min_spec (a :: l) a
    unfold least
    rw [List.headD_cons]
    refine ⟨?_, h2⟩
    rcases h3 with h3 | h3
    · rw [h3]; simp
    · exact h3

theorem greatest_spec {l : List Nat} (h : l ≠ []) : greatest l ∈ l ∧ ∀ x ∈ l, x ≤ greatest l := by
  cases l with
  | nil => exact absurd rfl h
  | cons a l =>
    obtain ⟨h1, h2, h3⟩ := foldl_max_spec (a :: l) 0
    unfold greatest
    refine ⟨?_, h2⟩
    rcases h3 with h3 | h3
    · rw [h3]
      have := h2 a (by simp)
      rw [h3] at this
      have : a = 0 := by omega
      rw [this]; simp
    · exact h3

/-- An index is in the slice exactly when it lies between the indices of two vertices, with the margin. -/
theorem slice_spec {N : Nat} {l : List Nat} (h : l ≠ []) (i : Nat) :
    (slice N l).1 ≤ i ∧ i < (slice N l).2 ↔ (∃ a ∈ l, a ≤ i + N) ∧ ∃ b ∈ l, i ≤ b + N := by
  obtain ⟨h1, h2⟩ := least_spec h
  obtain ⟨h3, h4⟩ := greatest_spec h
  unfold slice
  constructor
  · rintro ⟨ha, hb⟩
    exact ⟨⟨_, h1, by omega⟩, _, h3, by simp only at hb; omega⟩
  · rintro ⟨⟨a, ha, ha'⟩, b, hb, hb'⟩
    have := h2 a ha
    have := h4 b hb
    simp only
    omega

/-- **C142** (box): the pixels given are exactly the ones with a winding number which is not zero, among the indices between the nearest nodes of the
vertices enlarged by the margin; each one once. -/
theorem pixels_box {N : Nat} {v : List Pt} (hv : v ≠ []) {l : List (Nat × Nat)} (h : getPixels g query N v = some l) :
    l.Nodup ∧ ∀ i j : Nat, (i, j) ∈ l ↔
      ((∃ a ∈ v, (nearest g query a).1 ≤ i + N) ∧ (∃ b ∈ v, i ≤ (nearest g query b).1 + N)) ∧
      ((∃ a ∈ v, (nearest g query a).2 ≤ j + N) ∧ (∃ b ∈ v, j ≤ (nearest g query b).2 + N)) ∧ winding (g.x i j, g.y i j) v ≠ 0 := by
  unfold getPixels pixelsIn at h
  split at h
  · cases h
    refine ⟨(List.Nodup.product (List.nodup_range' ..) (List.nodup_range' ..)).filter _, fun i j => ?_⟩
    rw [List.mem_filter, List.mem_product, List.mem_range'_1, List.mem_range'_1, decide_eq_true_eq]
    have s1 := slice_spec (N := N) (l := v.map (fun p => (nearest g query p).1)) (by simpa using hv) i
    have s2 := slice_spec (N := N) (l := v.map (fun p => (nearest g query p).2)) (by simpa using hv) j
    simp only [List.mem_map, exists_exists_and_eq_and] at s1 s2
    rw [← s1, ← s2]
    unfold bbox
    simp only
    constructor
    · rintro ⟨⟨⟨a, b⟩, c, d⟩, e⟩
      exact ⟨⟨a, by omega⟩, ⟨c, by omega⟩, e⟩
    · rintro ⟨⟨a, b⟩, ⟨c, d⟩, e⟩
      exact ⟨⟨⟨a, by omega⟩, c, by omega⟩, e⟩
  · cases h

/-- **C142** (border): the code reads out of its arrays exactly when a vertex has its nearest node at less than the margin from the end of the grid. -/
theorem pixels_none_iff (N : Nat) {v : List Pt} (hv : v ≠ []) :
    getPixels g query N v = none ↔ ∃ w ∈ v, g.nx ≤ (nearest g query w).1 + N ∨ g.ny ≤ (nearest g query w).2 + N := by
  have h1 := greatest_spec (l := v.map (fun p => (nearest g query p).1)) (by simpa using hv)
  have h2 := greatest_spec (l := v.map (fun p => (nearest g query p).2)) (by simpa using hv)
  obtain ⟨m1, b1⟩ := h1
  obtain ⟨m2, b2⟩ := h2
  obtain ⟨w1, hw1, e1⟩ := List.mem_map.1 m1
  obtain ⟨w2, hw2, e2⟩ := List.mem_map.1 m2
  unfold getPixels pixelsIn bbox slice
  simp only
  constructor
  · intro h
    split at h
    · cases h
    · rename_i hc
      rw [not_and_or] at hc
      rcases hc with hc | hc
      · exact ⟨w1, hw1, Or.inl (by omega)⟩
      · exact ⟨w2, hw2, Or.inr (by omega)⟩
  · rintro ⟨w, hw, h⟩
    have q1 := b1 _ (List.mem_map.2 ⟨w, hw, rfl⟩)
    have q2 := b2 _ (List.mem_map.2 ⟨w, hw, rfl⟩)
    rw [if_neg]
    rintro ⟨h3, h4⟩
    omega

/-- The longitudes depend on the row only and the latitudes on the column only, both increase. -/
structure Rectilinear (g : Grid) (X Y : Nat → Rat) : Prop where
  x_eq : ∀ i j, g.x i j = X i
  y_eq : ∀ i j, g.y i j = Y j
  x_mono : StrictMono X
  y_mono : StrictMono Y

/-- On increasing coordinates the nearest node is nearest for each coordinate. -/
theorem nearest_rows {X Y : Nat → Rat} (hr : Rectilinear g X Y) (ht : Tree g query) (p : Pt) :
    (∀ i, i < g.nx → |p.1 - X (nearest g query p).1| ≤ |p.1 - X i|) ∧ ∀ j, j < g.ny → |p.2 - Y (nearest g query p).2| ≤ |p.2 - Y j| := by
  obtain ⟨h1, h2, h3⟩ := nearest_spec ht p
  constructor
  · intro i hi
    have := h3 i _ hi h2
    simp only [hr.x_eq, hr.y_eq, dist2] at this
    apply sq_le_sq.1
    nlinarith
  · intro j hj
    have := h3 _ j h1 hj
    simp only [hr.x_eq, hr.y_eq, dist2] at this
    apply sq_le_sq.1
    nlinarith

/-- The index nearest to a value which is after a node is not before this node. -/
theorem le_nearest {X : Nat → Rat} (hX : StrictMono X) {i k : Nat} {x : Rat} (h : |x - X k| ≤ |x - X i|) (hi : X i ≤ x) : i ≤ k := by
  by_contra hc
  have := hX (show k < i by omega)
  rw [abs_of_nonneg (by linarith), abs_of_nonneg (by linarith)] at h
  linarith

theorem nearest_le {X : Nat → Rat} (hX : StrictMono X) {i k : Nat} {x : Rat} (h : |x - X k| ≤ |x - X i|) (hi : x ≤ X i) : k ≤ i := by
  by_contra hc
  have := hX (show i < k by omega)
  rw [abs_of_nonpos (by linarith), abs_of_nonpos (by linarith)] at h
  linarith

/-- **C142** (exact): on a grid whose longitudes and latitudes increase with their indices, whatever the margin, when the code does not read out of its
arrays the pixels given are exactly the nodes in the contour. Missing: other unregular grids (`fold_wrong`) and the border (`border_wrong`). -/
theorem pixels_exact_partial {X Y : Nat → Rat} (hr : Rectilinear g X Y) (ht : Tree g query) {N : Nat} {v : List Pt} (hv : v ≠ [])
    {l : List (Nat × Nat)} (h : getPixels g query N v = some l) :
    l.Nodup ∧ ∀ i j : Nat, (i, j) ∈ l ↔ i < g.nx ∧ j < g.ny ∧ winding (g.x i j, g.y i j) v ≠ 0 := by
  obtain ⟨h1, h2⟩ := pixels_box hv h
  have hin : ¬ ∃ w ∈ v, g.nx ≤ (nearest g query w).1 + N ∨ g.ny ≤ (nearest g query w).2 + N := by
    rw [← pixels_none_iff N hv, h]; simp
  refine ⟨h1, fun i j => ?_⟩
  rw [h2]
  constructor
  · rintro ⟨⟨_, b, hb, hb'⟩, ⟨_, d, hd, hd'⟩, hw⟩
    refine ⟨?_, ?_, hw⟩
    · by_contra hc
      exact hin ⟨b, hb, Or.inl (by omega)⟩
    · by_contra hc
      exact hin ⟨d, hd, Or.inr (by omega)⟩
  · rintro ⟨hi, hj, hw⟩
    obtain ⟨b1, b2, b3, b4⟩ := Pixels.winding_box hv hw
    have hne1 : v.map Prod.fst ≠ [] := by simpa using hv
    have hne2 : v.map Prod.snd ≠ [] := by simpa using hv
    obtain ⟨u1, hu1, e1⟩ := List.mem_map.1 (minR_spec hne1).1
    obtain ⟨u2, hu2, e2⟩ := List.mem_map.1 (maxR_spec hne1).1
    obtain ⟨u3, hu3, e3⟩ := List.mem_map.1 (minR_spec hne2).1
    obtain ⟨u4, hu4, e4⟩ := List.mem_map.1 (maxR_spec hne2).1
    rw [← e1] at b1
    rw [← e2] at b2
    rw [← e3] at b3
    rw [← e4] at b4
    simp only [hr.x_eq, hr.y_eq] at b1 b2 b3 b4
    have k1 := nearest_le hr.x_mono ((nearest_rows hr ht u1).1 i hi) b1
    have k2 := le_nearest hr.x_mono ((nearest_rows hr ht u2).1 i hi) b2
    have k3 := nearest_le hr.y_mono ((nearest_rows hr ht u3).2 j hj) b3
    have k4 := le_nearest hr.y_mono ((nearest_rows hr ht u4).2 j hj) b4
    exact ⟨⟨⟨u1, hu1, by omega⟩, u2, hu2, by omega⟩, ⟨⟨u3, hu3, by omega⟩, u4, hu4, by omega⟩, hw⟩

/-- Nearest node by a search of all of them. -/
def brute (g : Grid) (p : Pt) : Nat := argmin ((List.range (g.nx * g.ny)).map (fun k => dist2 p (g.node k)))

theorem brute_tree {g : Grid} (h : 0 < g.nx * g.ny) : Tree g (brute g) := by
  intro p
  unfold brute argmin
  have hne : (List.range (g.nx * g.ny)).map (fun k => dist2 p (g.node k)) ≠ [] := by
    intro hc
    have := congrArg List.length hc
    rw [List.length_map, List.length_range, List.length_nil] at this
    omega
  obtain ⟨m1, m2⟩ := minR_spec hne
  have hlt := List.findIdx_lt_length_of_exists (xs := (List.range (g.nx * g.ny)).map (fun k => dist2 p (g.node k)))
    (p := fun x => ((List.range (g.nx * g.ny)).map (fun k => dist2 p (g.node k))).all (fun y => decide (x ≤ y)))
    ⟨_, m1, by rw [List.all_eq_true]; exact fun y hy => by simpa using m2 y hy⟩
  have hg := List.findIdx_getElem (w := hlt)
  simp only [List.length_map, List.length_range] at hlt
  refine ⟨hlt, fun k hk => ?_⟩
  rw [List.all_eq_true] at hg
  have := hg (dist2 p (g.node k)) (List.mem_map.2 ⟨k, List.mem_range.2 hk, rfl⟩)
  simp only [List.getElem_map, List.getElem_range, decide_eq_true_eq] at this
  exact this

/-- A grid of six by six nodes at the integers. -/
def plain : Grid := ⟨6, 6, fun i _ => i, fun _ j => j⟩

theorem plain_rectilinear : Rectilinear plain (fun i => i) (fun j => j) :=
  ⟨fun _ _ => rfl, fun _ _ => rfl, fun a b h => by exact_mod_cast h, fun a b h => by exact_mod_cast h⟩

/-- A square around two nodes by two. -/
def box : List Pt := [(3 / 2, 3 / 2), (7 / 2, 3 / 2), (7 / 2, 7 / 2), (3 / 2, 7 / 2), (3 / 2, 3 / 2)]

example : Tree plain (brute plain) := brute_tree (by decide)

example : getPixels plain (brute plain) 1 box = some [(2, 2), (2, 3), (3, 2), (3, 3)] := by decide +kernel

/-- **C142** refuted near the last row: a contour between the rows 2 and 5, with nodes of the rows 3 and 4, makes the code read
after its arrays. -/
theorem border_wrong : getPixels plain (brute plain) 1 (box.map (fun p => (p.1 + 5 / 4, p.2))) = none ∧
    winding (plain.x 4 2, plain.y 4 2) (box.map (fun p => (p.1 + 5 / 4, p.2))) ≠ 0 := by decide +kernel

/-- A grid whose rows come back to the west. -/
def folded : Grid := ⟨8, 6, fun i _ => ([0, 2, 10, 11, 12, 1, 20, 21] : List Rat).getD i 0, fun _ j => j⟩

/-- A square from the row 0 to the row 1, around the row 5. -/
def wide : List Pt := [(-1 / 4, 3 / 2), (9 / 4, 3 / 2), (9 / 4, 5 / 2), (-1 / 4, 5 / 2), (-1 / 4, 3 / 2)]

/-- **C142** refuted for a grid whose rows come back: a node in the contour is not given. -/
theorem fold_wrong : ∃ l, getPixels folded (brute folded) 1 wide = some l ∧ (5, 2) ∉ l ∧ winding (folded.x 5 2, folded.y 5 2) wide ≠ 0 :=
  ⟨[(0, 2), (1, 2)], by decide +kernel⟩

/-! ### C143 -/

theorem arange_length (start stop step : Rat) : (arange start stop step).length = ⌈(stop - start) / step⌉.toNat := by
  unfold arange; simp

theorem arange_get {start stop step : Rat} {k : Nat} (h : k < (arange start stop step).length) :
    (arange start stop step)[k]? = some (start + k * step) := by
  rw [arange_length] at h
  unfold arange
  rw [List.getElem?_map, List.getElem?_range h]
  rfl

theorem arange_sorted {start stop step : Rat} (hs : 0 < step) : (arange start stop step).Pairwise (· < ·) := by
  unfold arange
  rw [List.pairwise_map]
  refine List.pairwise_lt_range.imp ?_
  intro a b hab
  have : (a : Rat) < b := by exact_mod_cast hab
  nlinarith

/-- The last value of `arange` is below the end, the next one would not be. -/
theorem arange_last {start stop step : Rat} (hs : 0 < step) (h : start < stop) :
    ∃ n : Nat, (arange start stop step).length = n + 1 ∧ start + n * step < stop ∧ stop ≤ start + (n + 1) * step := by
  have hq : 0 < (stop - start) / step := div_pos (by linarith) hs
  have hc : 0 < ⌈(stop - start) / step⌉ := Int.ceil_pos.2 hq
  refine ⟨⌈(stop - start) / step⌉.toNat - 1, by rw [arange_length]; omega, ?_, ?_⟩
  all_goals
    have e : ((⌈(stop - start) / step⌉.toNat - 1 : Nat) : Rat) = (⌈(stop - start) / step⌉ : Rat) - 1 := by
      have : ((⌈(stop - start) / step⌉.toNat - 1 : Nat) : Int) = ⌈(stop - start) / step⌉ - 1 := by omega
      exact_mod_cast congrArg (fun z : Int => (z : Rat)) this
    rw [e]
  · have := Int.ceil_lt_add_one ((stop - start) / step)
    have h2 : ((⌈(stop - start) / step⌉ : Rat) - 1) < (stop - start) / step := by linarith
    rw [lt_div_iff₀ hs] at h2
    linarith
  · have := Int.le_ceil ((stop - start) / step)
    rw [div_le_iff₀ hs] at this
    linarith

/-- The values between the bounds are between the first and the last edge of longitude. -/
theorem xEdges_inside {xmin xmax step x : Rat} (hs : 0 < step) (h1 : xmin ≤ x) (h2 : x ≤ xmax) : Boxes.Inside (xEdges xmin xmax step) x := by
  obtain ⟨n, hn, hl, hu⟩ := arange_last (start := xmin) (stop := xmax + step) hs (by linarith)
  refine ⟨xmin + (0 : Nat) * step, xmin + n * step, ?_, ?_, by push_cast; linarith, by linarith⟩
  · rw [List.head?_eq_getElem?]; exact arange_get (by omega)
  · rw [List.getLast?_eq_getElem?, show (xEdges xmin xmax step).length - 1 = n by unfold xEdges; omega]
    exact arange_get (by omega)

/-- The same for latitudes when the grid ends one step before 89 degrees. -/
theorem yEdges_inside {ymin ymax step y : Rat} (hs : 0 < step) (h89 : ymax + step ≤ 89) (h1 : ymin ≤ y) (h2 : y ≤ ymax) :
    Boxes.Inside (yEdges ymin ymax step) y := by
  unfold yEdges
  rw [min_eq_left h89]
  exact xEdges_inside hs h1 h2

/-- **C143** (cells): each value of the grid is in exactly one cell of the regular grid. Missing: the latitudes from one step before 89 degrees
(`north_wrong`). -/
theorem cells_partial {xmin xmax ymin ymax step : Rat} (hs : 0 < step) (hx : xmin < xmax) (hy : ymin < ymax) (h89 : ymax + step ≤ 89) {o : Obs}
    (h1 : xmin ≤ o.x) (h2 : o.x ≤ xmax) (h3 : ymin ≤ o.y) (h4 : o.y ≤ ymax) :
    ∃ a b, a + 1 < (xEdges xmin xmax step).length ∧ b + 1 < (yEdges ymin ymax step).length ∧
      (Boxes.InCell (xEdges xmin xmax step) a o.x ∧ Boxes.InCell (yEdges ymin ymax step) b o.y) ∧
      ∀ a' b', Boxes.InCell (xEdges xmin xmax step) a' o.x ∧ Boxes.InCell (yEdges ymin ymax step) b' o.y → a' = a ∧ b' = b := by
  have len : ∀ {lo hi : Rat}, lo < hi → 2 ≤ (arange lo (hi + step) step).length := by
    intro lo hi h
    obtain ⟨n, hn, hl, hu⟩ := arange_last (start := lo) (stop := hi + step) hs (by linarith)
    rcases Nat.eq_zero_or_pos n with h0 | h0
    · rw [h0] at hu; push_cast at hu; linarith
    · omega
  have ly : 2 ≤ (yEdges ymin ymax step).length := by unfold yEdges; rw [min_eq_left h89]; exact len hy
  obtain ⟨a, ha, ca, ua⟩ := Boxes.cell_unique (arange_sorted hs) (len hx) (xEdges_inside hs h1 h2)
  obtain ⟨b, hb, cb, ub⟩ := Boxes.cell_unique (edges := yEdges ymin ymax step) (arange_sorted hs) ly (yEdges_inside hs h89 h3 h4)
  exact ⟨a, b, ha, hb, ⟨ca, cb⟩, fun a' b' h => ⟨ua a' h.1, ub b' h.2⟩⟩

/-- **C143** (means): a cell of the regular grid holds the mean of its values, and is masked exactly when it has none. -/
theorem zGrid_mean {xe ye : List Rat} {obs : List Obs} (hx : xe.Pairwise (· < ·)) (hy : ye.Pairwise (· < ·)) (a b : Nat) (ha : a + 1 < xe.length)
    (hb : b + 1 < ye.length) [DecidablePred (fun o : Obs => Boxes.InCell xe a o.x ∧ Boxes.InCell ye b o.y)] (l : List Obs)
    (hl : l = obs.filter (fun o => decide (Boxes.InCell xe a o.x ∧ Boxes.InCell ye b o.y))) :
    zGrid xe ye obs a b = if l = [] then none else some ((l.map (·.value)).sum / l.length) := by
  have hf : obs.filter (fun o => decide (Boxes.binNumber xe o.x = a + 1 ∧ Boxes.binNumber ye o.y = b + 1)) = l := by
    rw [hl]
    apply List.filter_congr
    intro o _
    rw [decide_eq_decide, Boxes.binNumber_spec hx a _ ha, Boxes.binNumber_spec hy b _ hb]
  unfold zGrid Boxes.histogram
  rw [hf]
  have hc : (l.map (fun _ => (1 : Rat))).sum = l.length := by simp
  rw [hc]
  by_cases h : l = []
  · rw [if_pos h, h]; simp
  · have := List.length_pos_of_ne_nil h
    have h' : (0 : Rat) < l.length := by exact_mod_cast this
    rw [if_neg h, if_neg (ne_of_gt h')]

/-- The mean of values between two bounds is between them. -/
theorem mean_between {l : List Obs} (hne : l ≠ []) {lo hi : Rat} (h : ∀ o ∈ l, lo ≤ o.value ∧ o.value ≤ hi) :
    lo ≤ (l.map (·.value)).sum / l.length ∧ (l.map (·.value)).sum / l.length ≤ hi := by
  have h' : (0 : Rat) < l.length := by exact_mod_cast List.length_pos_of_ne_nil hne
  have key : ∀ l : List Obs, (∀ o ∈ l, lo ≤ o.value ∧ o.value ≤ hi) → lo * l.length ≤ (l.map (·.value)).sum ∧ (l.map (·.value)).sum ≤ hi * l.length := by
    intro l
    induction l with
    | nil => simp
    | cons o l ih =>
      intro h
      obtain ⟨i1, i2⟩ := ih fun o ho => h o (List.mem_cons_of_mem _ ho)
      obtain ⟨j1, j2⟩ := h o (by simp)
      simp only [List.map_cons, List.sum_cons, List.length_cons]
      push_cast
      constructor <;> linarith
  obtain ⟨k1, k2⟩ := key l h
  rw [le_div_iff₀ h', div_le_iff₀ h']
  exact ⟨k1, k2⟩

/-- The centres used by the interpolation are the centres of the regular grid on which the filter is done. -/
theorem centres_eq {start stop step : Rat} (h : 3 ≤ (arange start stop step).length) :
    cornersToCentres (arange start stop step).dropLast = centres (arange start stop step) := by
  obtain ⟨n, hn⟩ : ∃ n, ⌈(stop - start) / step⌉.toNat = n + 3 := ⟨_, (Nat.sub_add_cancel (by rwa [arange_length] at h)).symm⟩
  have hf : arange start stop step = (List.range (n + 3)).map (fun (k : Nat) => start + k * step) := by unfold arange; rw [hn]
  rw [hf]
  generalize hF : (fun (k : Nat) => start + (k : Rat) * step) = F
  have hd : ((List.range (n + 3)).map F).dropLast = (List.range (n + 2)).map F := by
    rw [List.range_succ, List.map_append]; simp
  have hlen : ∀ m : Nat, (List.zipWith (fun a b => (b - a) / 2) ((List.range (m + 1)).map F) ((List.range (m + 1)).map F).tail) = List.replicate m (step / 2) := by
    intro m
    apply List.ext_getElem?
    intro k
    rw [List.getElem?_zipWith, List.getElem?_tail, List.getElem?_map, List.getElem?_map, List.getElem?_replicate]
    by_cases hk : k < m
    · rw [List.getElem?_range (by omega), List.getElem?_range (by omega), if_pos hk]
      simp only [Option.map_some, ← hF]
      congr 1
      push_cast
      ring
    · rw [if_neg hk, List.getElem?_eq_none (l := List.range (m + 1)) (i := k + 1) (by simp; omega)]
      cases (Option.map F (List.range (m + 1))[k]?) <;> rfl
  rw [hd]
  unfold cornersToCentres centres
  rw [hlen (n + 1)]
  apply List.ext_getElem?
  intro k
  have hl : (List.replicate (n + 1) (step / 2)).getLastD 0 = step / 2 := by
    rw [List.replicate_succ']; simp
  show (List.zipWith (· + ·) ((List.range (n + 2)).map F) (List.replicate (n + 1) (step / 2) ++ [(List.replicate (n + 1) (step / 2)).getLastD 0]))[k]? = _
  rw [hl, ← List.replicate_succ', List.getElem?_zipWith, List.getElem?_zipWith, List.getElem?_tail, List.getElem?_map, List.getElem?_map,
    List.getElem?_map, List.getElem?_replicate]
  by_cases hk : k < n + 2
  · rw [List.getElem?_range hk, List.getElem?_range (by omega), List.getElem?_range (by omega), if_pos hk]
    simp only [Option.map_some, ← hF]
    congr 1
    push_cast
    ring
  · rw [List.getElem?_eq_none (l := List.range (n + 2)) (by simp; omega), List.getElem?_eq_none (l := List.range (n + 3)) (i := k + 1) (by simp; omega)]
    cases (Option.map F (List.range (n + 3))[k]?) <;> rfl

/-- The centres are half a step after the edges. -/
theorem centres_get {start stop step : Rat} {k : Nat} (h : k + 1 < (arange start stop step).length) :
    (centres (arange start stop step))[k]? = some (start + step / 2 + k * step) := by
  unfold centres
  rw [List.getElem?_zipWith, List.getElem?_tail, arange_get (by omega), arange_get h]
  simp only
  congr 1
  push_cast
  ring

/-- The corners exist and their weights are between 0 and 1. -/
theorem place_range (c0 step x : Rat) {n : Nat} (hn : 2 ≤ n) :
    (place c0 step n x).1 + 1 < n ∧ 0 ≤ (place c0 step n x).2 ∧ (place c0 step n x).2 ≤ 1 := by
  unfold place
  simp only
  generalize ht : max 0 (min ((x - c0) / step) ((n : Rat) - 1)) = t
  have h2n : (2 : Rat) ≤ n := by exact_mod_cast hn
  have h0 : 0 ≤ t := by rw [← ht]; exact le_max_left _ _
  have h1 : t ≤ (n : Rat) - 1 := by rw [← ht]; exact max_le (by linarith) (min_le_right _ _)
  have hf := Int.floor_nonneg.2 h0
  have hfl := Int.floor_le t
  have hlt := Int.lt_floor_add_one t
  have hc : ((⌊t⌋.toNat : Nat) : Rat) = (⌊t⌋ : Rat) := by
    have : ((⌊t⌋.toNat : Nat) : Int) = ⌊t⌋ := Int.toNat_of_nonneg hf
    exact_mod_cast congrArg (fun z : Int => (z : Rat)) this
  rcases Nat.le_total ⌊t⌋.toNat (n - 2) with h | h
  · rw [Nat.min_eq_left h, hc]
    exact ⟨by omega, by linarith, by linarith⟩
  · rw [Nat.min_eq_right h]
    have e : ((n - 2 : Nat) : Rat) = n - 2 := by push_cast [hn]; ring
    have h' : ((n - 2 : Nat) : Rat) ≤ (⌊t⌋.toNat : Rat) := by exact_mod_cast h
    rw [hc] at h'
    exact ⟨by omega, by linarith, by rw [e]; linarith⟩

/-- Between the first and the last centre the weights are the ones of the position. -/
theorem place_spec {c0 step x : Rat} {n : Nat} (hs : 0 < step) (h1 : c0 ≤ x) (h2 : x ≤ c0 + ((n : Rat) - 1) * step) :
    x = (c0 + (place c0 step n x).1 * step) * (1 - (place c0 step n x).2) + (c0 + ((place c0 step n x).1 + 1) * step) * (place c0 step n x).2 := by
  have ht : max 0 (min ((x - c0) / step) ((n : Rat) - 1)) = (x - c0) / step := by
    rw [min_eq_left (by rw [div_le_iff₀ hs]; linarith), max_eq_right (div_nonneg (by linarith) hs.le)]
  unfold place
  simp only
  rw [ht]
  generalize ((min ⌊(x - c0) / step⌋.toNat (n - 2) : Nat) : Rat) = k
  have : (x - c0) / step * step = x - c0 := div_mul_cancel₀ _ hs.ne'
  nlinarith

/-- **C143** (interpolation): the values given are between the bounds of the valid cells around, up to a hundred thousandth of the bounds. -/
theorem back_between {z : Nat → Nat → Option Rat} {p q : Nat × Rat} (hp : 0 ≤ p.2 ∧ p.2 ≤ 1) (hq : 0 ≤ q.2 ∧ q.2 ≤ 1) {lo hi r : Rat}
    (hz : ∀ a b v, z a b = some v → lo ≤ v ∧ v ≤ hi) (h : back z p q = some r) :
    lo - |lo| / 100000 ≤ r ∧ r ≤ hi + |hi| / 100000 := by
  unfold back at h
  split at h
  · cases h
  · rename_i hm
    cases h
    rw [not_lt] at hm
    unfold bilinear at hm ⊢
    have key : ∀ a b (w : Rat), 0 ≤ w → lo * (w - (if (z a b).isNone then 1 else 0) * w) ≤ (z a b).getD 0 * w ∧
        (z a b).getD 0 * w ≤ hi * (w - (if (z a b).isNone then 1 else 0) * w) := by
      intro a b w hw
      cases e : z a b with
      | none => simp
      | some v =>
        obtain ⟨k1, k2⟩ := hz a b v e
        simp only [Option.getD_some, Option.isNone_some, Bool.false_eq_true, if_false, zero_mul, sub_zero]
        exact ⟨mul_le_mul_of_nonneg_right k1 hw, mul_le_mul_of_nonneg_right k2 hw⟩
    have m0 : ∀ a b : Nat, (0 : Rat) ≤ (if (z a b).isNone then 1 else 0) := fun a b => by split <;> norm_num
    have w1 : 0 ≤ (1 - p.2) * (1 - q.2) := mul_nonneg (by linarith [hp.2]) (by linarith [hq.2])
    have w2 : 0 ≤ p.2 * (1 - q.2) := mul_nonneg hp.1 (by linarith [hq.2])
    have w3 : 0 ≤ (1 - p.2) * q.2 := mul_nonneg (by linarith [hp.2]) hq.1
    have w4 : 0 ≤ p.2 * q.2 := mul_nonneg hp.1 hq.1
    have hsum : (1 - p.2) * (1 - q.2) + p.2 * (1 - q.2) + (1 - p.2) * q.2 + p.2 * q.2 = 1 := by ring
    obtain ⟨a1, b1⟩ := key p.1 q.1 _ w1
    obtain ⟨a2, b2⟩ := key (p.1 + 1) q.1 _ w2
    obtain ⟨a3, b3⟩ := key p.1 (q.1 + 1) _ w3
    obtain ⟨a4, b4⟩ := key (p.1 + 1) (q.1 + 1) _ w4
    have n1 := mul_nonneg (m0 p.1 q.1) w1
    have n2 := mul_nonneg (m0 (p.1 + 1) q.1) w2
    have n3 := mul_nonneg (m0 p.1 (q.1 + 1)) w3
    have n4 := mul_nonneg (m0 (p.1 + 1) (q.1 + 1)) w4
    generalize (1 - p.2) * (1 - q.2) = W1 at *
    generalize p.2 * (1 - q.2) = W2 at *
    generalize (1 - p.2) * q.2 = W3 at *
    generalize p.2 * q.2 = W4 at *
    generalize (if (z p.1 q.1).isNone then (1 : Rat) else 0) * W1 = M1 at *
    generalize (if (z (p.1 + 1) q.1).isNone then (1 : Rat) else 0) * W2 = M2 at *
    generalize (if (z p.1 (q.1 + 1)).isNone then (1 : Rat) else 0) * W3 = M3 at *
    generalize (if (z (p.1 + 1) (q.1 + 1)).isNone then (1 : Rat) else 0) * W4 = M4 at *
    have bound : ∀ c : Rat, |c * (M1 + M2 + M3 + M4)| ≤ |c| / 100000 := by
      intro c
      rw [abs_mul, abs_of_nonneg (show 0 ≤ M1 + M2 + M3 + M4 by linarith)]
      have := mul_le_mul_of_nonneg_left hm (abs_nonneg c)
      linarith
    have e1 := abs_le.1 (bound lo)
    have e2 := abs_le.1 (bound hi)
    have t1 : lo * (W1 - M1) + lo * (W2 - M2) + lo * (W3 - M3) + lo * (W4 - M4) = lo * (W1 + W2 + W3 + W4) - lo * (M1 + M2 + M3 + M4) := by ring
    have t2 : hi * (W1 - M1) + hi * (W2 - M2) + hi * (W3 - M3) + hi * (W4 - M4) = hi * (W1 + W2 + W3 + W4) - hi * (M1 + M2 + M3 + M4) := by ring
    rw [hsum] at t1 t2
    exact ⟨by linarith [e1.2], by linarith [e2.1]⟩

/-- A filter whose values are between the bounds of the valid values of the grid: weighted means of them (property C81 with weights which are not
negative). -/
def Averages (F : (Nat → Nat → Option Rat) → Nat → Nat → Option Rat) : Prop :=
  ∀ z lo hi, (∀ a b v, z a b = some v → lo ≤ v ∧ v ≤ hi) → ∀ a b v, F z a b = some v → lo ≤ v ∧ v ≤ hi

theorem zGrid_between {xe ye : List Rat} {obs : List Obs} {lo hi : Rat} (h : ∀ o ∈ obs, lo ≤ o.value ∧ o.value ≤ hi) (a b : Nat) (v : Rat)
    (hv : zGrid xe ye obs a b = some v) : lo ≤ v ∧ v ≤ hi := by
  unfold zGrid Boxes.histogram at hv
  split at hv
  · cases hv
  · rename_i hc
    cases hv
    generalize hl : obs.filter (fun o => decide (Boxes.binNumber xe o.x = a + 1 ∧ Boxes.binNumber ye o.y = b + 1)) = l at *
    have hlen : (l.map (fun _ => (1 : Rat))).sum = l.length := by simp
    rw [hlen] at hc ⊢
    refine mean_between (fun e => hc (by rw [e]; simp)) fun o ho => h o ?_
    rw [← hl] at ho
    exact (List.mem_filter.1 ho).1

/-- **C143**: with a filter which gives weighted means, the filtered values are between the bounds of the valid values of the unregular grid, up to a
hundred thousandth of these bounds; the filter of a constant is this constant up to a hundred thousandth. -/
theorem low_filter_between {F : (Nat → Nat → Option Rat) → Nat → Nat → Option Rat} (hF : Averages F) {step xmin xmax ymin ymax : Rat} {obs : List Obs}
    (hx : 3 ≤ (xEdges xmin xmax step).length) (hy : 3 ≤ (yEdges ymin ymax step).length) {lo hi : Rat} (h : ∀ o ∈ obs, lo ≤ o.value ∧ o.value ≤ hi)
    {x y r : Rat} (hr : lowFilter F step xmin xmax ymin ymax obs x y = some r) : lo - |lo| / 100000 ≤ r ∧ r ≤ hi + |hi| / 100000 := by
  unfold lowFilter at hr
  have p1 := place_range (xmin + step / 2) step x (n := (xEdges xmin xmax step).length - 1) (by omega)
  have p2 := place_range (ymin + step / 2) step y (n := (yEdges ymin ymax step).length - 1) (by omega)
  exact back_between p1.2 p2.2 (hF _ lo hi (fun a b v hv => zGrid_between h a b v hv)) hr

/-- **C143** (planes): where the four cells around are valid and hold an affine function of their centres, the value given is this function at the
position. -/
theorem back_affine {z : Nat → Nat → Option Rat} {c0 d0 step x y A B C : Rat} {n m : Nat} (hs : 0 < step) (h1 : c0 ≤ x)
    (h2 : x ≤ c0 + ((n : Rat) - 1) * step) (h3 : d0 ≤ y) (h4 : y ≤ d0 + ((m : Rat) - 1) * step)
    (hz : ∀ a b : Nat, z a b = some (A * (c0 + a * step) + B * (d0 + b * step) + C)) :
    back z (place c0 step n x) (place d0 step m y) = some (A * x + B * y + C) := by
  have hx := place_spec hs h1 h2
  have hy := place_spec hs h3 h4
  generalize place c0 step n x = p at *
  generalize place d0 step m y = q at *
  unfold back bilinear
  simp only [hz, Option.isNone_some, Bool.false_eq_true, if_false, Option.getD_some]
  rw [if_neg (by norm_num)]
  congr 1
  push_cast
  rw [hx, hy]
  ring

/-- Two values. -/
def two : List Obs := [⟨0, 0, 3⟩, ⟨5 / 2, 5 / 2, 3⟩]

/-- The filter which changes nothing. -/
theorem id_averages : Averages (fun z => z) := fun _ _ _ h => h

example : (xEdges 0 (5 / 2) 1).length = 4 ∧ lowFilter (fun z => z) 1 0 (5 / 2) 0 (5 / 2) two 0 0 = some 3 ∧
    lowFilter (fun z => z) 1 0 (5 / 2) 0 (5 / 2) two 1 1 = none ∧ ∀ o ∈ two, (3 : Rat) ≤ o.value ∧ o.value ≤ 3 := by decide +kernel

/-- **C143** refuted near the pole: a value at 88.5 degrees is in no cell of the regular grid, its place is filled by the other latitudes. -/
theorem north_wrong : yEdges 80 (177 / 2) 1 = [80, 81, 82, 83, 84, 85, 86, 87, 88] ∧
    ∀ a < 2, ∀ b < 8, zGrid (xEdges 0 1 1) (yEdges 80 (177 / 2) 1) [⟨1 / 2, 177 / 2, 7⟩] a b = none := by decide +kernel

end Verif.Unregular
