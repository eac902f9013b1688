import Verif.Lines.Flat
import Mathlib.Data.List.Sort
import Mathlib.Tactic.Linarith
import Mathlib.Tactic.Ring
import Mathlib.Tactic.FieldSimp
import Mathlib.Algebra.Order.Field.Rat

/-!
# C176: the graphic interface of atlases

Classes `GUIAxes` and `GUI` of `GUIEddy` (/repo/src/py_eddy_tracker/gui.py): the period, the day, the eddies of the map, the eddy under the mouse,
the labels and the shape of the map.
-/

namespace Verif.Gui

/-! ### Period and day -/

/-- `set_initial_values`, gui.py:92-98: the period of all the datasets, from the period of each one. -/
def period (ps : List (Int × Int)) : Int × Int := ps.foldl (fun t p => (min t.1 p.1, max t.2 p.2)) (1000000, 0)

/-- The keys of `keyboard` and the buttons of `scroll`, gui.py:79, 272-281 and 369-376. -/
inductive Key where
  | down | up | pagedown | pageup | home | last | scrollUp | scrollDown | other
deriving DecidableEq

/-- The day after an event, gui.py:79 and 272-281 (`last` is the key `end`), 369-376 with the mouse on the map. -/
def press (p : Int × Int) (now : Int) : Key → Int
  | .down => now - 1
  | .up => now + 1
  | .pagedown => now - 5
  | .pageup => now + 5
  | .home => p.1
  | .last => p.2
  | .scrollUp => now + 1
  | .scrollDown => now - 1
  | .other => now

/-- `set_initial_values` then events, gui.py:98: the first day is the last of the period. -/
def day (ps : List (Int × Int)) (keys : List Key) : Int := keys.foldl (press (period ps)) (period ps).2

/-! ### Map -/

/-- One observation. -/
structure Obs where
  lon : Rat
  lat : Rat
  time : Int

/-- The limits of the map. -/
structure Box where
  x0 : Rat
  x1 : Rat
  y0 : Rat
  y1 : Rat

/-- `indexs`, gui.py:121-125. -/
def indexs (b : Box) (now : Int) (obs : List Obs) : List Nat :=
  (List.range obs.length).filter (fun i => match obs[i]? with
    | some o => decide (b.x0 < o.lon) && decide (o.lon < b.x1) && decide (b.y0 < o.lat) && decide (o.lat < b.y1) && decide (now = o.time)
    | none => false)

/-- `med`, gui.py:127-129. -/
def med : Box := ⟨-6, 37, 30, 46⟩

/-- `end_pan`, gui.py:42-56: the limits for an axis of shape `rAx` (width / height). -/
def endPan (rAx : Rat) (b : Box) : Box :=
  let x := (b.x1 + b.x0) / 2
  let y := (b.y1 + b.y0) / 2
  let dx := (b.x1 - b.x0) / 2
  let dy := (b.y1 - b.y0) / 2
  if rAx < dx / dy then ⟨b.x0, b.x1, y - dx / rAx, y + dx / rAx⟩ else ⟨x - dy * rAx, x + dy * rAx, b.y0, b.y1⟩

/-- `touch`, gui.py:326: the rank of the eddy, among the eddies of the map, for a vertex of the line of contours. -/
def touch (ind : Nat) : Nat := ind / 51

/-- `n_min`, gui.py:239-243 (`n_` sorted). -/
def nMin (n : List Int) : Int := if 50 < n.length then (n.insertionSort (· ≤ ·))[n.length - 50]?.getD 0 else 0

/-- The labels which are written, gui.py:246-248. -/
def labels (n : List Int) : List Int := n.filter (fun v => decide (nMin n ≤ v))

/-! ### Proofs -/

theorem period_fold (ps : List (Int × Int)) : ∀ t : Int × Int,
    ((ps.foldl (fun t p => (min t.1 p.1, max t.2 p.2)) t).1 ≤ t.1 ∧ ∀ p ∈ ps, (ps.foldl (fun t p => (min t.1 p.1, max t.2 p.2)) t).1 ≤ p.1) ∧
    (t.2 ≤ (ps.foldl (fun t p => (min t.1 p.1, max t.2 p.2)) t).2 ∧ ∀ p ∈ ps, p.2 ≤ (ps.foldl (fun t p => (min t.1 p.1, max t.2 p.2)) t).2) ∧
    ((ps.foldl (fun t p => (min t.1 p.1, max t.2 p.2)) t).1 = t.1 ∨ ∃ p ∈ ps, (ps.foldl (fun t p => (min t.1 p.1, max t.2 p.2)) t).1 = p.1) ∧
    ((ps.foldl (fun t p => (min t.1 p.1, max t.2 p.2)) t).2 = t.2 ∨ ∃ p ∈ ps, (ps.foldl (fun t p => (min t.1 p.1, max t.2 p.2)) t).2 = p.2) := by
  induction ps with
  | nil => intro t; simp
  | cons q ps ih =>
    intro t
    obtain ⟨⟨h1, h2⟩, ⟨h3, h4⟩, h5, h6⟩ := ih (min t.1 q.1, max t.2 q.2)
    rw [List.foldl_cons]
    simp only at h1 h2 h3 h4 h5 h6
    have m1 : min t.1 q.1 ≤ t.1 := min_le_left _ _
    have m2 : min t.1 q.1 ≤ q.1 := min_le_right _ _
    have m3 : t.2 ≤ max t.2 q.2 := le_max_left _ _
    have m4 : q.2 ≤ max t.2 q.2 := le_max_right _ _
    refine ⟨⟨le_trans h1 m1, ?_⟩, ⟨le_trans m3 h3, ?_⟩, ?_, ?_⟩
    · intro p hp
      rcases List.mem_cons.1 hp with rfl | hp
      · exact le_trans h1 m2
      · exact h2 p hp
    · intro p hp
      rcases List.mem_cons.1 hp with rfl | hp
      · exact le_trans m4 h3
      · exact h4 p hp
    · rcases h5 with h5 | ⟨p, hp, h5⟩
      · rcases le_total t.1 q.1 with h | h
        · left; rw [h5, min_eq_left h]
        · right; exact ⟨q, by simp, by rw [h5, min_eq_right h]⟩
      · right; exact ⟨p, List.mem_cons_of_mem _ hp, h5⟩
    · rcases h6 with h6 | ⟨p, hp, h6⟩
      · rcases le_total t.2 q.2 with h | h
        · right; exact ⟨q, by simp, by rw [h6, max_eq_right h]⟩
        · left; rw [h6, max_eq_left h]
      · right; exact ⟨p, List.mem_cons_of_mem _ hp, h6⟩

/-- C176 (partial), the period: when a dataset begins before the day 1000000 and one ends after 1950, it goes from the first day of the datasets to the
last one. Missing: `period_wrong`. -/
theorem period_partial {ps : List (Int × Int)} (h0 : ∃ p ∈ ps, p.1 ≤ 1000000) (h1 : ∃ p ∈ ps, 0 ≤ p.2) :
    ((∃ p ∈ ps, (period ps).1 = p.1) ∧ ∀ p ∈ ps, (period ps).1 ≤ p.1) ∧ (∃ p ∈ ps, (period ps).2 = p.2) ∧ ∀ p ∈ ps, p.2 ≤ (period ps).2 := by
  obtain ⟨⟨g1, g2⟩, ⟨g3, g4⟩, g5, g6⟩ := period_fold ps (1000000, 0)
  refine ⟨⟨?_, g2⟩, ?_, g4⟩
  · rcases g5 with g5 | g5
    · obtain ⟨p, hp, hp1⟩ := h0
      have := g2 p hp
      simp only at g5
      exact ⟨p, hp, by unfold period; omega⟩
    · exact g5
  · rcases g6 with g6 | g6
    · obtain ⟨p, hp, hp1⟩ := h1
      have := g4 p hp
      simp only at g6
      exact ⟨p, hp, by unfold period; omega⟩
    · exact g6

/-- When all the datasets end before 1950, the period ends on 1950-01-01 and the interface opens on a day without data. -/
theorem period_wrong {ps : List (Int × Int)} (h : ∀ p ∈ ps, p.2 < 0) : (period ps).2 = 0 ∧ day ps [] = 0 ∧
    ∀ (obs : List Obs) b, (∃ p ∈ ps, ∀ o ∈ obs, o.time ≤ p.2) → indexs b (day ps []) obs = [] := by
  obtain ⟨_, ⟨g3, g4⟩, _, g6⟩ := period_fold ps (1000000, 0)
  have h2 : (period ps).2 = 0 := by
    rcases g6 with g6 | ⟨p, hp, g6⟩
    · exact g6
    · have := h p hp
      simp only at g3
      unfold period
      omega
  refine ⟨h2, h2, ?_⟩
  rintro obs b ⟨p, hp, ho⟩
  have := h p hp
  unfold indexs
  rw [List.filter_eq_nil_iff]
  intro i hi
  rw [List.mem_range] at hi
  rw [List.getElem?_eq_getElem hi]
  have h3 := ho _ (List.getElem_mem hi)
  have h4 : day ps [] ≠ obs[i].time := by
    rw [show day ps [] = 0 from h2]; omega
  simp [h4]

/-- The keys home and end go to the ends of the period, whatever was done before. -/
theorem home_end (ps : List (Int × Int)) (keys : List Key) : day ps (keys ++ [.home]) = (period ps).1 ∧ day ps (keys ++ [.last]) = (period ps).2 := by
  unfold day
  rw [List.foldl_append, List.foldl_append]
  exact ⟨rfl, rfl⟩

/-- Up and down, page up and page down cancel each other. -/
theorem up_down (ps : List (Int × Int)) (keys : List Key) : day ps (keys ++ [.up, .down]) = day ps keys ∧ day ps (keys ++ [.pageup, .pagedown]) = day ps keys ∧
    day ps (keys ++ [.scrollUp, .scrollDown]) = day ps keys := by
  unfold day
  simp only [List.foldl_append, List.foldl_cons, List.foldl_nil, press]
  exact ⟨by omega, by omega, by omega⟩

/-- Nothing keeps the day in the period: the first key up leaves it. -/
theorem day_leaves_period (ps : List (Int × Int)) (k : Nat) : day ps (List.replicate k .up) = (period ps).2 + k := by
  unfold day
  generalize (period ps).2 = t
  induction k generalizing t with
  | zero => simp
  | succ k ih =>
    rw [List.replicate_succ, List.foldl_cons, ih]
    show t + 1 + (k : Int) = _
    push_cast; ring

/-- C176, the map: the eddies are those of the day inside the limits, in their order. -/
theorem indexs_spec (b : Box) (now : Int) (obs : List Obs) : (indexs b now obs).Pairwise (· < ·) ∧
    ∀ i, i ∈ indexs b now obs ↔ ∃ o, obs[i]? = some o ∧ o.time = now ∧ (b.x0 < o.lon ∧ o.lon < b.x1) ∧ b.y0 < o.lat ∧ o.lat < b.y1 := by
  unfold indexs
  refine ⟨List.Pairwise.filter _ List.pairwise_lt_range, ?_⟩
  intro i
  rw [List.mem_filter, List.mem_range]
  constructor
  · rintro ⟨hi, h⟩
    rw [List.getElem?_eq_getElem hi] at h ⊢
    simp only [Bool.and_eq_true, decide_eq_true_eq] at h
    exact ⟨_, rfl, h.2.symm, ⟨h.1.1.1.1, h.1.1.1.2⟩, h.1.1.2, h.1.2⟩
  · rintro ⟨o, ho, h1, ⟨h2, h3⟩, h4, h5⟩
    obtain ⟨hi, _⟩ := List.getElem?_eq_some_iff.1 ho
    refine ⟨hi, ?_⟩
    rw [ho]
    simp only [Bool.and_eq_true, decide_eq_true_eq]
    exact ⟨⟨⟨⟨h2, h3⟩, h4⟩, h5⟩, h1.symm⟩

/-- The longitudes are not taken on the circle: with `--med`, no eddy whose longitude is given west of Greenwich as 354…360 is on the map. -/
theorem med_wrong (now : Int) (lat : Rat) (x : Rat) (h : 354 < x) : indexs med now [⟨x, lat, now⟩] = [] ∧
    (30 < lat → lat < 46 → x < 360 → indexs med now [⟨x - 360, lat, now⟩] = [0]) := by
  constructor
  · rw [List.eq_nil_iff_forall_not_mem]
    intro i hi
    obtain ⟨o, ho, _, ⟨_, h3⟩, _⟩ := ((indexs_spec _ _ _).2 i).1 hi
    cases i with
    | zero =>
      have ho : some (⟨x, lat, now⟩ : Obs) = some o := ho
      cases ho
      simp only [med] at h3
      linarith
    | succ i => simp at ho
  · intro h1 h2 h3
    unfold indexs med
    rw [show List.range ([⟨x - 360, lat, now⟩] : List Obs).length = [0] from rfl, List.filter_cons_of_pos, List.filter_nil]
    show (_ && _ && _ && _ && _) = true
    simp only [Bool.and_eq_true, decide_eq_true_eq]
    exact ⟨⟨⟨⟨by linarith, by linarith⟩, h1⟩, h2⟩, trivial⟩

/-- C176, the shape of the map: the limits contain the former ones, with the same centre and the shape of the axis. -/
theorem endPan_spec {rAx : Rat} (hr : 0 < rAx) {b : Box} (hy : b.y0 < b.y1) :
    (endPan rAx b).x0 ≤ b.x0 ∧ b.x1 ≤ (endPan rAx b).x1 ∧ (endPan rAx b).y0 ≤ b.y0 ∧ b.y1 ≤ (endPan rAx b).y1 ∧
    (endPan rAx b).x0 + (endPan rAx b).x1 = b.x0 + b.x1 ∧ (endPan rAx b).y0 + (endPan rAx b).y1 = b.y0 + b.y1 ∧
    (endPan rAx b).x1 - (endPan rAx b).x0 = rAx * ((endPan rAx b).y1 - (endPan rAx b).y0) ∧
    (((endPan rAx b).x0 = b.x0 ∧ (endPan rAx b).x1 = b.x1) ∨ ((endPan rAx b).y0 = b.y0 ∧ (endPan rAx b).y1 = b.y1)) := by
  have hdy : 0 < (b.y1 - b.y0) / 2 := by linarith
  by_cases h : rAx < (b.x1 - b.x0) / 2 / ((b.y1 - b.y0) / 2)
  · have e : endPan rAx b = ⟨b.x0, b.x1, (b.y1 + b.y0) / 2 - (b.x1 - b.x0) / 2 / rAx, (b.y1 + b.y0) / 2 + (b.x1 - b.x0) / 2 / rAx⟩ := by
      unfold endPan; rw [if_pos h]
    rw [lt_div_iff₀ hdy] at h
    have h2 : (b.y1 - b.y0) / 2 ≤ (b.x1 - b.x0) / 2 / rAx := by rw [le_div_iff₀ hr]; linarith
    rw [e]
    refine ⟨le_refl _, le_refl _, by show _ - _ ≤ _; linarith, by show _ ≤ _ + _; linarith, rfl, by show _ - _ + (_ + _) = _; ring, ?_, Or.inl ⟨rfl, rfl⟩⟩
    show b.x1 - b.x0 = rAx * (_ + _ - (_ - _))
    field_simp
    ring
  · have e : endPan rAx b = ⟨(b.x1 + b.x0) / 2 - (b.y1 - b.y0) / 2 * rAx, (b.x1 + b.x0) / 2 + (b.y1 - b.y0) / 2 * rAx, b.y0, b.y1⟩ := by
      unfold endPan; rw [if_neg h]
    rw [not_lt, div_le_iff₀ hdy] at h
    rw [e]
    refine ⟨by show _ - _ ≤ _; linarith, by show _ ≤ _ + _; linarith, le_refl _, le_refl _, by show _ - _ + (_ + _) = _; ring, rfl, ?_, Or.inr ⟨rfl, rfl⟩⟩
    show _ + _ - (_ - _) = _
    ring

/-- The vertices of the contours in the line drawn on the map (`flatten_line_matrix`, property C41). -/
theorem intercalate_get {α : Type} (nan : α) {s : Nat} : ∀ (rows : List (List α)), (∀ r ∈ rows, r.length = s) → ∀ (i j : Nat) r, rows[i]? = some r → j < s →
    ([nan].intercalate rows)[(s + 1) * i + j]? = r[j]?
  | [], _, i, j, r, h, _ => by simp at h
  | [a], hs, i, j, r, h, hj => by
    cases i with
    | zero =>
      have h : some a = some r := h
      cases h
      rw [List.intercalate_singleton]; simp
    | succ i => simp at h
  | a :: b :: rows, hs, i, j, r, h, hj => by
    have ha : a.length = s := hs a (by simp)
    rw [List.intercalate_cons_cons]
    cases i with
    | zero =>
      have h : some a = some r := h
      cases h
      rw [List.append_assoc, List.getElem?_append_left (by rw [ha]; omega)]; simp
    | succ i =>
      have := intercalate_get nan (b :: rows) (fun x hx => hs x (by simp [hx])) i j r h hj
      rw [List.getElem?_append_right (by simp only [List.length_append, List.length_singleton, ha]; rw [Nat.mul_succ]; omega)]
      rw [← this]
      congr 1
      simp only [List.length_append, List.length_singleton, ha]
      rw [Nat.mul_succ]
      omega

/-- C176 (partial), the eddy under the mouse: for contours of 50 points, each vertex of the line leads to the eddy of its contour.
Missing: other sizes, see `touch_wrong`. -/
theorem touch_partial {α : Type} (nan : α) {rows : List (List α)} (hs : ∀ r ∈ rows, r.length = 50) {i : Nat} {r : List α} (hi : rows[i]? = some r) {j : Nat}
    (hj : j < 50) : ([nan].intercalate rows)[51 * i + j]? = r[j]? ∧ touch (51 * i + j) = i := by
  refine ⟨intercalate_get nan rows hs i j r hi hj, ?_⟩
  unfold touch
  omega

/-- For contours of any other size, the vertices of an eddy lead to another one: those of the second one when the contours are shorter, the first
vertex of the eddy of rank 51 in all the cases. -/
theorem touch_wrong {α : Type} (nan : α) {s : Nat} (h0 : 0 < s) (h50 : s ≠ 50) {rows : List (List α)} (hs : ∀ r ∈ rows, r.length = s) :
    (∀ r, rows[51]? = some r → ([nan].intercalate rows)[(s + 1) * 51]? = r[0]? ∧ touch ((s + 1) * 51) ≠ 51) ∧
    (s < 50 → ∀ r, rows[1]? = some r → ([nan].intercalate rows)[s + 1]? = r[0]? ∧ touch (s + 1) = 0) := by
  refine ⟨?_, ?_⟩
  · intro r hr
    have := intercalate_get nan rows hs 51 0 r hr h0
    refine ⟨this, ?_⟩
    unfold touch
    rw [Nat.mul_div_cancel _ (by omega)]
    omega
  · intro h r hr
    have := intercalate_get nan rows hs 1 0 r hr h0
    rw [Nat.mul_one, Nat.add_zero] at this
    refine ⟨this, ?_⟩
    unfold touch
    omega

/-- C176, the labels: up to 50 eddies all are labelled. -/
theorem labels_all {n : List Int} (h : n.length ≤ 50) (h0 : ∀ v ∈ n, 0 ≤ v) : labels n = n := by
  unfold labels nMin
  rw [if_neg (by omega), List.filter_eq_self]
  intro v hv
  exact decide_eq_true (h0 v hv)

/-- Beyond, at least 50 are labelled, less than 50 are above the smallest label, and no eddy without label is above one with a label. -/
theorem labels_spec {n : List Int} (h : 50 < n.length) : 50 ≤ (labels n).length ∧ ((labels n).filter (fun v => decide (nMin n < v))).length < 50 ∧
    nMin n ∈ labels n ∧ ∀ v ∈ labels n, ∀ w ∈ n, w ∉ labels n → w < v := by
  have hp : (n.insertionSort (· ≤ ·)).Perm n := List.perm_insertionSort _ _
  have hsort : (n.insertionSort (· ≤ ·)).Pairwise (· ≤ ·) := List.pairwise_insertionSort _ _
  have hlen : (n.insertionSort (· ≤ ·)).length = n.length := hp.length_eq
  have hk : n.length - 50 < (n.insertionSort (· ≤ ·)).length := by omega
  have hm : nMin n = (n.insertionSort (· ≤ ·))[n.length - 50] := by
    unfold nMin
    rw [if_pos h, List.getElem?_eq_getElem hk]; rfl
  have hge : ∀ v ∈ (n.insertionSort (· ≤ ·)).drop (n.length - 50), nMin n ≤ v := by
    intro v hv
    obtain ⟨i, hi, rfl⟩ := List.mem_iff_getElem.1 hv
    rw [List.getElem_drop, hm]
    rcases Nat.eq_zero_or_pos i with rfl | hpos
    · exact le_refl _
    · exact List.pairwise_iff_getElem.1 hsort _ _ _ _ (by omega)
  have hle : ∀ v ∈ (n.insertionSort (· ≤ ·)).take (n.length - 50 + 1), v ≤ nMin n := by
    intro v hv
    obtain ⟨i, hi, rfl⟩ := List.mem_iff_getElem.1 hv
    rw [List.getElem_take, hm]
    rw [List.length_take] at hi
    rcases Nat.lt_or_ge i (n.length - 50) with hlt | hge'
    · exact List.pairwise_iff_getElem.1 hsort _ _ _ _ hlt
    · have : i = n.length - 50 := by omega
      subst this
      exact le_refl _
  refine ⟨?_, ?_, ?_, ?_⟩
  · unfold labels
    rw [← (hp.filter _).length_eq]
    conv_rhs => rw [← List.take_append_drop (n.length - 50) (n.insertionSort (· ≤ ·)), List.filter_append, List.length_append]
    rw [List.filter_eq_self.2 (fun v hv => decide_eq_true (hge v hv)), List.length_drop, hlen]
    omega
  · unfold labels
    rw [List.filter_filter]
    rw [← (hp.filter _).length_eq]
    rw [← List.take_append_drop (n.length - 50 + 1) (n.insertionSort (· ≤ ·)), List.filter_append, List.length_append]
    rw [List.filter_eq_nil_iff.2 (a := _) ?_]
    · refine lt_of_le_of_lt (Nat.add_le_add_left (List.length_filter_le _ _) _) ?_
      rw [List.length_drop, hlen, List.length_nil]
      omega
    · intro v hv
      have := hle v hv
      simp only [Bool.and_eq_true, decide_eq_true_eq, not_and]
      intro h1
      omega
  · unfold labels
    rw [List.mem_filter]
    refine ⟨?_, decide_eq_true (le_refl _)⟩
    rw [hm]
    exact hp.mem_iff.1 (List.getElem_mem hk)
  · intro v hv w hw hnw
    unfold labels at hv hnw
    rw [List.mem_filter, decide_eq_true_eq] at hv hnw
    have : ¬ nMin n ≤ w := fun hh => hnw ⟨hw, hh⟩
    omega

/-! ### Examples -/

example : period [(10, 20), (5, 12)] = (5, 20) ∧ day [(10, 20), (5, 12)] [.home, .pageup, .up] = 11 := by decide

example : indexs med 3 [⟨5, 40, 3⟩, ⟨5, 40, 4⟩, ⟨-7, 40, 3⟩, ⟨36, 31, 3⟩] = [0, 3] := by decide +kernel

example : (endPan 2 ⟨0, 10, 0, 2⟩).y0 = -3/2 ∧ (endPan 2 ⟨0, 10, 0, 2⟩).y1 = 7/2 ∧ (endPan 2 ⟨0, 2, 0, 10⟩).x0 = -9 ∧ (endPan 2 ⟨0, 2, 0, 10⟩).x1 = 11 := by
  decide +kernel

example : touch 50 = 0 ∧ touch 51 = 1 ∧ touch 105 = 2 := by decide

example : ∃ n : List Int, 50 < n.length ∧ (labels n).length = 50 := ⟨(List.range 60).map (fun (k : Nat) => (k : Int)), by decide, by decide +kernel⟩

end Verif.Gui
