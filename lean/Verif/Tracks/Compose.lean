import Verif.Tracks.Props

/-!
# C200: selections of tracks and normalisations, one after the other

`extract_with_length` and `normalize_longitude` (src/py_eddy_tracker/observations/tracking.py:414-436 and 173-199) of a result of one of them,
on the models of C25 and C58.
-/

namespace Verif.Tracks

variable {α : Type}

/-! ### Specification -/

/-- Bounds which `extract_with_length` accepts. -/
def Bounds (b : Int × Int) : Prop := 0 ≤ b.1 ∨ (b.1 = -1 ∧ 0 ≤ b.2)

/-- A number of observations in the bounds, `-1` being ignored. -/
def Within (b : Int × Int) (n : Nat) : Prop := (b.1 ≠ -1 → b.1 ≤ n) ∧ (b.2 ≠ -1 → (n : Int) ≤ b.2)

instance (b : Int × Int) (n : Nat) : Decidable (Within b n) := by unfold Within; infer_instance

/-- Number of observations of a track. -/
def size (data : List (Nat × α)) (t : Nat) : Nat := (data.map Prod.fst).count t

/-! ### Proofs: lengths -/

theorem size_filter (data : List (Nat × α)) {p : Nat → Bool} {t : Nat} (h : p t = true) : size (data.filter (fun o => p o.1)) t = size data t := by
  unfold size
  induction data with
  | nil => rfl
  | cons o l ih =>
    by_cases ho : p o.1 = true
    · rw [List.filter_cons_of_pos (by simpa using ho), List.map_cons, List.map_cons, List.count_cons, List.count_cons, ih]
    · rw [List.filter_cons_of_neg (by simpa using ho), List.map_cons, List.count_cons, ih]
      have : ¬ o.1 = t := by
        rintro rfl
        exact ho h
      simp [this]

theorem sorted_filter {data : List (Nat × α)} (hs : (data.map Prod.fst).Pairwise (· ≤ ·)) (p : Nat × α → Bool) :
    ((data.filter p).map Prod.fst).Pairwise (· ≤ ·) := hs.sublist (List.Sublist.map _ List.filter_sublist)

theorem length_eq {data : List (Nat × α)} (hs : (data.map Prod.fst).Pairwise (· ≤ ·)) {b : Int × Int} (hb : Bounds b) :
    extractWithLength data b.1 b.2 = some (data.filter (fun o => decide (Within b (size data o.1)))) :=
  (extract_with_length_spec data hs b.1 b.2).2 hb

/-- **C200** (two selections by length): the tracks which are in both bounds. -/
theorem length_length {data : List (Nat × α)} (hs : (data.map Prod.fst).Pairwise (· ≤ ·)) {b c : Int × Int} (hb : Bounds b) (hc : Bounds c) :
    (extractWithLength data b.1 b.2).bind (fun d => extractWithLength d c.1 c.2) =
      some (data.filter (fun o => decide (Within b (size data o.1) ∧ Within c (size data o.1)))) := by
  rw [length_eq hs hb, Option.bind_some, length_eq (sorted_filter hs _) hc, List.filter_filter]
  congr 1
  apply List.filter_congr
  intro o _
  by_cases h : Within b (size data o.1)
  · have e := size_filter data (p := fun t => decide (Within b (size data t))) (t := o.1) (by simpa using h)
    rw [e]
    simp [h]
  · simp [h]

/-- **C200** (order): both orders give the same dataset. -/
theorem length_comm {data : List (Nat × α)} (hs : (data.map Prod.fst).Pairwise (· ≤ ·)) {b c : Int × Int} (hb : Bounds b) (hc : Bounds c) :
    (extractWithLength data b.1 b.2).bind (fun d => extractWithLength d c.1 c.2) =
      (extractWithLength data c.1 c.2).bind (fun d => extractWithLength d b.1 b.2) := by
  rw [length_length hs hb hc, length_length hs hc hb]
  congr 1
  apply List.filter_congr
  intro o _
  rw [decide_eq_decide]
  exact and_comm

/-- **C200** (twice): a selection by length leaves its result unchanged. -/
theorem length_twice {data out : List (Nat × α)} (hs : (data.map Prod.fst).Pairwise (· ≤ ·)) {b : Int × Int} (hb : Bounds b)
    (h : extractWithLength data b.1 b.2 = some out) : extractWithLength out b.1 b.2 = some out := by
  have := length_length hs hb hb
  rw [h, Option.bind_some] at this
  rw [this, ← h, length_eq hs hb]
  congr 1
  apply List.filter_congr
  intro o _
  rw [decide_eq_decide]
  exact and_self_iff

/-! ### Proofs: longitudes -/

/-- Longitude of the first observation of a track. -/
def firstLon (data : List (Nat × Lon)) (t : Nat) : Rat := ((data.find? (fun o => o.1 == t)).map (·.2.lon)).getD 0

/-- One row, `c` being the longitude of the first observation of the track. -/
def normRow (c : Rat) (o : Nat × Lon) : Nat × Lon :=
  (o.1, ⟨recentre o.2.lon c, recentre o.2.lonMax (recentre o.2.lon c), o.2.contour.map (fun x => recentre x (recentre o.2.lon c))⟩)

theorem window_unique {a b x c : Rat} (ha : SameMeridian a x) (hb : SameMeridian b x) (a1 : c - 180 ≤ a) (a2 : a < c + 180) (b1 : c - 180 ≤ b)
    (b2 : b < c + 180) : a = b := by
  obtain ⟨k, rfl⟩ := ha
  obtain ⟨l, rfl⟩ := hb
  have h1 : ((k - l : Int) : Rat) < 1 := by push_cast; linarith
  have h2 : (-1 : Rat) < ((k - l : Int) : Rat) := by push_cast; linarith
  have h3 : k - l < 1 := by exact_mod_cast h1
  have h4 : -1 < k - l := by exact_mod_cast h2
  obtain rfl : k = l := by omega
  rfl

theorem recentre_self (c : Rat) : recentre c c = c := by
  have h := recentre_spec c c
  exact window_unique h.1 ⟨0, by simp⟩ h.2.1 h.2.2 (by linarith) (by linarith)

theorem recentre_twice (x c : Rat) : recentre (recentre x c) c = recentre x c := by
  have h := recentre_spec x c
  have h' := recentre_spec (recentre x c) c
  exact window_unique h'.1 ⟨0, by simp⟩ h'.2.1 h'.2.2 h.2.1 h.2.2

theorem normRow_twice (c : Rat) (o : Nat × Lon) : normRow c (normRow c o) = normRow c o := by
  unfold normRow
  simp only [recentre_twice, List.map_map]
  congr 2
  apply List.map_congr_left
  intro x _
  exact recentre_twice _ _

theorem find_first {data : List (Nat × Lon)} {k t : Nat} {o : Lon} (hk : data[k]? = some (t, o)) :
    ∃ (j : Nat) (f : Lon), (∀ i, i < j → (data.map Prod.fst)[i]? ≠ some t) ∧ data[j]? = some (t, f) ∧ firstLon data t = f.lon := by
  induction data generalizing k with
  | nil => simp at hk
  | cons a l ih =>
    by_cases ha : a.1 = t
    · refine ⟨0, a.2, fun i hi => absurd hi (by omega), by simp [← ha], ?_⟩
      unfold firstLon
      rw [List.find?_cons_of_pos (by simp [ha])]
      rfl
    · cases k with
      | zero =>
        simp only [List.getElem?_cons_zero, Option.some.injEq] at hk
        exact absurd (by rw [hk]) ha
      | succ k =>
        obtain ⟨j, f, h1, h2, h3⟩ := ih (by simpa using hk)
        refine ⟨j + 1, f, fun i hi => ?_, by simpa using h2, ?_⟩
        · cases i with
          | zero => simpa using ha
          | succ i => simpa using h1 i (by omega)
        · rw [← h3]
          unfold firstLon
          rw [List.find?_cons_of_neg (by simp [ha])]

theorem normalize_eq {data : List (Nat × Lon)} (hs : (data.map Prod.fst).Pairwise (· ≤ ·)) :
    normalizeLongitude data = some (data.map (fun o => normRow (firstLon data o.1) o)) := by
  obtain ⟨r, hr, hl, h⟩ := normalize_longitude_spec data hs
  rw [hr]
  congr 1
  apply List.ext_getElem?
  intro k
  rw [List.getElem?_map]
  cases e : data[k]? with
  | none =>
    rw [List.getElem?_eq_none (by rw [hl]; exact List.getElem?_eq_none_iff.1 e)]
    rfl
  | some p =>
    obtain ⟨t, o⟩ := p
    obtain ⟨j, f, h1, h2, h3⟩ := find_first e
    obtain ⟨f', o', -, g2, -, g4, g5, g6, g7, g8, g9, g10, g11⟩ := h j k t f o h1 h2 e
    rw [g2, Option.map_some]
    congr 1
    have e1 : o'.lon = recentre o.lon (firstLon data t) := by
      have s := recentre_spec o.lon (firstLon data t)
      rw [h3] at s ⊢
      exact window_unique g4 s.1 g5 g6 s.2.1 s.2.2
    have e2 : o'.lonMax = recentre o.lonMax o'.lon := by
      have s := recentre_spec o.lonMax o'.lon
      exact window_unique g7 s.1 g8 g9 s.2.1 s.2.2
    have e3 : o'.contour = o.contour.map (fun x => recentre x o'.lon) := by
      apply List.ext_getElem?
      intro m
      rw [List.getElem?_map]
      cases em : o.contour[m]? with
      | none =>
        rw [List.getElem?_eq_none (by rw [g10]; exact List.getElem?_eq_none_iff.1 em)]
        rfl
      | some x =>
        obtain ⟨x', y1, y2, y3, y4⟩ := g11 m x em
        have s := recentre_spec x o'.lon
        rw [y1, Option.map_some, window_unique y2 s.1 y3 y4 s.2.1 s.2.2]
    obtain ⟨a, b, c⟩ := o'
    simp only at e1 e2 e3
    subst e1
    rw [e2, e3]
    rfl

theorem first_map {data : List (Nat × Lon)} {t : Nat} (ht : t ∈ data.map Prod.fst) :
    firstLon (data.map (fun o => normRow (firstLon data o.1) o)) t = firstLon data t := by
  have e : ∀ l : List (Nat × Lon), (l.map (fun o => normRow (firstLon data o.1) o)).find? (fun o => o.1 == t) =
      (l.find? (fun o => o.1 == t)).map (fun o => normRow (firstLon data o.1) o) := by
    intro l
    rw [List.find?_map]
    rfl
  obtain ⟨o, ho, rfl⟩ := List.mem_map.1 ht
  obtain ⟨x, hx⟩ : ∃ x, data.find? (fun q => q.1 == o.1) = some x := by
    have := (List.find?_isSome (xs := data) (p := fun q => q.1 == o.1)).2 ⟨o, ho, by simp⟩
    exact Option.isSome_iff_exists.1 this
  have hx1 : x.1 = o.1 := by simpa using List.find?_some hx
  have hf : firstLon data o.1 = x.2.lon := by unfold firstLon; rw [hx]; rfl
  have : firstLon (data.map (fun o => normRow (firstLon data o.1) o)) o.1 = recentre x.2.lon (firstLon data x.1) := by
    show (((data.map (fun o => normRow (firstLon data o.1) o)).find? (fun q => q.1 == o.1)).map (·.2.lon)).getD 0 = _
    rw [e data, hx]
    rfl
  rw [this, hx1, hf, recentre_self]

theorem fst_norm (data : List (Nat × Lon)) (c : Nat → Rat) : (data.map (fun o => normRow (c o.1) o)).map Prod.fst = data.map Prod.fst := by
  rw [List.map_map]
  rfl

/-- **C200** (normalisation twice): a normalised dataset is left unchanged. -/
theorem normalize_twice {data out : List (Nat × Lon)} (hs : (data.map Prod.fst).Pairwise (· ≤ ·)) (h : normalizeLongitude data = some out) :
    normalizeLongitude out = some out := by
  rw [normalize_eq hs] at h
  cases h
  rw [normalize_eq (by rw [fst_norm]; exact hs), List.map_map]
  congr 1
  apply List.map_congr_left
  intro o ho
  show normRow (firstLon _ o.1) (normRow _ o) = _
  rw [first_map (List.mem_map_of_mem ho), normRow_twice]

theorem first_filter (data : List (Nat × Lon)) {p : Nat → Bool} {t : Nat} (h : p t = true) :
    firstLon (data.filter (fun o => p o.1)) t = firstLon data t := by
  unfold firstLon
  congr 2
  induction data with
  | nil => rfl
  | cons o l ih =>
    by_cases ho : p o.1 = true
    · rw [List.filter_cons_of_pos (by simpa using ho), List.find?_cons, List.find?_cons, ih]
    · rw [List.filter_cons_of_neg (by simpa using ho), ih, List.find?_cons_of_neg]
      simp only [beq_iff_eq]
      rintro rfl
      exact ho h

/-- **C200** (normalisation of a part): the normalisation of some whole tracks is the part of these tracks in the normalisation of the dataset. -/
theorem normalize_select {data : List (Nat × Lon)} (hs : (data.map Prod.fst).Pairwise (· ≤ ·)) (p : Nat → Bool) :
    normalizeLongitude (data.filter (fun o => p o.1)) = (normalizeLongitude data).map (List.filter (fun o => p o.1)) := by
  rw [normalize_eq hs, normalize_eq (sorted_filter hs _), Option.map_some, List.filter_map]
  congr 1
  have : ((fun o : Nat × Lon => p o.1) ∘ fun o => normRow (firstLon data o.1) o) = fun o => p o.1 := rfl
  rw [this]
  apply List.map_congr_left
  intro o ho
  rw [first_filter data (by simpa using (List.mem_filter.1 ho).2)]

/-- **C200** (lengths and longitudes): the selection by length and the normalisation give the same dataset in both orders. -/
theorem length_normalize {data : List (Nat × Lon)} (hs : (data.map Prod.fst).Pairwise (· ≤ ·)) {b : Int × Int} (hb : Bounds b) :
    (extractWithLength data b.1 b.2).bind normalizeLongitude = (normalizeLongitude data).bind (fun d => extractWithLength d b.1 b.2) := by
  rw [length_eq hs hb, Option.bind_some, normalize_select hs (fun t => decide (Within b (size data t))), normalize_eq hs, Option.map_some,
    Option.bind_some, length_eq (by rw [fst_norm]; exact hs) hb]
  have : ∀ t, size (data.map (fun o => normRow (firstLon data o.1) o)) t = size data t := by
    intro t
    unfold size
    rw [fst_norm]
  simp only [this]

/-- Two tracks, the second one over the longitude 0; the track of one observation is removed. -/
example : (normalizeLongitude [(1, ⟨359, 359, [358]⟩), (1, ⟨1, -1, [0, 362]⟩), (3, ⟨10, 10, []⟩)]).bind (fun d => extractWithLength d 2 (-1)) =
      some [(1, ⟨359, 359, [358]⟩), (1, ⟨361, 359, [360, 362]⟩)] ∧ Bounds (2, -1) := by
  constructor
  · decide +kernel
  · unfold Bounds
    decide

end Verif.Tracks
