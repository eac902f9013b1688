import Verif.Tracks.Props

/-!
# C158: the tracks which go in a direction

`extract_in_direction` (src/py_eddy_tracker/observations/tracking.py).
-/

namespace Verif.Tracks

variable {α : Type}

/-- The directions of the command: "N", "S", "E", "W". -/
inductive Way where
  | north
  | south
  | east
  | west
  deriving DecidableEq, Repr

/-- Test on the first and the last positions `(lon, lat)` of a track (observations/tracking.py:401-410). -/
def inWay (way : Way) (value : Rat) (a b : Rat × Rat) : Bool :=
  let dLat := b.2 - a.2
  let dLon := Py.fmod (b.1 - (a.1 - 180)) 360 + a.1 - 180 - a.1
  match way with
  | .north => decide (0 < dLat) && decide (value < |dLat|)
  | .south => decide (dLat < 0) && decide (value < |dLat|)
  | .east => decide (0 < dLon) && decide (value < |dLon|)
  | .west => decide (dLon < 0) && decide (value < |dLon|)

/-- `extract_in_direction` (observations/tracking.py:397-412); the latitudes and the longitudes are read together. `none` is an exception. -/
def extractInDirection (pos : α → Rat × Rat) (data : List (Nat × α)) (way : Way) (value : Rat) : Option (List (Nat × α)) :=
  (computeIndex (data.map Prod.fst)).bind (fun ti =>
    ((List.range ti.size).mapM (fun t => Py.get (data.map (fun o => pos o.2)) (ti.index t + ti.number t - 1))).bind (fun stop =>
      ((List.range ti.size).mapM (fun t => Py.get (data.map (fun o => pos o.2)) (ti.index t))).map (fun start =>
        Py.select (Py.rep (List.zipWith (inWay way value) start stop) ti.numbers) data)))

/-! ### Specification -/

/-- `a` and `b` are the first and the last observations of the track `t`. -/
def Ends (data : List (Nat × α)) (t : Nat) (a b : α) : Prop :=
  ∃ i j : Nat, IsFirst (data.map Prod.fst) i ∧ IsLast (data.map Prod.fst) j ∧ data[i]? = some (t, a) ∧ data[j]? = some (t, b)

/-- The track goes from `a` to `b` in the direction, by more than `value` degrees; in longitude by the shortest way (half a turn is westward). -/
def Goes (way : Way) (value : Rat) (a b : Rat × Rat) : Prop :=
  match way with
  | .north => 0 < b.2 - a.2 ∧ value < b.2 - a.2
  | .south => 0 < a.2 - b.2 ∧ value < a.2 - b.2
  | .east => ∃ k : Int, 0 < b.1 - a.1 + 360 * k ∧ value < b.1 - a.1 + 360 * k ∧ b.1 - a.1 + 360 * k < 180
  | .west => ∃ k : Int, 0 < a.1 - b.1 + 360 * k ∧ value < a.1 - b.1 + 360 * k ∧ a.1 - b.1 + 360 * k ≤ 180

/-! ### Proofs -/

theorem ends_unique {data : List (Nat × α)} {t : Nat} {a b a' b' : α} (h : Ends data t a b) (h' : Ends data t a' b') : a = a' ∧ b = b' := by
  obtain ⟨i, j, ⟨ti, hi1, hi2⟩, ⟨tj, hj1, hj2⟩, hi, hj⟩ := h
  obtain ⟨i', j', ⟨ti', hi1', hi2'⟩, ⟨tj', hj1', hj2'⟩, hi', hj'⟩ := h'
  have e : ∀ {k : Nat} {x : α}, data[k]? = some (t, x) → (data.map Prod.fst)[k]? = some t := by
    intro k x hk
    rw [List.getElem?_map, hk]
    rfl
  have e1 : ti = t := by rw [e hi] at hi1; exact (Option.some.inj hi1).symm
  have e2 : ti' = t := by rw [e hi'] at hi1'; exact (Option.some.inj hi1').symm
  have e3 : tj = t := by rw [e hj] at hj1; exact (Option.some.inj hj1).symm
  have e4 : tj' = t := by rw [e hj'] at hj1'; exact (Option.some.inj hj1').symm
  subst e1 e2 e3 e4
  have hij : i = i' := by
    rcases Nat.lt_trichotomy i i' with h | h | h
    · exact absurd (e hi) (hi2' i h)
    · exact h
    · exact absurd (e hi') (hi2 i' h)
  have hjj : j = j' := by
    rcases Nat.lt_trichotomy j j' with h | h | h
    · exact absurd (e hj') (hj2 j' h)
    · exact h
    · exact absurd (e hj) (hj2' j h)
  subst hij hjj
  rw [hi] at hi'
  rw [hj] at hj'
  exact ⟨(Prod.mk.inj (Option.some.inj hi')).2, (Prod.mk.inj (Option.some.inj hj')).2⟩

theorem inWay_spec (way : Way) (value : Rat) (a b : Rat × Rat) : inWay way value a b = true ↔ Goes way value a b := by
  obtain ⟨h0, h1, k, hk⟩ := Py.fmod_spec (b.1 - (a.1 - 180)) (m := 360) (by norm_num)
  cases way with
  | north =>
    simp only [inWay, Goes, Bool.and_eq_true, decide_eq_true_eq]
    constructor
    · rintro ⟨h, h'⟩
      rw [abs_of_pos h] at h'
      exact ⟨h, h'⟩
    · rintro ⟨h, h'⟩
      rw [abs_of_pos h]
      exact ⟨h, h'⟩
  | south =>
    simp only [inWay, Goes, Bool.and_eq_true, decide_eq_true_eq]
    constructor
    · rintro ⟨h, h'⟩
      rw [abs_of_neg h] at h'
      exact ⟨by linarith, by linarith⟩
    · rintro ⟨h, h'⟩
      rw [abs_of_neg (by linarith)]
      exact ⟨by linarith, by linarith⟩
  | east =>
    simp only [inWay, Goes, Bool.and_eq_true, decide_eq_true_eq]
    have e : Py.fmod (b.1 - (a.1 - 180)) 360 + a.1 - 180 - a.1 = b.1 - a.1 + 360 * k := by rw [hk]; ring
    rw [e]
    constructor
    · rintro ⟨h, h'⟩
      rw [abs_of_pos h] at h'
      exact ⟨k, h, h', by linarith⟩
    · rintro ⟨k', h, h', h''⟩
      have hkk : k' = k := by
        have h2 : (k' : Rat) < k + 1 := by linarith
        have h3 : (k : Rat) < k' + 1 := by linarith
        have h2' : k' < k + 1 := by exact_mod_cast h2
        have h3' : k < k' + 1 := by exact_mod_cast h3
        omega
      subst hkk
      rw [abs_of_pos h]
      exact ⟨h, h'⟩
  | west =>
    simp only [inWay, Goes, Bool.and_eq_true, decide_eq_true_eq]
    have e : Py.fmod (b.1 - (a.1 - 180)) 360 + a.1 - 180 - a.1 = b.1 - a.1 + 360 * k := by rw [hk]; ring
    rw [e]
    constructor
    · rintro ⟨h, h'⟩
      rw [abs_of_neg h] at h'
      exact ⟨-k, by push_cast; linarith, by push_cast; linarith, by push_cast; linarith⟩
    · rintro ⟨k', h, h', h''⟩
      have hkk : k' = -k := by
        have h2 : (k' : Rat) < -k + 1 := by linarith
        have h3 : -(k : Rat) < k' + 1 := by linarith
        have h2' : k' < -k + 1 := by exact_mod_cast h2
        have h3' : -k < k' + 1 := by exact_mod_cast h3
        omega
      subst hkk
      push_cast at h h' h''
      rw [abs_of_neg (by linarith)]
      exact ⟨by linarith, by linarith⟩

/-- Each observation of a sorted dataset has a track with its ends, read by the index. -/
theorem ends_read {data : List (Nat × α)} (hs : (data.map Prod.fst).Pairwise (· ≤ ·)) {ti : TIndex} (e : computeIndex (data.map Prod.fst) = some ti)
    {o : Nat × α} (ho : o ∈ data) : ∃ (i j : Nat) (a b : α), ti.index o.1 = i ∧ ti.index o.1 + ti.number o.1 - 1 = j ∧ data[i]? = some (o.1, a) ∧
      data[j]? = some (o.1, b) ∧ Ends data o.1 a b := by
  have ok := computeIndex_ok (contig_of_sorted hs) e
  have ht : o.1 ∈ data.map Prod.fst := List.mem_map.2 ⟨o, ho, rfl⟩
  obtain ⟨a, ha, hk⟩ := (ok.slice o.1).1 ht
  have hn : 0 < ti.number o.1 := by rw [computeIndex_number e]; exact List.count_pos_iff.2 ht
  have h0 := (hk a).2 ⟨le_refl _, by omega⟩
  have h1 := (hk (a + ti.number o.1 - 1)).2 ⟨by omega, by omega⟩
  have g0 := h0
  have g1 := h1
  rw [List.getElem?_map, Option.map_eq_some_iff] at h0 h1
  obtain ⟨⟨t0, y0⟩, q0, q0'⟩ := h0
  obtain ⟨⟨t1, y1⟩, q1, q1'⟩ := h1
  simp only at q0' q1'
  subst q0'
  rw [q1'] at q1
  refine ⟨a, a + ti.number o.1 - 1, y0, y1, ha, by omega, q0, q1, a, a + ti.number o.1 - 1, ⟨o.1, g0, fun j hj hj' => ?_⟩, ⟨o.1, g1, fun j hj hj' => ?_⟩,
    q0, q1⟩
  · have := (hk j).1 hj'; omega
  · have := (hk j).1 hj'; omega

/-- **C158** `extract_in_direction` keeps, in their order, exactly the observations of the tracks whose last position is in the asked direction from the first
one, by more than `value` degrees, in longitude by the shortest way. Missing: datasets of less than two observations (`direction_single_raises`,
`direction_empty_raises`). -/
theorem direction_partial (pos : α → Rat × Rat) (data : List (Nat × α)) (hs : (data.map Prod.fst).Pairwise (· ≤ ·)) (hlen : 2 ≤ data.length)
    (way : Way) (value : Rat) : ∃ r, extractInDirection pos data way value = some r ∧ ∃ p : Nat → Bool, r = data.filter (fun o => p o.1) ∧
      ∀ o ∈ data, ∃ a b, Ends data o.1 a b ∧ (p o.1 = true ↔ Goes way value (pos a) (pos b)) := by
  have hne : data ≠ [] := by rintro rfl; simp at hlen
  obtain ⟨ti, e⟩ := computeIndex_total (contig_ne hne)
  have ok := computeIndex_ok (contig_of_sorted hs) e
  have hrange : ∀ t, -((data.map (fun o => pos o.2)).length : Int) ≤ ti.index t + ti.number t - 1 ∧
      ti.index t + ti.number t - 1 < (data.map (fun o => pos o.2)).length ∧
      -((data.map (fun o => pos o.2)).length : Int) ≤ ti.index t ∧ ti.index t < (data.map (fun o => pos o.2)).length := by
    intro t
    rw [List.length_map]
    by_cases ht : t ∈ data.map Prod.fst
    · obtain ⟨a, ha, hk⟩ := (ok.slice t).1 ht
      have hn : 0 < ti.number t := by rw [computeIndex_number e]; exact List.count_pos_iff.2 ht
      have h1 := (List.getElem?_eq_some_iff.1 ((hk (a + ti.number t - 1)).2 ⟨by omega, by omega⟩)).1
      rw [List.length_map] at h1
      omega
    · obtain ⟨h1, h2⟩ := (ok.slice t).2 ht
      omega
  choose g1 hg1 using fun t => pyGet_total (l := data.map (fun o => pos o.2)) ⟨(hrange t).1, (hrange t).2.1⟩
  choose g0 hg0 using fun t => pyGet_total (l := data.map (fun o => pos o.2)) (hrange t).2.2
  refine ⟨data.filter (fun o => inWay way value (g0 o.1) (g1 o.1)), ?_, fun t => inWay way value (g0 t) (g1 t), rfl, fun o ho => ?_⟩
  · unfold extractInDirection
    rw [e]
    simp only [Option.bind_some]
    rw [mapM_some_map (fun t _ => hg1 t), mapM_some_map (fun t _ => hg0 t)]
    simp only [Option.bind_some, Option.map_some]
    rw [List.zipWith_map, List.zipWith_self]
    have : Py.rep (List.map (fun t => inWay way value (g0 t) (g1 t)) (List.range ti.size)) ti.numbers =
        data.map (fun o => inWay way value (g0 o.1) (g1 o.1)) := by
      rw [rep_eq hs e, List.map_map]; rfl
    rw [← select_map_self, ← this]
  · obtain ⟨i, j, a, b, hi, hj, ha, hb, hends⟩ := ends_read hs e ho
    have e0 := hg0 o.1
    have e1 := hg1 o.1
    rw [hi, Py.get_natCast, List.getElem?_map, ha] at e0
    rw [hj, Py.get_natCast, List.getElem?_map, hb] at e1
    refine ⟨a, b, hends, ?_⟩
    show inWay way value (g0 o.1) (g1 o.1) = true ↔ _
    rw [← Option.some.inj e0, ← Option.some.inj e1]
    exact inWay_spec way value _ _

/-- A track is in at most one direction of each axis, and in none when the asked displacement is 180 degrees or more. -/
theorem goes_exclusive (value : Rat) (a b : Rat × Rat) : ¬ (Goes .north value a b ∧ Goes .south value a b) ∧ ¬ (Goes .east value a b ∧ Goes .west value a b) ∧
    (180 ≤ value → ¬ Goes .east value a b ∧ ¬ Goes .west value a b) := by
  refine ⟨?_, ?_, fun hv => ⟨?_, ?_⟩⟩
  · rintro ⟨⟨h, _⟩, h', _⟩
    linarith
  · rintro ⟨⟨k, h1, _, h2⟩, k', h1', _, h2'⟩
    have g1 : (0 : Rat) < k + k' := by linarith
    have g2 : (k : Rat) + k' < 1 := by linarith
    have g1' : 0 < k + k' := by exact_mod_cast g1
    have g2' : k + k' < 1 := by exact_mod_cast g2
    omega
  · rintro ⟨k, _, h1, h2⟩
    linarith
  · rintro ⟨k, _, h1, h2⟩
    linarith

/-- Without minimal displacement, a track goes east or west unless its ends are on the same meridian, north or south unless they are on the same parallel. -/
theorem goes_some (a b : Rat × Rat) : ((∀ k : Int, b.1 ≠ a.1 + 360 * k) → Goes .east 0 a b ∨ Goes .west 0 a b) ∧
    (b.2 ≠ a.2 → Goes .north 0 a b ∨ Goes .south 0 a b) := by
  refine ⟨fun h => ?_, fun h => ?_⟩
  · obtain ⟨h0, h1, k, hk⟩ := Py.fmod_spec (b.1 - (a.1 - 180)) (m := 360) (by norm_num)
    rcases lt_trichotomy 0 (b.1 - a.1 + 360 * k) with h' | h' | h'
    · exact Or.inl ⟨k, h', h', by linarith⟩
    · exact absurd (by push_cast; linarith) (h (-k))
    · exact Or.inr ⟨-k, by push_cast; linarith, by push_cast; linarith, by push_cast; linarith⟩
  · rcases lt_or_gt_of_ne h with h' | h'
    · exact Or.inr ⟨by linarith, by linarith⟩
    · exact Or.inl ⟨by linarith, by linarith⟩

/-- The four directions on five tracks, one of them across the limit of longitudes, one of one observation. -/
def dirData : List (Nat × (Rat × Rat)) := [(1, (359, 0)), (1, (5, -2)), (2, (10, 0)), (2, (350, 3)), (4, (7, 7)), (6, (0, 0)), (6, (90, 4)), (6, (1, 1 / 2))]

example : (dirData.map Prod.fst).Pairwise (· ≤ ·) ∧ 2 ≤ dirData.length ∧
    (extractInDirection id dirData .east 0).map (fun r => r.map Prod.fst) = some [1, 1, 6, 6, 6] ∧
    (extractInDirection id dirData .east 2).map (fun r => r.map Prod.fst) = some [1, 1] ∧
    (extractInDirection id dirData .west 0).map (fun r => r.map Prod.fst) = some [2, 2] ∧
    (extractInDirection id dirData .north 1).map (fun r => r.map Prod.fst) = some [2, 2] ∧
    (extractInDirection id dirData .south 0).map (fun r => r.map Prod.fst) = some [1, 1] := by decide +kernel

/-- One observation whose number is not 0 raises. -/
theorem direction_single_raises (pos : α → Rat × Rat) (t : Nat) (x : α) (way : Way) (value : Rat) (ht : 0 < t) :
    extractInDirection pos [(t, x)] way value = none := by
  obtain ⟨s, rfl⟩ : ∃ s, t = s + 1 := ⟨t - 1, by omega⟩
  have h0 : (computeIndex [s + 1]).map (fun ti => (ti.size, ti.index 0, ti.number 0)) = some (s + 2, -1, 0) := by
    simp only [computeIndex, sizeOf, indexLoop, List.foldl_nil, Option.map_some, Option.some.injEq, Prod.mk.injEq, true_and]
    refine ⟨?_, by simp⟩
    split <;> simp
  unfold extractInDirection
  simp only [List.map_cons, List.map_nil]
  cases hc : computeIndex [s + 1] with
  | none => rfl
  | some ti =>
    rw [hc] at h0
    simp only [Option.map_some, Option.some.injEq, Prod.mk.injEq] at h0
    obtain ⟨h1, h2, h3⟩ := h0
    simp only [Option.bind_some]
    rw [h1, List.range_succ_eq_map]
    simp only [List.mapM_cons, h2, h3]
    rfl

/-- No observation raises. -/
theorem direction_empty_raises (pos : α → Rat × Rat) (way : Way) (value : Rat) : extractInDirection pos [] way value = none := rfl

end Verif.Tracks
