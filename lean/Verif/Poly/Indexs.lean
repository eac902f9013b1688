import Verif.Poly.Hull
import Verif.Bins.Props

/-!
# C36: index of the contour around each point

Model of `poly_indexs` (/repo/src/py_eddy_tracker/poly.py:881-959) and its properties. Latitudes are at least -90 (below, the
conversion of a negative number to an unsigned integer is undefined); the numbers of boxes are unbounded integers.
-/

namespace Verif.Poly

/-! ### Model -/

/-- `box_indexes` with a step of 1 (poly.py:898-901). -/
def boxIndexes (p : Pt) : Int × Int := (⌊Py.fmod p.1 360⌋, ⌊p.2 + 90⌋)

/-- `box_index` with a step of 1 and 360 boxes (poly.py:892-895). -/
def boxIndex (p : Pt) : Int := (boxIndexes p).1 + 360 * (boxIndexes p).2

/-- `min()` of an array which is not empty. -/
def minR : List Rat → Rat
  | [] => 0
  | [a] => a
  | a :: b :: l => min a (minR (b :: l))

/-- `max()` of an array which is not empty. -/
def maxR : List Rat → Rat
  | [] => 0
  | [a] => a
  | a :: b :: l => max a (maxR (b :: l))

/-- `range(lo, hi)`. -/
def rangeI (lo hi : Int) : List Int := (List.range (hi - lo).toNat).map (fun (k : Nat) => lo + (k : Int))

/-- Boxes of the bounding box of a contour (poly.py:928-938): pairs of `i_x` (in 0..359) and `i_y`. -/
def boxesOf (lo hi : Pt) : List (Int × Int) :=
  (rangeI (boxIndexes lo).1
      ((if (boxIndexes hi).1 < (boxIndexes lo).1 then (boxIndexes hi).1 + 360 else (boxIndexes hi).1) + 1)).flatMap
    (fun ix => (rangeI (boxIndexes lo).2 ((boxIndexes hi).2 + 1)).map (fun iy => (ix % 360, iy)))

/-- Points of one box (poly.py:940-945). The positions are valid in `i_order` (C27). -/
def boxPoints (start stop : List Nat) (first : Int) (order : List Nat) (b : Int × Int) : List Nat :=
  if b.1 + 360 * b.2 - first < 0 ∨ (start.length : Int) ≤ b.1 + 360 * b.2 - first then []
  else (List.range' (start.getD (b.1 + 360 * b.2 - first).toNat 0)
      (stop.getD (b.1 + 360 * b.2 - first).toNat 0 - start.getD (b.1 + 360 * b.2 - first).toNat 0)).map (fun k => order.getD k 0)

/-- Longitude of the point at ±180° around the smallest longitude of the contour (poly.py:953-954). -/
def normal (lo x : Rat) : Rat := Py.fmod (x - lo + 180) 360 + lo - 180

/-- Tests on one point (poly.py:948-958). -/
def hit (v : List Pt) (lo hi p : Pt) : Bool :=
  if hi.2 < p.2 then false
  else if p.2 < lo.2 then false
  else if hi.1 < normal lo.1 p.1 then false
  else if normal lo.1 p.1 < lo.1 then false
  else decide (winding (normal lo.1 p.1, p.2) v ≠ 0)

/-- One point of one contour (poly.py:945-959). -/
def mark (pts : List Pt) (v : List Pt) (lo hi : Pt) (i : Nat) (ind : Nat → Int) (ip : Nat) : Nat → Int :=
  if ind ip ≠ -1 then ind
  else if hit v lo hi (pts.getD ip (0, 0)) then Function.update ind ip (i : Int) else ind

/-- One contour, after `reduce_size` (poly.py:922-959). -/
def pass (pts : List Pt) (start stop : List Nat) (first : Int) (order : List Nat) (v : List Pt) (i : Nat) (ind : Nat → Int) :
    Nat → Int :=
  ((boxesOf (minR (v.map Prod.fst), minR (v.map Prod.snd)) (maxR (v.map Prod.fst), maxR (v.map Prod.snd))).flatMap
      (boxPoints start stop first order)).foldl
    (mark pts v (minR (v.map Prod.fst), minR (v.map Prod.snd)) (maxR (v.map Prod.fst), maxR (v.map Prod.snd)) i) ind

/-- The loop on contours (poly.py:920-921). -/
def contoursLoop (pts : List Pt) (start stop : List Nat) (first : Int) (order : List Nat) :
    List (List Pt) → Nat → (Nat → Int) → Option (Nat → Int)
  | [], _, ind => some ind
  | c :: l, i, ind =>
    (reduceSize c).bind (fun v => contoursLoop pts start stop first order l (i + 1) (pass pts start stop first order v i ind))

/-- `poly_indexs` (poly.py:904-959), for any sorting function. -/
def polyIndexs (argsort : List Int → List Nat) (pts : List Pt) (contours : List (List Pt)) : Option (List Int) :=
  (Bins.takeAt (pts.map boxIndex) (argsort (pts.map boxIndex))).bind (fun sorted =>
    (Index.buildIndex sorted).bind (fun r =>
      (contoursLoop pts r.1 r.2.1 r.2.2 (argsort (pts.map boxIndex)) contours 0 (fun _ => -1)).map (fun ind =>
        (List.range pts.length).map ind)))

/-- `insidepoly` (poly.py:962-972). -/
def insidePoly (argsort : List Int → List Nat) (pts : List Pt) (contours : List (List Pt)) : Option (List Bool) :=
  (polyIndexs argsort pts contours).map (fun r => r.map (fun i => decide (i ≠ -1)))

/-! ### Specification -/

/-- The contour turns around the point, whose longitude is known up to full turns. -/
def Contains (c : List Pt) (p : Pt) : Prop := ∃ k : Int, winding (p.1 + 360 * k, p.2) c ≠ 0

/-- Contours for which the function is meant: not reduced to a single position, narrower than 180°. -/
structure Regular (c : List Pt) : Prop where
  varied : ∃ u ∈ c, ∃ w ∈ c, u ≠ w
  narrow : ∀ u ∈ c, ∀ w ∈ c, u.1 - w.1 < 180

/-! ### Lemmas -/

theorem minR_spec : ∀ {l : List Rat}, l ≠ [] → minR l ∈ l ∧ ∀ x ∈ l, minR l ≤ x
  | [], h => absurd rfl h
  | [a], _ => by simp [minR]
  | a :: b :: l, _ => by
    obtain ⟨h1, h2⟩ := minR_spec (l := b :: l) (by simp)
    rw [minR]
    refine ⟨?_, fun x hx => ?_⟩
    · rcases min_choice a (minR (b :: l)) with h | h <;> rw [h]
      · simp
      · exact List.mem_cons_of_mem _ h1
    · rcases List.mem_cons.1 hx with rfl | hx
      · exact min_le_left _ _
      · exact le_trans (min_le_right _ _) (h2 x hx)

theorem maxR_spec : ∀ {l : List Rat}, l ≠ [] → maxR l ∈ l ∧ ∀ x ∈ l, x ≤ maxR l
  | [], h => absurd rfl h
  | [a], _ => by simp [maxR]
  | a :: b :: l, _ => by
    obtain ⟨h1, h2⟩ := maxR_spec (l := b :: l) (by simp)
    rw [maxR]
    refine ⟨?_, fun x hx => ?_⟩
    · rcases max_choice a (maxR (b :: l)) with h | h <;> rw [h]
      · simp
      · exact List.mem_cons_of_mem _ h1
    · rcases List.mem_cons.1 hx with rfl | hx
      · exact le_max_left _ _
      · exact le_trans (h2 x hx) (le_max_right _ _)

theorem mem_rangeI {lo hi i : Int} : i ∈ rangeI lo hi ↔ lo ≤ i ∧ i < hi := by
  unfold rangeI
  rw [List.mem_map]
  constructor
  · rintro ⟨k, hk, rfl⟩
    have := List.mem_range.1 hk
    omega
  · intro h
    exact ⟨(i - lo).toNat, List.mem_range.2 (by omega), by omega⟩

/-- The remainder is characterised by its range. -/
theorem fmod_unique {x z : Rat} (h0 : 0 ≤ z) (h1 : z < 360) {k : Int} (hk : z = x + 360 * k) : Py.fmod x 360 = z := by
  obtain ⟨a1, a2, m, hm⟩ := Py.fmod_spec x (show (0 : Rat) < 360 by norm_num)
  have hd : Py.fmod x 360 - z = 360 * ((m - k : Int) : Rat) := by rw [hm, hk]; push_cast; ring
  have b1 : (-1 : Rat) < ((m - k : Int) : Rat) := by
    by_contra hn
    have := not_lt.1 hn
    linarith
  have b2 : ((m - k : Int) : Rat) < 1 := by
    by_contra hn
    have := not_lt.1 hn
    linarith
  have c1 : (-1 : Int) < m - k := by exact_mod_cast b1
  have c2 : m - k < (1 : Int) := by exact_mod_cast b2
  have : m - k = 0 := by omega
  rw [this] at hd
  simp at hd
  linarith

/-- The box of a point between the bounds of a narrow contour is visited. -/
theorem box_visited {lo hi : Pt} {p : Pt} {k : Int} (hx1 : lo.1 ≤ p.1 + 360 * k) (hx2 : p.1 + 360 * k ≤ hi.1)
    (hw : hi.1 - lo.1 < 180) (hy1 : lo.2 ≤ p.2) (hy2 : p.2 ≤ hi.2) : boxIndexes p ∈ boxesOf lo hi := by
  obtain ⟨a1, a2, m, hm⟩ := Py.fmod_spec lo.1 (show (0 : Rat) < 360 by norm_num)
  generalize hA : Py.fmod lo.1 360 = A at a1 a2 hm
  -- positions relative to the turn of the lowest longitude
  obtain ⟨z, hz⟩ : ∃ z : Rat, z = p.1 + 360 * ((k + m : Int) : Rat) := ⟨_, rfl⟩
  obtain ⟨b, hb⟩ : ∃ b : Rat, b = hi.1 + 360 * (m : Rat) := ⟨_, rfl⟩
  have hzA : A ≤ z := by rw [hz, hm]; push_cast; linarith
  have hzb : z ≤ b := by rw [hz, hb]; push_cast; linarith
  have hbA : b < A + 180 := by rw [hb, hm]; linarith
  have hlo1 : (boxIndexes lo).1 = ⌊A⌋ := by unfold boxIndexes; rw [hA]
  have hi1 : (if (boxIndexes hi).1 < (boxIndexes lo).1 then (boxIndexes hi).1 + 360 else (boxIndexes hi).1) = ⌊b⌋ := by
    by_cases hb3 : b < 360
    · have : Py.fmod hi.1 360 = b := fmod_unique (by linarith) hb3 (k := m) hb
      have hle : ⌊A⌋ ≤ ⌊b⌋ := Int.floor_le_floor (by linarith)
      rw [hlo1]
      unfold boxIndexes
      rw [this, if_neg (by simp only; omega)]
    · have : Py.fmod hi.1 360 = b - 360 := fmod_unique (by linarith [not_lt.1 hb3]) (by linarith) (k := m - 1) (by
        rw [hb]; push_cast; ring)
      have hfl : ⌊b - 360⌋ = ⌊b⌋ - 360 := by
        have := Int.floor_sub_intCast b 360
        exact_mod_cast this
      have hlt : ⌊b - 360⌋ < ⌊A⌋ := by
        have h1 : ⌊b - 360⌋ ≤ ⌊A - 180⌋ := Int.floor_le_floor (by linarith)
        have h2 : ⌊A - 180⌋ = ⌊A⌋ - 180 := by
          have := Int.floor_sub_intCast A 180
          exact_mod_cast this
        omega
      rw [hlo1]
      unfold boxIndexes
      rw [this, if_pos hlt]
      simp only
      omega
  have hp1 : (boxIndexes p).1 = ⌊z⌋ % 360 := by
    unfold boxIndexes
    simp only
    by_cases hz3 : z < 360
    · rw [fmod_unique (by linarith) hz3 (k := k + m) hz]
      have h0 : 0 ≤ ⌊z⌋ := Int.floor_nonneg.2 (by linarith)
      have h1 : ⌊z⌋ < 360 := Int.floor_lt.2 (by exact_mod_cast hz3)
      omega
    · have hz' := not_lt.1 hz3
      rw [fmod_unique (z := z - 360) (by linarith) (by linarith) (k := k + m - 1) (by rw [hz]; push_cast; ring)]
      have hfl : ⌊z - 360⌋ = ⌊z⌋ - 360 := by
        have := Int.floor_sub_intCast z 360
        exact_mod_cast this
      have h0 : 360 ≤ ⌊z⌋ := Int.le_floor.2 (by exact_mod_cast hz')
      have h1 : ⌊z⌋ < 720 := Int.floor_lt.2 (by push_cast; linarith)
      omega
  unfold boxesOf
  rw [List.mem_flatMap]
  refine ⟨⌊z⌋, ?_, ?_⟩
  · rw [mem_rangeI, hi1, hlo1]
    have h1 : ⌊A⌋ ≤ ⌊z⌋ := Int.floor_le_floor hzA
    have h2 : ⌊z⌋ ≤ ⌊b⌋ := Int.floor_le_floor hzb
    omega
  · rw [List.mem_map]
    refine ⟨(boxIndexes p).2, ?_, ?_⟩
    · rw [mem_rangeI]
      unfold boxIndexes
      simp only
      have h1 : ⌊lo.2 + 90⌋ ≤ ⌊p.2 + 90⌋ := Int.floor_le_floor (by linarith)
      have h2 : ⌊p.2 + 90⌋ ≤ ⌊hi.2 + 90⌋ := Int.floor_le_floor (by linarith)
      omega
    · rw [← hp1]

/-- The normalised longitude is the longitude of the point in the half-open turn around the lowest longitude. -/
theorem normal_spec (lo x : Rat) : lo - 180 ≤ normal lo x ∧ normal lo x < lo + 180 ∧ ∃ k : Int, normal lo x = x + 360 * k := by
  obtain ⟨a1, a2, m, hm⟩ := Py.fmod_spec (x - lo + 180) (show (0 : Rat) < 360 by norm_num)
  unfold normal
  exact ⟨by linarith, by linarith, m, by rw [hm]; ring⟩

theorem normal_unique {lo x : Rat} {k : Int} (h1 : lo - 180 ≤ x + 360 * k) (h2 : x + 360 * k < lo + 180) :
    normal lo x = x + 360 * k := by
  unfold normal
  rw [fmod_unique (z := x + 360 * k - lo + 180) (by linarith) (by linarith) (k := k) (by ring)]
  ring

/-- Tests of the code on one point against the bounds and the polygon. -/
theorem hit_iff {v : List Pt} (hv : v ≠ []) (hnar : ∀ u ∈ v, ∀ w ∈ v, u.1 - w.1 < 180) (p : Pt) :
    hit v (minR (v.map Prod.fst), minR (v.map Prod.snd)) (maxR (v.map Prod.fst), maxR (v.map Prod.snd)) p = true ↔
      ∃ k : Int, winding (p.1 + 360 * k, p.2) v ≠ 0 := by
  have hne1 : v.map Prod.fst ≠ [] := by simpa using hv
  have hne2 : v.map Prod.snd ≠ [] := by simpa using hv
  obtain ⟨x1, x2⟩ := minR_spec hne1
  obtain ⟨y1, y2⟩ := maxR_spec hne1
  obtain ⟨_, z2⟩ := minR_spec hne2
  obtain ⟨_, t2⟩ := maxR_spec hne2
  constructor
  · intro h
    unfold hit at h
    split at h; · cases h
    split at h; · cases h
    split at h; · cases h
    split at h; · cases h
    obtain ⟨_, _, k, hk⟩ := normal_spec (minR (v.map Prod.fst)) p.1
    refine ⟨k, ?_⟩
    simp only at h
    rw [hk] at h
    exact of_decide_eq_true h
  · rintro ⟨k, hk⟩
    -- the point is in the bounding box
    have hbox : ¬ OutsideBox (p.1 + 360 * k, p.2) v := fun ho => hk (winding_outside_box ho)
    unfold OutsideBox at hbox
    simp only [not_or, not_forall, not_lt] at hbox
    obtain ⟨⟨w1, m1, q1⟩, ⟨w2, m2, q2⟩, ⟨w3, m3, q3⟩, ⟨w4, m4, q4⟩⟩ := hbox
    have g1 := x2 w1.1 (List.mem_map.2 ⟨w1, m1, rfl⟩)
    have g2 := y2 w2.1 (List.mem_map.2 ⟨w2, m2, rfl⟩)
    have g3 := z2 w3.2 (List.mem_map.2 ⟨w3, m3, rfl⟩)
    have g4 := t2 w4.2 (List.mem_map.2 ⟨w4, m4, rfl⟩)
    have hwid : maxR (v.map Prod.fst) - minR (v.map Prod.fst) < 180 := by
      obtain ⟨u, hu, e1⟩ := List.mem_map.1 y1
      obtain ⟨w, hw, e2⟩ := List.mem_map.1 x1
      rw [← e1, ← e2]; exact hnar u hu w hw
    have hn : normal (minR (v.map Prod.fst)) p.1 = p.1 + 360 * k := normal_unique (by linarith) (by linarith)
    unfold hit
    simp only [hn]
    rw [if_neg (by linarith), if_neg (by linarith), if_neg (by linarith), if_neg (by linarith)]
    exact decide_eq_true hk

theorem mark_fold (pts v : List Pt) (lo hi : Pt) (i : Nat) (ip : Nat) : ∀ (l : List Nat) (ind : Nat → Int),
    (l.foldl (mark pts v lo hi i) ind) ip =
      if ind ip = -1 ∧ ip ∈ l ∧ hit v lo hi (pts.getD ip (0, 0)) = true then (i : Int) else ind ip := by
  intro l
  induction l with
  | nil => intro ind; simp
  | cons a l ih =>
    intro ind
    rw [List.foldl_cons, ih]
    unfold mark
    by_cases ha : ind a ≠ -1
    · rw [if_pos ha]
      by_cases hip : ip = a
      · subst hip
        rw [if_neg (fun h => ha h.1), if_neg (fun h => ha h.1)]
      · simp [hip]
    · rw [if_neg ha]
      by_cases hh : hit v lo hi (pts.getD a (0, 0)) = true
      · rw [if_pos hh]
        by_cases hip : ip = a
        · subst hip
          have hi' : ((i : Int)) ≠ -1 := by omega
          have ha' : ind ip = -1 := by simpa using ha
          rw [Function.update_self, if_neg (fun h => hi' h.1), if_pos ⟨ha', by simp, hh⟩]
        · rw [Function.update_of_ne hip]; simp [hip]
      · rw [if_neg hh]
        by_cases hip : ip = a
        · subst hip; simp only [hh, and_false]; simp
        · simp [hip]

/-- Points visited for a contour: those which lie in one of its boxes. -/
theorem visited {pts : List Pt} {order : List Nat} {start stop : List Nat} {first : Int}
    (ho : Bins.IsArgsort (pts.map boxIndex) order)
    (hidx : Index.IsIndex (order.map (fun k => (pts.map boxIndex).getD k 0)) start stop first) {ip : Nat} (hip : ip < pts.length)
    {boxes : List (Int × Int)} (hb : boxIndexes (pts.getD ip (0, 0)) ∈ boxes) :
    ip ∈ boxes.flatMap (boxPoints start stop first order) := by
  obtain ⟨hl, hr, hi⟩ := hidx
  have hmem : ip ∈ order := by rw [ho.1.mem_iff]; simpa using hip
  obtain ⟨k, hk⟩ := List.mem_iff_getElem?.1 hmem
  have hg : (pts.map boxIndex).getD ip 0 = boxIndex (pts.getD ip (0, 0)) := by
    rw [List.getD_eq_getElem?_getD, List.getElem?_map, List.getD_eq_getElem?_getD, List.getElem?_eq_getElem hip]; rfl
  have hgk : (order.map (fun k => (pts.map boxIndex).getD k 0))[k]? = some (boxIndex (pts.getD ip (0, 0))) := by
    rw [List.getElem?_map, hk, Option.map_some, hg]
  have hrange := hr _ (List.mem_of_getElem? hgk)
  rw [List.mem_flatMap]
  refine ⟨_, hb, ?_⟩
  have hdef : (boxIndexes (pts.getD ip (0, 0))).1 + 360 * (boxIndexes (pts.getD ip (0, 0))).2 = boxIndex (pts.getD ip (0, 0)) := rfl
  unfold boxPoints
  rw [hdef]
  generalize boxIndex (pts.getD ip (0, 0)) = B at *
  rw [if_neg (by omega)]
  have hm : (B - first).toNat < start.length := by omega
  have h1 := List.getElem?_eq_getElem hm
  have h2 := List.getElem?_eq_getElem (show (B - first).toNat < stop.length by omega)
  obtain ⟨e1, e2, e3⟩ := hi _ _ _ h1 h2
  have hB : first + ((B - first).toNat : Int) = B := by omega
  rw [hB] at e3
  have hkk := (e3 k).1 hgk
  rw [List.mem_map]
  refine ⟨k, ?_, ?_⟩
  · rw [List.mem_range'_1, List.getD_eq_getElem?_getD, List.getD_eq_getElem?_getD, h1, h2]
    simp only [Option.getD_some]
    omega
  · rw [List.getD_eq_getElem?_getD, hk]; rfl

/-- One contour: the points not yet numbered inside of the contour get its number. -/
theorem pass_spec {pts : List Pt} {order : List Nat} {start stop : List Nat} {first : Int}
    (ho : Bins.IsArgsort (pts.map boxIndex) order)
    (hidx : Index.IsIndex (order.map (fun k => (pts.map boxIndex).getD k 0)) start stop first) {v : List Pt} (hv : v ≠ [])
    (hnar : ∀ u ∈ v, ∀ w ∈ v, u.1 - w.1 < 180) (i : Nat) (ind : Nat → Int) {ip : Nat} (hip : ip < pts.length) :
    (Contains v (pts.getD ip (0, 0)) → ind ip = -1 → pass pts start stop first order v i ind ip = i) ∧
    (¬ Contains v (pts.getD ip (0, 0)) ∨ ind ip ≠ -1 → pass pts start stop first order v i ind ip = ind ip) := by
  unfold pass
  rw [mark_fold]
  constructor
  · intro hc hm
    refine if_pos ⟨hm, ?_, (hit_iff hv hnar _).2 hc⟩
    obtain ⟨k, hk⟩ := hc
    have hne1 : v.map Prod.fst ≠ [] := by simpa using hv
    have hne2 : v.map Prod.snd ≠ [] := by simpa using hv
    obtain ⟨x1, x2⟩ := minR_spec hne1
    obtain ⟨y1, y2⟩ := maxR_spec hne1
    obtain ⟨_, z2⟩ := minR_spec hne2
    obtain ⟨_, t2⟩ := maxR_spec hne2
    have hbox : ¬ OutsideBox ((pts.getD ip (0, 0)).1 + 360 * k, (pts.getD ip (0, 0)).2) v := fun ho => hk (winding_outside_box ho)
    unfold OutsideBox at hbox
    simp only [not_or, not_forall, not_lt] at hbox
    obtain ⟨⟨w1, m1, q1⟩, ⟨w2, m2, q2⟩, ⟨w3, m3, q3⟩, ⟨w4, m4, q4⟩⟩ := hbox
    have g1 := x2 w1.1 (List.mem_map.2 ⟨w1, m1, rfl⟩)
    have g2 := y2 w2.1 (List.mem_map.2 ⟨w2, m2, rfl⟩)
    have g3 := z2 w3.2 (List.mem_map.2 ⟨w3, m3, rfl⟩)
    have g4 := t2 w4.2 (List.mem_map.2 ⟨w4, m4, rfl⟩)
    have hwid : maxR (v.map Prod.fst) - minR (v.map Prod.fst) < 180 := by
      obtain ⟨u, hu, e1⟩ := List.mem_map.1 y1
      obtain ⟨w, hw, e2⟩ := List.mem_map.1 x1
      rw [← e1, ← e2]; exact hnar u hu w hw
    exact visited ho hidx hip (box_visited (k := k) (le_trans g1 q1) (le_trans q2 g2) hwid (le_trans g3 q3) (le_trans q4 g4))
  · intro h
    refine if_neg ?_
    rintro ⟨hm, _, hh⟩
    rcases h with h | h
    · exact h ((hit_iff hv hnar _).1 hh)
    · exact h hm

theorem reduce_of_varied {c : List Pt} (h : ∃ u ∈ c, ∃ w ∈ c, u ≠ w) :
    ∃ v, reduceSize c = some v ∧ v ≠ [] ∧ v ⊆ c := by
  cases c with
  | nil => obtain ⟨u, hu, _⟩ := h; cases hu
  | cons a l =>
    have hex : ∃ u ∈ l, u ≠ a := by
      obtain ⟨u, hu, w, hw, hne⟩ := h
      rcases List.mem_cons.1 hu with rfl | hu
      · rcases List.mem_cons.1 hw with rfl | hw
        · exact absurd rfl hne
        · exact ⟨w, hw, Ne.symm hne⟩
      · by_cases hua : u = a
        · subst hua
          rcases List.mem_cons.1 hw with rfl | hw
          · exact absurd rfl hne
          · exact ⟨w, hw, Ne.symm hne⟩
        · exact ⟨u, hu, hua⟩
    obtain ⟨l', w, n, hw, he⟩ := padded_form a l hex
    rw [he, reduce_size_partial a w l' n hw]
    refine ⟨_, rfl, ?_, List.take_subset _ _⟩
    intro h0
    have := congrArg List.length h0
    simp at this

theorem contoursLoop_spec {pts : List Pt} {order : List Nat} {start stop : List Nat} {first : Int}
    (ho : Bins.IsArgsort (pts.map boxIndex) order)
    (hidx : Index.IsIndex (order.map (fun k => (pts.map boxIndex).getD k 0)) start stop first) :
    ∀ (contours : List (List Pt)) (i : Nat) (ind : Nat → Int), (∀ c ∈ contours, Regular c) →
    ∃ ind', contoursLoop pts start stop first order contours i ind = some ind' ∧ ∀ ip, ip < pts.length →
      (ind ip ≠ -1 → ind' ip = ind ip) ∧
      (ind ip = -1 → (ind' ip = -1 ∧ ∀ c ∈ contours, ¬ Contains c (pts.getD ip (0, 0))) ∨
        ∃ (m : Nat) (c : List Pt), contours[m]? = some c ∧ Contains c (pts.getD ip (0, 0)) ∧ ind' ip = ((i + m : Nat) : Int) ∧
          ∀ (m' : Nat) (c' : List Pt), m' < m → contours[m']? = some c' → ¬ Contains c' (pts.getD ip (0, 0))) := by
  intro contours
  induction contours with
  | nil =>
    intro i ind _
    exact ⟨ind, rfl, fun ip _ => ⟨fun _ => rfl, fun h => Or.inl ⟨h, by simp⟩⟩⟩
  | cons c l ih =>
    intro i ind hreg
    have hc := hreg c (by simp)
    obtain ⟨v, hv, hvne, hsub⟩ := reduce_of_varied hc.varied
    have hnar : ∀ u ∈ v, ∀ w ∈ v, u.1 - w.1 < 180 := fun u hu w hw => hc.narrow u (hsub hu) w (hsub hw)
    have hcont : ∀ p, Contains v p ↔ Contains c p := by
      intro p
      unfold Contains
      constructor <;> rintro ⟨k, hk⟩ <;> refine ⟨k, ?_⟩
      · rwa [reduce_size_winding hv] at hk
      · rwa [reduce_size_winding hv]
    obtain ⟨ind', he, hspec⟩ := ih (i + 1) (pass pts start stop first order v i ind) (fun d hd => hreg d (by simp [hd]))
    refine ⟨ind', by rw [contoursLoop, hv, Option.bind_some, he], fun ip hip => ?_⟩
    obtain ⟨s1, s2⟩ := hspec ip hip
    obtain ⟨p1, p2⟩ := pass_spec ho hidx hvne hnar i ind hip
    constructor
    · intro hne
      have := p2 (Or.inr hne)
      rw [s1 (by rw [this]; exact hne), this]
    · intro hm
      by_cases hcc : Contains c (pts.getD ip (0, 0))
      · right
        have := p1 ((hcont _).2 hcc) hm
        refine ⟨0, c, rfl, hcc, ?_, fun m' _ h => by omega⟩
        rw [s1 (by rw [this]; omega), this]; simp
      · have := p2 (Or.inl (fun h => hcc ((hcont _).1 h)))
        rcases s2 (by rw [this]; exact hm) with ⟨e1, e2⟩ | ⟨m, d, hd, hdc, e1, e2⟩
        · left
          refine ⟨e1, fun d hd => ?_⟩
          rcases List.mem_cons.1 hd with rfl | hd
          · exact hcc
          · exact e2 d hd
        · right
          refine ⟨m + 1, d, by simpa using hd, hdc, by rw [e1]; congr 1; omega, ?_⟩
          intro m' c' hlt hm'
          cases m' with
          | zero =>
            simp only [List.getElem?_cons_zero, Option.some.injEq] at hm'
            rw [← hm']; exact hcc
          | succ m' => exact e2 m' c' (by omega) (by simpa using hm')

/-- **C36** (contours narrower than 180°): for every set of points (not empty) and every sorting function, the result has, for each
point, the number of the first contour which turns around it, or -1 when there is none. Missing for the whole property: wider
contours, see `poly_indexs_wide_wrong`; contours with a single value, see `reduce_size_constant`; no point at all. -/
theorem poly_indexs_partial (argsort : List Int → List Nat) (pts : List Pt) (contours : List (List Pt))
    (ho : Bins.IsArgsort (pts.map boxIndex) (argsort (pts.map boxIndex))) (hp : pts ≠ [])
    (hreg : ∀ c ∈ contours, Regular c) :
    ∃ res, polyIndexs argsort pts contours = some res ∧ res.length = pts.length ∧
      ∀ (ip : Nat) (p : Pt), pts[ip]? = some p →
        (res[ip]? = some (-1) ∧ ∀ c ∈ contours, ¬ Contains c p) ∨
        ∃ (m : Nat) (c : List Pt), res[ip]? = some (m : Int) ∧ contours[m]? = some c ∧ Contains c p ∧
          ∀ (m' : Nat) (c' : List Pt), m' < m → contours[m']? = some c' → ¬ Contains c' p := by
  have hlt : ∀ k ∈ argsort (pts.map boxIndex), k < (pts.map boxIndex).length := by
    intro k hk
    rw [ho.1.mem_iff] at hk
    exact List.mem_range.1 hk
  have htake := Bins.takeAt_spec (0 : Int) hlt
  have hne : (argsort (pts.map boxIndex)).map (fun k => (pts.map boxIndex).getD k 0) ≠ [] := by
    intro h
    have := congrArg List.length h
    rw [List.length_map, ho.1.length_eq] at this
    simp at this
    exact hp this
  obtain ⟨start, stop, first, hbi, hidx, _⟩ := Index.build_index_spec _ hne ho.2
  obtain ⟨ind, he, hspec⟩ := contoursLoop_spec ho hidx contours 0 (fun _ => -1) hreg
  refine ⟨(List.range pts.length).map ind, ?_, by simp, ?_⟩
  · unfold polyIndexs
    rw [htake, Option.bind_some, hbi, Option.bind_some, he, Option.map_some]
  · intro ip p hip
    have hlt := (List.getElem?_eq_some_iff.1 hip).1
    have hgp : pts.getD ip (0, 0) = p := by rw [List.getD_eq_getElem?_getD, hip]; rfl
    have hr : ((List.range pts.length).map ind)[ip]? = some (ind ip) := by
      rw [List.getElem?_map, List.getElem?_range hlt]; rfl
    rw [hr]
    have := (hspec ip hlt).2 rfl
    rw [hgp] at this
    rcases this with ⟨e1, e2⟩ | ⟨m, c, h1, h2, h3, h4⟩
    · left; exact ⟨by rw [e1], e2⟩
    · right; exact ⟨m, c, by rw [h3]; simp, h1, h2, h4⟩

/-- **C36** (mask): `insidepoly` is true exactly for the points which are in some contour. -/
theorem inside_poly_partial (argsort : List Int → List Nat) (pts : List Pt) (contours : List (List Pt))
    (ho : Bins.IsArgsort (pts.map boxIndex) (argsort (pts.map boxIndex))) (hp : pts ≠ [])
    (hreg : ∀ c ∈ contours, Regular c) :
    ∃ res, insidePoly argsort pts contours = some res ∧ res.length = pts.length ∧
      ∀ (ip : Nat) (p : Pt), pts[ip]? = some p → (res[ip]? = some true ↔ ∃ c ∈ contours, Contains c p) := by
  obtain ⟨res, he, hl, hspec⟩ := poly_indexs_partial argsort pts contours ho hp hreg
  refine ⟨res.map (fun i => decide (i ≠ -1)), by unfold insidePoly; rw [he]; rfl, by simpa using hl, ?_⟩
  intro ip p hip
  rw [List.getElem?_map]
  rcases hspec ip p hip with ⟨e1, e2⟩ | ⟨m, c, h1, h2, h3, _⟩
  · rw [e1]
    simp only [Option.map_some, ne_eq, not_true_eq_false, decide_false, Option.some.injEq, Bool.false_eq_true, false_iff]
    rintro ⟨c, hc, hcc⟩
    exact e2 c hc hcc
  · rw [h1]
    have : decide ((m : Int) ≠ -1) = true := by
      simp only [ne_eq, decide_eq_true_eq]; omega
    rw [Option.map_some, this]
    exact ⟨fun _ => ⟨c, List.mem_of_getElem? h2, h3⟩, fun _ => rfl⟩

/-- No point: the index of boxes of an empty array raises. -/
theorem poly_indexs_no_point (contours : List (List Pt)) : polyIndexs Bins.stableArgsort [] contours = none := rfl

/-- **Disagreement with C36**: a contour wider than 180° does not contain its points farther than 180° from its western end. -/
theorem poly_indexs_wide_wrong :
    polyIndexs Bins.stableArgsort [(190, 1), (10, 1)] [[(0, 0), (200, 0), (200, 2), (0, 2), (0, 0)]] = some [-1, 0] ∧
    Contains [(0, 0), (200, 0), (200, 2), (0, 2), (0, 0)] (190, 1) := by
  constructor
  · decide +kernel
  · exact ⟨0, by decide +kernel⟩

/-- Two contours which overlap, one across 360°, and points with longitudes of other turns. -/
example : polyIndexs Bins.stableArgsort [(361, 1), (-1, 1), (5, 1), (719, 3)]
    [[(358, 0), (362, 0), (362, 2), (358, 2), (358, 0)], [(-2, 0), (6, 0), (6, 2), (-2, 2), (-2, 0)]] =
    some [0, 0, 1, -1] := by decide +kernel

example : Regular [(358, 0), (362, 0), (362, 2), (358, 2), (358, 0)] := by
  refine ⟨⟨(358, 0), by simp, (362, 0), by simp, by decide +kernel⟩, ?_⟩
  decide +kernel

end Verif.Poly
