import Verif.Store.Model
import Verif.Pixels.Props
import Verif.Extract.Props

/-!
# C87: packing of the variables, C88: rows, rotation and names of a file
-/

namespace Verif.Store

/-! ### C87 -/

/-- The values between the ones of the codes of the type, with a half step on both sides. -/
def InRange (v : Code) (x : Rat) : Prop := decode v v.lo - v.scale / 2 < x ∧ x < decode v v.hi + v.scale / 2

theorem rint_int (n : Int) : Amplitude.rint (n : Rat) = n := by
  obtain ⟨h1, h2⟩ := Pixels.rint_bounds (n : Rat)
  have h3 : ((Amplitude.rint (n : Rat) : Int) : Rat) < ((n + 1 : Int) : Rat) := by push_cast; linarith
  have h4 : ((n - 1 : Int) : Rat) < ((Amplitude.rint (n : Rat) : Int) : Rat) := by push_cast; linarith
  have h5 : Amplitude.rint (n : Rat) < n + 1 := by exact_mod_cast h3
  have h6 : n - 1 < Amplitude.rint (n : Rat) := by exact_mod_cast h4
  omega

/-- The code of a value of the range is a code of the type. -/
theorem rint_range {v : Code} (hs : 0 < v.scale) {x : Rat} (hx : InRange v x) :
    v.lo ≤ Amplitude.rint ((x - v.offset) / v.scale) ∧ Amplitude.rint ((x - v.offset) / v.scale) ≤ v.hi := by
  obtain ⟨h1, h2⟩ := hx
  unfold decode at h1 h2
  obtain ⟨b1, b2⟩ := Pixels.rint_bounds ((x - v.offset) / v.scale)
  have q1 : (v.lo : Rat) - 1 / 2 < (x - v.offset) / v.scale := by
    rw [lt_div_iff₀ hs]
    linarith
  have q2 : (x - v.offset) / v.scale < (v.hi : Rat) + 1 / 2 := by
    rw [div_lt_iff₀ hs]
    linarith
  constructor
  · have h : ((v.lo - 1 : Int) : Rat) < (Amplitude.rint ((x - v.offset) / v.scale) : Rat) := by push_cast; linarith
    have h' : v.lo - 1 < Amplitude.rint ((x - v.offset) / v.scale) := by exact_mod_cast h
    omega
  · have h : (Amplitude.rint ((x - v.offset) / v.scale) : Rat) < ((v.hi + 1 : Int) : Rat) := by push_cast; linarith
    have h' : Amplitude.rint ((x - v.offset) / v.scale) < v.hi + 1 := by exact_mod_cast h
    omega

/-- **C87**: a value of the range is given back with an error of at most half a step. Missing: other values, see `store_outside`. -/
theorem store_partial {v : Code} (hs : 0 < v.scale) {cast : Int → Int} (hc : Casts v cast) {x : Rat} (hx : InRange v x) :
    |decode v (encode cast v x) - x| ≤ v.scale / 2 := by
  obtain ⟨r1, r2⟩ := rint_range hs hx
  unfold encode decode
  rw [hc.1 _ r1 r2]
  obtain ⟨b1, b2⟩ := Pixels.rint_bounds ((x - v.offset) / v.scale)
  set q := (x - v.offset) / v.scale with hq
  have hxq : x = q * v.scale + v.offset := by
    rw [hq]
    field_simp
    ring
  rw [abs_le, hxq]
  constructor <;> nlinarith

/-- A value out of the range is never given back with such an error, whatever the cast of the machine. -/
theorem store_outside {v : Code} (hs : 0 < v.scale) {cast : Int → Int} (hc : Casts v cast) {x : Rat}
    (hx : x < decode v v.lo - v.scale / 2 ∨ decode v v.hi + v.scale / 2 < x) : v.scale / 2 < |decode v (encode cast v x) - x| := by
  obtain ⟨c1, c2⟩ := hc.2 (Amplitude.rint ((x - v.offset) / v.scale))
  have c1' : (v.lo : Rat) ≤ ((cast (Amplitude.rint ((x - v.offset) / v.scale)) : Int) : Rat) := by exact_mod_cast c1
  have c2' : ((cast (Amplitude.rint ((x - v.offset) / v.scale)) : Int) : Rat) ≤ v.hi := by exact_mod_cast c2
  unfold encode
  unfold decode at hx ⊢
  rw [lt_abs]
  rcases hx with hx | hx
  · left; nlinarith
  · right; nlinarith

/-- **C87** (stability): a code is given back exactly, so that a file loaded and written again holds the same values. -/
theorem code_stable {v : Code} (hs : 0 < v.scale) {cast : Int → Int} (hc : Casts v cast) {n : Int} (h1 : v.lo ≤ n) (h2 : n ≤ v.hi) :
    encode cast v (decode v n) = n := by
  unfold encode decode
  rw [show ((n : Rat) * v.scale + v.offset - v.offset) / v.scale = n by field_simp; ring, rint_int, hc.1 n h1 h2]

@[inherit_doc code_stable]
theorem store_twice {v : Code} (hs : 0 < v.scale) {cast : Int → Int} (hc : Casts v cast) (x : Rat) :
    decode v (encode cast v (decode v (encode cast v x))) = decode v (encode cast v x) := by
  rw [code_stable (n := encode cast v x) hs hc (hc.2 _).1 (hc.2 _).2]

/-- **C87** (order): two values of the range keep their order. -/
theorem store_mono {v : Code} (hs : 0 < v.scale) {cast : Int → Int} (hc : Casts v cast) {x y : Rat} (hx : InRange v x) (hy : InRange v y) (h : x ≤ y) :
    decode v (encode cast v x) ≤ decode v (encode cast v y) := by
  obtain ⟨r1, r2⟩ := rint_range hs hx
  obtain ⟨s1, s2⟩ := rint_range hs hy
  unfold encode decode
  rw [hc.1 _ r1 r2, hc.1 _ s1 s2]
  have : Amplitude.rint ((x - v.offset) / v.scale) ≤ Amplitude.rint ((y - v.offset) / v.scale) :=
    Pixels.rint_mono (by rw [div_le_div_iff_of_pos_right hs]; linarith)
  have h' : ((Amplitude.rint ((x - v.offset) / v.scale) : Int) : Rat) ≤ Amplitude.rint ((y - v.offset) / v.scale) := by exact_mod_cast this
  nlinarith

/-- The usual cast meets the hypothesis. -/
theorem wrapCast_casts {v : Code} (h : v.lo ≤ v.hi) : Casts v (wrapCast v) := by
  constructor
  · intro n h1 h2
    unfold wrapCast
    rw [Int.emod_eq_of_lt (by omega) (by omega)]
    omega
  · intro n
    unfold wrapCast
    have h1 := Int.emod_nonneg (n - v.lo) (show v.hi - v.lo + 1 ≠ 0 by omega)
    have h2 := Int.emod_lt_of_pos (n - v.lo) (show 0 < v.hi - v.lo + 1 by omega)
    omega

/-- **C87** for the variables of the package: dates from 1950 to 2086, amplitudes to 6.5 m, speeds to 6.5 m/s, radii to 3276 km, latitudes, longitudes of
contours from -147.68 to 507.67 degrees. -/
theorem variables_partial {cast : Code → Int → Int} (hc : ∀ v, Casts v (cast v)) (x : Rat) :
    (0 ≤ x → x ≤ 49710 → |decode time (encode (cast time) time x) - x| ≤ 1 / 172800) ∧
    (0 ≤ x → x ≤ 13107 / 2000 → |decode amplitude (encode (cast amplitude) amplitude x) - x| ≤ 1 / 20000) ∧
    (0 ≤ x → x ≤ 13107 / 2000 → |decode speed (encode (cast speed) speed x) - x| ≤ 1 / 20000) ∧
    (0 ≤ x → x ≤ 3276750 → |decode radius (encode (cast radius) radius x) - x| ≤ 25) ∧
    (-90 ≤ x → x ≤ 90 → |decode contourLat (encode (cast contourLat) contourLat x) - x| ≤ 1 / 200) ∧
    (-3692 / 25 ≤ x → x ≤ 50767 / 100 → |decode contourLon (encode (cast contourLon) contourLon x) - x| ≤ 1 / 200) := by
  have key : ∀ (v : Code), 0 < v.scale → ∀ lo hi e : Rat, decode v v.lo - v.scale / 2 < lo → hi < decode v v.hi + v.scale / 2 → v.scale / 2 = e →
      lo ≤ x → x ≤ hi → |decode v (encode (cast v) v x) - x| ≤ e := by
    intro v hs lo hi e h1 h2 h3 h4 h5
    rw [← h3]
    exact store_partial hs (hc v) ⟨by linarith, by linarith⟩
  refine ⟨key time (by norm_num [time]) 0 49710 _ ?_ ?_ ?_, key amplitude (by norm_num [amplitude]) 0 (13107 / 2000) _ ?_ ?_ ?_,
    key speed (by norm_num [speed]) 0 (13107 / 2000) _ ?_ ?_ ?_, key radius (by norm_num [radius]) 0 3276750 _ ?_ ?_ ?_,
    key contourLat (by norm_num [contourLat]) (-90) 90 _ ?_ ?_ ?_, key contourLon (by norm_num [contourLon]) (-3692 / 25) (50767 / 100) _ ?_ ?_ ?_⟩ <;>
  norm_num [decode, time, amplitude, speed, radius, contourLat, contourLon]

/-- A contour at 170 degrees west, given as -170: the longitude is not given back, whatever the machine. The distance is more than 22 degrees. -/
theorem west_contour_wrong {cast : Int → Int} (hc : Casts contourLon cast) : 22 < |decode contourLon (encode cast contourLon (-170)) - (-170)| := by
  obtain ⟨c1, c2⟩ := hc.2 (Amplitude.rint (((-170 : Rat) - contourLon.offset) / contourLon.scale))
  have c1' : ((-32768 : Int) : Rat) ≤ ((cast (Amplitude.rint (((-170 : Rat) - contourLon.offset) / contourLon.scale)) : Int) : Rat) := by
    exact_mod_cast c1
  rw [lt_abs]
  left
  unfold encode decode
  set n := cast (Amplitude.rint (((-170 : Rat) - contourLon.offset) / contourLon.scale)) with hn
  have e1 : contourLon.scale = 1 / 100 := rfl
  have e2 : contourLon.offset = 180 := rfl
  rw [e1, e2]
  push_cast at c1'
  linarith

/-- With the usual cast the longitude given back is 485.36, which is 125.36 modulo 360. -/
theorem west_contour_value : decode contourLon (encode (wrapCast contourLon) contourLon (-170)) = 12134 / 25 := by decide +kernel

/-- A date before 1950 is not given back. -/
theorem before_1950_wrong {cast : Int → Int} (hc : Casts time cast) : 1 / 172800 < |decode time (encode cast time (-1)) - (-1)| := by
  have h := store_outside (v := time) (by norm_num [time]) hc (x := -1) (Or.inl (by norm_num [decode, time]))
  have e : time.scale / 2 = 1 / 172800 := by norm_num [time]
  rwa [e] at h

/-- **C87** (`raw_data`, netcdf): codes loaded and written again without conversion are the same. -/
theorem raw_netcdf {v : Code} {cast : Int → Int} (hc : Casts v cast) {n : Int} (h1 : v.lo ≤ n) (h2 : n ≤ v.hi) :
    writeNc cast v true (loadNc v true n) = n := by
  unfold writeNc loadNc trunc
  simp only [if_true]
  have hf : ∀ m : Int, ((m : Rat)).floor = m := Rat.floor_intCast
  split
  · rw [hf, hc.1 n h1 h2]
  · rw [show -((n : Rat)) = ((-n : Int) : Rat) by push_cast; rfl, hf, neg_neg, hc.1 n h1 h2]

/-- **C87** (`raw_data`, zarr): with exact floats, the raw codes are the ones of the file, and are written as they are. Missing: floats with
rounding, see `raw_zarr_rounding_wrong`. -/
theorem raw_zarr_partial {v : Code} (hs : 0 < v.scale) {cast : Int → Int} (hc : Casts v cast) {n : Int} (h1 : v.lo ≤ n) (h2 : n ≤ v.hi) :
    rawLoadZarr v 0 n = n ∧ rawWriteZarr cast v n = n := by
  constructor
  · unfold rawLoadZarr decode trunc
    rw [show ((n : Rat) * v.scale + v.offset - v.offset) / v.scale + 0 = n by field_simp; ring]
    have hf : ∀ m : Int, ((m : Rat)).floor = m := Rat.floor_intCast
    split
    · rw [hf]
    · rw [show -((n : Rat)) = ((-n : Int) : Rat) by push_cast; rfl, hf, neg_neg]
  · exact code_stable hs hc h1 h2

/-- Any rounding error of the floats toward 0 loses one step: the conversion to integers is not rounded. -/
theorem raw_zarr_rounding_wrong {v : Code} (hs : 0 < v.scale) {n : Int} (hn : 0 < n) {err : Rat} (h1 : -1 ≤ err) (h2 : err < 0) :
    rawLoadZarr v err n = n - 1 := by
  unfold rawLoadZarr decode trunc
  rw [show ((n : Rat) * v.scale + v.offset - v.offset) / v.scale = n by field_simp; ring]
  have hn' : (1 : Rat) ≤ n := by exact_mod_cast hn
  rw [if_pos (by linarith)]
  change ⌊(n : Rat) + err⌋ = n - 1
  apply Int.floor_eq_iff.2
  push_cast
  constructor <;> linarith

theorem wrapCast_add {v : Code} (p : Int) {n : Int} (h1 : v.lo ≤ n) (h2 : n ≤ v.hi) : wrapCast v (p + wrapCast v (n - p)) = n := by
  unfold wrapCast
  have e : (p + ((n - p - v.lo) % (v.hi - v.lo + 1) + v.lo) - v.lo) % (v.hi - v.lo + 1) = (n - v.lo) % (v.hi - v.lo + 1) := by
    rw [show p + ((n - p - v.lo) % (v.hi - v.lo + 1) + v.lo) - v.lo = p + (n - p - v.lo) % (v.hi - v.lo + 1) by ring, Int.add_emod_emod]
    congr 1
    ring
  rw [e, Int.emod_eq_of_lt (by omega) (by omega)]
  omega

/-- **C87** (filter of the contours in zarr): the differences in the type give back the codes, even when a difference is out of the type. -/
theorem undelta_delta {v : Code} (h : v.lo ≤ v.hi) : ∀ (l : List Int) (p : Int), (∀ n ∈ l, v.lo ≤ n ∧ n ≤ v.hi) → undelta v p (delta v p l) = l
  | [], _, _ => rfl
  | n :: l, p, hl => by
    obtain ⟨h1, h2⟩ := hl n (by simp)
    rw [delta, undelta, wrapCast_add p h1 h2, undelta_delta h l n (fun m hm => hl m (by simp [hm]))]

example : delta contourLat 0 [-32768, 32767, 5] = [-32768, -1, -32762] ∧ undelta contourLat 0 [-32768, -1, -32762] = [-32768, 32767, 5] := by decide

example : InRange contourLon 10 ∧ decode contourLon (encode (wrapCast contourLon) contourLon (10 + 1 / 300)) = 10 := by
  constructor
  · norm_num [InRange, decode, contourLon]
  · decide +kernel

/-! ### C88: rows -/

theorem stepSlice_one {α : Type} (l : List α) (start stop : Nat) : stepSlice l start stop 1 = (l.take stop).drop start := by
  unfold stepSlice
  rw [List.filter_eq_self.2 (by intro p _; simp [Nat.mod_one]), List.zipIdx_map_fst]

/-- **C88** (netcdf): with a slice of natural numbers without step, the rows loaded are the ones of the slice, also when it goes after the end.
Missing: steps, see `step_wrong`. -/
theorem rows_netcdf_partial {α : Type} (data : List α) {start stop : Nat} (h1 : start ≤ data.length) (h2 : start ≤ stop) :
    loadRowsNc data start stop 1 = some ((data.take stop).drop start) := by
  unfold loadRowsNc fill
  rw [if_neg (by omega), stepSlice_one, if_pos (by simp)]

/-- With a step the code does not use the step to count the rows: a single row is repeated. -/
theorem step_wrong : loadRowsNc [10, 20, 30] 0 2 2 = some [10, 10] ∧ loadRowsNc [10, 20, 30] 0 3 2 = none := by decide

theorem copyBlock_spec {α : Type} (data : List α) {start stop buffer d : Nat} {out : List α} (h1 : start ≤ data.length) (h2 : start ≤ stop)
    (hl : out.length = min stop data.length - start) (ho : out.take d = ((data.take stop).drop start).take d) :
    ∃ out', copyBlock data start stop buffer out (start + d) = some out' ∧ out'.length = min stop data.length - start ∧
      out'.take (d + buffer) = ((data.take stop).drop start).take (d + buffer) := by
  have hsrc : (data.take (min (start + d + buffer) stop)).drop (start + d) = (((data.take stop).drop start).take (d + buffer)).drop d := by
    apply List.ext_getElem?
    intro i
    simp only [List.getElem?_drop, List.getElem?_take]
    by_cases hi : i < buffer
    · rw [if_pos (show d + i < d + buffer by omega)]
      by_cases hj : start + d + i < stop
      · rw [if_pos (by omega), if_pos (by omega)]
        congr 1
        omega
      · rw [if_neg (by omega), if_neg (by omega)]
    · rw [if_neg (by omega), if_neg (by omega)]
  unfold copyBlock Extract.sliceAssign
  simp only
  rw [show start + d - start = d by omega, Extract.bound_nat, Extract.bound_nat, hsrc, hl]
  set S := (data.take stop).drop start with hS
  have hSl : S.length = min stop data.length - start := by rw [hS]; simp
  rw [if_pos (by rw [List.length_drop, List.length_take, hSl]; omega)]
  have hmax : max (min d (min stop data.length - start)) (min (d + buffer) (min stop data.length - start)) = min (d + buffer) (min stop data.length - start) := by
    omega
  rw [hmax]
  have htake : out.take (min d (min stop data.length - start)) = S.take d := by
    rw [← ho, ← hl]
    by_cases hd : d ≤ out.length
    · rw [min_eq_left hd]
    · rw [min_eq_right (by omega), List.take_of_length_le (le_refl _), List.take_of_length_le (by omega)]
  rw [htake]
  have hcat : S.take d ++ (S.take (d + buffer)).drop d = S.take (d + buffer) := by
    have := List.take_append_drop d (S.take (d + buffer))
    rwa [List.take_take, min_eq_left (by omega)] at this
  rw [hcat]
  refine ⟨_, rfl, ?_, ?_⟩
  · rw [List.length_append, List.length_take, hSl, List.length_drop, hl]
    omega
  · rw [List.take_append, List.take_take, min_self, List.length_take, hSl]
    by_cases hb : d + buffer ≤ min stop data.length - start
    · rw [min_eq_left hb]
      simp
    · rw [min_eq_right (by omega), List.drop_of_length_le (by omega)]
      simp

theorem copyLoop_spec {α : Type} (data : List α) {start stop buffer : Nat} (h1 : start ≤ data.length) (h2 : start ≤ stop) :
    ∀ (k d : Nat) (out : List α), out.length = min stop data.length - start → out.take d = ((data.take stop).drop start).take d →
      ∃ out', copyLoop data start stop buffer k (start + d) out = some out' ∧ out'.length = min stop data.length - start ∧
        out'.take (d + k * buffer) = ((data.take stop).drop start).take (d + k * buffer)
  | 0, d, out, hl, ho => ⟨out, rfl, hl, by simpa using ho⟩
  | k + 1, d, out, hl, ho => by
    obtain ⟨o1, e1, l1, t1⟩ := copyBlock_spec data h1 h2 (buffer := buffer) hl ho
    obtain ⟨o2, e2, l2, t2⟩ := copyLoop_spec data h1 h2 k (d + buffer) o1 l1 t1
    refine ⟨o2, ?_, l2, ?_⟩
    · rw [copyLoop, e1, Option.bind_some, Nat.add_assoc, e2]
    · rw [show d + (k + 1) * buffer = d + buffer + k * buffer by ring]
      exact t2

/-- **C88** (zarr): the rows loaded are the ones of the slice, whatever the size of the buffer. -/
theorem rows_zarr_partial {α : Type} (blank : α) (data : List α) {start stop buffer : Nat} (hb : 0 < buffer) (h1 : start ≤ data.length) (h2 : start ≤ stop) :
    loadRowsZarr blank data start stop buffer = some ((data.take stop).drop start) := by
  unfold loadRowsZarr
  rw [if_neg (by omega)]
  obtain ⟨out, e, l, t⟩ := copyLoop_spec data h1 h2 (buffer := buffer) ((stop - start + buffer - 1) / buffer) 0
    (List.replicate (min stop data.length - start) blank) (by simp) (by simp)
  rw [Nat.add_zero] at e
  rw [e]
  have hk : stop - start ≤ (stop - start + buffer - 1) / buffer * buffer := by
    have := Nat.div_add_mod (stop - start + buffer - 1) buffer
    have hm := Nat.mod_lt (stop - start + buffer - 1) hb
    have hc := Nat.mul_comm buffer ((stop - start + buffer - 1) / buffer)
    omega
  rw [List.take_of_length_le (by omega), List.take_of_length_le (by simp; omega)] at t
  rw [t]

/-- The step of a slice is ignored with zarr: both formats do not give the same rows, and zarr does not give the ones asked. -/
theorem step_zarr_wrong : loadRowsZarr 0 [10, 20, 30] 0 3 2 = some [10, 20, 30] ∧ stepSlice [10, 20, 30] 0 3 2 = [10, 30] := by decide

/-! ### C88: attributes -/

/-- **C88** (arrays): a dataset with arrays gives back the size of its arrays in zarr. Missing: a dataset without arrays, see `no_array_wrong`. -/
theorem array_attr_partial {n : Nat} (h : n ≠ 0) : arrayAttr n = some n := if_pos h

/-- A dataset without contour written in zarr cannot be loaded: the attribute is not written. -/
theorem no_array_wrong : arrayAttr 0 = none := rfl

/-- **C88** (rotation): the rotation is given back, in a file of observations or of trajectories, with or without the field of rotation. -/
theorem sign_partial {s : Int} (h : s = -1 ∨ s = 1) : loadSignNc (signBase s) = some s ∧ loadSignNc (signTrack s) = some s ∧
    ∀ (n : Nat) (title : Option String) (rot : Option Int), loadSignNc ⟨some (List.replicate (n + 1) s), title, rot⟩ = some s := by
  rcases h with rfl | rfl
  · refine ⟨by decide, by decide, fun n t r => ?_⟩
    simp [loadSignNc, List.replicate_succ]
  · refine ⟨by decide, by decide, fun n t r => ?_⟩
    simp [loadSignNc, List.replicate_succ]

/-- Without rows, a file with the field of rotation cannot be loaded. Without rotation (0), a file of observations is loaded as cyclonic and a
file of trajectories as anticyclonic. -/
theorem sign_wrong : loadSignNc ⟨some [], none, some 1⟩ = none ∧ loadSignNc (signBase 0) = some (-1) ∧ loadSignNc (signTrack 0) = some 1 := by
  decide

/-! ### C88: names -/

theorem inverse_skip (s : String) : ∀ (l : List Entry) (d : String → Option String), (∀ e ∈ l, s ≠ e.nc ∧ s ∉ e.old) → inverse l d s = d s
  | [], _, _ => rfl
  | e :: l, d, h => by
    rw [inverse, inverse_skip s l _ (fun e' he' => h e' (by simp [he']))]
    obtain ⟨h1, h2⟩ := h e (by simp)
    rw [if_neg h2, if_neg h1]

/-- **C88** (names): in a table where no name is used twice, the name of a file or an old name gives back the key. -/
theorem inverse_spec : ∀ (l : List Entry) (d : String → Option String), (l.flatMap (fun e => e.nc :: e.old)).Nodup →
    ∀ e ∈ l, ∀ s, s = e.nc ∨ s ∈ e.old → inverse l d s = some e.key
  | [], _, _, e, he, _, _ => by simp at he
  | a :: l, d, hn, e, he, s, hs => by
    rw [List.flatMap_cons, List.nodup_append] at hn
    obtain ⟨_, hn2, hn3⟩ := hn
    rw [inverse]
    rcases List.mem_cons.1 he with rfl | he
    · rw [inverse_skip]
      · by_cases h : s ∈ e.old
        · rw [if_pos h]
        · rw [if_neg h, if_pos (by tauto)]
      · intro e' he'
        have hs' : s ∈ e.nc :: e.old := by simpa using hs
        constructor
        · rintro rfl
          exact hn3 _ hs' _ (List.mem_flatMap.2 ⟨e', he', by simp⟩) rfl
        · intro hm
          exact hn3 _ hs' _ (List.mem_flatMap.2 ⟨e', he', by simp [hm]⟩) rfl
    · exact inverse_spec l _ hn2 e he s hs

/-- **C88** for the table of the package: each variable of a file goes to the field it comes from. -/
theorem names_spec : ∀ e ∈ table, ∀ s, s = e.nc ∨ s ∈ e.old → inverse table (fun _ => none) s = some e.key := by
  apply inverse_spec
  decide +kernel

example : inverse table (fun _ => none) "Eddy_id" = some "track" := names_spec ⟨"track", "track", ["Eddy_id"]⟩ (by simp [table]) _ (by simp)

end Verif.Store
