import Verif.Store.Props

/-!
# C166: `EddyTranslate`

Model of the script `EddyTranslate` (/repo/src/scripts/EddyTranslate:25-57): each variable of the input is loaded alone as a dataset of
`EddiesObservations`, and is added to the output. Loading: observation.py:815-884 (zarr) and 961-1042 (netcdf); writing: 1548-1575 (zarr)
and 1587-1619 (netcdf). Simplifications: the units of the file are the ones of `VAR_DESCR` (no factor), floats are exact.
-/

namespace Verif.Store

deriving instance DecidableEq for Code

/-- A variable of a file: name, whether it has the dimension `NbSample`, packing of the file, codes. -/
structure FileVar where
  name : String
  arr : Bool
  code : Code
  data : List Int
  deriving DecidableEq

/-- A file: variables, number of samples (dimension `NbSample` of netcdf, attribute `track_array_variables` of zarr), attributes. -/
structure File where
  vars : List FileVar
  samples : Option Nat
  title : Option String
  rotation : Option Int
  deriving DecidableEq

/-- Key of `VAR_DESCR` and `nc_name` of a name of variable (`VAR_DESCR_inv`); `none` is a `KeyError`. -/
def canon (name : String) : Option (String × String) :=
  (inverse table (fun _ => none) name).bind (fun k => (table.find? (fun e => decide (e.key = k))).map (fun e => (k, e.nc)))

/-- `get_variable` for the values (EddyTranslate:39-45): with `raw_data` the codes, else the values; a zarr is never loaded raw. -/
def loadValue (fromNc raw : Bool) (v : Code) (n : Int) : Rat := if fromNc then loadNc v raw n else decode v n

/-- Writing of a value of a dataset (observation.py:1651-1660 and 1738-1750): netcdf or zarr, raw dataset or not. -/
def storeValue (cast : Int → Int) (toNc raw : Bool) (v : Code) (x : Rat) : Int :=
  if toNc then writeNc cast v raw x else if raw then rawWriteZarr cast v (trunc x) else encode cast v x

/-- `sign_type` of the dataset of one variable (observation.py:1031-1042 and 880-883). `none`: first row of an empty variable. -/
def varSign (fromNc : Bool) (f : File) (key : String) (x : List Rat) : Option Int :=
  if fromNc then loadSignNc ⟨if key = "type_cyc" then some (x.map trunc) else none, f.title, f.rotation⟩
  else some (if f.rotation.getD 0 = 0 then -1 else f.rotation.getD 0)

/-- Number of samples of the dataset of one variable: the size of the dimension of a netcdf, 0 without it (observation.py:983-984); the
attribute of a zarr, whose absence raises (observation.py:819). -/
def varSamples (fromNc : Bool) (f : File) : Option Nat := if fromNc then some (f.samples.getD 0) else f.samples

/-- One turn of the loop of the script: the variable is loaded and added to the output, and the attributes of the output are set. A name
which is already there, or another number of samples, raise. -/
def addVar (pack : String → Code) (cast : Code → Int → Int) (fromNc toNc unraw : Bool) (f : File) (out : File) (v : FileVar) : Option File :=
  (canon v.name).bind (fun c =>
    let raw := fromNc && !unraw
    let x := v.data.map (loadValue fromNc raw v.code)
    (varSamples fromNc f).bind (fun s => (varSign fromNc f c.1 x).bind (fun r =>
      if c.2 ∈ out.vars.map (·.name) then none
      else some ⟨out.vars ++ [⟨c.2, v.arr, pack c.1, x.map (storeValue (cast (pack c.1)) toNc raw (pack c.1))⟩],
        if s = 0 then out.samples else some s, none, some r⟩)))

/-- The loop on the variables. -/
def addVars (pack : String → Code) (cast : Code → Int → Int) (fromNc toNc unraw : Bool) (f : File) : List FileVar → File → Option File
  | [], out => some out
  | v :: l, out => (addVar pack cast fromNc toNc unraw f out v).bind (addVars pack cast fromNc toNc unraw f l)

/-- `EddyTranslate filename_in filename_out [--unraw]` (EddyTranslate:46-57). -/
def translate (pack : String → Code) (cast : Code → Int → Int) (fromNc toNc unraw : Bool) (f : File) : Option File :=
  addVars pack cast fromNc toNc unraw f f.vars ⟨[], none, none, none⟩

/-! ### Specification -/

/-- The values of a variable for a user. -/
def FileVar.values (v : FileVar) : List Rat := v.data.map (decode v.code)

/-- A variable which this version of the package can have written: name known, packing of the package, codes in the type. -/
def Own (pack : String → Code) (v : FileVar) : Prop :=
  ∃ k nc, canon v.name = some (k, nc) ∧ v.code = pack k ∧ 0 < v.code.scale ∧ ∀ n ∈ v.data, v.code.lo ≤ n ∧ n ≤ v.code.hi

/-- Name of the variable in the new files. -/
def newName (v : FileVar) : String := ((canon v.name).map Prod.snd).getD v.name

/-- The rotation of a file for all its variables. -/
def Rotation (fromNc : Bool) (f : File) (r : Int) : Prop :=
  ∀ v ∈ f.vars, ∀ k nc, canon v.name = some (k, nc) → ∀ x : List Rat, x = v.data.map (fun n : Int => (n : Rat)) ∨ x = v.values →
    varSign fromNc f k x = some r

/-! ### Proofs -/

theorem trunc_int (n : Int) : trunc (n : Rat) = n := by
  unfold trunc
  have hf : ∀ m : Int, ((m : Rat)).floor = m := Rat.floor_intCast
  split
  · rw [hf]
  · rw [show -((n : Rat)) = ((-n : Int) : Rat) by push_cast; rfl, hf, neg_neg]

/-- A code goes through unchanged, in the four directions, with or without `--unraw`. -/
theorem value_kept {v : Code} (hs : 0 < v.scale) {cast : Int → Int} (hc : Casts v cast) {n : Int} (h1 : v.lo ≤ n) (h2 : n ≤ v.hi)
    (fromNc toNc unraw : Bool) :
    storeValue cast toNc (fromNc && !unraw) v (loadValue fromNc (fromNc && !unraw) v n) = n := by
  have hst := code_stable hs hc h1 h2
  have hraw := raw_netcdf hc h1 h2
  have hz := (raw_zarr_partial hs hc h1 h2).2
  cases fromNc <;> cases toNc <;> cases unraw <;>
    simp [storeValue, loadValue, writeNc, loadNc, trunc_int, hst, hz, hc.1 n h1 h2]

theorem addVars_spec {pack : String → Code} {cast : Code → Int → Int} (hc : ∀ v, Casts v (cast v)) {fromNc toNc unraw : Bool} {f : File}
    {r : Int} {s : Nat} (hs : varSamples fromNc f = some s) :
    ∀ (l : List FileVar) (out : File), (∀ v ∈ l, v ∈ f.vars) → (∀ v ∈ l, Own pack v) → Rotation fromNc f r →
      (out.vars.map (·.name) ++ l.map newName).Nodup → ∃ g, addVars pack cast fromNc toNc unraw f l out = some g ∧
        g.vars = out.vars ++ l.map (fun v => ⟨newName v, v.arr, v.code, v.data⟩) ∧
        (l ≠ [] → g.rotation = some r ∧ g.title = none ∧ g.samples = if s = 0 then out.samples else some s)
  | [], out, _, _, _, _ => ⟨out, rfl, by simp, fun h => absurd rfl h⟩
  | v :: l, out, hin, hown, hrot, hnd => by
    obtain ⟨k, nc, hcan, hcode, hsc, hdata⟩ := hown v (by simp)
    have hnew : newName v = nc := by unfold newName; rw [hcan]; rfl
    have hx : varSign fromNc f k (v.data.map (loadValue fromNc (fromNc && !unraw) v.code)) = some r := by
      refine hrot v (hin v (by simp)) k nc hcan _ ?_
      cases fromNc
      · right; rfl
      · cases unraw
        · left; rfl
        · right; rfl
    have hdat : (v.data.map (loadValue fromNc (fromNc && !unraw) v.code)).map
        (storeValue (cast (pack k)) toNc (fromNc && !unraw) (pack k)) = v.data := by
      rw [List.map_map, ← hcode]
      conv_rhs => rw [← List.map_id v.data]
      apply List.map_congr_left
      intro n hn
      exact value_kept hsc (hc _) (hdata n hn).1 (hdata n hn).2 _ _ _
    have hnot : nc ∉ out.vars.map (·.name) := by
      rw [List.map_cons, hnew] at hnd
      intro hmem
      exact (List.nodup_append.1 hnd).2.2 nc hmem nc (by simp) rfl
    have hadd : addVar pack cast fromNc toNc unraw f out v = some ⟨out.vars ++ [⟨newName v, v.arr, v.code, v.data⟩],
        if s = 0 then out.samples else some s, none, some r⟩ := by
      unfold addVar
      rw [hcan]
      simp only [Option.bind_some, hs, hx]
      rw [if_neg hnot, hdat, hnew, hcode]
    obtain ⟨g, hg, hv, ha⟩ := addVars_spec (toNc := toNc) (unraw := unraw) hc hs l
      ⟨out.vars ++ [⟨newName v, v.arr, v.code, v.data⟩], if s = 0 then out.samples else some s, none, some r⟩
      (fun w hw => hin w (List.mem_cons_of_mem _ hw)) (fun w hw => hown w (List.mem_cons_of_mem _ hw)) hrot
      (by simpa using hnd)
    refine ⟨g, ?_, ?_, ?_⟩
    · rw [addVars, hadd]; exact hg
    · rw [hv]; simp
    · intro _
      cases l with
      | nil =>
        have : g = _ := (Option.some.inj hg).symm
        subst this
        exact ⟨rfl, rfl, rfl⟩
      | cons w l =>
        obtain ⟨h1, h2, h3⟩ := ha (by simp)
        refine ⟨h1, h2, ?_⟩
        rw [h3]
        split <;> rfl

/-- **C166**: from netcdf or zarr to netcdf or zarr, with or without `--unraw`, the output holds the variables of the input in the same
order under their current names, with the same packing and the same codes, so the same values, and the same rotation and number of
samples. Missing: files packed by another version (`raw_scale_wrong`), variables which the package does not know and names in double
(`unknown_raises`), zarr without contours (`no_sample_raises`). -/
theorem translate_partial {pack : String → Code} {cast : Code → Int → Int} (hc : ∀ v, Casts v (cast v)) (fromNc toNc unraw : Bool) {f : File}
    {r : Int} {s : Nat} (hne : f.vars ≠ []) (hs : f.samples = some s ∧ s ≠ 0 ∨ fromNc = true ∧ f.samples = none ∧ s = 0)
    (hown : ∀ v ∈ f.vars, Own pack v) (hrot : Rotation fromNc f r)
    (hnd : (f.vars.map newName).Nodup) : ∃ g, translate pack cast fromNc toNc unraw f = some g ∧
      g.vars.map (fun v => (v.arr, v.code, v.data)) = f.vars.map (fun v => (v.arr, v.code, v.data)) ∧
      g.vars.map (·.name) = f.vars.map newName ∧ g.vars.map FileVar.values = f.vars.map FileVar.values ∧
      g.samples = f.samples ∧ g.rotation = some r := by
  have hs' : varSamples fromNc f = some s := by
    unfold varSamples
    rcases hs with ⟨h, _⟩ | ⟨h1, h2, h3⟩
    · rw [h]; simp
    · rw [h1, h2, h3]; simp
  obtain ⟨g, hg, hv, ha⟩ := addVars_spec (toNc := toNc) (unraw := unraw) hc hs' f.vars ⟨[], none, none, none⟩ (fun v h => h) hown hrot
    (by simpa using hnd)
  obtain ⟨h1, _, h3⟩ := ha hne
  rw [List.nil_append] at hv
  refine ⟨g, hg, ?_, ?_, ?_, ?_, h1⟩
  · rw [hv, List.map_map]; rfl
  · rw [hv, List.map_map]; rfl
  · rw [hv, List.map_map]; rfl
  · rw [h3]
    rcases hs with ⟨h, h0⟩ | ⟨_, h2, h3⟩
    · rw [if_neg h0, h]
    · rw [if_pos h3, h2]

/-- Values written with `--unraw`, or read from a zarr, when the packing of the input is another one: they are given back up to half a
step of the packing of the package. -/
theorem translate_unraw_value {v w : Code} (hs : 0 < w.scale) {cast : Int → Int} (hc : Casts w cast) (fromNc toNc : Bool) {n : Int}
    (hx : InRange w (decode v n)) : |decode w (storeValue cast toNc false w (loadValue fromNc false v n)) - decode v n| ≤ w.scale / 2 := by
  have h1 : loadValue fromNc false v n = decode v n := by unfold loadValue loadNc; cases fromNc <;> rfl
  have h2 : storeValue cast toNc false w (decode v n) = encode cast w (decode v n) := by unfold storeValue writeNc; cases toNc <;> rfl
  rw [h1, h2]
  exact store_partial hs hc hx

/-! ### Disagreements -/

/-- Without `--unraw`, the codes of a netcdf are kept whatever its packing: the values of a file packed with another scale change in the
ratio of the scales. -/
theorem raw_scale_wrong {v w : Code} (hs : 0 < w.scale) {cast : Int → Int} (hc : Casts w cast) (toNc : Bool) {n : Int} (h1 : w.lo ≤ n)
    (h2 : n ≤ w.hi) : decode w (storeValue cast toNc true w (loadValue true true v n)) - w.offset = (n : Rat) * w.scale ∧
      decode v n - v.offset = (n : Rat) * v.scale := by
  have h : storeValue cast toNc true w (loadValue true true v n) = n := by
    have hz := (raw_zarr_partial hs hc h1 h2).2
    cases toNc
    · simp [storeValue, loadValue, loadNc, trunc_int, hz]
    · simp [storeValue, loadValue, loadNc, writeNc, trunc_int, hc.1 n h1 h2]
  rw [h]
  unfold decode
  constructor <;> ring

/-- A variable which is not in `VAR_DESCR` stops the script. -/
theorem unknown_raises (pack : String → Code) (cast : Code → Int → Int) (fromNc toNc unraw : Bool) (f : File) :
    ∀ (l : List FileVar) (out : File), (∃ v ∈ l, canon v.name = none) → addVars pack cast fromNc toNc unraw f l out = none
  | [], _, h => by obtain ⟨v, hv, _⟩ := h; cases hv
  | v :: l, out, h => by
    rw [addVars]
    cases hadd : addVar pack cast fromNc toNc unraw f out v with
    | none => rfl
    | some out' =>
      refine unknown_raises pack cast fromNc toNc unraw f l out' ?_
      obtain ⟨w, hw, hnone⟩ := h
      rcases List.mem_cons.1 hw with rfl | hw
      · unfold addVar at hadd
        rw [hnone] at hadd
        cases hadd
      · exact ⟨w, hw, hnone⟩

/-- A netcdf without contours gives a zarr which cannot be read again: the attribute `track_array_variables` is not there. -/
theorem no_sample_raises (pack : String → Code) (cast : Code → Int → Int) (unraw unraw' toNc : Bool) (f g : File) (hf : f.samples = none)
    (hne : f.vars ≠ []) (h : translate pack cast true false unraw f = some g) : translate pack cast false toNc unraw' g = none := by
  have key : ∀ (l : List FileVar) (out g : File), out.samples = none → addVars pack cast true false unraw f l out = some g →
      g.samples = none ∧ (l ≠ [] ∨ out.vars ≠ [] → g.vars ≠ []) := by
    intro l
    induction l with
    | nil =>
      intro out g ho hg
      have : g = out := (Option.some.inj hg).symm
      subst this
      exact ⟨ho, fun hh => hh.elim (fun h => absurd rfl h) id⟩
    | cons v l ih =>
      intro out g ho hg
      rw [addVars] at hg
      obtain ⟨out', h1, h2⟩ := Option.bind_eq_some_iff.1 hg
      unfold addVar at h1
      obtain ⟨c, _, h1⟩ := Option.bind_eq_some_iff.1 h1
      simp only [varSamples, if_true, hf, Option.getD_none, Option.bind_some] at h1
      obtain ⟨r, _, h1⟩ := Option.bind_eq_some_iff.1 h1
      split at h1
      · cases h1
      · have : out' = _ := (Option.some.inj h1).symm
        subst this
        have h3 := fun hs => ih _ g hs h2
        obtain ⟨k1, k2⟩ := h3 ho
        exact ⟨k1, fun _ => k2 (Or.inr (by simp))⟩
  obtain ⟨h1, h2⟩ := key f.vars _ g rfl h
  have hg := h2 (Or.inl hne)
  obtain ⟨v, l, hvl⟩ := List.exists_cons_of_ne_nil hg
  unfold translate
  rw [hvl, addVars]
  have : addVar pack cast false toNc unraw' g ⟨[], none, none, none⟩ v = none := by
    unfold addVar
    cases canon v.name with
    | none => rfl
    | some c => simp [varSamples, h1]
  rw [this]
  rfl

/-- A part of the packing of `VAR_DESCR`. -/
def packExample (k : String) : Code := if k = "amplitude" then amplitude else if k = "contour_lon_e" then contourLon else ⟨0, 255, 1, 0⟩

/-- A netcdf with an old name, a contour and a variable of the package. -/
def translateExample : File :=
  ⟨[⟨"A", false, amplitude, [12, 500]⟩, ⟨"effective_contour_longitude", true, contourLon, [-18000, 100, 3, 4]⟩,
    ⟨"observation_number", false, ⟨0, 255, 1, 0⟩, [0, 1]⟩], some 2, some "Anticyclonic", none⟩

example : translate packExample wrapCast true false false translateExample =
    some ⟨[⟨"amplitude", false, amplitude, [12, 500]⟩, ⟨"effective_contour_longitude", true, contourLon, [-18000, 100, 3, 4]⟩,
      ⟨"observation_number", false, ⟨0, 255, 1, 0⟩, [0, 1]⟩], some 2, none, some 1⟩ := by decide +kernel

/-- The hypotheses of `translate_partial` are met by this file. -/
example : (∀ v ∈ translateExample.vars, Own packExample v) ∧ Rotation true translateExample 1 ∧ (translateExample.vars.map newName).Nodup := by
  refine ⟨?_, ?_, by decide +kernel⟩
  · intro v hv
    simp only [translateExample, List.mem_cons, List.not_mem_nil, or_false] at hv
    rcases hv with rfl | rfl | rfl
    · exact ⟨"amplitude", "amplitude", by decide +kernel, by decide +kernel, by decide +kernel, by decide +kernel⟩
    · exact ⟨"contour_lon_e", "effective_contour_longitude", by decide +kernel, by decide +kernel, by decide +kernel, by decide +kernel⟩
    · exact ⟨"n", "observation_number", by decide +kernel, by decide +kernel, by decide +kernel, by decide +kernel⟩
  · intro v hv k nc hk x _
    simp only [translateExample, List.mem_cons, List.not_mem_nil, or_false] at hv
    have hnot : k ≠ "type_cyc" := by
      rintro rfl
      have h1 : (canon v.name).map Prod.fst = some "type_cyc" := by rw [hk]; rfl
      rcases hv with rfl | rfl | rfl
      · exact absurd h1 (by decide +kernel)
      · exact absurd h1 (by decide +kernel)
      · exact absurd h1 (by decide +kernel)
    simp [varSign, hnot, loadSignNc, translateExample]

/-- **C166** (the hypothesis on the rotation holds): a file without title whose attribute is `r`, and whose variable `type_cyc`, if it is there,
begins with `r`. Only this variable is asked, whatever the others contain. -/
theorem rotation_file {f : File} {r : Int} (hr : r ≠ 0) (ha : f.rotation = some r) (ht : f.title = none)
    (hcyc : ∀ v ∈ f.vars, ∀ nc, canon v.name = some ("type_cyc", nc) → v.data.head? = some r ∧ v.values.head? = some (r : Rat))
    (fromNc : Bool) : Rotation fromNc f r := by
  intro v hv k nc hk x hx
  unfold varSign
  cases fromNc with
  | false => simp [ha, hr]
  | true =>
    by_cases hkey : k = "type_cyc"
    · subst hkey
      obtain ⟨h1, h2⟩ := hcyc v hv nc hk
      have h3 : (x.map trunc).head? = some r := by
        rcases hx with rfl | rfl
        · rw [List.head?_map, List.head?_map, h1]
          simp [trunc_int]
        · rw [List.head?_map, h2]
          simp [trunc_int]
      simp only [if_true, loadSignNc, h3, Option.map_some, if_neg hr]
    · simp [hkey, loadSignNc, ht, ha, hr]

end Verif.Store
