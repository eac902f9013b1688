import Verif.Fields.Props
import Verif.Store.Model

/-!
# C163: the variables loaded from a file

`load_from_netcdf`, `build_var_list` (src/py_eddy_tracker/observations/observation.py): which fields the dataset has, and where their values come from. The
scales, units and slices are in `Verif.Store`.
-/

namespace Verif.Fields

variable {V : Type}

/-- A variable of a file: name, whether it has the dimension `NbSample`, values (already decoded). -/
structure Var (V : Type) where
  name : String
  array : Bool
  col : List V
  deriving DecidableEq

/-- A file: its variables, the size of the observations, and of the dimension `NbSample` if there is one. -/
structure File (V : Type) where
  vars : List (Var V)
  nb : Nat
  samples : Option Nat

/-- `build_var_list` (observation.py:1047-1053). -/
def buildVarList (l : List (Var V)) (remove incl : Option (List String)) : List (Var V) :=
  match incl, remove with
  | some i, _ => l.filter (fun v => decide (v.name ∈ i))
  | none, some r => l.filter (fun v => decide (v.name ∉ r))
  | none, none => l

/-- `array_variables` (observation.py:982-988); `none` is a `KeyError` of `VAR_DESCR_inv`. -/
def loadArrays (inv : String → Option String) (samples : Option Nat) (sel : List (Var V)) : Option (List String) :=
  match samples with
  | none => some []
  | some _ => (sel.filter (fun v => v.array)).mapM (fun v => inv v.name)

/-- `only_variables` (observation.py:996-1000). -/
def loadOnly (inv : String → Option String) : Option (List String) → Option (Option (List String))
  | none => some none
  | some i => (i.mapM inv).map some

/-- Parameters of the dataset (observation.py:981-1000). -/
def loadConfig (c : Class) (inv : String → Option String) (f : File V) (sel : List (Var V)) (incl : Option (List String)) : Option Config :=
  (loadArrays inv f.samples sel).bind (fun arrays =>
    (sel.mapM (fun v => inv v.name)).bind (fun names => (loadOnly inv incl).map (fun only =>
      ⟨.list (names.filter (fun s => decide (s ∉ c.base) && decide (s ∉ arrays))), .list arrays, f.samples.getD 0, only⟩)))

/-- `eddies.obs[var_inv] = ...` for each variable (observation.py:1003-1029); `none` when the field does not exist or has another size. -/
def loadCols (inv : String → Option String) (fields : List String) (nb : Nat) : List (Var V) → (String → List V) → Option (String → List V)
  | [], cols => some cols
  | v :: l, cols => (inv v.name).bind (fun s =>
      if s ∈ fields ∧ v.col.length = nb then loadCols inv fields nb l (fun s' => if s' = s then v.col else cols s') else none)

/-- `load_from_netcdf` (observation.py:944-1042), the array of the dataset being full of zeros at first (observation.py:241). `none` is an exception. -/
def loadNetcdf (c : Class) (zero : V) (inv : String → Option String) (f : File V) (remove incl : Option (List String)) : Option (Data V) :=
  let sel := buildVarList f.vars remove incl
  (loadConfig c inv f sel incl).bind (fun k =>
    (loadCols inv (elements c k) f.nb sel (fun _ => List.replicate f.nb zero)).map (fun cols =>
      ⟨k, (List.range f.nb).map (fun i => (elements c k).map (fun s => (cols s).getD i zero))⟩))

/-! ### Specification -/

/-- The variable is asked. -/
def Asked (remove incl : Option (List String)) (name : String) : Prop :=
  (∀ i, incl = some i → name ∈ i) ∧ (incl = none → ∀ r, remove = some r → name ∉ r)

/-- A file which can be read: names known and of distinct fields, columns of the size of the file, arrays of at least one value. -/
def Readable (inv : String → Option String) (f : File V) : Prop :=
  (∀ v ∈ f.vars, ∃ s, inv v.name = some s) ∧ (f.vars.map (fun v => inv v.name)).Nodup ∧ (∀ v ∈ f.vars, v.col.length = f.nb) ∧
  ∀ v ∈ f.vars, v.array = true → ∃ n, f.samples = some n ∧ 0 < n

/-! ### Proofs -/

theorem mem_buildVarList (l : List (Var V)) (remove incl : Option (List String)) (v : Var V) :
    v ∈ buildVarList l remove incl ↔ v ∈ l ∧ Asked remove incl v.name := by
  unfold buildVarList Asked
  cases incl <;> cases remove <;> simp

theorem buildVarList_sublist (l : List (Var V)) (remove incl : Option (List String)) : (buildVarList l remove incl).Sublist l := by
  unfold buildVarList
  cases incl <;> cases remove <;> simp

theorem mapM_inv {β : Type} {g : β → Option String} {l : List β} (h : ∀ x ∈ l, ∃ s, g x = some s) :
    ∃ r, l.mapM g = some r ∧ ∀ s, s ∈ r ↔ ∃ x ∈ l, g x = some s := by
  induction l with
  | nil => exact ⟨[], rfl, by simp⟩
  | cons x l ih =>
    obtain ⟨s, hs⟩ := h x List.mem_cons_self
    obtain ⟨r, h1, h2⟩ := ih (fun y hy => h y (List.mem_cons_of_mem _ hy))
    refine ⟨s :: r, by rw [List.mapM_cons, hs, h1]; rfl, fun s' => ?_⟩
    rw [List.mem_cons, h2]
    constructor
    · rintro (rfl | ⟨y, hy, e⟩)
      · exact ⟨x, List.mem_cons_self, hs⟩
      · exact ⟨y, List.mem_cons_of_mem _ hy, e⟩
    · rintro ⟨y, hy, e⟩
      rcases List.mem_cons.1 hy with rfl | hy
      · exact Or.inl (Option.some.inj (e.symm.trans hs))
      · exact Or.inr ⟨y, hy, e⟩

theorem loadCols_spec (inv : String → Option String) (fields : List String) (nb : Nat) (l : List (Var V)) (cols : String → List V)
    (h1 : ∀ v ∈ l, ∃ s, inv v.name = some s ∧ s ∈ fields) (h2 : ∀ v ∈ l, v.col.length = nb) (hn : (l.map (fun v => inv v.name)).Nodup) :
    ∃ r, loadCols inv fields nb l cols = some r ∧ (∀ v ∈ l, ∀ s, inv v.name = some s → r s = v.col) ∧
      ∀ s, (∀ v ∈ l, inv v.name ≠ some s) → r s = cols s := by
  induction l generalizing cols with
  | nil => exact ⟨cols, rfl, by simp, fun _ _ => rfl⟩
  | cons v l ih =>
    obtain ⟨s, hs, hf⟩ := h1 v List.mem_cons_self
    rw [List.map_cons, List.nodup_cons] at hn
    obtain ⟨r, g1, g2, g3⟩ := ih (fun s' => if s' = s then v.col else cols s') (fun w hw => h1 w (List.mem_cons_of_mem _ hw))
      (fun w hw => h2 w (List.mem_cons_of_mem _ hw)) hn.2
    refine ⟨r, ?_, ?_, ?_⟩
    · unfold loadCols
      rw [hs, Option.bind_some, if_pos ⟨hf, h2 v List.mem_cons_self⟩, g1]
    · intro w hw s' hs'
      rcases List.mem_cons.1 hw with rfl | hw
      · rw [hs] at hs'
        obtain rfl := Option.some.inj hs'
        rw [g3 s (fun w hw e => hn.1 (List.mem_map.2 ⟨w, hw, by rw [e, hs]⟩)), if_pos rfl]
      · exact g2 w hw s' hs'
    · intro s' hs'
      rw [g3 s' (fun w hw => hs' w (List.mem_cons_of_mem _ hw)), if_neg]
      rintro rfl
      exact hs' v List.mem_cons_self hs

/-- **C163** A readable file gives a dataset with the fields of the class and those of the variables asked; the values of each variable asked are those of the
file. Missing: the fields of the class whose variable is absent or removed are there, full of zeros (`removed_wrong`). -/
theorem load_partial {c : Class} (hc : c.Ordered) (zero : V) {inv : String → Option String} {f : File V} (hf : Readable inv f) (remove incl : Option (List String))
    (hi : ∀ i, incl = some i → ∀ n ∈ i, ∃ s, inv n = some s) :
    ∃ d, loadNetcdf c zero inv f remove incl = some d ∧ d.Wf c ∧ d.rows.length = f.nb ∧
      (∀ s, s ∈ d.fields c ↔ s ∈ c.always ∨ (∃ v ∈ f.vars, Asked remove incl v.name ∧ inv v.name = some s) ∨
        (s ∈ c.base ∧ ∀ i, incl = some i → ∃ n ∈ i, inv n = some s)) ∧
      (∀ v ∈ f.vars, Asked remove incl v.name → ∀ s, inv v.name = some s → d.col c s = v.col.map some) ∧
      ∀ s ∈ d.fields c, (∀ v ∈ f.vars, Asked remove incl v.name → inv v.name ≠ some s) → d.col c s = List.replicate f.nb (some zero) := by
  obtain ⟨k1, k2, k3, k4⟩ := hf
  set sel := buildVarList f.vars remove incl with hsel
  have hm : ∀ v, v ∈ sel ↔ v ∈ f.vars ∧ Asked remove incl v.name := mem_buildVarList f.vars remove incl
  obtain ⟨arrays, a1, a2⟩ : ∃ arrays, loadArrays inv f.samples sel = some arrays ∧ ∀ s, s ∈ arrays ↔ ∃ v ∈ sel, v.array = true ∧ inv v.name = some s := by
    cases e : f.samples with
    | none =>
      refine ⟨[], rfl, fun s => ?_⟩
      simp only [List.not_mem_nil, false_iff]
      rintro ⟨v, hv, h, _⟩
      obtain ⟨n, hn, _⟩ := k4 v ((hm v).1 hv).1 h
      rw [e] at hn
      cases hn
    | some n =>
      obtain ⟨r, h1, h2⟩ := mapM_inv (g := fun v : Var V => inv v.name) (l := sel.filter (·.array)) (fun v hv => k1 v ((hm v).1 (List.mem_filter.1 hv).1).1)
      refine ⟨r, h1, fun s => ?_⟩
      rw [h2]
      simp only [List.mem_filter, and_assoc]
  obtain ⟨names, n1, n2⟩ := mapM_inv (g := fun v : Var V => inv v.name) (l := sel) (fun v hv => k1 v ((hm v).1 hv).1)
  obtain ⟨only, o1, o2, o3⟩ : ∃ only : Option (List String), loadOnly inv incl = some only ∧ (incl = none → only = none) ∧
        ∀ i, incl = some i → ∃ o, only = some o ∧ ∀ s, s ∈ o ↔ ∃ n ∈ i, inv n = some s := by
    cases incl with
    | none => exact ⟨none, rfl, fun _ => rfl, by simp⟩
    | some i =>
      obtain ⟨r, h1, h2⟩ := mapM_inv (hi i rfl)
      refine ⟨some r, by unfold loadOnly; simp only [h1, Option.map_some], by simp, ?_⟩
      rintro i' e
      obtain rfl := Option.some.inj e
      exact ⟨r, rfl, h2⟩
  let k : Config := ⟨.list (names.filter (fun s => decide (s ∉ c.base) && decide (s ∉ arrays))), .list arrays, f.samples.getD 0, only⟩
  have hk : loadConfig c inv f sel incl = some k := by
    unfold loadConfig
    rw [a1, Option.bind_some, n1, Option.bind_some, o1]
    rfl
  have hfields : ∀ s, s ∈ elements c k ↔ s ∈ c.always ∨ (∃ v ∈ f.vars, Asked remove incl v.name ∧ inv v.name = some s) ∨
      (s ∈ c.base ∧ ∀ i, incl = some i → ∃ n ∈ i, inv n = some s) := by
    intro s
    rw [mem_elements hc]
    refine or_congr Iff.rfl ?_
    have honly : (∀ o, k.only = some o → s ∈ o) ↔ ∀ i, incl = some i → ∃ n ∈ i, inv n = some s := by
      show (∀ o, only = some o → s ∈ o) ↔ _
      cases e : incl with
      | none => rw [o2 e]; simp
      | some i =>
        obtain ⟨o, e1, e2⟩ := o3 i e
        rw [e1]
        constructor
        · rintro h i' e'
          obtain rfl := Option.some.inj e'
          exact (e2 s).1 (h o rfl)
        · rintro h o' e'
          obtain rfl := Option.some.inj e'
          exact (e2 s).2 (h i rfl)
    rw [honly]
    have hask : (∃ v ∈ f.vars, Asked remove incl v.name ∧ inv v.name = some s) → ∀ i, incl = some i → ∃ n ∈ i, inv n = some s := by
      rintro ⟨v, _, h, e⟩ i ei
      exact ⟨v.name, h.1 i ei, e⟩
    constructor
    · rintro ⟨h | ⟨h1, h2⟩ | h, ho⟩
      · exact Or.inr ⟨h, ho⟩
      · obtain ⟨v, hv, _, e⟩ := (a2 s).1 h2
        exact Or.inl ⟨v, ((hm v).1 hv).1, ((hm v).1 hv).2, e⟩
      · obtain ⟨v, hv, e⟩ := (n2 s).1 (List.mem_filter.1 h).1
        exact Or.inl ⟨v, ((hm v).1 hv).1, ((hm v).1 hv).2, e⟩
    · rintro (h | ⟨h, ho⟩)
      · refine ⟨?_, hask h⟩
        obtain ⟨v, hv, h, e⟩ := h
        by_cases hb : s ∈ c.base
        · exact Or.inl hb
        · right
          by_cases ha : s ∈ arrays
          · left
            obtain ⟨w, hw, hwa, _⟩ := (a2 s).1 ha
            obtain ⟨n, hn, hpos⟩ := k4 w ((hm w).1 hw).1 hwa
            refine ⟨?_, ha⟩
            show 0 < f.samples.getD 0
            rw [hn]
            exact hpos
          · right
            exact List.mem_filter.2 ⟨(n2 s).2 ⟨v, (hm v).2 ⟨hv, h⟩, e⟩, by simp [hb, ha]⟩
      · exact ⟨Or.inl h, ho⟩
  obtain ⟨cols, c1, c2, c3⟩ := loadCols_spec inv (elements c k) f.nb sel (fun _ => List.replicate f.nb zero)
    (fun v hv => by
      obtain ⟨s, hs⟩ := k1 v ((hm v).1 hv).1
      exact ⟨s, hs, (hfields s).2 (Or.inr (Or.inl ⟨v, ((hm v).1 hv).1, ((hm v).1 hv).2, hs⟩))⟩)
    (fun v hv => k3 v ((hm v).1 hv).1) (k2.sublist ((buildVarList_sublist f.vars remove incl).map _))
  let d : Data V := ⟨k, (List.range f.nb).map (fun i => (elements c k).map (fun s => (cols s).getD i zero))⟩
  have hcol : ∀ s ∈ elements c k, (cols s).length = f.nb → d.col c s = (cols s).map some := by
    intro s hs hl
    show (d.rows.map (fun r => field (elements c k) r s)) = _
    show (((List.range f.nb).map (fun i => (elements c k).map (fun s => (cols s).getD i zero))).map (fun r => field (elements c k) r s)) = _
    rw [List.map_map]
    apply List.ext_getElem?
    intro i
    rw [List.getElem?_map, List.getElem?_map]
    by_cases hi : i < f.nb
    · rw [List.getElem?_range hi, Option.map_some, List.getElem?_eq_getElem (by omega), Option.map_some, Function.comp_apply,
        field_map (fun s => (cols s).getD i zero) hs]
      rw [List.getD_eq_getElem?_getD, List.getElem?_eq_getElem (by omega), Option.getD_some]
    · rw [List.getElem?_eq_none (by simpa using hi), List.getElem?_eq_none (by omega)]
      rfl
  refine ⟨d, ?_, ?_, by simp [d], hfields, ?_, ?_⟩
  · unfold loadNetcdf
    simp only
    rw [← hsel, hk, Option.bind_some, c1]
    rfl
  · intro r hr
    obtain ⟨i, _, rfl⟩ := List.mem_map.1 hr
    show (List.map _ (elements c k)).length = _
    rw [List.length_map]
    rfl
  · intro v hv ha s hs
    have e := c2 v ((hm v).2 ⟨hv, ha⟩) s hs
    rw [hcol s ((hfields s).2 (Or.inr (Or.inl ⟨v, hv, ha, hs⟩))) (by rw [e]; exact k3 v hv), e]
  · intro s hs hno
    have e := c3 s (fun v hv => hno v ((hm v).1 hv).1 ((hm v).1 hv).2)
    rw [hcol s hs (by rw [e]; simp), e, List.map_replicate]

/-- **C163** A file which has all the variables of the class, loaded without option: the fields are exactly its variables. -/
theorem load_all {c : Class} (hc : c.Ordered) (zero : V) {inv : String → Option String} {f : File V} (hf : Readable inv f)
    (hall : ∀ s, s ∈ c.base ∨ s ∈ c.always → ∃ v ∈ f.vars, inv v.name = some s) :
    ∃ d, loadNetcdf c zero inv f none none = some d ∧ (∀ s, s ∈ d.fields c ↔ ∃ v ∈ f.vars, inv v.name = some s) ∧
      ∀ v ∈ f.vars, ∀ s, inv v.name = some s → d.col c s = v.col.map some := by
  obtain ⟨d, h1, _, _, h2, h3, _⟩ := load_partial hc zero hf none none (by simp)
  have ha : ∀ n, Asked none none n := fun n => ⟨by simp, by simp⟩
  refine ⟨d, h1, fun s => ?_, fun v hv s hs => h3 v hv (ha _) s hs⟩
  rw [h2]
  constructor
  · rintro (h | ⟨v, hv, _, e⟩ | ⟨h, _⟩)
    · exact hall s (Or.inr h)
    · exact ⟨v, hv, e⟩
    · exact hall s (Or.inl h)
  · rintro ⟨v, hv, e⟩
    exact Or.inr (Or.inl ⟨v, hv, ha _, e⟩)

/-- C163 refuted, for all files: a variable of the class which is removed is a field of the dataset, full of zeros. -/
theorem removed_wrong {c : Class} (hc : c.Ordered) (zero : V) {inv : String → Option String} {f : File V} (hf : Readable inv f) (remove : List String)
    (v : Var V) (hv : v ∈ f.vars) (hr : v.name ∈ remove) (s : String) (hs : inv v.name = some s) (hb : s ∈ c.base ∨ s ∈ c.always) :
    ∃ d, loadNetcdf c zero inv f (some remove) none = some d ∧ s ∈ d.fields c ∧ d.col c s = List.replicate f.nb (some zero) := by
  obtain ⟨d, h1, _, _, h2, _, h3⟩ := load_partial hc zero hf (some remove) none (by simp)
  have hmem : s ∈ d.fields c := by
    rw [h2]
    rcases hb with h | h
    · exact Or.inr (Or.inr ⟨h, by simp⟩)
    · exact Or.inl h
  refine ⟨d, h1, hmem, h3 s hmem ?_⟩
  intro w hw ha e
  have : w = v := by
    by_contra hne
    have h := hf.2.1
    rw [List.nodup_map_iff_inj_on] at h
    · exact hne (h w hw v hv (e.trans hs.symm))
    · exact List.Nodup.of_map _ hf.2.1
  subst this
  exact ha.2 rfl remove rfl hr

/-- C163 refuted, for all files of tracks: `include_vars` without the number of the track gives the track zero to all observations (the same for the fields
which a class of networks adds). -/
theorem included_wrong {c : Class} (hc : c.Ordered) (zero : V) {inv : String → Option String} {f : File V} (hf : Readable inv f) (incl : List String)
    (hi : ∀ n ∈ incl, ∃ s, inv n = some s) (s : String) (hs : s ∈ c.always) (hno : ∀ n ∈ incl, inv n ≠ some s) :
    ∃ d, loadNetcdf c zero inv f none (some incl) = some d ∧ s ∈ d.fields c ∧ d.col c s = List.replicate f.nb (some zero) := by
  obtain ⟨d, h1, _, _, h2, _, h3⟩ := load_partial hc zero hf none (some incl) (by rintro i e n hn; obtain rfl := Option.some.inj e; exact hi n hn)
  have hmem : s ∈ d.fields c := (h2 s).2 (Or.inl hs)
  exact ⟨d, h1, hmem, h3 s hmem (fun w _ ha => hno w.name (ha.1 incl rfl))⟩

/-- A name which the library does not know raises, even if it is not in the file. -/
theorem included_unknown_raises (c : Class) (zero : V) (inv : String → Option String) (f : File V) (remove : Option (List String)) (incl : List String) (n : String)
    (hn : n ∈ incl) (hu : inv n = none) : loadNetcdf c zero inv f remove (some incl) = none := by
  have hnone : incl.mapM inv = none := by
    induction incl with
    | nil => cases hn
    | cons x l ih =>
      rw [List.mapM_cons]
      rcases List.mem_cons.1 hn with rfl | hn
      · rw [hu]; rfl
      · rw [ih hn]
        cases inv x <;> rfl
  have ho : loadOnly inv (some incl) = none := by
    show (incl.mapM inv).map some = none
    rw [hnone]
    rfl
  unfold loadNetcdf loadConfig
  simp only [ho, Option.map_none]
  cases loadArrays inv f.samples (buildVarList f.vars remove (some incl)) <;>
    cases (buildVarList f.vars remove (some incl)).mapM (fun v => inv v.name) <;> rfl

/-- The class of tracks with two variables only, and the names of the library. -/
def trackClass : Class := ⟨["lon", "lat"], ["track", "n"], List.dedup⟩

/-- A file. -/
def loadFile : File Int := ⟨[⟨"longitude", false, [10, 20]⟩, ⟨"latitude", false, [1, 2]⟩, ⟨"track", false, [4, 5]⟩, ⟨"observation_number", false, [0, 0]⟩,
  ⟨"effective_contour_longitude", true, [7, 8]⟩, ⟨"score", false, [50, 60]⟩], 2, some 20⟩

/-- Non-vacuity: the file is readable and has all the variables of the class. -/
example : trackClass.Ordered ∧ Readable (Store.inverse Store.table (fun _ => none)) loadFile ∧
    (∀ s, s ∈ trackClass.base ∨ s ∈ trackClass.always → ∃ v ∈ loadFile.vars, Store.inverse Store.table (fun _ => none) v.name = some s) ∧
    (loadNetcdf trackClass 0 (Store.inverse Store.table (fun _ => none)) loadFile (some ["score", "track"]) none).map
      (fun d => (d.fields trackClass, d.col trackClass "lon", d.col trackClass "track")) =
      some (["lon", "lat", "contour_lon_e", "track", "n"], [some 10, some 20], [some 0, some 0]) := by
  refine ⟨fun l => ⟨List.nodup_dedup l, fun _ => List.mem_dedup⟩, ⟨?_, by decide +kernel, by decide +kernel, ?_⟩, ?_, by decide +kernel⟩
  · have : ∀ v ∈ loadFile.vars, (Store.inverse Store.table (fun _ => none) v.name).isSome = true := by decide +kernel
    exact fun v hv => Option.isSome_iff_exists.1 (this v hv)
  · exact fun v _ _ => ⟨20, rfl, by omega⟩
  · have : ∀ s ∈ trackClass.base ++ trackClass.always, ∃ v ∈ loadFile.vars, Store.inverse Store.table (fun _ => none) v.name = some s := by decide +kernel
    exact fun s hs => this s (List.mem_append.2 hs)

end Verif.Fields
