import Verif.Store.Model

/-!
# Options of EddyTracking (`src/py_eddy_tracker/appli/eddies.py:151-223`, C180)

The arguments of the command line and the content of the YAML file are given; the calls which they produce are the result. A key
of the file is absent, null or has a value. `none` is an exception.
-/

namespace Verif.Options

/-- A key of a YAML file. -/
inductive Key (α : Type)
  | absent
  | null
  | value (a : α)
deriving DecidableEq

/-- `config.get(key, default)`: the default value is for absent keys only. -/
def Key.get {α : Type} (k : Key α) (default : Option α) : Option α :=
  match k with
  | .absent => default
  | .null => none
  | .value a => some a

/-- `config[key]`: an absent key raises, a null key is `None`. -/
def Key.index {α : Type} : Key α → Option (Option α)
  | .absent => none
  | .null => some none
  | .value a => some (some a)

/-- Options of the command line, eddies.py:152-178 (`--memory` is passed as it is). -/
structure Args where
  correspondanceIn : Option String
  correspondanceOut : Option String
  saveAndStop : Bool
  zarr : Bool
  unraw : Bool
  blankPeriod : Int
  memory : Bool
deriving DecidableEq

/-- The section `PATHS`. -/
structure Paths where
  filesPattern : Key String
  saveDir : Key String
  correspondancesIn : Key String
  correspondancesOut : Key String
deriving DecidableEq

/-- The section `CLASS`: module, name and options of the class of observations. -/
structure Class where
  file : String
  name : String
  options : Option String
deriving DecidableEq

/-- The file. -/
structure Config where
  cls : Option Class
  paths : Option Paths
  virtualLengthMax : Key Int
  trackDurationMin : Key Int
deriving DecidableEq

/-- The arguments of the function `track`, eddies.py:210-223. -/
structure Call where
  pattern : Option String
  outputDir : Option String
  cOut : Option String
  cls : Option Class
  virtual : Int
  previous : Option String
  memory : Bool
  correspondancesOnly : Bool
  raw : Bool
  zarr : Bool
  nbObsMin : Int
  blankPeriod : Int
deriving DecidableEq

/-- eddies.py:195-203. -/
def corrIn (a : Args) (p : Paths) : Option String :=
  match a.correspondanceIn with
  | some c => some c
  | none => p.correspondancesIn.get none

/-- The default file of correspondences, eddies.py:198-200. -/
def defaultOut : String := "{path}/{sign_type}_correspondances.nc"

@[inherit_doc corrIn]
def corrOut (a : Args) (p : Paths) : Option String :=
  match a.correspondanceOut with
  | some c => some c
  | none => p.correspondancesOut.get (some defaultOut)

/-- `int(config.get(key, default))`: `int(None)` raises. -/
def intKey (k : Key Int) (default : Int) : Option Int := k.get (some default)

/-- The folder which is created, eddies.py:206-208: before the arguments of `track` are read. -/
def created (dirs : List String) (p : Paths) : Option String :=
  (p.saveDir.get none).filter (fun d => d ∉ dirs)

/-- The folder created and the call of `track` (`none`: exception before the call), eddies.py:180-223. -/
def eddiesTracking (dirs : List String) (a : Args) (c : Config) : Option String × Option Call :=
  match c.paths with
  | none => (none, none)
  | some p => (created dirs p, do
      let pattern ← p.filesPattern.index
      let virtual ← intKey c.virtualLengthMax 0
      let nbObsMin ← intKey c.trackDurationMin 10
      some ⟨pattern, p.saveDir.get none, corrOut a p, c.cls, virtual, corrIn a p, a.memory, a.saveAndStop, !a.unraw, a.zarr, nbObsMin,
        a.blankPeriod⟩)

/-! ### Specification -/

/-- The first of several sources which has a value. -/
def firstOf : List (Option String) → Option String
  | [] => none
  | some s :: _ => some s
  | none :: l => firstOf l

/-- The value written in the file. -/
def Key.written {α : Type} : Key α → Option α
  | .value a => some a
  | _ => none

/-- These keys are not null (a key without value in the file). -/
def NoNull (c : Config) : Prop :=
  c.virtualLengthMax ≠ .null ∧ c.trackDurationMin ≠ .null ∧
    ∀ p, c.paths = some p → p.correspondancesOut ≠ .null ∧ p.filesPattern ≠ .null

/-- A number of the file or its default value. -/
def orDefault (k : Key Int) (d : Int) : Int := k.written.getD d

/-- C180 without null key: `track` is called exactly when the file gives the pattern of the files; the correspondences come from the
command line first, then from the file, then from the default; the numbers come from the file, then from the defaults; the
switches come from the command line; a folder is created when it does not exist. -/
theorem options_partial (dirs : List String) (a : Args) (c : Config) (hn : NoNull c) :
    (((eddiesTracking dirs a c).2.isSome ↔ ∃ p s, c.paths = some p ∧ p.filesPattern = .value s)) ∧
    (∀ call, (eddiesTracking dirs a c).2 = some call → ∃ p s, c.paths = some p ∧ p.filesPattern = .value s ∧
      call.pattern = some s ∧ call.outputDir = p.saveDir.written ∧
      call.previous = firstOf [a.correspondanceIn, p.correspondancesIn.written] ∧
      call.cOut = firstOf [a.correspondanceOut, p.correspondancesOut.written, some "{path}/{sign_type}_correspondances.nc"] ∧
      call.virtual = orDefault c.virtualLengthMax 0 ∧ call.nbObsMin = orDefault c.trackDurationMin 10 ∧
      call.cls = c.cls ∧ call.memory = a.memory ∧ call.correspondancesOnly = a.saveAndStop ∧ call.zarr = a.zarr ∧
      call.blankPeriod = a.blankPeriod) ∧
    (∀ d, (eddiesTracking dirs a c).1 = some d ↔ ∃ p, c.paths = some p ∧ p.saveDir = .value d ∧ d ∉ dirs) := by
  obtain ⟨h1, h2, h3⟩ := hn
  have hv : ∀ (k : Key Int) d, k ≠ .null → intKey k d = some (orDefault k d) := by
    intro k d hk
    cases k <;> first | rfl | exact absurd rfl hk
  have hw : ∀ (k : Key String), k.get none = k.written := by
    intro k
    cases k <;> rfl
  unfold eddiesTracking
  cases hp : c.paths with
  | none => simp
  | some p =>
    obtain ⟨g2, g4⟩ := h3 p hp
    simp only [hv _ _ h1, hv _ _ h2, Option.bind_eq_bind, Option.bind_some, hw]
    have eIn : corrIn a p = firstOf [a.correspondanceIn, p.correspondancesIn.written] := by
      unfold corrIn
      rw [hw]
      cases a.correspondanceIn with
      | some _ => rfl
      | none => cases p.correspondancesIn <;> rfl
    have eOut : corrOut a p =
        firstOf [a.correspondanceOut, p.correspondancesOut.written, some "{path}/{sign_type}_correspondances.nc"] := by
      unfold corrOut
      cases a.correspondanceOut with
      | some _ => rfl
      | none => cases hk : p.correspondancesOut <;> first | rfl | exact absurd hk g2
    have eDir : ∀ d, created dirs p = some d ↔ p.saveDir = .value d ∧ d ∉ dirs := by
      intro d
      unfold created
      rw [Option.filter_eq_some_iff, hw]
      cases p.saveDir <;> simp [Key.written]
    rw [eIn, eOut]
    cases hk : p.filesPattern with
    | absent => simp [Key.index, hk, eDir]
    | null => exact absurd hk g4
    | value s =>
      refine ⟨⟨fun _ => ⟨p, s, rfl, hk⟩, fun _ => rfl⟩, ?_, ?_⟩
      · intro call hc
        obtain rfl := (Option.some.inj hc).symm
        exact ⟨p, s, rfl, hk, rfl, rfl, rfl, rfl, rfl, rfl, rfl, rfl, rfl, rfl, rfl⟩
      · intro d
        simp [eDir]

/-- The values which are read from a netcdf file by a call (`raw_data=raw`, see `Verif.Store`). -/
def readValue (v : Store.Code) (call : Call) (n : Int) : Rat := Store.loadNc v call.raw n

/-- C180, negation: the help of `--unraw` says that the file is then "loaded without apply scalefactor and add_offset"; it is the
opposite: with the option the scale is applied, without it the packed numbers are read. -/
theorem unraw_wrong (dirs : List String) (a : Args) (c : Config) (call : Call) (h : (eddiesTracking dirs a c).2 = some call) (v : Store.Code)
    (n : Int) : readValue v call n = if a.unraw then Store.decode v n else n := by
  have hr : call.raw = !a.unraw := by
    unfold eddiesTracking at h
    cases hp : c.paths with
    | none => rw [hp] at h; cases h
    | some p =>
      rw [hp] at h
      simp only [Option.bind_eq_bind] at h
      obtain ⟨x, -, h⟩ := Option.bind_eq_some_iff.1 h
      obtain ⟨y, -, h⟩ := Option.bind_eq_some_iff.1 h
      obtain ⟨z, -, h⟩ := Option.bind_eq_some_iff.1 h
      obtain rfl := (Option.some.inj h).symm
      rfl
  unfold readValue Store.loadNc
  rw [hr]
  cases a.unraw <;> rfl

/-- Options used below. -/
def noArgs : Args := ⟨none, none, false, false, false, 0, false⟩

/-- A key without value is not the default: `TRACK_DURATION_MIN:` raises, after the folder was created. -/
theorem null_key_wrong : eddiesTracking [] noArgs ⟨none, some ⟨.value "in/*.nc", .value "out", .absent, .absent⟩, .absent, .null⟩ =
    (some "out", none) := by
  decide +kernel

/-- A key `CORRESPONDANCES_OUT:` without value gives no name for the correspondences. -/
theorem null_out_wrong : (eddiesTracking [] noArgs ⟨none, some ⟨.value "in/*.nc", .absent, .absent, .null⟩, .absent, .absent⟩).2.map (·.cOut) =
    some none := by
  decide +kernel

/-- A file with a value in each place, and an option of the command line which replaces one of them. -/
example : NoNull ⟨none, some ⟨.value "in/*.nc", .value "out", .value "a.nc", .absent⟩, .value 3, .absent⟩ ∧
    eddiesTracking ["in"] { noArgs with correspondanceIn := some "b.nc", blankPeriod := 2 }
      ⟨none, some ⟨.value "in/*.nc", .value "out", .value "a.nc", .absent⟩, .value 3, .absent⟩ =
    (some "out", some ⟨some "in/*.nc", some "out", some "{path}/{sign_type}_correspondances.nc", none, 3, some "b.nc", false, false, true, false,
      10, 2⟩) := by
  refine ⟨⟨by simp, by simp, ?_⟩, by decide +kernel⟩
  intro p hp
  obtain rfl := (Option.some.inj hp).symm
  simp

end Verif.Options
