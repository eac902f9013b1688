import Mathlib.Tactic.Linarith
import Mathlib.Data.List.Basic

/-!
# C189: warning of files of older versions

Model of `_check_versions` (src/py_eddy_tracker/observations/observation.py:80-102) and of the order of versions of `packaging` (PEP 440), which
is a dependency: only the comparison of `Version.__lt__` is modelled, from its documentation.
-/

namespace Verif.Store

/-! ### Model -/

/-- A version: `epoch!release` with the number of the pre-release (letter, number), of the post-release, of the development release and the
local parts. -/
structure Version where
  epoch : Nat
  release : List Nat
  pre : Option (Nat × Nat)
  post : Option Nat
  dev : Option Nat
  loc : Option (List Nat)
deriving DecidableEq

/-- Part `k` of the release, 0 when it is not written. -/
def Version.part (v : Version) (k : Nat) : Nat := v.release.getD k 0

/-- `release` without its last zeros. -/
def strip : List Nat → List Nat
  | [] => []
  | a :: l =>
    match strip l with
    | [] => if a = 0 then [] else [a]
    | m => a :: m

/-- Order of tuples of integers. -/
def tupleLt : List Nat → List Nat → Bool
  | [], [] => false
  | [], _ :: _ => true
  | _ :: _, [] => false
  | a :: l, b :: m => decide (a < b) || (decide (a = b) && tupleLt l m)

/-- `_software_version_reduced` (observation.py:80-82): `major.minor` of the version of the software. -/
def reduced (v : Version) : Version := ⟨0, [v.part 0, v.part 1], none, none, none, none⟩

/-- The key of the pre-release is less than the one of a final release: there is one, or there is a development release without
post-release. -/
def preFinal (v : Version) : Bool := v.pre.isSome || (v.dev.isSome && v.post.isNone)

/-- `v < w` for a final release `w` without post, development nor local parts, as `reduced`: the epochs, then the releases, then the
pre-releases; a post-release or local parts make `v` greater. -/
def ltFinal (v w : Version) : Bool :=
  decide (v.epoch < w.epoch) || (decide (v.epoch = w.epoch) &&
    (tupleLt (strip v.release) (strip w.release) || (decide (strip v.release = strip w.release) && preFinal v)))

/-- `_check_versions` (observation.py:86-102): there is a warning. `on` is `_display_check_warning`; a file without version is `none`. -/
def warns (on : Bool) (software : Version) (file : Option Version) : Bool :=
  on && match file with
    | none => true
    | some v => ltFinal v (reduced software)

/-! ### Specification -/

/-- The version of the file is older: its major part is less, or the major parts are equal and its minor part is less. -/
def Older (v w : Version) : Prop := v.part 0 < w.part 0 ∨ (v.part 0 = w.part 0 ∧ v.part 1 < w.part 1)

/-- Full statement: a warning for the older files and for them only. -/
def WarnsOlder : Prop := ∀ (software v : Version), v.epoch = 0 → (warns true software (some v) = true ↔ Older v software)

/-- The version is a final release. -/
def Final (v : Version) : Prop := v.pre = none ∧ v.dev = none

/-! ### Proofs -/

theorem strip_getD : ∀ (l : List Nat) (k : Nat), (strip l).getD k 0 = l.getD k 0
  | [], _ => rfl
  | a :: l, k => by
    have ih := strip_getD l
    unfold strip
    cases h : strip l with
    | nil =>
      rw [h] at ih
      by_cases ha : a = 0
      · simp only [if_pos ha]
        cases k with
        | zero => simp [ha]
        | succ k => simpa using ih k
      · simp only [if_neg ha]
        cases k with
        | zero => simp
        | succ k => simpa using ih k
    | cons b m =>
      rw [h] at ih
      cases k with
      | zero => simp
      | succ k => simpa using ih k

theorem strip_last : ∀ (l : List Nat) (a : Nat), (strip l).getLast? = some a → a ≠ 0
  | [], a, h => by simp [strip] at h
  | b :: l, a, h => by
    have ih := strip_last l a
    unfold strip at h
    cases hs : strip l with
    | nil =>
      rw [hs] at h
      by_cases hb : b = 0
      · simp [hb] at h
      · simp [hb] at h; omega
    | cons c m =>
      rw [hs] at h ih
      apply ih
      simpa [List.getLast?_cons_cons] using h

/-- The order of the stripped tuples, when the second one has two parts at most, is the order of the two first parts; when they are equal
the first tuple is not less. -/
theorem tupleLt_two (l : List Nat) (a b : Nat) : tupleLt (strip l) (strip [a, b]) = true ↔
    l.getD 0 0 < a ∨ (l.getD 0 0 = a ∧ l.getD 1 0 < b) := by
  rw [← strip_getD l 0, ← strip_getD l 1]
  have hz := strip_last l
  generalize strip l = m at *
  have e : strip [a, b] = if b = 0 then (if a = 0 then [] else [a]) else [a, b] := by
    by_cases hb : b = 0 <;> simp [strip, hb]
  rw [e]
  rcases m with _ | ⟨c, _ | ⟨d, m⟩⟩
  · by_cases hb : b = 0
    · by_cases ha : a = 0
      · simp [hb, ha, tupleLt]
      · simp [hb, ha, tupleLt]; omega
    · simp [hb, tupleLt]; omega
  · have hc : c ≠ 0 := hz c rfl
    by_cases hb : b = 0
    · by_cases ha : a = 0
      · simp [hb, ha, tupleLt]
      · simp [hb, ha, tupleLt]
    · simp [hb, tupleLt]; omega
  · by_cases hb : b = 0
    · by_cases ha : a = 0
      · simp [hb, ha, tupleLt]
      · simp [hb, ha, tupleLt]
    · have hm : tupleLt m [] = false := by cases m <;> rfl
      simp [hb, tupleLt, hm]

/-- What is warned: the older files, and the files of the same `major.minor` (and nothing else in their number) made with a version before the final
release. -/
theorem warns_iff (software v : Version) : warns true software (some v) = true ↔ v.epoch = 0 ∧
    (Older v software ∨ (strip v.release = strip [software.part 0, software.part 1] ∧ preFinal v = true)) := by
  show (true && ltFinal v (reduced software)) = true ↔ _
  unfold ltFinal reduced Older
  simp only [Bool.true_and, Nat.not_lt_zero, decide_false, Bool.false_or, Bool.and_eq_true, Bool.or_eq_true, decide_eq_true_eq, tupleLt_two]
  rfl

/-- **C189** for files of final releases: a warning for the older files and for them only. Missing: files of a version before the final release
(`warns_wrong`). -/
theorem warns_older_partial {software v : Version} (he : v.epoch = 0) (hf : Final v) :
    warns true software (some v) = true ↔ Older v software := by
  rw [warns_iff]
  have : preFinal v = false := by simp [preFinal, hf.1, hf.2]
  simp [this, he]

/-- Older files are always warned. -/
theorem older_warned {software v : Version} (he : v.epoch = 0) (h : Older v software) : warns true software (some v) = true :=
  (warns_iff software v).2 ⟨he, .inl h⟩

/-- A final version does not warn of its own files, nor of the files of its corrections. -/
theorem own_files {software v : Version} (hf : Final v) (h0 : v.part 0 = software.part 0) (h1 : v.part 1 = software.part 1) :
    warns true software (some v) = false := by
  rw [← Bool.not_eq_true]
  intro h
  have hp : preFinal v = false := by simp [preFinal, hf.1, hf.2]
  obtain ⟨-, h | h⟩ := (warns_iff software v).1 h
  · unfold Older at h; omega
  · rw [hp] at h; simp at h

/-- Files without version are warned, and nothing is when the warnings are cut. -/
theorem no_version (software : Version) (file : Option Version) : warns true software none = true ∧ warns false software file = false := ⟨rfl, rfl⟩

/-- The full statement is false: `3.7.0rc1` warns of its own files. -/
theorem warns_wrong : ¬WarnsOlder := by
  intro h
  have := h ⟨0, [3, 7, 0], some (2, 1), none, none, none⟩ ⟨0, [3, 7, 0], some (2, 1), none, none, none⟩ rfl
  rw [warns_iff] at this
  unfold Older at this
  revert this
  decide

/-- `3.6.1` with the software `3.7.0`, `3.7.0` and `3.8.2`. -/
example : (warns true ⟨0, [3, 7, 0], none, none, none, none⟩ (some ⟨0, [3, 6, 1], none, none, none, none⟩),
    warns true ⟨0, [3, 7, 0], none, none, none, none⟩ (some ⟨0, [3, 7], none, none, none, none⟩),
    warns true ⟨0, [3, 7, 0], none, none, none, none⟩ (some ⟨0, [3, 8, 2], none, none, none, none⟩)) = (true, false, false) := by decide

end Verif.Store
