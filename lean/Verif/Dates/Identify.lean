import Mathlib.Data.List.Basic
import Mathlib.Tactic.IntervalCases
import Mathlib.Tactic.Linarith

/-!
C169: `identify_time` finds the date which a string holds.

Model of `identify_time` (`/repo/src/py_eddy_tracker/__init__.py:111-121`), with the reading of `datetime.strptime` for the fields of its
three models: a format becomes a regular expression, a field being a list of alternatives tried in order, with backtracking; the first
match must hold the whole string, then the date must exist. Strings are lists of ASCII characters (`\d` of python accepts other digits).
-/

namespace Verif.Dates

/-! ### Model -/

/-- The value of a digit. -/
def digit (c : Char) : Option Nat := if '0' ≤ c ∧ c ≤ '9' then some (c.toNat - 48) else none

/-- `[a-b][0-9]` with the first digit and the second one tested by `p`: the value and the rest. -/
def twoDigits (p : Nat → Nat → Bool) : List Char → List (Nat × List Char)
  | c :: c' :: r => match digit c, digit c' with
    | some a, some b => if p a b then [(10 * a + b, r)] else []
    | _, _ => []
  | _ => []

/-- `[a-b]`: one digit tested by `p`. -/
def oneDigit (p : Nat → Bool) : List Char → List (Nat × List Char)
  | c :: r => match digit c with
    | some a => if p a then [(a, r)] else []
    | none => []
  | _ => []

/-- `\d\d\d\d`. -/
def fourDigits (s : List Char) : List (Nat × List Char) :=
  (twoDigits (fun _ _ => true) s).flatMap (fun q => (twoDigits (fun _ _ => true) q.2).map (fun q' => (100 * q.1 + q'.1, q'.2)))

/-- ` [1-9]`. -/
def spaceDigit : List Char → List (Nat × List Char)
  | ' ' :: r => oneDigit (fun a => decide (1 ≤ a)) r
  | _ => []

/-- The directives of the models, and the character `T`. -/
inductive Field where
  | Y | m | d | H | M | S | T
deriving DecidableEq, Repr

/-- The alternatives of each directive, in the order of the regular expressions of `_strptime.py`: `m` is `1[0-2]|0[1-9]|[1-9]`, `d` is
`3[0-1]|[1-2]\d|0[1-9]|[1-9]| [1-9]`, `H` is `2[0-3]|[0-1]\d|\d`, `M` is `[0-5]\d|\d`, `S` is `6[0-1]|[0-5]\d|\d`; the comparison
ignores the case. -/
def Field.alts : Field → List Char → List (Nat × List Char)
  | .Y, s => fourDigits s
  | .m, s => twoDigits (fun a b => a == 1 && decide (b ≤ 2)) s ++ twoDigits (fun a b => a == 0 && decide (1 ≤ b)) s ++
      oneDigit (fun a => decide (1 ≤ a)) s
  | .d, s => twoDigits (fun a b => a == 3 && decide (b ≤ 1)) s ++ twoDigits (fun a _ => a == 1 || a == 2) s ++
      twoDigits (fun a b => a == 0 && decide (1 ≤ b)) s ++ oneDigit (fun a => decide (1 ≤ a)) s ++ spaceDigit s
  | .H, s => twoDigits (fun a b => a == 2 && decide (b ≤ 3)) s ++ twoDigits (fun a _ => decide (a ≤ 1)) s ++ oneDigit (fun _ => true) s
  | .M, s => twoDigits (fun a _ => decide (a ≤ 5)) s ++ oneDigit (fun _ => true) s
  | .S, s => twoDigits (fun a b => a == 6 && decide (b ≤ 1)) s ++ twoDigits (fun a _ => decide (a ≤ 5)) s ++ oneDigit (fun _ => true) s
  | .T, 'T' :: r => [(0, r)]
  | .T, 't' :: r => [(0, r)]
  | .T, _ => []

/-- `regex.match`: the first way to read the fields one after the other. -/
def matchFields : List Field → List Char → Option (List Nat × List Char)
  | [], s => some ([], s)
  | f :: fs, s => (f.alts s).findSome? (fun q => (matchFields fs q.2).map (fun q' => (q.1 :: q'.1, q'.2)))

/-- A date and time. -/
structure Date where
  year : Nat
  month : Nat
  day : Nat
  hour : Nat
  minute : Nat
  second : Nat
deriving DecidableEq, Repr

/-- The number of days of a month of the proleptic gregorian calendar. -/
def daysIn (y m : Nat) : Nat :=
  if m = 2 then (if y % 4 = 0 ∧ (y % 100 ≠ 0 ∨ y % 400 = 0) then 29 else 28) else if m = 4 ∨ m = 6 ∨ m = 9 ∨ m = 11 then 30 else 31

/-- The dates which `datetime` accepts, for years of four digits. -/
def Date.Valid (x : Date) : Prop :=
  1 ≤ x.year ∧ x.year ≤ 9999 ∧ 1 ≤ x.month ∧ x.month ≤ 12 ∧ 1 ≤ x.day ∧ x.day ≤ daysIn x.year x.month ∧ x.hour < 24 ∧ x.minute < 60 ∧
    x.second < 60

instance (x : Date) : Decidable x.Valid := by unfold Date.Valid; infer_instance

/-- `datetime(...)` of the values of the fields; the hour is 0 when it is not in the model. -/
def toDate : List Nat → Option Date
  | [y, m, d] => some ⟨y, m, d, 0, 0, 0⟩
  | [y, m, d, h, mi, s] => some ⟨y, m, d, h, mi, s⟩
  | [y, m, d, _, h, mi, s] => some ⟨y, m, d, h, mi, s⟩
  | _ => none

/-- `strptime` for one model; `none` is `ValueError`. -/
def strptime (fs : List Field) (s : List Char) : Option Date :=
  match matchFields fs s with
  | some (vs, []) => (toDate vs).bind (fun x => if x.Valid then some x else none)
  | _ => none

/-- `TIME_MODELS`, line 111. -/
def models : List (List Field) := [[.Y, .m, .d], [.Y, .m, .d, .H, .M, .S], [.Y, .m, .d, .T, .H, .M, .S]]

/-- `identify_time`, lines 114-120; `none` is the exception. -/
def identifyTime (s : List Char) : Option Date := models.findSome? (fun fs => strptime fs s)

/-! ### Specification: how dates are written -/

/-- A number under 10 as a character. -/
def char (n : Nat) : Char := Char.ofNat (48 + n)

/-- A number under 100 with two characters. -/
def two (n : Nat) : List Char := [char (n / 10), char (n % 10)]

/-- YYYYMMDD. -/
def Date.day8 (x : Date) : List Char := two (x.year / 100) ++ two (x.year % 100) ++ two x.month ++ two x.day

/-- HHMMSS. -/
def Date.time6 (x : Date) : List Char := two x.hour ++ two x.minute ++ two x.second

/-- The character is a digit. -/
def IsDigit (c : Char) : Prop := ∃ n, n < 10 ∧ c = char n

/-! ### Reading what was written -/

theorem digit_char : ∀ n, n < 10 → digit (char n) = some n := by decide

theorem twoDigits_two (p : Nat → Nat → Bool) {n : Nat} (hn : n < 100) (r : List Char) :
    twoDigits p (two n ++ r) = if p (n / 10) (n % 10) then [(n, r)] else [] := by
  simp only [two, List.cons_append, List.nil_append, twoDigits]
  rw [digit_char (n / 10) (by omega), digit_char (n % 10) (by omega)]
  simp only [show 10 * (n / 10) + n % 10 = n by omega]

theorem four_head {y : Nat} (hy : y ≤ 9999) (r : List Char) : Field.Y.alts (two (y / 100) ++ two (y % 100) ++ r) = [(y, r)] := by
  show fourDigits _ = _
  unfold fourDigits
  rw [List.append_assoc, twoDigits_two _ (by omega)]
  simp only [if_pos, List.flatMap_cons, List.flatMap_nil, List.append_nil]
  rw [twoDigits_two _ (by omega)]
  simp only [if_pos, List.map_cons, List.map_nil, show 100 * (y / 100) + y % 100 = y by omega]

/-- The fields of two digits: the first way is to read both. -/
theorem month_head {n : Nat} (h1 : 1 ≤ n) (h2 : n ≤ 12) (r : List Char) : ∃ t, Field.m.alts (two n ++ r) = (n, r) :: t := by
  simp only [Field.alts, twoDigits_two _ (show n < 100 by omega)]
  interval_cases n <;> simp

theorem day_head {n : Nat} (h1 : 1 ≤ n) (h2 : n ≤ 31) (r : List Char) : ∃ t, Field.d.alts (two n ++ r) = (n, r) :: t := by
  simp only [Field.alts, twoDigits_two _ (show n < 100 by omega)]
  interval_cases n <;> simp

theorem hour_head {n : Nat} (h2 : n < 24) (r : List Char) : ∃ t, Field.H.alts (two n ++ r) = (n, r) :: t := by
  simp only [Field.alts, twoDigits_two _ (show n < 100 by omega)]
  interval_cases n <;> simp

theorem minute_head {n : Nat} (h2 : n < 60) (r : List Char) : ∃ t, Field.M.alts (two n ++ r) = (n, r) :: t := by
  simp only [Field.alts, twoDigits_two _ (show n < 100 by omega)]
  rw [if_pos (by simp; omega)]
  exact ⟨_, rfl⟩

theorem second_head {n : Nat} (h2 : n < 60) (r : List Char) : ∃ t, Field.S.alts (two n ++ r) = (n, r) :: t := by
  simp only [Field.alts, twoDigits_two _ (show n < 100 by omega)]
  rw [if_neg (by simp; omega), if_pos (by simp; omega)]
  exact ⟨_, rfl⟩

/-- When the first way to read a field lets the rest be read, it is the one used. -/
theorem matchFields_head {f : Field} {fs : List Field} {s r : List Char} {v : Nat} {vs : List Nat} {r' : List Char}
    (h : ∃ t, f.alts s = (v, r) :: t) (hm : matchFields fs r = some (vs, r')) : matchFields (f :: fs) s = some (v :: vs, r') := by
  obtain ⟨t, ht⟩ := h
  simp only [matchFields]
  rw [ht, List.findSome?_cons]
  simp only [hm, Option.map_some]

theorem daysIn_le (y m : Nat) : daysIn y m ≤ 31 := by
  unfold daysIn
  split_ifs <;> omega

/-- The day of a date, followed by anything which the other fields read. -/
theorem match_day {x : Date} (hx : x.Valid) {fs : List Field} {r : List Char} {vs : List Nat} {r' : List Char}
    (hm : matchFields fs r = some (vs, r')) :
    matchFields (.Y :: .m :: .d :: fs) (x.day8 ++ r) = some (x.year :: x.month :: x.day :: vs, r') := by
  obtain ⟨h1, h2, h3, h4, h5, h6, h7, h8, h9⟩ := hx
  have h31 := daysIn_le x.year x.month
  unfold Date.day8
  simp only [List.append_assoc]
  have e := four_head h2 (two x.month ++ (two x.day ++ r))
  rw [List.append_assoc] at e
  exact matchFields_head ⟨[], e⟩ (matchFields_head (month_head h3 h4 _) (matchFields_head (day_head h5 (by omega) r) hm))

theorem match_time {x : Date} (hx : x.Valid) (r : List Char) :
    matchFields [.H, .M, .S] (x.time6 ++ r) = some ([x.hour, x.minute, x.second], r) := by
  obtain ⟨h1, h2, h3, h4, h5, h6, h7, h8, h9⟩ := hx
  unfold Date.time6
  simp only [List.append_assoc]
  exact matchFields_head (hour_head h7 _) (matchFields_head (minute_head h8 _) (matchFields_head (second_head h9 _) rfl))

/-! ### What can be read -/

/-- The least and the greatest number of characters of a field. -/
def Field.low : Field → Nat
  | .Y => 4
  | _ => 1

def Field.high : Field → Nat
  | .Y => 4
  | .T => 1
  | _ => 2

/-- The characters of a value. -/
def Field.text : Field → Nat → List Char
  | .Y, n => two (n / 100) ++ two (n % 100)
  | .T, _ => ['T']
  | _, n => two n

theorem twoDigits_mem {p : Nat → Nat → Bool} {s : List Char} {q : Nat × List Char} (h : q ∈ twoDigits p s) :
    ∃ c c' a b, s = c :: c' :: q.2 ∧ digit c = some a ∧ digit c' = some b ∧ q.1 = 10 * a + b := by
  unfold twoDigits at h
  split at h
  · rename_i c c' r
    split at h
    · rename_i a b ha hb
      split at h
      · simp only [List.mem_singleton] at h
        subst h
        exact ⟨c, c', a, b, rfl, ha, hb, rfl⟩
      · simp at h
    · simp at h
  · simp at h

theorem oneDigit_mem {p : Nat → Bool} {s : List Char} {q : Nat × List Char} (h : q ∈ oneDigit p s) : ∃ c, s = c :: q.2 := by
  unfold oneDigit at h
  split at h
  · rename_i c r
    split at h
    · split at h
      · simp only [List.mem_singleton] at h
        subst h
        exact ⟨c, rfl⟩
      · simp at h
    · simp at h
  · simp at h

theorem digit_of_isDigit {c : Char} {a : Nat} (hc : IsDigit c) (h : digit c = some a) : a < 10 ∧ c = char a := by
  obtain ⟨n, hn, rfl⟩ := hc
  rw [digit_char n hn] at h
  obtain rfl := Option.some.inj h
  exact ⟨hn, rfl⟩

theorem two_eq {a b : Nat} (ha : a < 10) (hb : b < 10) : two (10 * a + b) = [char a, char b] := by
  unfold two
  rw [show (10 * a + b) / 10 = a by omega, show (10 * a + b) % 10 = b by omega]

/-- What one field reads. -/
structure Reads (f : Field) (s : List Char) (q : Nat × List Char) : Prop where
  split : ∃ w, s = w ++ q.2 ∧ f.low ≤ w.length ∧ w.length ≤ f.high ∧
    ((∀ c ∈ w, IsDigit c ∨ c = 'T') → w.length = f.high → w = f.text q.1)

theorem not_isDigit_T : ¬ IsDigit 'T' := by
  rintro ⟨n, hn, h⟩
  revert h
  revert n
  decide

theorem digit_T : digit 'T' = none := by decide

theorem isDigit_of {c : Char} {a : Nat} (hc : IsDigit c ∨ c = 'T') (h : digit c = some a) : IsDigit c := by
  rcases hc with hc | rfl
  · exact hc
  · rw [digit_T] at h; cases h

theorem reads_two {f : Field} (hlow : f.low = 1) (hhigh : f.high = 2) (htext : ∀ n, f.text n = two n) {p : Nat → Nat → Bool} {s : List Char}
    {q : Nat × List Char} (h : q ∈ twoDigits p s) : Reads f s q := by
  obtain ⟨c, c', a, b, hs, ha, hb, hq⟩ := twoDigits_mem h
  refine ⟨[c, c'], by simpa using hs, by rw [hlow]; simp, by rw [hhigh]; simp, ?_⟩
  intro hw _
  obtain ⟨ha', rfl⟩ := digit_of_isDigit (isDigit_of (hw c (by simp)) ha) ha
  obtain ⟨hb', rfl⟩ := digit_of_isDigit (isDigit_of (hw c' (by simp)) hb) hb
  rw [htext, hq, two_eq ha' hb']

theorem reads_one {f : Field} (hlow : f.low = 1) (hhigh : f.high = 2) {p : Nat → Bool} {s : List Char} {q : Nat × List Char}
    (h : q ∈ oneDigit p s) : Reads f s q := by
  obtain ⟨c, hs⟩ := oneDigit_mem h
  refine ⟨[c], by simpa using hs, by rw [hlow]; simp, by rw [hhigh]; simp, ?_⟩
  intro _ hl
  rw [hhigh] at hl
  simp at hl

theorem reads_space {s : List Char} {q : Nat × List Char} (h : q ∈ spaceDigit s) : Reads .d s q := by
  unfold spaceDigit at h
  split at h
  · rename_i r
    obtain ⟨c, hs⟩ := oneDigit_mem h
    refine ⟨[' ', c], by simpa using hs, by simp [Field.low], by simp [Field.high], ?_⟩
    intro hw _
    exfalso
    rcases hw ' ' (by simp) with ⟨n, hn, h⟩ | h
    · revert h
      revert n
      decide
    · revert h
      decide
  · simp at h

theorem reads_of_mem {f : Field} {s : List Char} {q : Nat × List Char} (h : q ∈ f.alts s) : Reads f s q := by
  cases f with
  | Y =>
    simp only [Field.alts, fourDigits, List.mem_flatMap, List.mem_map] at h
    obtain ⟨q1, h1, q2, h2, rfl⟩ := h
    obtain ⟨c, c', a, b, hs, ha, hb, hq⟩ := twoDigits_mem h1
    obtain ⟨e, e', a', b', hs', ha', hb', hq'⟩ := twoDigits_mem h2
    refine ⟨[c, c', e, e'], by simp [hs, hs'], by simp [Field.low], by simp [Field.high], ?_⟩
    intro hw _
    obtain ⟨ia, rfl⟩ := digit_of_isDigit (isDigit_of (hw c (by simp)) ha) ha
    obtain ⟨ib, rfl⟩ := digit_of_isDigit (isDigit_of (hw c' (by simp)) hb) hb
    obtain ⟨ia', rfl⟩ := digit_of_isDigit (isDigit_of (hw e (by simp)) ha') ha'
    obtain ⟨ib', rfl⟩ := digit_of_isDigit (isDigit_of (hw e' (by simp)) hb') hb'
    simp only [Field.text]
    rw [show (100 * q1.1 + q2.1) / 100 = 10 * a + b by omega, show (100 * q1.1 + q2.1) % 100 = 10 * a' + b' by omega, two_eq ia ib, two_eq ia' ib']
    rfl
  | m =>
    simp only [Field.alts, List.mem_append] at h
    rcases h with (h | h) | h
    · exact reads_two rfl rfl (fun _ => rfl) h
    · exact reads_two rfl rfl (fun _ => rfl) h
    · exact reads_one rfl rfl h
  | d =>
    simp only [Field.alts, List.mem_append] at h
    rcases h with (((h | h) | h) | h) | h
    · exact reads_two rfl rfl (fun _ => rfl) h
    · exact reads_two rfl rfl (fun _ => rfl) h
    · exact reads_two rfl rfl (fun _ => rfl) h
    · exact reads_one rfl rfl h
    · exact reads_space h
  | H =>
    simp only [Field.alts, List.mem_append] at h
    rcases h with (h | h) | h
    · exact reads_two rfl rfl (fun _ => rfl) h
    · exact reads_two rfl rfl (fun _ => rfl) h
    · exact reads_one rfl rfl h
  | M =>
    simp only [Field.alts, List.mem_append] at h
    rcases h with h | h
    · exact reads_two rfl rfl (fun _ => rfl) h
    · exact reads_one rfl rfl h
  | S =>
    simp only [Field.alts, List.mem_append] at h
    rcases h with (h | h) | h
    · exact reads_two rfl rfl (fun _ => rfl) h
    · exact reads_two rfl rfl (fun _ => rfl) h
    · exact reads_one rfl rfl h
  | T =>
    unfold Field.alts at h
    split at h <;> simp_all
    · refine ⟨['T'], by simp, by simp [Field.low], by simp [Field.high], fun _ _ => rfl⟩
    · refine ⟨['t'], by simp, by simp [Field.low], by simp [Field.high], ?_⟩
      intro hw _
      exfalso
      rcases hw 't' (by simp) with ⟨n, hn, h⟩ | h
      · revert h
        revert n
        decide
      · revert h
        decide

/-- A match is in the bounds of the lengths, and when it has the greatest length it reads each field as it is written. -/
theorem matchFields_reads {fs : List Field} {s r : List Char} {vs : List Nat} (h : matchFields fs s = some (vs, r)) :
    ∃ w, s = w ++ r ∧ (fs.map Field.low).sum ≤ w.length ∧ w.length ≤ (fs.map Field.high).sum ∧ vs.length = fs.length ∧
      ((∀ c ∈ w, IsDigit c ∨ c = 'T') → w.length = (fs.map Field.high).sum → w = (List.zipWith Field.text fs vs).flatten) := by
  induction fs generalizing s vs with
  | nil =>
    simp only [matchFields, Option.some.injEq, Prod.mk.injEq] at h
    obtain ⟨rfl, rfl⟩ := h
    exact ⟨[], rfl, by simp, by simp, rfl, fun _ _ => rfl⟩
  | cons f fs ih =>
    simp only [matchFields] at h
    obtain ⟨q, hq, hk⟩ := List.exists_of_findSome?_eq_some h
    simp only [Option.map_eq_some_iff] at hk
    obtain ⟨⟨vs', r'⟩, hm, he⟩ := hk
    simp only [Prod.mk.injEq] at he
    obtain ⟨rfl, rfl⟩ := he
    obtain ⟨w, hs, hl, hh, hw⟩ := (reads_of_mem hq).split
    obtain ⟨w', hs', hl', hh', hv, hw'⟩ := ih hm
    refine ⟨w ++ w', by rw [hs, hs', List.append_assoc], ?_, ?_, by simp [hv], ?_⟩
    · simp only [List.map_cons, List.sum_cons, List.length_append]; omega
    · simp only [List.map_cons, List.sum_cons, List.length_append]; omega
    · intro hc hlen
      simp only [List.map_cons, List.sum_cons, List.length_append] at hlen
      rw [List.zipWith_cons_cons, List.flatten_cons, ← hw (fun c hcw => hc c (by simp [hcw])) (by omega),
        ← hw' (fun c hcw => hc c (by simp [hcw])) (by omega)]

/-- The model with `T` is for strings which hold it. -/
theorem mem_T {fs : List Field} {s : List Char} {q : List Nat × List Char} (h : matchFields fs s = some q) (hT : Field.T ∈ fs) :
    'T' ∈ s ∨ 't' ∈ s := by
  induction fs generalizing s q with
  | nil => simp at hT
  | cons f fs ih =>
    simp only [matchFields] at h
    obtain ⟨q1, hq, hk⟩ := List.exists_of_findSome?_eq_some h
    simp only [Option.map_eq_some_iff] at hk
    obtain ⟨q2, hm, _⟩ := hk
    rcases List.mem_cons.1 hT with rfl | hT
    · clear h ih
      unfold Field.alts at hq
      split at hq <;> simp_all
    · obtain ⟨w, hs, _⟩ := (reads_of_mem hq).split
      rcases ih hm hT with h | h
      · left; rw [hs]; simp [h]
      · right; rw [hs]; simp [h]

theorem strptime_some {fs : List Field} {s : List Char} {x : Date} (h : strptime fs s = some x) :
    x.Valid ∧ ∃ vs, matchFields fs s = some (vs, []) ∧ toDate vs = some x := by
  unfold strptime at h
  split at h
  · rename_i vs hm
    rw [Option.bind_eq_some_iff] at h
    obtain ⟨y, hy, hv⟩ := h
    split at hv
    · rename_i hvy
      obtain rfl := Option.some.inj hv
      exact ⟨hvy, vs, hm, hy⟩
    · cases hv
  · cases h

theorem strptime_length {fs : List Field} {s : List Char} {x : Date} (h : strptime fs s = some x) :
    (fs.map Field.low).sum ≤ s.length ∧ s.length ≤ (fs.map Field.high).sum := by
  obtain ⟨_, vs, hm, _⟩ := strptime_some h
  obtain ⟨w, hs, hl, hh, _, _⟩ := matchFields_reads hm
  rw [List.append_nil] at hs
  subst hs
  exact ⟨hl, hh⟩

theorem strptime_none_of_length {fs : List Field} {s : List Char}
    (h : s.length < (fs.map Field.low).sum ∨ (fs.map Field.high).sum < s.length) : strptime fs s = none := by
  cases e : strptime fs s with
  | none => rfl
  | some x =>
    have := strptime_length e
    omega

theorem strptime_of_match {fs : List Field} {s : List Char} {vs : List Nat} {x : Date} (hm : matchFields fs s = some (vs, []))
    (ht : toDate vs = some x) (hx : x.Valid) : strptime fs s = some x := by
  unfold strptime
  rw [hm]
  simp [ht, hx]

/-! ### The property -/

theorem length_day8 (x : Date) : x.day8.length = 8 := rfl
theorem length_time6 (x : Date) : x.time6.length = 6 := rfl

/-- C169 (partial). Dates written YYYYMMDD, YYYYMMDDHHMMSS or YYYYMMDDTHHMMSS are read back, for all the dates with a year of four
digits. Conversely a string of 8 or 14 digits, or of 15 digits and T, which is accepted, is the writing of the date given. Missing:
strings of other lengths must be refused, see `minutes_wrong`. -/
theorem identify_time_partial :
    (∀ x : Date, x.Valid →
      identifyTime x.day8 = some ⟨x.year, x.month, x.day, 0, 0, 0⟩ ∧ identifyTime (x.day8 ++ x.time6) = some x ∧
      identifyTime (x.day8 ++ 'T' :: x.time6) = some x) ∧
    (∀ s x, identifyTime s = some x → x.Valid ∧
      (s.length = 8 → (∀ c ∈ s, IsDigit c) → s = x.day8 ∧ x.hour = 0 ∧ x.minute = 0 ∧ x.second = 0) ∧
      (s.length = 14 → (∀ c ∈ s, IsDigit c) → s = x.day8 ++ x.time6) ∧
      (s.length = 15 → (∀ c ∈ s, IsDigit c ∨ c = 'T') → s = x.day8 ++ 'T' :: x.time6)) := by
  constructor
  · intro x hx
    have hx0 : Date.Valid ⟨x.year, x.month, x.day, 0, 0, 0⟩ := by
      obtain ⟨h1, h2, h3, h4, h5, h6, h7, h8, h9⟩ := hx
      exact ⟨h1, h2, h3, h4, h5, h6, by simp, by simp, by simp⟩
    have hd : matchFields [.Y, .m, .d] (x.day8 ++ []) = some ([x.year, x.month, x.day], []) := match_day hx rfl
    have ht : matchFields [.H, .M, .S] x.time6 = some ([x.hour, x.minute, x.second], []) := by
      have := match_time hx []
      rwa [List.append_nil] at this
    refine ⟨?_, ?_, ?_⟩
    · unfold identifyTime models
      rw [List.append_nil] at hd
      rw [List.findSome?_cons, strptime_of_match hd rfl hx0]
    · unfold identifyTime models
      rw [List.findSome?_cons, strptime_none_of_length (fs := [.Y, .m, .d]) (Or.inr (by
        rw [List.length_append, length_day8, length_time6]; decide))]
      simp only
      rw [List.findSome?_cons, strptime_of_match (match_day hx ht) rfl hx]
    · unfold identifyTime models
      rw [List.findSome?_cons, strptime_none_of_length (fs := [.Y, .m, .d]) (Or.inr (by
        rw [List.length_append, List.length_cons, length_day8, length_time6]; decide))]
      simp only
      rw [List.findSome?_cons, strptime_none_of_length (fs := [.Y, .m, .d, .H, .M, .S]) (Or.inr (by
        rw [List.length_append, List.length_cons, length_day8, length_time6]; decide))]
      simp only
      have hT : matchFields [.T, .H, .M, .S] ('T' :: x.time6) = some ([0, x.hour, x.minute, x.second], []) :=
        matchFields_head ⟨[], rfl⟩ ht
      rw [List.findSome?_cons, strptime_of_match (match_day hx hT) rfl hx]
  · intro s x h
    unfold identifyTime at h
    obtain ⟨fs, hfs, hp⟩ := List.exists_of_findSome?_eq_some h
    obtain ⟨hv, vs, hm, ht⟩ := strptime_some hp
    obtain ⟨w, hs, hl, hh, hvl, hw⟩ := matchFields_reads hm
    rw [List.append_nil] at hs
    subst hs
    simp only [models, List.mem_cons, List.not_mem_nil, or_false] at hfs
    refine ⟨hv, ?_, ?_, ?_⟩
    · intro h8 hd
      rcases hfs with rfl | rfl | rfl
      · have e := hw (fun c hc => Or.inl (hd c hc)) (by rw [h8]; rfl)
        obtain ⟨a, b, c, rfl⟩ : ∃ a b c, vs = [a, b, c] := by
          match vs, hvl with
          | [a, b, c], _ => exact ⟨a, b, c, rfl⟩
        simp only [toDate, Option.some.injEq] at ht
        subst ht
        refine ⟨?_, rfl, rfl, rfl⟩
        rw [e]
        simp [Field.text, Date.day8, List.append_assoc]
      · exfalso
        rw [h8] at hl
        revert hl
        decide
      · exfalso
        rw [h8] at hl
        revert hl
        decide
    · intro h14 hd
      rcases hfs with rfl | rfl | rfl
      · exfalso
        rw [h14] at hh
        revert hh
        decide
      · have e := hw (fun c hc => Or.inl (hd c hc)) (by rw [h14]; rfl)
        obtain ⟨a, b, c, d, e', f, rfl⟩ : ∃ a b c d e f, vs = [a, b, c, d, e, f] := by
          match vs, hvl with
          | [a, b, c, d, e, f], _ => exact ⟨a, b, c, d, e, f, rfl⟩
        simp only [toDate, Option.some.injEq] at ht
        subst ht
        rw [e]
        simp [Field.text, Date.day8, Date.time6, List.append_assoc]
      · exfalso
        rcases mem_T hm (by simp) with h | h
        · exact not_isDigit_T (hd _ h)
        · obtain ⟨n, hn, h⟩ := hd _ h
          revert h
          revert n
          decide
    · intro h15 hd
      rcases hfs with rfl | rfl | rfl
      · exfalso
        rw [h15] at hh
        revert hh
        decide
      · exfalso
        rw [h15] at hh
        revert hh
        decide
      · have e := hw hd (by rw [h15]; rfl)
        obtain ⟨a, b, c, d, e', f, g, rfl⟩ : ∃ a b c d e f g, vs = [a, b, c, d, e, f, g] := by
          match vs, hvl with
          | [a, b, c, d, e, f, g], _ => exact ⟨a, b, c, d, e, f, g, rfl⟩
        simp only [toDate, Option.some.injEq] at ht
        subst ht
        rw [e]
        simp [Field.text, Date.day8, Date.time6, List.append_assoc]

/-- The hypotheses hold for a leap day, and dates which do not exist are refused. -/
example : Date.Valid ⟨2020, 2, 29, 23, 59, 8⟩ ∧ Date.day8 ⟨2020, 2, 29, 23, 59, 8⟩ = "20200229".toList ∧
    identifyTime "20200229T235908".toList = some ⟨2020, 2, 29, 23, 59, 8⟩ ∧ identifyTime "20210229".toList = none ∧
    identifyTime "20201301".toList = none ∧ identifyTime "20200229 235908".toList = none := by decide +kernel

theorem matchFields_append_fail {f : Field} {fs : List Field} {s : List Char} (h : ∀ q ∈ f.alts s, matchFields fs q.2 = none) :
    matchFields (f :: fs) s = none := by
  simp only [matchFields]
  rw [List.findSome?_eq_none_iff]
  intro q hq
  rw [h q hq]
  rfl

/-- C169, negation. The minutes of a date written YYYYMMDDHHMM are read as minutes and seconds: 12:34 is 12 hours, 3 minutes and 4
seconds, for all dates and without any error. -/
theorem minutes_wrong (x : Date) (hx : x.Valid) :
    identifyTime (x.day8 ++ two x.hour ++ two x.minute) = some ⟨x.year, x.month, x.day, x.hour, x.minute / 10, x.minute % 10⟩ := by
  have hx' := hx
  obtain ⟨h1, h2, h3, h4, h5, h6, h7, h8, h9⟩ := hx
  have hv : Date.Valid ⟨x.year, x.month, x.day, x.hour, x.minute / 10, x.minute % 10⟩ :=
    ⟨h1, h2, h3, h4, h5, h6, h7, by show x.minute / 10 < 60; omega, by show x.minute % 10 < 60; omega⟩
  have hS : matchFields [.S] [char (x.minute % 10)] = some ([x.minute % 10], []) := by
    apply matchFields_head (r := []) _ rfl
    refine ⟨[], ?_⟩
    simp [Field.alts, twoDigits, oneDigit, digit_char _ (show x.minute % 10 < 10 by omega)]
  have hM : matchFields [.M, .S] (two x.minute) = some ([x.minute / 10, x.minute % 10], []) := by
    have e : Field.M.alts (two x.minute) = [(x.minute, []), (x.minute / 10, [char (x.minute % 10)])] := by
      have := twoDigits_two (fun a _ => decide (a ≤ 5)) (show x.minute < 100 by omega) []
      rw [List.append_nil] at this
      simp only [Field.alts]
      rw [this, if_pos (by simp; omega)]
      simp [two, oneDigit, digit_char _ (show x.minute / 10 < 10 by omega)]
    have e0 : matchFields [.S] [] = none := by decide
    rw [matchFields, e, List.findSome?_cons]
    simp only [e0, Option.map_none]
    rw [List.findSome?_cons]
    simp only [hS, Option.map_some]
  have hH : matchFields [.H, .M, .S] (two x.hour ++ two x.minute) = some ([x.hour, x.minute / 10, x.minute % 10], []) :=
    matchFields_head (hour_head h7 _) hM
  unfold identifyTime models
  rw [List.append_assoc, List.findSome?_cons, strptime_none_of_length (fs := [.Y, .m, .d]) (Or.inr (by
    rw [List.length_append, List.length_append, length_day8]; simp [two, Field.high]))]
  simp only
  rw [List.findSome?_cons, strptime_of_match (match_day hx' hH) rfl hv]

/-- C169, negation. A string with the hour only is refused or gives another day and time. -/
theorem hour_wrong : identifyTime "2020111512".toList = some ⟨2020, 11, 1, 5, 1, 2⟩ ∧ identifyTime "2020010112".toList = none ∧
    identifyTime "2020111".toList = some ⟨2020, 11, 1, 0, 0, 0⟩ := by decide +kernel

end Verif.Dates
