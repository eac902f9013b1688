import Verif.Tools.Model
import Verif.Compare.Props
import Verif.Tracks.Props
import Mathlib.Data.List.Perm.Basic
import Mathlib.Data.List.Perm.Subperm
import Mathlib.Data.List.Induction

/-!
# C140: EddyQuickCompare; C141: MergeEddies
-/

namespace Verif.Tools

open Verif.Compare (Link Groups getGroup)

variable {R : Type}

/-! ### C140 -/

/-- The five groups which share the observations. -/
def five (g : Groups) : List (List Nat) := [g.noMatch, g.low, g.intermediate, g.high, g.multiMatch]

/-- Each observation of `n` is in exactly one of the five groups, once. -/
def Shares (n : Nat) (g : Groups) : Prop := (five g).flatten.Perm (List.range n)

theorem shares_of {n : Nat} {g : Groups} (h1 : ∀ i, i < n → ∃! c : Compare.Cat, i ∈ g.get c) (h2 : ∀ c i, i ∈ g.get c → i < n)
    (h3 : ∀ c, (g.get c).Nodup) : Shares n g := by
  have dis : ∀ c c' : Compare.Cat, c ≠ c' → List.Disjoint (g.get c) (g.get c') := by
    intro c c' hne i hi hi'
    obtain ⟨d, _, hd⟩ := h1 i (h2 c i hi)
    exact hne ((hd c hi).trans (hd c' hi').symm)
  unfold Shares
  rw [List.perm_ext_iff_of_nodup ?_ List.nodup_range]
  · intro i
    rw [List.mem_range]
    simp only [five, List.mem_flatten]
    constructor
    · rintro ⟨l, hl, hi⟩
      simp only [List.mem_cons, List.not_mem_nil, or_false] at hl
      rcases hl with rfl | rfl | rfl | rfl | rfl
      · exact h2 .noMatch i hi
      · exact h2 .low i hi
      · exact h2 .intermediate i hi
      · exact h2 .high i hi
      · exact h2 .multiMatch i hi
    · intro hi
      obtain ⟨c, hc, _⟩ := h1 i hi
      cases c
      · exact ⟨g.noMatch, by simp, hc⟩
      · exact ⟨g.low, by simp, hc⟩
      · exact ⟨g.intermediate, by simp, hc⟩
      · exact ⟨g.high, by simp, hc⟩
      · exact ⟨g.multiMatch, by simp, hc⟩
  · rw [List.nodup_flatten]
    refine ⟨?_, ?_⟩
    · intro l hl
      simp only [five, List.mem_cons, List.not_mem_nil, or_false] at hl
      rcases hl with rfl | rfl | rfl | rfl | rfl
      · exact h3 .noMatch
      · exact h3 .low
      · exact h3 .intermediate
      · exact h3 .high
      · exact h3 .multiMatch
    · simp only [five, List.pairwise_cons, List.mem_cons, List.not_mem_nil, or_false, List.Pairwise.nil, and_true, forall_eq_or_imp, forall_eq,
        forall_const, false_implies]
      exact ⟨⟨dis .noMatch .low (by simp), dis .noMatch .intermediate (by simp), dis .noMatch .high (by simp), dis .noMatch .multiMatch (by simp)⟩,
        ⟨dis .low .intermediate (by simp), dis .low .high (by simp), dis .low .multiMatch (by simp)⟩,
        ⟨dis .intermediate .high (by simp), dis .intermediate .multiMatch (by simp)⟩, dis .high .multiMatch (by simp)⟩

/-- **C140** (groups): in the two datasets each observation is in exactly one of the groups `nomatch`, `low`, `intermediate`, `high`, `multi_match`. -/
theorem groups_share (matches_ : List R → List R → List Link) {invalid low high : Rat} (hlh : low ≤ high) {ref other : List R}
    (hr : ∀ l ∈ matches_ ref other, l.i < ref.length ∧ l.j < other.length) :
    Shares ref.length (groupsOf matches_ invalid low high ref other).1 ∧ Shares other.length (groupsOf matches_ invalid low high ref other).2 := by
  obtain ⟨a1, a2, _, _, a5, _⟩ := Compare.get_group_partition ref.length other.length (matches_ ref other) invalid low high hlh fun l hl => (hr l hl).1
  obtain ⟨b1, b2, _, _, b5, _⟩ := Compare.get_group_partition_second ref.length other.length (matches_ ref other) invalid low high hlh
    fun l hl => (hr l hl).2
  exact ⟨shares_of a1 a2 a5, shares_of b1 b2 b5⟩

theorem rowsAt_range (d : List R) : rowsAt d (List.range d.length) = d := by
  unfold rowsAt
  induction d using List.reverseRecOn with
  | nil => rfl
  | append_singleton d x ih =>
    rw [List.length_append, List.length_singleton, List.range_succ, List.filterMap_append]
    have : (List.range d.length).filterMap (fun i => (d ++ [x])[i]?) = (List.range d.length).filterMap (fun i => d[i]?) := by
      apply List.filterMap_congr
      intro i hi
      rw [List.getElem?_append_left (List.mem_range.1 hi)]
    rw [this, ih]
    simp

/-- **C140** (rows): the rows of the five files of a dataset are together the rows of the dataset, each one once. -/
theorem shares_rows {d : List R} {g : Groups} (h : Shares d.length g) : ((five g).map (rowsAt d)).flatten.Perm d := by
  have e : ((five g).map (rowsAt d)).flatten = rowsAt d (five g).flatten := by
    unfold rowsAt
    rw [List.filterMap_flatten]
  rw [e]
  have := List.Perm.filterMap (fun i => d[i]?) h
  have h2 := rowsAt_range d
  unfold rowsAt at h2 ⊢
  rwa [h2] at this

/-- **C140** (numbers): the numbers displayed for the five groups add up to the number of observations. -/
theorem counts_sum {n : Nat} {g : Groups} (h : Shares n g) : ((counts g).take 5).sum = n := by
  have := h.length_eq
  rw [List.length_range] at this
  simp only [five, List.flatten_cons, List.flatten_nil, List.append_nil, List.length_append] at this
  simp only [counts, entries, List.map_cons, List.take_succ_cons, List.take_zero, List.sum_cons, List.sum_nil]
  omega

/-- **C140** (areas): the areas displayed for the five groups add up to the area of all the observations. -/
theorem areas_sum {n : Nat} {g : Groups} (h : Shares n g) (area : Nat → Rat) : ((areas area g).take 5).sum = ((List.range n).map area).sum := by
  have := (h.map area).sum_eq
  rw [← this]
  simp only [five, List.flatten_cons, List.flatten_nil, List.append_nil, List.map_append, List.sum_append, areas, entries, List.map_cons,
    List.take_succ_cons, List.take_zero, List.sum_cons, List.sum_nil, add_zero]

/-! ### Files -/

theorem writeAll_mem : ∀ (l : List (List Char × List R)) (disk : List Char → Option (List R)) {e : List Char × List R}, e ∈ l →
    (∀ e' ∈ l, e'.1 = e.1 → e'.2 = e.2) → writeAll disk l e.1 = some e.2 := by
  intro l
  induction l using List.reverseRecOn with
  | nil => intro _ _ h; cases h
  | append_singleton l x ih =>
    intro disk e he hu
    unfold writeAll
    rw [List.foldl_append, List.foldl_cons, List.foldl_nil]
    by_cases hx : x.1 = e.1
    · rw [hx, Function.update_self, hu x (by simp) hx]
    · rw [Function.update_of_ne (Ne.symm hx)]
      refine ih disk ?_ fun e' he' => hu e' (by simp [he'])
      rcases List.mem_append.1 he with h | h
      · exact h
      · rw [List.mem_singleton] at h; rw [h] at hx; exact absurd rfl hx

theorem writeAll_other : ∀ (l : List (List Char × List R)) (disk : List Char → Option (List R)) (k : List Char), (∀ e ∈ l, e.1 ≠ k) →
    writeAll disk l k = disk k := by
  intro l
  induction l using List.reverseRecOn with
  | nil => intro _ _ _; rfl
  | append_singleton l x ih =>
    intro disk k h
    unfold writeAll
    rw [List.foldl_append, List.foldl_cons, List.foldl_nil, Function.update_of_ne (Ne.symm (h x (by simp)))]
    exact ih disk k fun e he => h e (by simp [he])

theorem slash_split : ∀ {a b x y : List Char}, '/' ∉ a → '/' ∉ b → a ++ '/' :: x = b ++ '/' :: y → a = b ∧ x = y
  | [], [], x, y, _, _, h => by simpa using h
  | [], c :: b, x, y, _, hb, h => by
    simp only [List.nil_append, List.cons_append, List.cons.injEq] at h
    exact absurd (by rw [← h.1]; simp) hb
  | c :: a, [], x, y, ha, _, h => by
    simp only [List.nil_append, List.cons_append, List.cons.injEq] at h
    exact absurd (by rw [h.1]; simp) ha
  | c :: a, d :: b, x, y, ha, hb, h => by
    simp only [List.cons_append, List.cons.injEq] at h
    obtain ⟨h1, h2⟩ := slash_split (fun hc => ha (List.mem_cons_of_mem _ hc)) (fun hc => hb (List.mem_cons_of_mem _ hc)) h.2
    exact ⟨by rw [h.1, h1], h2⟩

theorem flat_no_slash (n : List Char) : '/' ∉ flat n := by
  unfold flat
  intro h
  obtain ⟨c, _, hc⟩ := List.mem_map.1 h
  split at hc
  · exact absurd hc (by decide)
  · rename_i hne; exact hne hc

theorem fileName_inj {out n n' s s' k k' : List Char} (h : fileName out n s k = fileName out n' s' k') : flat n = flat n' ∧ s ++ k = s' ++ k' := by
  unfold fileName at h
  simp only [List.append_assoc, List.cons_append, List.append_cancel_left_eq, List.cons.injEq, true_and] at h
  have e : "//".toList = ['/', '/'] := by decide
  rw [e] at h
  simp only [List.cons_append, List.nil_append] at h
  obtain ⟨h1, h2⟩ := slash_split (flat_no_slash n) (flat_no_slash n') h
  rw [List.cons.injEq] at h2
  have h3 := h2.2
  rw [← List.append_assoc, ← List.append_assoc] at h3
  exact ⟨h1, List.append_cancel_right h3⟩

/-- The sixteen names of the groups, with their content. -/
def named (g : Groups × Groups) (ref other : List R) : List (List Char × List R) :=
  (entries g.2).map (fun e => ("other_".toList ++ e.1, rowsAt other e.2)) ++ (entries g.1).map (fun e => ("ref_".toList ++ e.1, rowsAt ref e.2))

theorem named_keys (g : Groups × Groups) (ref other : List R) : ((named g ref other).map Prod.fst).Nodup := by
  have : (named g ref other).map Prod.fst =
      (["nomatch", "low", "intermediate", "high", "multi_match", "parent", "twin", "complex"].map (fun k => "other_".toList ++ k.toList)) ++
      (["nomatch", "low", "intermediate", "high", "multi_match", "parent", "twin", "complex"].map (fun k => "ref_".toList ++ k.toList)) := rfl
  rw [this]
  decide

theorem eq_of_key {l : List (List Char × List R)} (h : (l.map Prod.fst).Nodup) {a b : List Char × List R} (ha : a ∈ l) (hb : b ∈ l) (e : a.1 = b.1) : a = b :=
  List.inj_on_of_nodup_map h ha hb e

theorem mem_outputs {matches_ : List R → List R → List Link} {invalid low high : Rat} {out : List Char} {ref : List R} {name : List Char} {other : List R}
    {e : List Char × List R} (h : e ∈ outputs matches_ invalid low high out ref name other) :
    ∃ side key, e.1 = fileName out name side key ∧ (side ++ key, e.2) ∈ named (groupsOf matches_ invalid low high ref other) ref other := by
  unfold outputs at h
  unfold named
  rcases List.mem_append.1 h with h | h
  · obtain ⟨x, hx, rfl⟩ := List.mem_map.1 h
    exact ⟨_, _, rfl, List.mem_append_left _ (List.mem_map.2 ⟨x, hx, rfl⟩)⟩
  · obtain ⟨x, hx, rfl⟩ := List.mem_map.1 h
    exact ⟨_, _, rfl, List.mem_append_right _ (List.mem_map.2 ⟨x, hx, rfl⟩)⟩

/-- **C140** (files): when no other name of the command gives the same directory, each group of a compared file and of the reference is found in its
file. Missing: names which differ only by `/` and `_` (`names_wrong`). -/
theorem quick_compare_partial {matches_ : List R → List R → List Link} {load : List Char → List R} {invalid low high : Rat} {out refName : List Char}
    {others : List (List Char)} {disk : List Char → Option (List R)} {o : List Char} (ho : o ∈ others)
    (hd : ∀ o' ∈ others, flat o' = flat o → o' = o) {e : List Char × List R}
    (he : e ∈ outputs matches_ invalid low high out (load refName) o (load o)) :
    quickCompare matches_ load invalid low high out refName others disk e.1 = some e.2 := by
  unfold quickCompare
  refine writeAll_mem _ disk (List.mem_flatMap.2 ⟨o, ho, he⟩) fun e' he' hk => ?_
  obtain ⟨o', ho', he'⟩ := List.mem_flatMap.1 he'
  obtain ⟨s, k, e1, e2⟩ := mem_outputs he
  obtain ⟨s', k', e1', e2'⟩ := mem_outputs he'
  rw [e1, e1'] at hk
  obtain ⟨h1, h2⟩ := fileName_inj hk
  have hoo := hd o' ho' h1
  rw [hoo] at e2'
  have := eq_of_key (named_keys _ _ _) e2' e2 h2
  exact (Prod.mk.inj this).2

/-- **C140** (files): the file of each group holds its rows (the names of the files of the first dataset of the command, as examples of
`quick_compare_partial`). -/
theorem other_file {matches_ : List R → List R → List Link} {load : List Char → List R} {invalid low high : Rat} {out refName : List Char}
    {others : List (List Char)} {disk : List Char → Option (List R)} {o : List Char} (ho : o ∈ others)
    (hd : ∀ o' ∈ others, flat o' = flat o → o' = o) :
    let final := quickCompare matches_ load invalid low high out refName others disk
    let g := groupsOf matches_ invalid low high (load refName) (load o)
    (∀ e ∈ entries g.2, final (out ++ '/' :: flat o ++ "//other_".toList ++ e.1 ++ ".nc".toList) = some (rowsAt (load o) e.2)) ∧
    (∀ e ∈ entries g.1, final (out ++ '/' :: flat o ++ "//ref_".toList ++ e.1 ++ ".nc".toList) = some (rowsAt (load refName) e.2)) := by
  intro final g
  have s1 : "//other_".toList = "//".toList ++ "other_".toList := by decide
  have s2 : "//ref_".toList = "//".toList ++ "ref_".toList := by decide
  rw [s1, s2]
  constructor
  · intro e he
    have := quick_compare_partial (matches_ := matches_) (load := load) (invalid := invalid) (low := low) (high := high) (out := out) (refName := refName)
      (disk := disk) ho hd (e := (fileName out o "other_".toList e.1, rowsAt (load o) e.2))
      (List.mem_append_left _ (List.mem_map.2 ⟨e, he, rfl⟩))
    simpa [fileName, List.append_assoc] using this
  · intro e he
    have := quick_compare_partial (matches_ := matches_) (load := load) (invalid := invalid) (low := low) (high := high) (out := out) (refName := refName)
      (disk := disk) ho hd (e := (fileName out o "ref_".toList e.1, rowsAt (load refName) e.2))
      (List.mem_append_right _ (List.mem_map.2 ⟨e, he, rfl⟩))
    simpa [fileName, List.append_assoc] using this

/-- **C140**: the files which are not in the directory of the outputs are left as they were. -/
theorem outside_untouched {matches_ : List R → List R → List Link} {load : List Char → List R} {invalid low high : Rat} {out refName : List Char}
    {others : List (List Char)} {disk : List Char → Option (List R)} {k : List Char} (hk : ¬ (out ++ ['/']) <+: k) :
    quickCompare matches_ load invalid low high out refName others disk k = disk k := by
  unfold quickCompare
  refine writeAll_other _ disk k fun e he hc => hk ?_
  obtain ⟨o, _, he⟩ := List.mem_flatMap.1 he
  obtain ⟨s, key, e1, _⟩ := mem_outputs he
  rw [← hc, e1]
  unfold fileName
  exact ⟨flat o ++ "//".toList ++ s ++ key ++ ".nc".toList, by simp⟩

/-- Rows of three files. -/
def exLoad (n : List Char) : List Nat := if n = "r".toList then [1, 2] else if n = "a/b".toList then [3] else [4, 5]

/-- One couple, the first of each. -/
def exMatch (_ _ : List Nat) : List Link := [⟨0, 0, 9 / 10⟩]

/-- **C140** refuted for two names which give the same directory: the file of the first dataset holds the rows of the second one. -/
theorem names_wrong : quickCompare exMatch exLoad 5 20 40 "out".toList "r".toList ["a/b".toList, "a_b".toList] (fun _ => none)
      "out/a_b//other_nomatch.nc".toList = some [5] ∧ rowsAt (exLoad "a/b".toList) (groupsOf exMatch 5 20 40 (exLoad "r".toList) (exLoad "a/b".toList)).2.noMatch = [] := by
  decide +kernel

example : (∀ l ∈ exMatch [1, 2] [3], l.i < [1, 2].length ∧ l.j < [3].length) ∧ (20 : Rat) ≤ 40 ∧
    quickCompare exMatch exLoad 5 20 40 "out".toList "r".toList ["a/b".toList] (fun _ => none) "out/a_b//ref_nomatch.nc".toList = some [2] ∧
    counts (groupsOf exMatch 5 20 40 [1, 2] [3]).1 = [1, 0, 0, 1, 0, 0, 0, 0] := by decide +kernel

/-! ### C141 -/

/-- **C141**: the merged file has the rows of the files one after another, with their variables; in each file the tracks are shifted by one number, no
track is shared by two files; with the option each row has the rotation of its file. Missing: files without observation, `track` not in the variables
asked (`tracks_wrong`). -/
theorem merge_partial {α : Type} (addRotation : Bool) {files : List (File α)} (hne : files ≠ []) (h : ∀ f ∈ files, f.rows ≠ []) :
    ∃ (blocks : List (List (Row α))) (sign : Int), mergeEddies true addRotation files = some (blocks.flatten, sign) ∧ blocks.length = files.length ∧
      (∀ (i : Nat) f b, files[i]? = some f → blocks[i]? = some b →
        ∃ shift, b = f.rows.map (fun r => ⟨r.1 + shift, if addRotation then some f.sign else none, r.2⟩)) ∧
      (∀ (i j : Nat) b b', i ≠ j → blocks[i]? = some b → blocks[j]? = some b' → ∀ x ∈ b, ∀ y ∈ b', x.track ≠ y.track) ∧
      files.head?.map (·.sign) = some sign := by
  have hl : files.map (loadFile true) = files.map (·.rows) := rfl
  obtain ⟨out, e, h1, h2, h3⟩ := Tracks.concatenate_spec_partial (files.map (loadFile true)) (by
    rw [hl]
    intro d hd
    obtain ⟨f, hf, rfl⟩ := List.mem_map.1 hd
    exact h f hf)
  obtain ⟨f0, fs, rfl⟩ := List.exists_cons_of_ne_nil hne
  rw [List.length_map] at h1
  refine ⟨((f0 :: fs).zip out).map (fun p => p.2.map (fun r => Row.mk r.1 (if addRotation then some p.1.sign else none) r.2)), f0.sign, ?_, ?_, ?_, ?_, rfl⟩
  · unfold mergeEddies
    rw [e]
    simp only [Option.bind_eq_bind, Option.bind_some, List.head?_cons, List.flatMap_def]
  · rw [List.length_map, List.length_zip, h1, Nat.min_self]
  · intro i f b hf hb
    have hi : i < out.length := by rw [h1]; exact (List.getElem?_eq_some_iff.1 hf).1
    have hz : ((f0 :: fs).zip out)[i]? = some (f, out[i]) := List.getElem?_zip_eq_some.2 ⟨hf, List.getElem?_eq_getElem hi⟩
    rw [List.getElem?_map, hz, Option.map_some] at hb
    obtain ⟨shift, hs⟩ := h2 i f.rows out[i] (by rw [hl, List.getElem?_map, hf]; rfl) (List.getElem?_eq_getElem hi)
    refine ⟨shift, ?_⟩
    rw [← Option.some.inj hb, hs, List.map_map]
    rfl
  · intro i j b b' hij hb hb' x hx y hy
    have get : ∀ (i : Nat) b, (((f0 :: fs).zip out).map (fun p => p.2.map (fun r => Row.mk r.1 (if addRotation then some p.1.sign else none) r.2)))[i]? = some b →
        ∃ o, out[i]? = some o ∧ ∀ x ∈ b, ∃ r ∈ o, x.track = r.1 := by
      intro i b hb
      rw [List.getElem?_map, Option.map_eq_some_iff] at hb
      obtain ⟨p, hp, rfl⟩ := hb
      obtain ⟨p1, p2⟩ := List.getElem?_zip_eq_some.1 hp
      refine ⟨p.2, p2, fun x hx => ?_⟩
      obtain ⟨r, hr, rfl⟩ := List.mem_map.1 hx
      exact ⟨r, hr, rfl⟩
    obtain ⟨o, ho, k1⟩ := get i b hb
    obtain ⟨o', ho', k2⟩ := get j b' hb'
    obtain ⟨r, hr, e1⟩ := k1 x hx
    obtain ⟨r', hr', e2⟩ := k2 y hy
    rw [e1, e2]
    exact h3 i j o o' hij ho ho' r hr r' hr'

/-- Two files of opposite rotations. -/
def exFiles : List (File Char) := [⟨1, [(0, 'a'), (0, 'b'), (2, 'c')]⟩, ⟨-1, [(1, 'd'), (3, 'e')]⟩]

example : mergeEddies true true exFiles = some ([⟨0, some 1, 'a'⟩, ⟨0, some 1, 'b'⟩, ⟨2, some 1, 'c'⟩, ⟨4, some (-1), 'd'⟩, ⟨6, some (-1), 'e'⟩], 1) := by
  decide

/-- **C141** refuted when `track` is not among the variables asked: all the trajectories of a file become one. -/
theorem tracks_wrong : mergeEddies false false exFiles = some ([⟨0, none, 'a'⟩, ⟨0, none, 'b'⟩, ⟨0, none, 'c'⟩, ⟨1, none, 'd'⟩, ⟨1, none, 'e'⟩], 1) := by decide

/-- **C141** refuted without the option: the result is the same whatever the rotation of the files after the first one, it says the rotation of the
first one. -/
theorem rotation_wrong {α : Type} (withTrack : Bool) (f g : File α) (s s' : Int) :
    mergeEddies withTrack false [f, { g with sign := s }] = mergeEddies withTrack false [f, { g with sign := s' }] ∧
      ∀ r, mergeEddies withTrack false [f, g] = some r → r.2 = f.sign := by
  constructor
  · unfold mergeEddies
    have : ([f, { g with sign := s }] : List (File α)).map (loadFile withTrack) = ([f, { g with sign := s' }] : List (File α)).map (loadFile withTrack) := rfl
    rw [this]
    cases Tracks.concatenate (([f, { g with sign := s' }] : List (File α)).map (loadFile withTrack)) with
    | none => rfl
    | some b =>
      cases b with
      | nil => rfl
      | cons x b => cases b with
        | nil => rfl
        | cons y b => rfl
  · intro r hr
    unfold mergeEddies at hr
    cases e : Tracks.concatenate (([f, g] : List (File α)).map (loadFile withTrack)) with
    | none => rw [e] at hr; cases hr
    | some b =>
      rw [e] at hr
      simp only [Option.bind_eq_bind, Option.bind_some, List.head?_cons, Option.some.injEq] at hr
      rw [← hr]

end Verif.Tools
