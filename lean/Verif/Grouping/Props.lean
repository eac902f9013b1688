import Verif.Grouping.Model
import Verif.Network.GroupProps
import Verif.Match.Props
import Mathlib.Data.List.Perm.Subperm

/-!
# Properties C90, C91: the building of a network dataset
-/

namespace Verif.Grouping

open Verif.Match Verif.Group

/-! ### C90: the new positions -/

theorem firstPos_eq (gr : List Nat) : ∀ g, firstPos gr g = gr.countP (fun x => decide (x < g))
  | 0 => by simp [firstPos]
  | g + 1 => by
    have ih := firstPos_eq gr g
    unfold firstPos at *
    rw [List.range_succ, List.map_append, List.sum_append, ih]
    simp only [List.map_cons, List.map_nil, List.sum_cons, List.sum_nil, Nat.add_zero]
    clear ih
    induction gr with
    | nil => rfl
    | cons x l ih =>
      simp only [List.countP_cons, List.count_cons]
      by_cases h1 : x < g
      · rw [if_pos (by simpa using h1), if_neg (by simp; omega), if_pos (by simp; omega)]; omega
      · by_cases h2 : x = g
        · rw [if_neg (by simpa using h1), if_pos (by simpa using h2), if_pos (by simp; omega)]; omega
        · rw [if_neg (by simpa using h1), if_neg (by simpa using h2), if_neg (by simp; omega)]; omega

theorem nextLoop_get : ∀ (l : List Nat) (pos : Nat → Nat) (i g : Nat), l[i]? = some g → (nextLoop pos l)[i]? = some (pos g + (l.take i).count g)
  | [], _, _, _, h => by simp at h
  | x :: l, pos, 0, g, h => by
    simp only [List.getElem?_cons_zero, Option.some.injEq] at h
    subst h
    simp [nextLoop]
  | x :: l, pos, i + 1, g, h => by
    rw [List.getElem?_cons_succ] at h
    rw [nextLoop, List.getElem?_cons_succ, nextLoop_get l _ i g h, List.take_succ_cons, List.count_cons]
    congr 1
    by_cases hx : x = g
    · subst hx; simp; omega
    · rw [Function.update_of_ne (Ne.symm hx)]; simp [hx]

theorem nextLoop_length : ∀ (l : List Nat) (pos : Nat → Nat), (nextLoop pos l).length = l.length
  | [], _ => rfl
  | _ :: l, pos => by simp [nextLoop, nextLoop_length l]

theorem count_take_succ {l : List Nat} {i g : Nat} (h : l[i]? = some g) : (l.take (i + 1)).count g = (l.take i).count g + 1 := by
  rw [List.take_add_one, h]
  simp

theorem count_take_le {l : List Nat} {g i j : Nat} (h : i ≤ j) : (l.take i).count g ≤ (l.take j).count g :=
  (List.take_sublist_take_left h).count_le g

/-- **C90** (positions): each observation has a new position, and the new positions are in the order of the groups and, in a group, in the order of the
observations. -/
theorem next_index_spec (gr : List Nat) : (getNextIndex gr).length = gr.length ∧ (getNextIndex gr).Perm (List.range gr.length) ∧
    ∀ (i j gi gj pi pj : Nat), gr[i]? = some gi → gr[j]? = some gj → (getNextIndex gr)[i]? = some pi → (getNextIndex gr)[j]? = some pj →
      (pi < pj ↔ gi < gj ∨ gi = gj ∧ i < j) := by
  have hlen : (getNextIndex gr).length = gr.length := nextLoop_length _ _
  have hval : ∀ (i gi pi : Nat), gr[i]? = some gi → (getNextIndex gr)[i]? = some pi → pi = gr.countP (fun x => decide (x < gi)) + (gr.take i).count gi := by
    intro i gi pi h1 h2
    have h := nextLoop_get gr (firstPos gr) i gi h1
    rw [show nextLoop (firstPos gr) gr = getNextIndex gr from rfl, h2, firstPos_eq] at h
    exact Option.some.inj h
  have hsucc : ∀ g, gr.countP (fun x => decide (x < g + 1)) = gr.countP (fun x => decide (x < g)) + gr.count g := by
    intro g
    rw [← firstPos_eq, ← firstPos_eq]
    unfold firstPos
    rw [List.range_succ, List.map_append, List.sum_append]
    simp
  have hmono : ∀ a b, a ≤ b → gr.countP (fun x => decide (x < a)) ≤ gr.countP (fun x => decide (x < b)) := by
    intro a b hab
    apply List.countP_mono_left
    intro x _ hx
    simp only [decide_eq_true_eq] at hx ⊢
    omega
  have hlt : ∀ (i gi pi : Nat), gr[i]? = some gi → (getNextIndex gr)[i]? = some pi → pi < gr.countP (fun x => decide (x < gi + 1)) := by
    intro i gi pi h1 h2
    rw [hval i gi pi h1 h2, hsucc]
    have a := count_take_succ h1
    have b := (List.take_sublist (i + 1) gr).count_le gi
    omega
  have key : ∀ (i j gi gj pi pj : Nat), gr[i]? = some gi → gr[j]? = some gj → (getNextIndex gr)[i]? = some pi → (getNextIndex gr)[j]? = some pj →
      (gi < gj ∨ gi = gj ∧ i < j) → pi < pj := by
    intro i j gi gj pi pj h1 h2 h3 h4 h
    rcases h with h | ⟨rfl, h⟩
    · have a := hlt i gi pi h1 h3
      have b := hmono (gi + 1) gj h
      have c := hval j gj pj h2 h4
      omega
    · have a := hval i gi pi h1 h3
      have c := hval j gi pj h2 h4
      have b := count_take_succ h1
      have d := count_take_le (l := gr) (g := gi) (show i + 1 ≤ j from h)
      omega
  have hall : ∀ (i j gi gj pi pj : Nat), gr[i]? = some gi → gr[j]? = some gj → (getNextIndex gr)[i]? = some pi → (getNextIndex gr)[j]? = some pj →
      (pi < pj ↔ gi < gj ∨ gi = gj ∧ i < j) := by
    intro i j gi gj pi pj h1 h2 h3 h4
    constructor
    · intro hp
      by_contra hn
      by_cases he : gi = gj ∧ i = j
      · obtain ⟨rfl, rfl⟩ := he
        rw [h3] at h4
        have := Option.some.inj h4
        omega
      · have := key j i gj gi pj pi h2 h1 h4 h3 (by omega)
        omega
    · exact key i j gi gj pi pj h1 h2 h3 h4
  refine ⟨hlen, ?_, hall⟩
  have hnd : (getNextIndex gr).Nodup := by
    rw [List.nodup_iff_injective_getElem]
    intro a b hab
    have ha : a.1 < gr.length := by have := a.2; omega
    have hb : b.1 < gr.length := by have := b.2; omega
    by_contra hne
    have hne' : a.1 ≠ b.1 := fun e => hne (Fin.ext e)
    have e1 : gr[a.1]? = some gr[a.1] := List.getElem?_eq_getElem ha
    have e2 : gr[b.1]? = some gr[b.1] := List.getElem?_eq_getElem hb
    have e3 : (getNextIndex gr)[a.1]? = some (getNextIndex gr)[a.1] := List.getElem?_eq_getElem a.2
    have e4 : (getNextIndex gr)[b.1]? = some (getNextIndex gr)[b.1] := List.getElem?_eq_getElem b.2
    have k1 := hall _ _ _ _ _ _ e1 e2 e3 e4
    have k2 := hall _ _ _ _ _ _ e2 e1 e4 e3
    simp only at hab
    omega
  have hsub : getNextIndex gr ⊆ List.range gr.length := by
    intro p hp
    obtain ⟨i, hi⟩ := List.mem_iff_getElem?.1 hp
    have hi' : i < gr.length := by rw [← hlen]; exact (List.getElem?_eq_some_iff.1 hi).1
    have := hlt i gr[i] p (List.getElem?_eq_getElem hi') hi
    rw [List.mem_range]
    exact lt_of_lt_of_le this List.countP_le_length
  exact (hnd.subperm hsub).perm_of_length_le (by simp [hlen])

example : getNextIndex [2, 0, 2, 1, 0] = [3, 0, 4, 2, 1] := by decide

/-! ### C90: the dataset -/

theorem scatter_append {α : Type} (f : Nat → α) (a b : List (Nat × α)) : scatter f (a ++ b) = scatter (scatter f a) b := by
  unfold scatter
  rw [List.foldl_append]

theorem copyFiles_eq {α : Type} (newI : List Nat) : ∀ (fs : List (List α)) (a : Nat → α) (i : Nat), i + fs.flatten.length ≤ newI.length →
    copyFiles newI a i fs = scatter a ((newI.drop i).zip fs.flatten)
  | [], a, i, _ => by simp [copyFiles]
  | f :: fs, a, i, h => by
    rw [List.flatten_cons, List.length_append] at h
    rw [copyFiles, copyFiles_eq newI fs _ _ (by omega), ← scatter_append]
    congr 1
    have e : newI.drop i = (newI.drop i).take f.length ++ newI.drop (i + f.length) := by
      conv_lhs => rw [← List.take_append_drop f.length (newI.drop i)]
      rw [List.drop_drop]
    conv_rhs => rw [e, List.flatten_cons]
    rw [List.zip_append (by simp; omega)]

theorem scatter_zip {α : Type} (f : Nat → α) {idx : List Nat} {vals : List α} (hn : idx.Nodup) {k p : Nat} {v : α} (h1 : idx[k]? = some p)
    (h2 : vals[k]? = some v) : scatter f (idx.zip vals) p = v := by
  have hmem : (p, v) ∈ idx.zip vals := by
    rw [List.mem_iff_getElem?]
    exact ⟨k, by rw [List.getElem?_zip_eq_some]; exact ⟨h1, h2⟩⟩
  have := scatter_mem (idx.zip vals) f p ⟨_, hmem, rfl⟩
  obtain ⟨m, hm⟩ := List.mem_iff_getElem?.1 this
  rw [List.getElem?_zip_eq_some] at hm
  simp only at hm
  obtain ⟨m1, m2⟩ := hm
  have hk := (List.getElem?_eq_some_iff.1 h1)
  have hm' := (List.getElem?_eq_some_iff.1 m1)
  have : k = m := by
    apply (List.Nodup.getElem_inj_iff hn (hi := hk.1) (hj := hm'.1)).1
    rw [hk.2, hm'.2]
  subst this
  rw [h2] at m2
  exact (Option.some.inj m2).symm

/-- **C90**: the dataset holds each observation of the files once, with its group as track; the tracks are sorted and, in a track, the observations are in
the order of the files. -/
theorem build_dataset_spec {α : Type} (zero : α) {files : List (List α)} {group : List Nat} (hf : files ≠ []) (hg : group.length = files.flatten.length) :
    ∃ out, buildDataset zero files group = some out ∧ out.Perm (files.flatten.zip group) ∧ (out.map (·.2)).Pairwise (· ≤ ·) ∧
      ∀ g, out.filter (fun r => decide (r.2 = g)) = (files.flatten.zip group).filter (fun r => decide (r.2 = g)) := by
  obtain ⟨hlen, hperm, hord⟩ := next_index_spec group
  have hnd : (getNextIndex group).Nodup := hperm.nodup_iff.2 List.nodup_range
  set n := group.length with hn
  have hrows : ∀ (k p : Nat) (r : α) (g : Nat), (getNextIndex group)[k]? = some p → files.flatten[k]? = some r → group[k]? = some g →
      copyFiles (getNextIndex group) (fun _ => zero) 0 files p = r ∧ scatter (fun _ => 0) ((getNextIndex group).zip group) p = g := by
    intro k p r g h1 h2 h3
    rw [copyFiles_eq _ _ _ _ (by omega), List.drop_zero]
    exact ⟨scatter_zip _ hnd h1 h2, scatter_zip _ hnd h1 h3⟩
  -- the new row at each position
  let F : Nat → α × Nat := fun p => (copyFiles (getNextIndex group) (fun _ => zero) 0 files p, scatter (fun _ => 0) ((getNextIndex group).zip group) p)
  have hrun : buildDataset zero files group = some ((List.range n).map F) := by
    unfold buildDataset
    rw [if_neg (by rintro (h | h); exact hf h; omega)]
  have hzip : (getNextIndex group).map F = files.flatten.zip group := by
    apply List.ext_getElem?
    intro k
    rw [List.getElem?_map]
    by_cases hk : k < n
    · have e1 : (getNextIndex group)[k]? = some ((getNextIndex group)[k]'(by omega)) := List.getElem?_eq_getElem _
      have e2 : files.flatten[k]? = some (files.flatten[k]'(by omega)) := List.getElem?_eq_getElem _
      have e3 : group[k]? = some (group[k]'(by omega)) := List.getElem?_eq_getElem _
      have h := hrows _ _ _ _ e1 e2 e3
      rw [(List.getElem?_zip_eq_some (z := (files.flatten[k]'(by omega), group[k]'(by omega)))).2 ⟨e2, e3⟩, e1]
      simp only [Option.map_some, F, h.1, h.2]
    · rw [List.getElem?_eq_none (by omega), List.getElem?_eq_none (by simp; omega)]; rfl
  -- the old number of each position
  obtain ⟨inv, hinv⟩ : ∃ inv : Nat → Nat, ∀ p, p < n → (getNextIndex group)[inv p]? = some p := by
    have : ∀ p, ∃ k : Nat, p < n → (getNextIndex group)[k]? = some p := by
      intro p
      by_cases hp : p < n
      · have : p ∈ getNextIndex group := hperm.mem_iff.2 (List.mem_range.2 hp)
        obtain ⟨k, hk⟩ := List.mem_iff_getElem?.1 this
        exact ⟨k, fun _ => hk⟩
      · exact ⟨0, fun h => absurd h hp⟩
    exact ⟨fun p => (this p).choose, fun p => (this p).choose_spec⟩
  have hlt : ∀ p, p < n → inv p < n := by
    intro p hp
    have := (List.getElem?_eq_some_iff.1 (hinv p hp)).1
    omega
  have hF : ∀ (p g : Nat), p < n → group[inv p]? = some g → (F p).2 = g := by
    intro p g hp hg'
    have e2 : files.flatten[inv p]? = some (files.flatten[inv p]'(by have := hlt p hp; omega)) := List.getElem?_eq_getElem _
    exact (hrows _ _ _ _ (hinv p hp) e2 hg').2
  have hmono : ∀ p q, p < q → q < n → (F p).2 < (F q).2 ∨ (F p).2 = (F q).2 ∧ inv p < inv q := by
    intro p q hpq hq
    have e1 : group[inv p]? = some (group[inv p]'(hlt p (by omega))) := List.getElem?_eq_getElem _
    have e2 : group[inv q]? = some (group[inv q]'(hlt q hq)) := List.getElem?_eq_getElem _
    rw [hF p _ (by omega) e1, hF q _ hq e2]
    exact (hord _ _ _ _ _ _ e1 e2 (hinv p (by omega)) (hinv q hq)).1 hpq
  refine ⟨_, hrun, ?_, ?_, ?_⟩
  · rw [← hzip]
    exact (hperm.map F).symm
  · rw [List.map_map, List.pairwise_map]
    refine List.Pairwise.imp_of_mem ?_ (List.pairwise_lt_range (n := n))
    intro p q hp hq hpq
    rcases hmono p q hpq (List.mem_range.1 hq) with h | h
    · exact le_of_lt h
    · exact le_of_eq h.1
  · intro g
    -- positions of the group g, before and after
    have hz : (files.flatten.zip group) = (List.range n).map (fun k => F ((getNextIndex group).getD k 0)) := by
      rw [← hzip]
      apply List.ext_getElem?
      intro k
      rw [List.getElem?_map, List.getElem?_map]
      by_cases hk : k < n
      · rw [List.getElem?_eq_getElem (by omega : k < (getNextIndex group).length), List.getElem?_range hk]
        simp [List.getD_eq_getElem?_getD, List.getElem?_eq_getElem (by omega : k < (getNextIndex group).length)]
      · rw [List.getElem?_eq_none (by omega), List.getElem?_eq_none (by simp; omega)]; rfl
    have hid : ∀ p, p < n → (getNextIndex group).getD (inv p) 0 = p := by
      intro p hp
      rw [List.getD_eq_getElem?_getD, hinv p hp]; rfl
    rw [hz, List.filter_map, List.filter_map]
    have hmain : (((List.range n).filter ((fun r : α × Nat => decide (r.2 = g)) ∘ F)).map inv) =
        (List.range n).filter ((fun r : α × Nat => decide (r.2 = g)) ∘ (fun k => F ((getNextIndex group).getD k 0))) := by
      apply List.Perm.eq_of_pairwise (le := (· ≤ ·))
      · intro a b _ _ h1 h2; omega
      · rw [List.pairwise_map]
        refine List.Pairwise.imp_of_mem ?_ ((List.pairwise_lt_range (n := n)).filter _)
        intro p q hp hq hpq
        rw [List.mem_filter, List.mem_range] at hp hq
        have gp : (F p).2 = g := by simpa using hp.2
        have gq : (F q).2 = g := by simpa using hq.2
        rcases hmono p q hpq hq.1 with h | h
        · omega
        · exact le_of_lt h.2
      · exact ((List.pairwise_lt_range (n := n)).filter _).imp le_of_lt
      · rw [List.perm_ext_iff_of_nodup]
        · intro k
          rw [List.mem_map, List.mem_filter, List.mem_range]
          constructor
          · rintro ⟨p, hp, rfl⟩
            rw [List.mem_filter, List.mem_range] at hp
            refine ⟨hlt p hp.1, ?_⟩
            simp only [Function.comp_apply, hid p hp.1]
            exact hp.2
          · rintro ⟨hk, hg'⟩
            have e1 : (getNextIndex group)[k]? = some ((getNextIndex group)[k]'(by omega)) := List.getElem?_eq_getElem _
            have hp : (getNextIndex group)[k]'(by omega) < n := List.mem_range.1 (hperm.mem_iff.1 (List.getElem_mem _))
            refine ⟨(getNextIndex group)[k]'(by omega), ?_, ?_⟩
            · rw [List.mem_filter, List.mem_range]
              refine ⟨hp, ?_⟩
              simp only [Function.comp_apply, List.getD_eq_getElem?_getD, e1] at hg'
              exact hg'
            · have h := hinv _ hp
              have h' := (List.getElem?_eq_some_iff.1 h)
              exact (List.Nodup.getElem_inj_iff hnd (hi := h'.1) (hj := by omega)).1 h'.2
        · refine List.Nodup.map_on ?_ (List.nodup_range.filter _)
          intro p hp q hq hpq
          rw [List.mem_filter, List.mem_range] at hp hq
          have a := hinv p hp.1
          rw [hpq, hinv q hq.1] at a
          exact (Option.some.inj a).symm
        · exact List.nodup_range.filter _
    rw [← hmain, List.map_map]
    apply List.map_congr_left
    intro p hp
    rw [List.mem_filter, List.mem_range] at hp
    simp only [Function.comp_apply, hid p hp.1]

example : buildDataset 0 [[10, 11], [20], [30, 31]] [2, 0, 2, 1, 0] = some [(11, 0), (31, 0), (30, 1), (10, 2), (20, 2)] := by decide

/-! ### C91: the groups -/

/-- Two observations of two files at most `window` files apart have an overlap: in some turn of the longitudes the documented score is not 0. -/
def Overlap (g : Areas) (o : Options) (window : Nat) (files : List (List (List Poly.Pt))) (i a j b : Nat) : Prop :=
  i < j ∧ j ≤ i + window ∧ ∃ fi fj c d, files[i]? = some fi ∧ files[j]? = some fj ∧ fi[a]? = some c ∧ fj[b]? = some d ∧ ∃ k, scoreAt g o k c d ≠ 0

/-- Number of an observation in the whole dataset: the observations of the files before, then its row. -/
def number (files : List (List (List Poly.Pt))) (i a : Nat) : Nat := ((files.take i).map List.length).sum + a

/-- All the contours have points and are narrow (together less than 180 degrees). -/
def Usual (files : List (List (List Poly.Pt))) : Prop :=
  (∀ f ∈ files, [] ∉ f) ∧ ∀ f ∈ files, ∀ f' ∈ files, ∀ c ∈ f, ∀ d ∈ f', Narrow c d

theorem mem_results {g : Areas} {o : Options} {window : Nat} {files : List (List (List Poly.Pt))} (r : Result) :
    r ∈ results g o window files ↔ r.i < r.j ∧ r.j ≤ r.i + window ∧ r.j < files.length ∧
      r.pairs = comparePair g o (files.getD r.i []) (files.getD r.j []) := by
  unfold results
  simp only [List.mem_flatMap, List.mem_map, List.mem_range, List.mem_range'_1]
  constructor
  · rintro ⟨i, hi, j, hj, rfl⟩
    refine ⟨?_, ?_, ?_, rfl⟩ <;> simp only <;> omega
  · rintro ⟨h1, h2, h3, h4⟩
    refine ⟨r.i, by omega, r.j, by omega, ?_⟩
    rw [← h4]

theorem mem_comparePair {g : Areas} (hg : Coherent g) (o : Options) {li lj : List (List Poly.Pt)} (h0 : [] ∉ li) (h1 : [] ∉ lj)
    (hw : ∀ c ∈ li, ∀ d ∈ lj, Narrow c d) (a b : Nat) :
    (a, b) ∈ comparePair g o li lj ↔ ∃ c d, li[a]? = some c ∧ lj[b]? = some d ∧ ∃ k, scoreAt g o k c d ≠ 0 := by
  unfold comparePair bboxIntersection
  rw [List.mem_filter, mem_couples, decide_eq_true_eq]
  have hov : ∀ c d, li[a]? = some c → lj[b]? = some d → c ≠ [] ∧ d ≠ [] ∧ Narrow c d ∧
      overlap g o (li.getD a []) (lj.getD b []) = overlap g o c d := by
    intro c d hc hd
    have hcm := List.mem_of_getElem? hc
    have hdm := List.mem_of_getElem? hd
    refine ⟨fun e => h0 (e ▸ hcm), fun e => h1 (e ▸ hdm), hw c hcm d hdm, ?_⟩
    rw [List.getD_eq_getElem?_getD, List.getD_eq_getElem?_getD, hc, hd]; rfl
  constructor
  · rintro ⟨⟨c, d, hc, hd, ht⟩, hs⟩
    obtain ⟨nc, nd, nw, e⟩ := hov c d hc hd
    obtain ⟨k, hk⟩ := (box_test_partial nc nd nw).1 ht
    simp only at hs
    rw [e, overlap_eq hg o nc nd nw hk] at hs
    exact ⟨c, d, hc, hd, k, hs⟩
  · rintro ⟨c, d, hc, hd, k, hs⟩
    obtain ⟨nc, nd, nw, e⟩ := hov c d hc hd
    have hk : BoxesMeet c (turned k d) := by
      by_contra hn
      apply hs
      unfold scoreAt
      rw [hg.apart _ _ hn, if_neg (by simp)]
    refine ⟨⟨c, d, hc, hd, (box_test_partial nc nd nw).2 ⟨k, hk⟩⟩, ?_⟩
    simp only
    rw [e, overlap_eq hg o nc nd nw hk]
    exact hs

theorem results_valid {g : Areas} {o : Options} {window : Nat} {files : List (List (List Poly.Pt))} :
    Valid (files.map List.length) (results g o window files) := by
  intro r hr
  obtain ⟨h1, h2, h3, h4⟩ := (mem_results r).1 hr
  have hi : r.i < files.length := by omega
  refine ⟨(files[r.i]).length, (files[r.j]).length, by simp [hi], by simp [h3], ?_⟩
  intro p hp
  rw [h4] at hp
  unfold comparePair bboxIntersection at hp
  obtain ⟨c, d, hc, hd, _⟩ := (mem_couples _ _ _ p.1 p.2).1 (List.mem_filter.1 hp).1
  rw [List.getD_eq_getElem?_getD, List.getElem?_eq_getElem hi] at hc
  rw [List.getD_eq_getElem?_getD, List.getElem?_eq_getElem h3] at hd
  exact ⟨(List.getElem?_eq_some_iff.1 hc).1, (List.getElem?_eq_some_iff.1 hd).1⟩

/-- The pairs joined are exactly the overlaps. -/
theorem mem_allPairs {g : Areas} (hg : Coherent g) (o : Options) (window : Nat) {files : List (List (List Poly.Pt))} (hu : Usual files) (x y : Nat) :
    (x, y) ∈ allPairs (files.map List.length) (results g o window files) ↔
      ∃ i a j b, Overlap g o window files i a j b ∧ x = number files i a ∧ y = number files j b := by
  unfold allPairs number
  rw [List.mem_flatMap]
  have hc : ∀ i j, i < files.length → j < files.length → ∀ a b, (a, b) ∈ comparePair g o (files.getD i []) (files.getD j []) ↔
      ∃ fi fj c d, files[i]? = some fi ∧ files[j]? = some fj ∧ fi[a]? = some c ∧ fj[b]? = some d ∧ ∃ k, scoreAt g o k c d ≠ 0 := by
    intro i j hi hj a b
    have ei : files.getD i [] = files[i] := by simp [List.getD_eq_getElem?_getD, hi]
    have ej : files.getD j [] = files[j] := by simp [List.getD_eq_getElem?_getD, hj]
    rw [ei, ej, mem_comparePair hg o (hu.1 _ (List.getElem_mem hi)) (hu.1 _ (List.getElem_mem hj))
      (hu.2 _ (List.getElem_mem hi) _ (List.getElem_mem hj))]
    constructor
    · rintro ⟨c, d, h1, h2, h3⟩
      exact ⟨_, _, c, d, List.getElem?_eq_getElem hi, List.getElem?_eq_getElem hj, h1, h2, h3⟩
    · rintro ⟨fi, fj, c, d, e1, e2, h1, h2, h3⟩
      rw [List.getElem?_eq_getElem hi] at e1
      rw [List.getElem?_eq_getElem hj] at e2
      obtain rfl := Option.some.inj e1
      obtain rfl := Option.some.inj e2
      exact ⟨c, d, h1, h2, h3⟩
  constructor
  · rintro ⟨r, hr, hp⟩
    obtain ⟨⟨a, b⟩, hab, e⟩ := List.mem_map.1 hp
    obtain ⟨h1, h2, h3, h4⟩ := (mem_results r).1 hr
    rw [h4] at hab
    simp only [Prod.mk.injEq, ← List.map_take] at e
    exact ⟨r.i, a, r.j, b, ⟨h1, h2, (hc _ _ (by omega) h3 a b).1 hab⟩, e.1.symm, e.2.symm⟩
  · rintro ⟨i, a, j, b, ⟨h1, h2, h3⟩, rfl, rfl⟩
    have hj : j < files.length := by
      obtain ⟨_, fj, _, _, _, e, _⟩ := h3
      exact (List.getElem?_eq_some_iff.1 e).1
    refine ⟨⟨i, j, comparePair g o (files.getD i []) (files.getD j [])⟩, (mem_results _).2 ⟨h1, h2, hj, rfl⟩, ?_⟩
    rw [List.mem_map]
    refine ⟨(a, b), (hc i j (by omega) hj a b).2 h3, ?_⟩
    simp [List.map_take]

theorem mapM_length {α β : Type} {f : α → Option β} : ∀ {l : List α} {out : List β}, l.mapM f = some out → out.length = l.length
  | [], out, h => by
    rw [List.mapM_nil] at h
    obtain rfl := Option.some.inj h
    rfl
  | a :: l, out, h => by
    rw [List.mapM_cons] at h
    obtain ⟨b, _, h⟩ := Option.bind_eq_some_iff.1 h
    obtain ⟨bs, h1, h⟩ := Option.bind_eq_some_iff.1 h
    obtain rfl := Option.some.inj h
    simp [mapM_length h1]

/-- **C91**: `group_observations` gives one label by observation of the files; the label is 0 exactly for the observations without overlap with a file at
most `window` files before or after; two observations which have overlaps have the same label exactly when a chain of overlaps joins them.
Missing: wide contours (property C74). -/
theorem group_observations_partial {g : Areas} (hg : Coherent g) (o : Options) (window : Nat) {files : List (List (List Poly.Pt))} (hu : Usual files) :
    ∃ out, groupObservations g o window files = some out ∧ out.length = (files.map List.length).sum ∧
      (∀ x v, out[x]? = some v → (v = 0 ↔ ∀ i a j b, Overlap g o window files i a j b → x ≠ number files i a ∧ x ≠ number files j b)) ∧
      ∀ x y vx vy, out[x]? = some vx → out[y]? = some vy → vx ≠ 0 → vy ≠ 0 →
        (vx = vy ↔ Relation.EqvGen (fun x y => ∃ i a j b, Overlap g o window files i a j b ∧ x = number files i a ∧ y = number files j b) x y) := by
  obtain ⟨out, e, h1, h2, h3⟩ := get_group_array_components _ _ (results_valid (g := g) (o := o) (window := window) (files := files))
  have hlen : out.length = (files.map List.length).sum := by
    unfold getGroupArray at e
    obtain ⟨bs, e1, e2⟩ := Option.bind_eq_some_iff.1 e
    obtain ⟨t, e3, e4⟩ := Option.bind_eq_some_iff.1 e2
    have := mapM_length e4
    simpa using this
  have hrel : Conn (allPairs (files.map List.length) (results g o window files)) =
      Relation.EqvGen (fun x y => ∃ i a j b, Overlap g o window files i a j b ∧ x = number files i a ∧ y = number files j b) := by
    unfold Conn
    congr 1
    funext x y
    exact propext (mem_allPairs hg o window hu x y)
  refine ⟨out, e, hlen, ?_, ?_⟩
  · intro x v hx
    have hx' : x < (files.map List.length).sum := by rw [← hlen]; exact (List.getElem?_eq_some_iff.1 hx).1
    rw [h2 x v hx' hx]
    constructor
    · intro h i a j b hov
      have := h _ ((mem_allPairs hg o window hu _ _).2 ⟨i, a, j, b, hov, rfl, rfl⟩)
      exact ⟨Ne.symm this.1, Ne.symm this.2⟩
    · rintro h ⟨p, q⟩ hp
      obtain ⟨i, a, j, b, hov, e1, e2⟩ := (mem_allPairs hg o window hu _ _).1 hp
      have := h i a j b hov
      simp only
      rw [e1, e2]
      exact ⟨Ne.symm this.1, Ne.symm this.2⟩
  · intro x y vx vy hx hy nx ny
    have hx' : x < (files.map List.length).sum := by rw [← hlen]; exact (List.getElem?_eq_some_iff.1 hx).1
    have hy' : y < (files.map List.length).sum := by rw [← hlen]; exact (List.getElem?_eq_some_iff.1 hy).1
    rw [h3 x y vx vy hx' hy' hx hy nx ny, hrel]

/-- **C90** and **C91** together: the network dataset built from the files holds each observation once, sorted by track; the tracks are the ones
of the chains of overlaps. -/
theorem network_partial {α : Type} (zero : α) {g : Areas} (hg : Coherent g) (o : Options) (window : Nat) {files : List (List (List Poly.Pt))} (hu : Usual files)
    (hf : files ≠ []) {rows : List (List α)} (hr : rows.map List.length = files.map List.length) :
    ∃ group out, groupObservations g o window files = some group ∧ buildDataset zero rows group = some out ∧ out.Perm (rows.flatten.zip group) ∧
      (out.map (·.2)).Pairwise (· ≤ ·) ∧
      ∀ x y vx vy, group[x]? = some vx → group[y]? = some vy → vx ≠ 0 → vy ≠ 0 →
        (vx = vy ↔ Relation.EqvGen (fun x y => ∃ i a j b, Overlap g o window files i a j b ∧ x = number files i a ∧ y = number files j b) x y) := by
  obtain ⟨group, e, hl, _, h⟩ := group_observations_partial hg o window hu
  have hr' : rows ≠ [] := by
    rintro rfl
    simp only [List.map_nil] at hr
    exact hf (List.map_eq_nil_iff.1 hr.symm)
  obtain ⟨out, e', hp, hs, _⟩ := build_dataset_spec zero hr' (group := group) (by rw [List.length_flatten, hr, hl])
  exact ⟨group, out, e, e', hp, hs, h⟩

open Classical in
/-- Areas of 1, which meet when the boxes meet. -/
noncomputable def unitAreas : Areas := ⟨fun _ => 1, fun c d => if BoxesMeet c d then 1 else 0⟩

/-- Non-vacuity: coherent areas, usual contours and an overlap across the turn of the longitudes. -/
example : Coherent unitAreas ∧ Usual [[[(359, 0), (361, 0), (360, 1)]], [[(0, 0), (1, 1), (-1, 1)]]] ∧
    Overlap unitAreas { minOverlap := 1 / 5 } 5 [[[(359, 0), (361, 0), (360, 1)]], [[(0, 0), (1, 1), (-1, 1)]]] 0 0 1 0 := by
  refine ⟨⟨?_, ?_, ?_, ?_⟩, ⟨?_, ?_⟩, ?_⟩
  · intro c d; unfold unitAreas; simp only; split <;> norm_num
  · intro c d; unfold unitAreas; simp only; split <;> norm_num
  · intro c d; unfold unitAreas; simp only; split <;> norm_num
  · intro c d h; unfold unitAreas; simp only; rw [if_neg h]
  · decide
  · unfold Narrow; decide +kernel
  · refine ⟨by omega, by omega, _, _, _, _, rfl, rfl, rfl, rfl, 1, ?_⟩
    have hb : BoxesMeet [(359, 0), (361, 0), (360, 1)] (turned 1 [(0, 0), (1, 1), (-1, 1)]) := by
      constructor <;> (unfold turned; norm_num)
    have hi : unitAreas.inter [(359, 0), (361, 0), (360, 1)] (turned 1 [(0, 0), (1, 1), (-1, 1)]) = 1 := if_pos hb
    unfold scoreAt
    rw [hi, if_pos ⟨by norm_num, Or.inl (by norm_num [ratio, unitAreas])⟩]
    norm_num [ratio, unitAreas]

end Verif.Grouping
