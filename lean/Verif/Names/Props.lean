import Verif.Names.Model
import Verif.Subset.Props
import Verif.Match.Close

/-!
# C138, C139: names of files and networks close to another atlas
-/

namespace Verif.Names

open Verif.Links (Row Valid Image IsTake)
open Verif.Subset (Obs Selected tracks)

/-! ### Names -/

theorem replaceNc_eq_cons (c : Char) (l : List Char) (h : ∀ t, c = '.' → l ≠ 'n' :: 'c' :: t) : replaceNc (c :: l) = c :: replaceNc l :=
  replaceNc.eq_3 c l (fun t h1 h2 => h t h1 h2)

/-- The first ".nc" is replaced. -/
theorem replaceNc_append : ∀ (b l : List Char), ¬ nc <:+: b → replaceNc (b ++ nc ++ l) = b ++ zarr ++ replaceNc l
  | [], l, _ => rfl
  | c :: b, l, h => by
    have hb : ¬ nc <:+: b := fun h' => h (h'.trans (List.suffix_cons c b).isInfix)
    rw [List.cons_append, List.cons_append, replaceNc_eq_cons, replaceNc_append b l hb]
    · rfl
    · intro t hc he
      subst hc
      match b with
      | [] => simp [nc] at he
      | [x] => simp [nc] at he
      | x :: y :: b =>
        simp only [List.cons_append, List.cons.injEq] at he
        apply h
        rw [he.1, he.2.1]
        exact List.IsPrefix.isInfix ⟨b, rfl⟩

/-- Without ".nc" the name is the same. -/
theorem replaceNc_self : ∀ (b : List Char), ¬ nc <:+: b → replaceNc b = b
  | [], _ => rfl
  | c :: b, h => by
    have hb : ¬ nc <:+: b := fun h' => h (h'.trans (List.suffix_cons c b).isInfix)
    rw [replaceNc_eq_cons, replaceNc_self b hb]
    intro t hc he
    apply h
    rw [hc, he]
    exact List.IsPrefix.isInfix ⟨t, rfl⟩

theorem replaceNc_nil {l : List Char} (h : replaceNc l = []) : l = [] := by
  cases l using replaceNc.fun_cases with
  | case1 => rfl
  | case2 l => simp [replaceNc, zarr] at h
  | case3 c l hc =>
    rw [replaceNc_eq_cons c l (fun t h1 h2 => hc t h1 h2)] at h
    simp at h

/-- A result without point comes from itself. -/
theorem replaceNc_plain {l r : List Char} (hr : '.' ∉ r) (h : replaceNc l = r) : l = r := by
  by_cases hl : nc <:+: l
  · exfalso
    apply hr
    rw [← h]
    clear h hr
    induction l using replaceNc.induct with
    | case1 => exact absurd hl (by decide)
    | case2 l ih => simp [replaceNc, zarr]
    | case3 c l hc ih =>
      rw [replaceNc_eq_cons c l (fun t h1 h2 => hc t h1 h2)]
      rw [List.infix_cons_iff] at hl
      rcases hl with hl | hl
      · obtain ⟨t, ht⟩ := hl
        simp only [nc, List.cons_append, List.nil_append, List.cons.injEq] at ht
        exact absurd ht.2.symm (hc t ht.1.symm)
      · exact List.mem_cons_of_mem _ (ih hl)
  · rw [← h, replaceNc_self l hl]

theorem replaceNc_zarr_iff (l : List Char) : zarr <:+ replaceNc l ↔ nc <:+ l ∨ zarr <:+ l := by
  induction l using replaceNc.induct with
  | case1 => decide
  | case2 l ih =>
    rw [replaceNc]
    by_cases hl : l = []
    · subst hl
      decide
    · have hne : replaceNc l ≠ [] := fun h => hl (replaceNc_nil h)
      simp only [zarr, nc, List.cons_append, List.nil_append, List.suffix_cons_iff, List.cons.injEq] at ih ⊢
      simp [hl, hne, ih, eq_comm]
  | case3 c l hc ih =>
    rw [replaceNc_eq_cons c l (fun t h1 h2 => hc t h1 h2)]
    rw [List.suffix_cons_iff, List.suffix_cons_iff, List.suffix_cons_iff, ih]
    have h1 : nc ≠ c :: l := by
      intro h
      simp only [nc, List.cons.injEq] at h
      exact hc [] h.1.symm h.2.symm
    have h2 : zarr = c :: replaceNc l ↔ zarr = c :: l := by
      simp only [zarr, List.cons.injEq]
      constructor
      · rintro ⟨a, b⟩
        exact ⟨a, (replaceNc_plain (by decide) b.symm).symm⟩
      · rintro ⟨a, b⟩
        exact ⟨a, by rw [← b]; decide⟩
    rw [h2]
    simp only [h1, false_or]
    tauto

theorem endsWith_iff (l s : List Char) : endsWith l s = true ↔ ∃ b, l = b ++ s := by
  unfold endsWith
  rw [List.isSuffixOf_iff_suffix]
  exact ⟨fun ⟨b, h⟩ => ⟨b, h.symm⟩, fun ⟨b, h⟩ => ⟨b, h.symm⟩⟩

/-- **C138** (partial: the full statement is for all names, see `read_back_wrong`): `load_file` reads what `write_file` wrote in the format which was used exactly
when the zarr flag is not used, or when the name asked ends with ".nc" or ".zarr". -/
theorem read_back_partial (flag : Bool) (name : List Char) : reader (written flag name).1 = (written flag name).2 ↔
    flag = false ∨ (∃ b, name = b ++ ['.', 'n', 'c']) ∨ ∃ b, name = b ++ ['.', 'z', 'a', 'r', 'r'] := by
  cases flag with
  | false =>
    unfold written reader
    simp only [Bool.false_eq_true, if_false, true_or, iff_true]
    split_ifs <;> first | rfl | simp_all
  | true =>
    unfold written reader
    simp only [if_true, ite_self, Bool.true_eq_false, false_or]
    have h : endsWith (replaceNc name) zarr = true ↔ (∃ b, name = b ++ ['.', 'n', 'c']) ∨ ∃ b, name = b ++ ['.', 'z', 'a', 'r', 'r'] := by
      unfold endsWith
      rw [List.isSuffixOf_iff_suffix, replaceNc_zarr_iff]
      exact or_congr ⟨fun ⟨b, h⟩ => ⟨b, h.symm⟩, fun ⟨b, h⟩ => ⟨b, h.symm⟩⟩ ⟨fun ⟨b, h⟩ => ⟨b, h.symm⟩, fun ⟨b, h⟩ => ⟨b, h.symm⟩⟩
    rw [← h]
    split_ifs with h1
    · simp [h1]
    · simp [h1]

/-- **C138** (names): without the flag the file is the one asked; with the flag and the only ".nc" at the end, only the extension changes; a zarr store is made
exactly with the flag or a name in ".zarr". -/
theorem name_partial (b : List Char) (hb : ¬ ['.', 'n', 'c'] <:+: b) : (∀ name, (written false name).1 = name) ∧
    written true (b ++ ['.', 'n', 'c']) = (b ++ ['.', 'z', 'a', 'r', 'r'], .zarr) ∧
    (∀ name, (written false name).2 = .zarr ↔ ∃ a, name = a ++ ['.', 'z', 'a', 'r', 'r']) ∧ ∀ name, (written true name).2 = .zarr := by
  refine ⟨fun _ => rfl, ?_, ?_, ?_⟩
  · have h := replaceNc_append b [] hb
    rw [List.append_nil] at h
    unfold written
    simp only [if_true, ite_self]
    rw [show b ++ ['.', 'n', 'c'] = b ++ nc from rfl, h]
    simp [replaceNc, zarr]
  · intro name
    rw [show (∃ a, name = a ++ ['.', 'z', 'a', 'r', 'r']) ↔ endsWith name zarr = true from (endsWith_iff _ _).symm]
    unfold written
    simp only [Bool.false_eq_true, if_false]
    by_cases h : endsWith name zarr = true <;> simp [h]
  · intro name
    unfold written
    simp

example : written true "out/Anticyclonic.nc".toList = ("out/Anticyclonic.zarr".toList, .zarr) := by decide

/-- **C138 refuted**: with the flag and a name without extension, a zarr store is written and `load_file` reads this name as a netcdf file. -/
theorem read_back_wrong : written true "eddies".toList = ("eddies".toList, .zarr) ∧ reader "eddies".toList = .netcdf := by decide

/-- **C138 refuted**: with the flag, the file is not written in the directory asked when its name contains ".nc". -/
theorem directory_wrong : (written true "run.nc4/eddies.nc".toList).1 = "run.zarr4/eddies.zarr".toList := by decide

/-! ### Networks close to another atlas -/

variable {β : Type}

/-- **C139** (partial: see `close_network_raises`): with dates as integers and a common date, `close_network` gives the whole networks which take part in at least
`nb_obs_min` couples (and at least one), in the order of the atlas and with their links. -/
theorem close_network_partial {m : List Nat → List Nat → List (Nat × Nat)} (hm : Match.Within m) {groups : List (Match.Rows × Match.Rows)}
    (hne : groups ≠ []) {other : List (Row (Obs β))} (hv : Valid other) (ho : other ≠ []) (hs : (tracks other).Pairwise (· ≤ ·))
    (hr : ∀ g ∈ groups, ∀ r ∈ Match.rowsOf g.2, r < other.length) (nbMin : Nat) :
    ∃ out, closeNetwork .integers m groups nbMin other = some out ∧ Selected other out (fun o =>
      max 1 nbMin ≤ ((groups.flatMap (Match.Couple m)).filter (fun p => decide ((tracks other)[p.2]? = some o.track))).length) := by
  obtain ⟨ids, h1, _, h2⟩ := Match.close_tracks_partial hm groups hne (tracks other) (by
    intro g hg r hr'
    simpa [tracks] using hr g hg r hr') nbMin
  have hin : ∀ t ∈ ids, ∃ r ∈ other, r.data.track = t := by
    intro t ht
    have := (h2 t).1 ht
    have hpos : 0 < ((groups.flatMap (Match.Couple m)).filter (fun p => decide ((tracks other)[p.2]? = some t))).length := by omega
    obtain ⟨p, hp⟩ := List.exists_mem_of_length_pos hpos
    have hp2 := (List.mem_filter.1 hp).2
    simp only [decide_eq_true_eq] at hp2
    obtain ⟨r, hr, e⟩ := List.mem_map.1 (List.mem_of_getElem? hp2)
    exact ⟨r, hr, e⟩
  obtain ⟨out, h3, h4⟩ := Subset.byIds_spec hv ho hs (ids := ids.map (fun (n : Nat) => (n : Int))) (by
    intro i hi
    obtain ⟨t, ht, rfl⟩ := List.mem_map.1 hi
    obtain ⟨r, hr, e⟩ := hin t ht
    exact ⟨⟨r, hr, by omega⟩, r, hr, by omega⟩)
  refine ⟨out, ?_, h4.congr ?_⟩
  · unfold closeNetwork
    simp only [h1, Option.bind_some, h3]
  · intro r _
    rw [← h2, List.mem_map]
    constructor
    · rintro ⟨t, ht, e⟩
      have : t = r.data.track := by exact_mod_cast e
      exact this ▸ ht
    · intro h
      exact ⟨_, h, rfl⟩

/-- **C139** (links): when the links of the atlas stay in their networks, the networks which are kept have all their links. -/
theorem close_network_links {p : Nat → Prop} {other out : List (Row (Obs β))} (h : Selected other out (fun o => p o.track))
    (hl : ∀ (i : Nat) (r : Row (Obs β)), other[i]? = some r → ∀ q ∈ [r.prev, r.next], q = -1 ∨ ∃ (j : Nat) (s : Row (Obs β)), q = j ∧ other[j]? = some s ∧
      s.data.track = r.data.track) :
    ∃ idx : List Nat, idx.Pairwise (· < ·) ∧ idx.length = out.length ∧ ∀ (k : Nat) (r : Row (Obs β)), out[k]? = some r →
      ∃ (i : Nat) (r0 : Row (Obs β)), idx[k]? = some i ∧ other[i]? = some r0 ∧ r.data = r0.data ∧
        (r.prev = -1 ↔ r0.prev = -1) ∧ (r.next = -1 ↔ r0.next = -1) ∧
        (∀ j : Nat, r.prev = j → ∃ i : Nat, idx[j]? = some i ∧ r0.prev = i) ∧ ∀ j : Nat, r.next = j → ∃ i : Nat, idx[j]? = some i ∧ r0.next = i := by
  obtain ⟨idx, hs, hmem, hlen, hk⟩ := h
  refine ⟨idx, hs, hlen.symm, ?_⟩
  intro k r hr
  obtain ⟨i, r0, hi, hr0, hd, hp, hn⟩ := hk k r hr
  have hkept : p r0.data.track := by
    obtain ⟨r', hr', h'⟩ := (hmem i).1 (List.mem_of_getElem? hi)
    rw [hr0] at hr'
    cases hr'
    exact h'
  have key : ∀ x y : Int, x ∈ [r0.prev, r0.next] → Image idx x y → (y = -1 ↔ x = -1) ∧ ∀ j : Nat, y = j → ∃ i : Nat, idx[j]? = some i ∧ x = i := by
    intro x y hx hxy
    rcases hxy with ⟨j, t, e1, e2, e3⟩ | ⟨e1, e2⟩
    · refine ⟨⟨fun h => by omega, fun h => by omega⟩, ?_⟩
      intro j' hj'
      have : j' = j := by omega
      subst this
      exact ⟨t, e2, e1⟩
    · refine ⟨⟨fun _ => ?_, fun _ => e1⟩, fun j hj => by omega⟩
      rcases hl i r0 hr0 x hx with h | ⟨j, s, h1, h2, h3⟩
      · exact h
      · exact absurd h1 (e2 j ((hmem j).2 ⟨s, h2, by show p s.data.track; rw [h3]; exact hkept⟩))
  have h1 := key _ _ (by simp) hp
  have h2 := key _ _ (by simp) hn
  exact ⟨i, r0, hi, hr0, hd, h1.1, h2.1, h1.2, h2.2⟩

/-- **C139 refuted**: an atlas with its dates in days always raises. -/
theorem close_network_raises (m : List Nat → List Nat → List (Nat × Nat)) (groups : List (Match.Rows × Match.Rows)) (nbMin : Nat)
    (other : List (Row (Obs β))) : closeNetwork .floats m groups nbMin other = none := rfl

def atlas : List (Row (Obs Unit)) :=
  [⟨⟨1, 0, ()⟩, -1, 1⟩, ⟨⟨1, 1, ()⟩, 0, -1⟩, ⟨⟨2, 0, ()⟩, -1, -1⟩, ⟨⟨4, 0, ()⟩, -1, 4⟩, ⟨⟨4, 1, ()⟩, 3, -1⟩]

example : (closeNetwork .integers (fun _ _ => [(0, 0)]) [(.inl (0, 1), .inr [0, 2, 3]), (.inl (1, 2), .inr [4])] 1 atlas).map
    (fun l => l.map (fun r => (r.data.track, r.prev, r.next))) = some [(1, -1, 1), (1, 0, -1), (4, -1, 3), (4, 2, -1)] := by decide +kernel

end Verif.Names
