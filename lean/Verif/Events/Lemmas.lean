import Verif.Events.Model
import Verif.Segments.Lemmas
import Verif.Links.Props

/-!
# Slices of the segments
-/

namespace Verif.Events

open Verif.Segments

theorem mono_of_slices {l : List Nat} (h : ∀ (m a a' : Nat), l[m]? = some a → l[m + 1]? = some a' → a < a') : l.Pairwise (· < ·) := by
  have key : ∀ (d m a a' : Nat), l[m]? = some a → l[m + d + 1]? = some a' → a < a' := by
    intro d
    induction d with
    | zero => intro m a a' h1 h2; exact h m a a' h1 h2
    | succ d ih =>
      intro m a a' h1 h2
      have hlt : m + d + 1 < l.length := by have := (List.getElem?_eq_some_iff.1 h2).1; omega
      have h3 := List.getElem?_eq_getElem hlt
      exact lt_trans (ih m a _ h1 h3) (h (m + d + 1) _ _ h3 h2)
  rw [List.pairwise_iff_getElem]
  intro i j hi hj hij
  have := key (j - i - 1) i l[i] l[j] (List.getElem?_eq_getElem hi)
  rw [show i + (j - i - 1) + 1 = j by omega] at this
  exact this (List.getElem?_eq_getElem hj)

/-- The bounds of the segments: first rows, rows after the last ones, and the numbers of the segments. -/
theorem bounds_full (obs : List Obs) (hne : obs ≠ []) :
    ∃ first last sta, (segTrackArray obs = some sta ∧ sta.length = obs.length ∧ (∀ (k v : Nat), sta[k]? = some v → v < first.length) ∧
      ∀ m a b : Nat, first[m]? = some a → last[m]? = some b → ∀ k : Nat, sta[k]? = some m ↔ a ≤ k ∧ k < b) ∧
      bounds obs = some (first, last) ∧ first.length = last.length ∧ 0 < first.length ∧
      first.Pairwise (· < ·) ∧ last.Pairwise (· < ·) ∧ (∀ i, i ∈ first ↔ First obs i) ∧
      (∀ b, b ∈ last ↔ ∃ i, b = i + 1 ∧ Last obs i) ∧ first[0]? = some 0 ∧
      ∀ m a b : Nat, first[m]? = some a → last[m]? = some b → a < b ∧ b ≤ obs.length ∧
        ∀ (k : Nat) o o', obs[k]? = some o → obs[a]? = some o' → a ≤ k → k < b → o.key = o'.key := by
  obtain ⟨sta, hsta, hnum⟩ := segTrackArray_spec obs hne
  have hne' : sta.map (fun (k : Nat) => (k : Int)) ≠ [] := by
    intro hc
    have := congrArg List.length hc
    rw [List.length_map, hnum.len] at this
    exact hne (List.length_eq_zero_iff.1 this)
  obtain ⟨first, last, i0, hbi, ⟨hlen, hrange, hslice⟩, hi0, hmax, hpos⟩ := Index.build_index_spec _ hne' hnum.sorted
  have hz : i0 = 0 := by
    obtain ⟨k, hk, rfl⟩ := List.mem_map.1 hi0
    have := (hrange 0 (List.mem_map.2 ⟨0, List.mem_of_getElem? hnum.zero, rfl⟩)).1
    omega
  subst hz
  have hstaget : ∀ (k m : Nat), (sta.map (fun (k : Nat) => (k : Int)))[k]? = some (0 + (m : Int)) ↔ sta[k]? = some m := by
    intro k m
    rw [List.getElem?_map]
    cases sta[k]? with
    | none => simp
    | some v => simp
  have hatt : ∀ m, m < first.length → ∃ i : Nat, sta[i]? = some m := by
    intro m hm
    obtain ⟨v, hv', e⟩ := List.mem_map.1 hmax
    obtain ⟨j, hj⟩ := List.getElem?_of_mem hv'
    obtain ⟨i, _, e'⟩ := hnum.attained j v m hj (by omega)
    exact ⟨i, e'⟩
  have hseg : ∀ (m a b : Nat), first[m]? = some a → last[m]? = some b →
      a < b ∧ b ≤ obs.length ∧ ∀ k : Nat, sta[k]? = some m ↔ a ≤ k ∧ k < b := by
    intro m a b ha hb
    obtain ⟨h1, h2, h3⟩ := hslice m a b ha hb
    rw [List.length_map, hnum.len] at h2
    have h3' : ∀ k : Nat, sta[k]? = some m ↔ a ≤ k ∧ k < b := fun k => by rw [← hstaget, h3]
    obtain ⟨i, hi⟩ := hatt m (List.getElem?_eq_some_iff.1 ha).1
    have := (h3' i).1 hi
    exact ⟨by omega, h2, h3'⟩
  have hfirst : ∀ i, i ∈ first ↔ First obs i := by
    intro i
    constructor
    · intro hi
      obtain ⟨m, hm⟩ := List.getElem?_of_mem hi
      have hml : m < last.length := by rw [← hlen]; exact (List.getElem?_eq_some_iff.1 hm).1
      obtain ⟨h1, h2, h3⟩ := hseg m i _ hm (List.getElem?_eq_getElem hml)
      have hi' := (h3 i).2 ⟨le_refl _, h1⟩
      rw [hnum.first_iff i m hi']
      rintro k b hk hb rfl
      have := (h3 k).1 hb
      omega
    · intro hf
      have hi : i < sta.length := by obtain ⟨o, ho, _⟩ := hf; rw [hnum.len]; exact (List.getElem?_eq_some_iff.1 ho).1
      have e := List.getElem?_eq_getElem hi
      have hm := (hrange _ (List.mem_map.2 ⟨_, List.getElem_mem hi, rfl⟩)).2
      have hm' : sta[i] < first.length := by omega
      obtain ⟨h1, h2, h3⟩ := hseg (sta[i]) _ _ (List.getElem?_eq_getElem hm') (List.getElem?_eq_getElem (by omega))
      have hin := (h3 i).1 e
      have hfst := (h3 _).2 ⟨le_refl _, h1⟩
      rcases Nat.eq_or_lt_of_le hin.1 with hh | hh
      · rw [← hh]; exact List.getElem_mem hm'
      · exact absurd rfl ((hnum.first_iff i _ e).1 hf _ _ hh hfst)
  have hlast : ∀ b, b ∈ last ↔ ∃ i, b = i + 1 ∧ Last obs i := by
    intro b
    constructor
    · intro hb
      obtain ⟨m, hm⟩ := List.getElem?_of_mem hb
      have hml : m < first.length := by rw [hlen]; exact (List.getElem?_eq_some_iff.1 hm).1
      obtain ⟨h1, h2, h3⟩ := hseg m _ b (List.getElem?_eq_getElem hml) hm
      refine ⟨b - 1, by omega, ?_⟩
      have hi' := (h3 (b - 1)).2 ⟨by omega, by omega⟩
      rw [hnum.last_iff (b - 1) m hi']
      rintro k c hk hc rfl
      have := (h3 k).1 hc
      omega
    · rintro ⟨i, rfl, hf⟩
      have hi : i < sta.length := by obtain ⟨o, ho, _⟩ := hf; rw [hnum.len]; exact (List.getElem?_eq_some_iff.1 ho).1
      have e := List.getElem?_eq_getElem hi
      have hm := (hrange _ (List.mem_map.2 ⟨_, List.getElem_mem hi, rfl⟩)).2
      have hm' : sta[i] < last.length := by omega
      obtain ⟨h1, h2, h3⟩ := hseg (sta[i]) _ _ (List.getElem?_eq_getElem (by omega)) (List.getElem?_eq_getElem hm')
      have hin := (h3 i).1 e
      rcases Nat.eq_or_lt_of_le (show i + 1 ≤ last[sta[i]] by omega) with hh | hh
      · rw [hh]; exact List.getElem_mem hm'
      · have := (h3 (i + 1)).2 ⟨by omega, hh⟩
        exact absurd rfl ((hnum.last_iff i _ e).1 hf (i + 1) _ (by omega) this)
  -- rows of one slice have the same key
  have hkey : ∀ (d k m : Nat) o o', sta[k]? = some m → sta[k + d]? = some m → obs[k]? = some o → obs[k + d]? = some o' →
      o'.key = o.key := by
    intro d
    induction d with
    | zero => intro k m o o' _ _ h3 h4; rw [Nat.add_zero, h3] at h4; rw [Option.some.inj h4]
    | succ d ih =>
      intro k m o o' h1 h2 h3 h4
      have hlt : k + d < obs.length := by have := (List.getElem?_eq_some_iff.1 h4).1; omega
      have hlt' : k + d < sta.length := by rw [hnum.len]; exact hlt
      have e := List.getElem?_eq_getElem hlt'
      have hm : sta[k + d]? = some m := by
        have c1 := hnum.mono k (k + d) m _ (by omega) h1 e
        have c2 := hnum.mono (k + d) (k + (d + 1)) _ m (by omega) e h2
        rw [e, le_antisymm c2 c1]
      rw [← ih k m o _ h1 hm h3 (List.getElem?_eq_getElem hlt)]
      exact (hnum.same_iff (k + d) m _ _ hm (List.getElem?_eq_getElem hlt) h4).1 h2
  refine ⟨first, last, sta, ⟨hsta, hnum.len, fun k v hk => ?_, fun m a b ha hb => (hseg m a b ha hb).2.2⟩,
    by unfold bounds; rw [hsta]; simp [hbi], hlen, hpos, ?_, ?_, hfirst, hlast, ?_, ?_⟩
  · have := (hrange (v : Int) (List.mem_map.2 ⟨v, List.mem_of_getElem? hk, rfl⟩)).2
    omega
  · apply mono_of_slices
    intro m a a' h1 h2
    have q1 : m < last.length := by rw [← hlen]; exact (List.getElem?_eq_some_iff.1 h1).1
    have q2 : m + 1 < last.length := by rw [← hlen]; exact (List.getElem?_eq_some_iff.1 h2).1
    obtain ⟨c1, c2, c3⟩ := hseg m a _ h1 (List.getElem?_eq_getElem q1)
    obtain ⟨d1, d2, d3⟩ := hseg (m + 1) a' _ h2 (List.getElem?_eq_getElem q2)
    by_contra hc
    have := hnum.mono a' a _ _ (by omega) ((d3 a').2 ⟨le_refl _, d1⟩) ((c3 a).2 ⟨le_refl _, c1⟩)
    omega
  · apply mono_of_slices
    intro m b b' h1 h2
    have q1 : m < first.length := by rw [hlen]; exact (List.getElem?_eq_some_iff.1 h1).1
    have q2 : m + 1 < first.length := by rw [hlen]; exact (List.getElem?_eq_some_iff.1 h2).1
    obtain ⟨c1, c2, c3⟩ := hseg m _ b (List.getElem?_eq_getElem q1) h1
    obtain ⟨d1, d2, d3⟩ := hseg (m + 1) _ b' (List.getElem?_eq_getElem q2) h2
    by_contra hc
    have := hnum.mono (b' - 1) (b - 1) _ _ (by omega) ((d3 (b' - 1)).2 ⟨by omega, by omega⟩) ((c3 (b - 1)).2 ⟨by omega, by omega⟩)
    omega
  · have q1 : 0 < last.length := by omega
    obtain ⟨c1, c2, c3⟩ := hseg 0 _ _ (List.getElem?_eq_getElem hpos) (List.getElem?_eq_getElem q1)
    have := (c3 0).1 hnum.zero
    rw [List.getElem?_eq_getElem hpos]
    congr 1
    omega
  · intro m a b ha hb
    obtain ⟨c1, c2, c3⟩ := hseg m a b ha hb
    refine ⟨c1, c2, fun k o o' h1 h2 h3 h4 => ?_⟩
    have := hkey (k - a) a m o' o ((c3 a).2 ⟨le_refl _, c1⟩)
    rw [show a + (k - a) = k by omega] at this
    exact this ((c3 k).2 ⟨h3, h4⟩) h2 h1

/-- The bounds of the segments. -/
theorem bounds_spec (obs : List Obs) (hne : obs ≠ []) :
    ∃ first last, bounds obs = some (first, last) ∧ first.length = last.length ∧ 0 < first.length ∧
      first.Pairwise (· < ·) ∧ last.Pairwise (· < ·) ∧ (∀ i, i ∈ first ↔ First obs i) ∧
      (∀ b, b ∈ last ↔ ∃ i, b = i + 1 ∧ Last obs i) ∧ first[0]? = some 0 ∧
      ∀ m a b : Nat, first[m]? = some a → last[m]? = some b → a < b ∧ b ≤ obs.length ∧
        ∀ (k : Nat) o o', obs[k]? = some o → obs[a]? = some o' → a ≤ k → k < b → o.key = o'.key := by
  obtain ⟨first, last, sta, _, h⟩ := bounds_full obs hne
  exact ⟨first, last, h⟩

end Verif.Events
