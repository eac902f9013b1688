import Verif.Segments.Graph
import Verif.Index.Props
import Verif.Tracks.Lemmas

/-!
# Segment numbering and connexions
-/

namespace Verif.Segments

/-! ### Specification vocabulary -/

/-- What identifies a segment: its number and its network. -/
def Obs.key (o : Obs) : Nat × Nat := (o.seg, o.track)

/-- Row `i` is the first of its segment. -/
def First (obs : List Obs) (i : Nat) : Prop :=
  ∃ o, obs[i]? = some o ∧ ∀ o', 0 < i → obs[i - 1]? = some o' → o'.key ≠ o.key

/-- Row `i` is the last of its segment. -/
def Last (obs : List Obs) (i : Nat) : Prop := ∃ o, obs[i]? = some o ∧ ∀ o', obs[i + 1]? = some o' → o'.key ≠ o.key

/-- Row `i` is the first of a segment which comes from row `j`, or the last of a segment which goes to row `j`. -/
def Event (obs : List Obs) (i j : Nat) : Prop :=
  (First obs i ∧ ∃ o, obs[i]? = some o ∧ o.prev = j) ∨ (Last obs i ∧ ∃ o, obs[i]? = some o ∧ o.next = j)

/-- Links designate rows. -/
def Valid (obs : List Obs) : Prop :=
  ∀ o ∈ obs, (o.prev = -1 ∨ 0 ≤ o.prev ∧ o.prev < obs.length) ∧ (o.next = -1 ∨ 0 ≤ o.next ∧ o.next < obs.length)

/-! ### Numbering -/

/-- Specification of the numbering of the segments. -/
structure IsNumbering (obs : List Obs) (sta : List Nat) : Prop where
  len : sta.length = obs.length
  zero : sta[0]? = some 0
  step : ∀ (i a : Nat) o o', sta[i]? = some a → obs[i]? = some o → obs[i + 1]? = some o' →
    sta[i + 1]? = some (if o'.key = o.key then a else a + 1)

theorem uniqLoop_length (l : List (Nat × Nat)) (k : Nat) (p : Nat × Nat) : (uniqLoop k p l).length = l.length := by
  induction l generalizing k p with
  | nil => rfl
  | cons x l ih => rw [uniqLoop]; simp [ih]

theorem uniqLoop_step (l : List (Nat × Nat)) (k : Nat) (p : Nat × Nat) (i a : Nat) (x y : Nat × Nat)
    (ha : (uniqLoop k p l)[i]? = some a) (hx : l[i]? = some x) (hy : l[i + 1]? = some y) :
    (uniqLoop k p l)[i + 1]? = some (if y = x then a else a + 1) := by
  induction l generalizing k p i with
  | nil => simp at hx
  | cons z l ih =>
    rw [uniqLoop] at ha ⊢
    cases i with
    | zero =>
      simp at ha hx hy
      subst hx
      cases l with
      | nil => simp at hy
      | cons w l =>
        simp at hy; subst hy
        simp only [uniqLoop, List.getElem?_cons_succ, List.getElem?_cons_zero, Option.some.injEq]
        rw [ha]
        by_cases hc : w = z
        · subst hc; simp
        · rw [if_neg hc, if_pos]
          by_contra hcc
          rw [not_or, not_not, not_not] at hcc
          exact hc (Prod.ext hcc.1 hcc.2)
    | succ i =>
      simp only [List.getElem?_cons_succ] at ha hx hy ⊢
      exact ih _ _ i ha hx hy

theorem segTrackArray_spec (obs : List Obs) (hne : obs ≠ []) :
    ∃ sta, segTrackArray obs = some sta ∧ IsNumbering obs sta := by
  cases obs with
  | nil => exact absurd rfl hne
  | cons o l =>
    refine ⟨uniqLoop 0 (o.seg, o.track) ((o :: l).map (fun o => (o.seg, o.track))), rfl, ?_, ?_, ?_⟩
    · rw [uniqLoop_length, List.length_map]
    · simp [uniqLoop]
    · intro i a q q' ha hq hq'
      exact uniqLoop_step _ _ _ i a q.key q'.key ha (by rw [List.getElem?_map, hq]; rfl) (by rw [List.getElem?_map, hq']; rfl)

namespace IsNumbering

variable {obs : List Obs} {sta : List Nat} (h : IsNumbering obs sta)
include h

theorem succ_le (i a b : Nat) (ha : sta[i]? = some a) (hb : sta[i + 1]? = some b) : b = a ∨ b = a + 1 := by
  have hi : i + 1 < obs.length := by rw [← h.len]; exact (List.getElem?_eq_some_iff.1 hb).1
  have := h.step i a _ _ ha (List.getElem?_eq_getElem (by omega)) (List.getElem?_eq_getElem hi)
  rw [hb] at this
  by_cases hc : (obs[i + 1]).key = (obs[i]).key
  · rw [if_pos hc] at this; left; exact Option.some.inj this
  · rw [if_neg hc] at this; right; exact Option.some.inj this

theorem mono_aux (d i a b : Nat) (ha : sta[i]? = some a) (hb : sta[i + d]? = some b) : a ≤ b := by
  induction d generalizing b with
  | zero => rw [Nat.add_zero, ha] at hb; cases hb; exact le_refl _
  | succ d ih =>
    have hlt : i + d < sta.length := by have := (List.getElem?_eq_some_iff.1 hb).1; omega
    have e := List.getElem?_eq_getElem hlt
    have h1 := ih _ e
    rcases h.succ_le (i + d) _ b e hb with h2 | h2 <;> omega

theorem mono (i j a b : Nat) (hij : i ≤ j) (ha : sta[i]? = some a) (hb : sta[j]? = some b) : a ≤ b := by
  obtain ⟨d, rfl⟩ := Nat.exists_eq_add_of_le hij
  exact h.mono_aux d i a b ha hb

theorem sorted : (sta.map (fun (k : Nat) => (k : Int))).Pairwise (· ≤ ·) := by
  rw [List.pairwise_map, List.pairwise_iff_getElem]
  intro i j hi hj hij
  have := h.mono i j _ _ hij.le (List.getElem?_eq_getElem hi) (List.getElem?_eq_getElem hj)
  exact_mod_cast this

/-- Every number up to an attained one is attained. -/
theorem attained (j b m : Nat) (hb : sta[j]? = some b) (hm : m ≤ b) : ∃ i : Nat, i ≤ j ∧ sta[i]? = some m := by
  induction j generalizing b with
  | zero =>
    rw [h.zero] at hb; cases hb
    exact ⟨0, le_refl _, by rw [h.zero, show m = 0 by omega]⟩
  | succ j ih =>
    have hlt : j < sta.length := by have := (List.getElem?_eq_some_iff.1 hb).1; omega
    have e := List.getElem?_eq_getElem hlt
    rcases Nat.eq_or_lt_of_le hm with rfl | hlt'
    · exact ⟨j + 1, le_refl _, hb⟩
    · obtain ⟨i, hi, e'⟩ := ih _ e (by rcases h.succ_le j _ b e hb with h2 | h2 <;> omega)
      exact ⟨i, by omega, e'⟩

theorem same_iff (i a : Nat) (o o' : Obs) (ha : sta[i]? = some a) (ho : obs[i]? = some o) (ho' : obs[i + 1]? = some o') :
    sta[i + 1]? = some a ↔ o'.key = o.key := by
  rw [h.step i a o o' ha ho ho']
  by_cases hc : o'.key = o.key
  · simp [hc]
  · simp [hc]

theorem first_iff (i a : Nat) (ha : sta[i]? = some a) :
    First obs i ↔ ∀ k b, k < i → sta[k]? = some b → b ≠ a := by
  have hi : i < obs.length := by rw [← h.len]; exact (List.getElem?_eq_some_iff.1 ha).1
  constructor
  · rintro ⟨o, ho, hf⟩ k b hk hb rfl
    have hpos : 0 < i := by omega
    obtain ⟨v, e1⟩ : ∃ v, sta[i - 1]? = some v := ⟨_, List.getElem?_eq_getElem (by rw [h.len]; omega)⟩
    have e2 := List.getElem?_eq_getElem (l := obs) (i := i - 1) (by omega)
    have h1 := h.mono k (i - 1) b _ (by omega) hb e1
    have h2 := h.mono (i - 1) i _ b (by omega) e1 ha
    have h3 : v = b := by omega
    rw [h3] at e1
    apply hf _ hpos e2
    rw [eq_comm, ← (h.same_iff (i - 1) b _ o e1 e2 (by rw [show i - 1 + 1 = i by omega]; exact ho))]
    rw [show i - 1 + 1 = i by omega]; exact ha
  · intro hk
    refine ⟨_, List.getElem?_eq_getElem hi, fun o' hpos ho' hc => ?_⟩
    have e1 := List.getElem?_eq_getElem (l := sta) (i := i - 1) (by rw [h.len]; omega)
    have e3 := (h.same_iff (i - 1) _ o' _ e1 ho' (by rw [show i - 1 + 1 = i by omega]; exact List.getElem?_eq_getElem hi)).2
      hc.symm
    rw [show i - 1 + 1 = i by omega, ha] at e3
    exact hk (i - 1) _ (by omega) e1 (Option.some.inj e3).symm

theorem last_iff (i a : Nat) (ha : sta[i]? = some a) :
    Last obs i ↔ ∀ k b, i < k → sta[k]? = some b → b ≠ a := by
  have hi : i < obs.length := by rw [← h.len]; exact (List.getElem?_eq_some_iff.1 ha).1
  have eo := List.getElem?_eq_getElem hi
  constructor
  · rintro ⟨o, ho, hf⟩ k b hk hb rfl
    have hkl : k < sta.length := (List.getElem?_eq_some_iff.1 hb).1
    have e1 := List.getElem?_eq_getElem (l := sta) (i := i + 1) (by omega)
    have e2 := List.getElem?_eq_getElem (l := obs) (i := i + 1) (by rw [← h.len]; omega)
    have h1 := h.mono (i + 1) k _ b (by omega) e1 hb
    have h2 := h.mono i (i + 1) b _ (by omega) ha e1
    have h3 : sta[i + 1] = b := by omega
    rw [h3] at e1
    exact hf _ e2 ((h.same_iff i b o _ ha ho e2).1 e1)
  · intro hk
    refine ⟨_, eo, fun o' ho' hc => ?_⟩
    exact hk (i + 1) _ (by omega) ((h.same_iff i a _ o' ha eo ho').2 hc) rfl

end IsNumbering

/-! ### Connexions -/

theorem zip_map_left {α β : Type} (l : List α) (f : α → β) : (l.map f).zip l = l.map (fun x => (f x, x)) := by
  induction l with
  | nil => rfl
  | cons a l ih => simp [ih]

/-- Value of an optional link array at a row. -/
def at' (l : List Int) (k : Nat) : Int := (l[k]?).getD (-1)

theorem connexions_spec (labels : List Nat) (obs : List Obs) (hne : obs ≠ []) (hv : Valid obs)
    (hl : labels.length = obs.length) :
    ∃ E, connexions labels obs = some E ∧
      ∀ a b, (a, b) ∈ E ↔ ∃ i j : Nat, Event obs i j ∧ labels[j]? = some a ∧ labels[i]? = some b := by
  obtain ⟨sta, hsta, hnum⟩ := segTrackArray_spec obs hne
  have hne' : sta.map (fun (k : Nat) => (k : Int)) ≠ [] := by
    intro hc
    have := congrArg List.length hc
    rw [List.length_map, hnum.len] at this
    exact hne (List.length_eq_zero_iff.1 this)
  obtain ⟨first, last, i0, hbi, ⟨hlen, hrange, hslice⟩, hi0, hmax, hpos⟩ := Index.build_index_spec _ hne' hnum.sorted
  have hz : i0 = 0 := by
    obtain ⟨k, hk, rfl⟩ := List.mem_map.1 hi0
    have := (hrange 0 (List.mem_map.2 ⟨0, List.mem_of_getElem? hnum.zero, rfl⟩)).1
    omega
  subst hz
  have hstaget : ∀ (k m : Nat), (sta.map (fun (k : Nat) => (k : Int)))[k]? = some (0 + (m : Int)) ↔ sta[k]? = some m := by
    intro k m
    rw [List.getElem?_map]
    cases sta[k]? with
    | none => simp
    | some v => simp
  -- every number below the length is attained
  have hatt : ∀ m, m < first.length → ∃ i : Nat, sta[i]? = some m := by
    intro m hm
    obtain ⟨v, hv', e⟩ := List.mem_map.1 hmax
    obtain ⟨j, hj⟩ := List.getElem?_of_mem hv'
    obtain ⟨i, _, e'⟩ := hnum.attained j v m hj (by omega)
    exact ⟨i, e'⟩
  have hseg : ∀ (m a b : Nat), first[m]? = some a → last[m]? = some b →
      a < b ∧ b ≤ obs.length ∧ ∀ k : Nat, sta[k]? = some m ↔ a ≤ k ∧ k < b := by
    intro m a b ha hb
    obtain ⟨h1, h2, h3⟩ := hslice m a b ha hb
    rw [List.length_map, hnum.len] at h2
    have h3' : ∀ k : Nat, sta[k]? = some m ↔ a ≤ k ∧ k < b := fun k => by rw [← hstaget, h3]
    obtain ⟨i, hi⟩ := hatt m (List.getElem?_eq_some_iff.1 ha).1
    have := (h3' i).1 hi
    exact ⟨by omega, h2, h3'⟩
  have hfirst : ∀ i, i ∈ first ↔ First obs i := by
    intro i
    constructor
    · intro hi
      obtain ⟨m, hm⟩ := List.getElem?_of_mem hi
      have hml : m < last.length := by rw [← hlen]; exact (List.getElem?_eq_some_iff.1 hm).1
      obtain ⟨h1, h2, h3⟩ := hseg m i _ hm (List.getElem?_eq_getElem hml)
      have hi' := (h3 i).2 ⟨le_refl _, h1⟩
      rw [hnum.first_iff i m hi']
      rintro k b hk hb rfl
      have := (h3 k).1 hb
      omega
    · intro hf
      have hi : i < sta.length := by obtain ⟨o, ho, _⟩ := hf; rw [hnum.len]; exact (List.getElem?_eq_some_iff.1 ho).1
      have e := List.getElem?_eq_getElem hi
      have hm := (hrange _ (List.mem_map.2 ⟨_, List.getElem_mem hi, rfl⟩)).2
      have hm' : sta[i] < first.length := by omega
      obtain ⟨h1, h2, h3⟩ := hseg (sta[i]) _ _ (List.getElem?_eq_getElem hm') (List.getElem?_eq_getElem (by omega))
      have hin := (h3 i).1 e
      have hfst := (h3 _).2 ⟨le_refl _, h1⟩
      rcases Nat.eq_or_lt_of_le hin.1 with hh | hh
      · rw [← hh]; exact List.getElem_mem hm'
      · exact absurd rfl ((hnum.first_iff i _ e).1 hf _ _ hh hfst)
  have hlast : ∀ b, b ∈ last ↔ ∃ i, b = i + 1 ∧ Last obs i := by
    intro b
    constructor
    · intro hb
      obtain ⟨m, hm⟩ := List.getElem?_of_mem hb
      have hml : m < first.length := by rw [hlen]; exact (List.getElem?_eq_some_iff.1 hm).1
      obtain ⟨h1, h2, h3⟩ := hseg m _ b (List.getElem?_eq_getElem hml) hm
      refine ⟨b - 1, by omega, ?_⟩
      have hi' := (h3 (b - 1)).2 ⟨by omega, by omega⟩
      rw [hnum.last_iff (b - 1) m hi']
      rintro k c hk hc rfl
      have := (h3 k).1 hc
      omega
    · rintro ⟨i, rfl, hf⟩
      have hi : i < sta.length := by obtain ⟨o, ho, _⟩ := hf; rw [hnum.len]; exact (List.getElem?_eq_some_iff.1 ho).1
      have e := List.getElem?_eq_getElem hi
      have hm := (hrange _ (List.mem_map.2 ⟨_, List.getElem_mem hi, rfl⟩)).2
      have hm' : sta[i] < last.length := by omega
      obtain ⟨h1, h2, h3⟩ := hseg (sta[i]) _ _ (List.getElem?_eq_getElem (by omega)) (List.getElem?_eq_getElem hm')
      have hin := (h3 i).1 e
      rcases Nat.eq_or_lt_of_le (show i + 1 ≤ last[sta[i]] by omega) with hh | hh
      · rw [hh]; exact List.getElem_mem hm'
      · have := (h3 (i + 1)).2 ⟨by omega, hh⟩
        exact absurd rfl ((hnum.last_iff i _ e).1 hf (i + 1) _ (by omega) this)
  -- the reads
  have hnext : last.mapM (fun (k : Nat) => Py.get (obs.map (·.next)) ((k : Int) - 1)) =
      some (last.map (fun k => at' (obs.map (·.next)) (k - 1))) := by
    apply Tracks.mapM_some_map
    intro b hb
    obtain ⟨i, rfl, o, ho, _⟩ := (hlast b).1 hb
    rw [show ((i + 1 : Nat) : Int) - 1 = (i : Int) by omega, Py.get_natCast, Nat.add_sub_cancel, at',
      List.getElem?_map, ho]; rfl
  have hprev : first.mapM (fun (k : Nat) => Py.get (obs.map (·.prev)) (k : Int)) =
      some (first.map (fun k => at' (obs.map (·.prev)) k)) := by
    apply Tracks.mapM_some_map
    intro b hb
    obtain ⟨o, ho, _⟩ := (hfirst b).1 hb
    rw [Py.get_natCast, at', List.getElem?_map, ho]; rfl
  have hsplit : ((first.map (fun k => (at' (obs.map (·.prev)) k, k))).filter (fun p => decide (p.1 ≠ -1))).mapM
      (fun p => do
        let a ← Py.get labels p.1
        let b ← Py.get labels (p.2 : Int)
        some (a, b)) = some (((first.map (fun k => (at' (obs.map (·.prev)) k, k))).filter
          (fun p => decide (p.1 ≠ -1))).map (fun p => (labels.getD p.1.toNat 0, labels.getD p.2 0))) := by
    apply Tracks.mapM_some_map
    rintro ⟨p, k⟩ hp
    obtain ⟨h1, h2⟩ := List.mem_filter.1 hp
    obtain ⟨k', hk', e⟩ := List.mem_map.1 h1
    rw [Prod.mk.injEq] at e
    obtain ⟨e1, rfl⟩ := e
    obtain ⟨o, ho, _⟩ := (hfirst k').1 hk'
    have hpo : p = o.prev := by rw [← e1, at', List.getElem?_map, ho]; rfl
    have hk : k' < obs.length := (List.getElem?_eq_some_iff.1 ho).1
    have h2 : p ≠ -1 := by simpa using h2
    obtain ⟨h3, h4⟩ := (hv o (List.mem_of_getElem? ho)).1.resolve_left (by rw [← hpo]; exact h2)
    rw [← hpo] at h3 h4
    obtain ⟨q, rfl⟩ := Int.eq_ofNat_of_zero_le h3
    simp only [Option.bind_eq_bind]
    rw [Py.get_natCast, Py.get_natCast, List.getElem?_eq_getElem (by omega), List.getElem?_eq_getElem (by omega)]
    simp [List.getD, List.getElem?_eq_getElem (show q < labels.length by omega),
      List.getElem?_eq_getElem (show k' < labels.length by omega)]
  have hmerge : ((last.map (fun k => (at' (obs.map (·.next)) (k - 1), k))).filter (fun p => decide (p.1 ≠ -1))).mapM
      (fun p => do
        let a ← Py.get labels p.1
        let b ← Py.get labels ((p.2 : Int) - 1)
        some (a, b)) = some (((last.map (fun k => (at' (obs.map (·.next)) (k - 1), k))).filter
          (fun p => decide (p.1 ≠ -1))).map (fun p => (labels.getD p.1.toNat 0, labels.getD (p.2 - 1) 0))) := by
    apply Tracks.mapM_some_map
    rintro ⟨p, k⟩ hp
    obtain ⟨h1, h2⟩ := List.mem_filter.1 hp
    obtain ⟨k', hk', e⟩ := List.mem_map.1 h1
    rw [Prod.mk.injEq] at e
    obtain ⟨e1, rfl⟩ := e
    obtain ⟨i, rfl, o, ho, _⟩ := (hlast k').1 hk'
    rw [Nat.add_sub_cancel] at e1
    have hpo : p = o.next := by rw [← e1, at', List.getElem?_map, ho]; rfl
    have hk : i < obs.length := (List.getElem?_eq_some_iff.1 ho).1
    have h2 : p ≠ -1 := by simpa using h2
    obtain ⟨h3, h4⟩ := (hv o (List.mem_of_getElem? ho)).2.resolve_left (by rw [← hpo]; exact h2)
    rw [← hpo] at h3 h4
    obtain ⟨q, rfl⟩ := Int.eq_ofNat_of_zero_le h3
    simp only [Option.bind_eq_bind]
    rw [show ((i + 1 : Nat) : Int) - 1 = (i : Int) by omega, Py.get_natCast, Py.get_natCast,
      List.getElem?_eq_getElem (by omega), List.getElem?_eq_getElem (by omega)]
    simp [List.getD, List.getElem?_eq_getElem (show q < labels.length by omega),
      List.getElem?_eq_getElem (show i < labels.length by omega)]
  have hE : connexions labels obs = some (((first.map (fun k => (at' (obs.map (·.prev)) k, k))).filter
          (fun p => decide (p.1 ≠ -1))).map (fun p => (labels.getD p.1.toNat 0, labels.getD p.2 0)) ++
        ((last.map (fun k => (at' (obs.map (·.next)) (k - 1), k))).filter
          (fun p => decide (p.1 ≠ -1))).map (fun p => (labels.getD p.1.toNat 0, labels.getD (p.2 - 1) 0))) := by
    unfold connexions
    simp only [Option.bind_eq_bind]
    rw [hsta, Option.bind_some, hbi, Option.bind_some]
    simp only
    rw [hnext, Option.bind_some, hprev, Option.bind_some, zip_map_left, zip_map_left]
    simp only [Option.bind_eq_bind] at hsplit hmerge
    rw [hsplit, Option.bind_some, hmerge, Option.bind_some]
  refine ⟨_, hE, ?_⟩
  · intro a b
    have hget : ∀ (k v : Nat), k < obs.length → (labels[k]? = some v ↔ labels.getD k 0 = v) := by
      intro k v hk
      rw [List.getElem?_eq_getElem (by omega), List.getD, List.getElem?_eq_getElem (by omega)]; simp
    rw [List.mem_append]
    constructor
    · rintro (hm | hm)
      · obtain ⟨⟨p, k⟩, hp, e⟩ := List.mem_map.1 hm
        obtain ⟨h1, h2⟩ := List.mem_filter.1 hp
        obtain ⟨k', hk', e'⟩ := List.mem_map.1 h1
        rw [Prod.mk.injEq] at e e'
        obtain ⟨e1, rfl⟩ := e'
        have hF := (hfirst k').1 hk'
        obtain ⟨o, ho, _⟩ := hF
        have hpo : p = o.prev := by rw [← e1, at', List.getElem?_map, ho]; rfl
        have hk : k' < obs.length := (List.getElem?_eq_some_iff.1 ho).1
        have h2 : p ≠ -1 := by simpa using h2
        obtain ⟨h3, h4⟩ := (hv o (List.mem_of_getElem? ho)).1.resolve_left (by rw [← hpo]; exact h2)
        rw [← hpo] at h3 h4
        obtain ⟨q, rfl⟩ := Int.eq_ofNat_of_zero_le h3
        refine ⟨k', q, Or.inl ⟨(hfirst k').1 hk', o, ho, hpo.symm⟩, (hget q a (by omega)).2 ?_, (hget k' b hk).2 e.2⟩
        simpa using e.1
      · obtain ⟨⟨p, k⟩, hp, e⟩ := List.mem_map.1 hm
        obtain ⟨h1, h2⟩ := List.mem_filter.1 hp
        obtain ⟨k', hk', e'⟩ := List.mem_map.1 h1
        rw [Prod.mk.injEq] at e e'
        obtain ⟨e1, rfl⟩ := e'
        obtain ⟨i, rfl, hL⟩ := (hlast k').1 hk'
        obtain ⟨o, ho, _⟩ := id hL
        rw [Nat.add_sub_cancel] at e1 e
        have hpo : p = o.next := by rw [← e1, at', List.getElem?_map, ho]; rfl
        have hk : i < obs.length := (List.getElem?_eq_some_iff.1 ho).1
        have h2 : p ≠ -1 := by simpa using h2
        obtain ⟨h3, h4⟩ := (hv o (List.mem_of_getElem? ho)).2.resolve_left (by rw [← hpo]; exact h2)
        rw [← hpo] at h3 h4
        obtain ⟨q, rfl⟩ := Int.eq_ofNat_of_zero_le h3
        refine ⟨i, q, Or.inr ⟨hL, o, ho, hpo.symm⟩, (hget q a (by omega)).2 ?_, (hget i b hk).2 e.2⟩
        simpa using e.1
    · rintro ⟨i, j, hE, ha, hb⟩
      have hj : j < obs.length := by rw [← hl]; exact (List.getElem?_eq_some_iff.1 ha).1
      have hi : i < obs.length := by rw [← hl]; exact (List.getElem?_eq_some_iff.1 hb).1
      rcases hE with ⟨hF, o, ho, hp⟩ | ⟨hL, o, ho, hp⟩
      · left
        refine List.mem_map.2 ⟨((j : Int), i), List.mem_filter.2 ⟨List.mem_map.2 ⟨i, (hfirst i).2 hF, ?_⟩, by simp⟩, ?_⟩
        · rw [at', List.getElem?_map, ho, ← hp]; rfl
        · rw [Prod.mk.injEq]
          exact ⟨by simpa using (hget j a hj).1 ha, (hget i b hi).1 hb⟩
      · right
        refine List.mem_map.2 ⟨((j : Int), i + 1), List.mem_filter.2 ⟨List.mem_map.2 ⟨i + 1, (hlast _).2 ⟨i, rfl, hL⟩, ?_⟩,
          by simp⟩, ?_⟩
        · rw [Nat.add_sub_cancel, at', List.getElem?_map, ho, ← hp]; rfl
        · rw [Prod.mk.injEq]
          exact ⟨by simpa using (hget j a hj).1 ha, by simpa using (hget i b hi).1 hb⟩

end Verif.Segments
