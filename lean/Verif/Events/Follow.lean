import Verif.Events.Props
import Mathlib.Tactic.IntervalCases

/-!
# C70: observations close to an event
-/

namespace Verif.Events

open Verif.Segments

/-- Row `j` is reached from row `i` by `k` links. -/
inductive Steps (links : List Int) : Nat → Nat → Nat → Prop
  | zero (i : Nat) : Steps links i 0 i
  | succ {i j k l : Nat} : links[i]? = some (j : Int) → Steps links j k l → Steps links i (k + 1) l

/-- Row `j` is on the path which follows the links from row `i`, at less than `dt` in time from `i` (or is `i` itself). -/
def Near (links time : List Int) (dt : Int) (i j : Nat) : Prop :=
  ∃ k ti tj, Steps links i k j ∧ time[i]? = some ti ∧ time[j]? = some tj ∧ (k = 0 ∨ |tj - ti| < dt)

/-- Links designate rows and all go in the same direction of time. -/
structure Timed (links time : List Int) (σ : Int) : Prop where
  sign : σ = 1 ∨ σ = -1
  len : links.length = time.length
  valid : ∀ x ∈ links, x = -1 ∨ 0 ≤ x ∧ x < time.length
  mono : ∀ (i j : Nat) (ti tj : Int), links[i]? = some (j : Int) → time[i]? = some ti → time[j]? = some tj → σ * ti < σ * tj

theorem countP_lt_of {p q : Int → Bool} {l : List Int} {t : Int} (h : ∀ x, p x = true → q x = true) (ht : t ∈ l) (h1 : q t = true)
    (h2 : p t = false) : l.countP p < l.countP q := by
  induction l with
  | nil => cases ht
  | cons a l ih =>
    have hle : l.countP p ≤ l.countP q := List.countP_mono_left (fun x _ => h x)
    rw [List.countP_cons, List.countP_cons]
    rcases List.mem_cons.1 ht with rfl | hm
    · rw [h1, h2]; simp; omega
    · have := ih hm
      by_cases hp : p a = true
      · rw [if_pos hp, if_pos (h a hp)]; omega
      · rw [if_neg hp]
        split <;> omega

/-- Number of rows which are not before a date. -/
def ahead (time : List Int) (σ t : Int) : Nat := time.countP (fun x => decide (σ * t ≤ σ * x))

theorem ahead_lt {time : List Int} {σ ti tj : Int} (hm : ti ∈ time) (h : σ * ti < σ * tj) : ahead time σ tj < ahead time σ ti := by
  apply countP_lt_of (t := ti) _ hm
  · simp
  · simpa using h
  · intro x hx
    simp only [decide_eq_true_eq] at hx ⊢
    omega

theorem Steps.later {links time : List Int} {σ : Int} (h : Timed links time σ) {i k j : Nat} (hs : Steps links i k j) :
    ∀ {ti tj : Int}, time[i]? = some ti → time[j]? = some tj → σ * ti ≤ σ * tj := by
  induction hs with
  | zero i => intro ti tj h1 h2; rw [h1] at h2; cases h2; exact le_refl _
  | succ hl _ ih =>
    rename_i i j k l _
    intro ti tj h1 h2
    have hj := (h.valid _ (List.mem_of_getElem? hl)).resolve_left (by omega)
    have hlt : j < time.length := by omega
    have := h.mono i j ti _ hl h1 (List.getElem?_eq_getElem hlt)
    have := ih (List.getElem?_eq_getElem hlt) h2
    omega

theorem abs_scaled {σ a b : Int} (h : σ = 1 ∨ σ = -1) (hab : σ * a ≤ σ * b) : |b - a| = σ * b - σ * a := by
  rcases h with rfl | rfl
  · rw [abs_of_nonneg] <;> omega
  · rw [abs_of_nonpos] <;> omega

theorem set_true {m : List Bool} {n i : Nat} (hm : m.length = n) (hi : i < n) :
    ∃ m', Py.set m (i : Int) true = some m' ∧ m'.length = n ∧ ∀ j : Nat, m'[j]? = some true ↔ m[j]? = some true ∨ j = i := by
  refine ⟨m.set i true, ?_, by simpa using hm, fun j => ?_⟩
  · unfold Py.set Py.idx
    rw [if_pos (by omega), if_pos (by omega)]
    simp
  · rw [List.getElem?_set]
    by_cases h : i = j
    · subst h; simp [hm, hi]
    · rw [if_neg h]
      constructor
      · exact Or.inl
      · rintro (h1 | h1)
        · exact h1
        · exact absurd h1.symm h

theorem followLoop_spec {links time : List Int} {σ : Int} (h : Timed links time σ) (hpos : 0 < time.length) {t0 dt : Int} :
    ∀ (fuel : Nat) (i : Int) (m : List Bool), m.length = time.length → (i = -1 ∧ 0 < fuel ∨ ∃ (n : Nat) (ti : Int), i = n ∧ time[n]? = some ti ∧
      ahead time σ ti < fuel ∧ σ * t0 ≤ σ * ti) →
      ∃ m', followLoop links time t0 dt fuel i m = some m' ∧ m'.length = time.length ∧
        ∀ j : Nat, m'[j]? = some true ↔ m[j]? = some true ∨
          ∃ (n k : Nat) (tj : Int), i = n ∧ Steps links n k j ∧ time[j]? = some tj ∧ |tj - t0| < dt := by
  intro fuel
  induction fuel with
  | zero =>
    intro i m _ hi
    rcases hi with ⟨_, h0⟩ | ⟨n, ti, _, _, h0, _⟩ <;> omega
  | succ fuel ih =>
    intro i m hm hi
    rw [followLoop]
    rcases hi with ⟨rfl, _⟩ | ⟨n, ti, rfl, hti, hfuel, hle⟩
    · have hr : ∃ t, Py.get time (-1) = some t := by
        unfold Py.get Py.idx
        rw [if_neg (by omega), if_pos (by omega)]
        exact ⟨_, List.getElem?_eq_getElem (by omega)⟩
      obtain ⟨t, ht⟩ := hr
      refine ⟨m, by rw [ht]; simp, hm, fun j => ⟨Or.inl, ?_⟩⟩
      rintro (h1 | ⟨n, _, _, h1, _⟩)
      · exact h1
      · omega
    · have hn : n < time.length := (List.getElem?_eq_some_iff.1 hti).1
      rw [Py.get_natCast, hti]
      simp only [Option.bind_eq_bind, Option.bind_some]
      by_cases hc : |ti - t0| < dt
      · rw [if_pos ⟨hc, by omega⟩]
        obtain ⟨m1, hm1, hm1l, hm1s⟩ := set_true hm hn
        have hnl : n < links.length := by rw [h.len]; exact hn
        have hlink := List.getElem?_eq_getElem hnl
        rw [hm1, Py.get_natCast, hlink]
        simp only [Option.bind_some]
        obtain ⟨m2, r1, r2, r3⟩ := ih links[n] m1 hm1l (by
          rcases h.valid _ (List.getElem_mem hnl) with e | ⟨e1, e2⟩
          · refine Or.inl ⟨e, ?_⟩
            have : 0 < ahead time σ ti := by
              unfold ahead
              rw [List.countP_pos_iff]
              exact ⟨ti, List.mem_of_getElem? hti, by simp⟩
            omega
          · obtain ⟨q, hq⟩ := Int.eq_ofNat_of_zero_le e1
            have hql : q < time.length := by omega
            have hmono := h.mono n q ti _ (by rw [hlink, hq]) hti (List.getElem?_eq_getElem hql)
            refine Or.inr ⟨q, _, hq, List.getElem?_eq_getElem hql, ?_, by omega⟩
            have := ahead_lt (List.mem_of_getElem? hti) hmono
            omega)
        refine ⟨m2, r1, r2, fun j => ?_⟩
        rw [r3, hm1s]
        constructor
        · rintro ((g | rfl) | ⟨q, k, tj, e1, e2, e3, e4⟩)
          · exact Or.inl g
          · exact Or.inr ⟨j, 0, ti, rfl, Steps.zero j, hti, hc⟩
          · exact Or.inr ⟨n, k + 1, tj, rfl, Steps.succ (by rw [hlink, e1]) e2, e3, e4⟩
        · rintro (g | ⟨q, k, tj, e1, e2, e3, e4⟩)
          · exact Or.inl (Or.inl g)
          · have : n = q := by omega
            subst this
            cases e2 with
            | zero => exact Or.inl (Or.inr rfl)
            | succ s1 s2 =>
              rw [hlink] at s1
              exact Or.inr ⟨_, _, tj, Option.some.inj s1, s2, e3, e4⟩
      · rw [if_neg (fun hcc => hc hcc.1)]
        refine ⟨m, rfl, hm, fun j => ⟨Or.inl, ?_⟩⟩
        rintro (g | ⟨q, k, tj, e1, e2, e3, e4⟩)
        · exact g
        · have : n = q := by omega
          subst this
          have hl := e2.later h hti e3
          rw [abs_scaled h.sign hle] at hc
          rw [abs_scaled h.sign (le_trans hle hl)] at e4
          omega

/-- **C70**: `mask_follow_obs` adds to the mask exactly the observations met by following the links from the given observations at less
than `dt` days of the start. -/
theorem mask_follow_spec {links time : List Int} {σ : Int} (h : Timed links time σ) {dt : Int} :
    ∀ (indexs : List Nat) (m : List Bool), m.length = time.length → (∀ i ∈ indexs, i < time.length) →
      ∃ m', maskFollow links time dt (indexs.map (fun (i : Nat) => (i : Int))) m = some m' ∧ m'.length = time.length ∧
        ∀ j : Nat, m'[j]? = some true ↔ m[j]? = some true ∨ ∃ i ∈ indexs, Near links time dt i j
  | [], m, hm, _ => ⟨m, rfl, hm, fun j => by simp⟩
  | i :: l, m, hm, hi => by
    have hil : i < time.length := hi i (by simp)
    have hti := List.getElem?_eq_getElem hil
    obtain ⟨m1, hm1, hm1l, hm1s⟩ := set_true hm hil
    have hnl : i < links.length := by rw [h.len]; exact hil
    have hlink := List.getElem?_eq_getElem hnl
    obtain ⟨m2, r1, r2, r3⟩ := followLoop_spec (t0 := time[i]) (dt := dt) h (by omega) (time.length + 1) links[i] m1 hm1l (by
      rcases h.valid _ (List.getElem_mem hnl) with e | ⟨e1, e2⟩
      · exact Or.inl ⟨e, by omega⟩
      · obtain ⟨q, hq⟩ := Int.eq_ofNat_of_zero_le e1
        have hql : q < time.length := by omega
        have hmono := h.mono i q _ _ (by rw [hlink, hq]) hti (List.getElem?_eq_getElem hql)
        exact Or.inr ⟨q, _, hq, List.getElem?_eq_getElem hql, Nat.lt_succ_of_le List.countP_le_length, by omega⟩)
    obtain ⟨m3, s1, s2, s3⟩ := mask_follow_spec h l m2 r2 (fun x hx => hi x (List.mem_cons_of_mem _ hx))
    refine ⟨m3, ?_, s2, fun j => ?_⟩
    · rw [List.map_cons, maskFollow, Py.get_natCast, hti, hm1, Py.get_natCast, hlink]
      simp only [Option.bind_eq_bind, Option.bind_some]
      rw [r1]
      exact s1
    · rw [s3, r3, hm1s]
      constructor
      · rintro (((g | rfl) | ⟨q, k, tj, e1, e2, e3, e4⟩) | ⟨x, hx, g⟩)
        · exact Or.inl g
        · exact Or.inr ⟨j, by simp, 0, _, _, Steps.zero j, hti, hti, Or.inl rfl⟩
        · exact Or.inr ⟨i, by simp, k + 1, _, tj, Steps.succ (by rw [hlink, e1]) e2, hti, e3, Or.inr e4⟩
        · exact Or.inr ⟨x, List.mem_cons_of_mem _ hx, g⟩
      · rintro (g | ⟨x, hx, g⟩)
        · exact Or.inl (Or.inl (Or.inl g))
        · rcases List.mem_cons.1 hx with rfl | hx
          · obtain ⟨k, ti, tj, e1, e2, e3, e4⟩ := g
            rw [hti] at e2; cases e2
            cases e1 with
            | zero => exact Or.inl (Or.inl (Or.inr rfl))
            | succ c1 c2 =>
              rw [hlink] at c1
              exact Or.inl (Or.inr ⟨_, _, tj, Option.some.inj c1, c2, e3, by
                rcases e4 with e4 | e4
                · omega
                · exact e4⟩)
          · exact Or.inr ⟨x, hx, g⟩

/-- Row `s` ends a segment and is linked to row `t`, whose link to the past is row `p`. -/
def Merges (obs : List Obs) (t p s : Nat) : Prop :=
  Last obs s ∧ ∃ o o', obs[s]? = some o ∧ o.next = t ∧ obs[t]? = some o' ∧ o'.prev = p

/-- Row `s` starts a segment and comes from row `t`, whose link to the future is row `p`. -/
def Splits (obs : List Obs) (t p s : Nat) : Prop :=
  First obs s ∧ ∃ o o', obs[s]? = some o ∧ o.prev = t ∧ obs[t]? = some o' ∧ o'.next = p

/-- The targets of the mergings have a past, the sources of the splittings have a future. -/
structure Complete (obs : List Obs) : Prop where
  past : ∀ (s t : Nat) o o', Last obs s → obs[s]? = some o → o.next = t → obs[t]? = some o' → o'.prev ≠ -1
  future : ∀ (s t : Nat) o o', First obs s → obs[s]? = some o → o.prev = t → obs[t]? = some o' → o'.next ≠ -1

theorem nat_list {l : List Int} (h : ∀ x ∈ l, 0 ≤ x) :
    ∃ l' : List Nat, l = l'.map (fun (i : Nat) => (i : Int)) ∧ ∀ n : Nat, n ∈ l' ↔ (n : Int) ∈ l := by
  induction l with
  | nil => exact ⟨[], rfl, fun n => by simp⟩
  | cons a l ih =>
    obtain ⟨l', h1, h2⟩ := ih (fun x hx => h x (List.mem_cons_of_mem _ hx))
    obtain ⟨k, rfl⟩ := Int.eq_ofNat_of_zero_le (h a (by simp))
    refine ⟨k :: l', by rw [List.map_cons, ← h1], fun n => ?_⟩
    rw [List.mem_cons, List.mem_cons, h2]
    constructor
    · rintro (rfl | g)
      · exact Or.inl rfl
      · exact Or.inr g
    · rintro (g | g)
      · exact Or.inl (by omega)
      · exact Or.inr g

/-- One call of `mask_follow_obs` on a list of links which are not absent. -/
theorem mask_follow_ints {links time : List Int} {σ : Int} (h : Timed links time σ) {dt : Int} (l : List Int) (m : List Bool)
    (hm : m.length = time.length) (hl : ∀ x ∈ l, 0 ≤ x ∧ x < time.length) :
    ∃ m', maskFollow links time dt l m = some m' ∧ m'.length = time.length ∧
      ∀ j : Nat, m'[j]? = some true ↔ m[j]? = some true ∨ ∃ i : Nat, (i : Int) ∈ l ∧ Near links time dt i j := by
  obtain ⟨l', h1, h2⟩ := nat_list (fun x hx => (hl x hx).1)
  obtain ⟨m', r1, r2, r3⟩ := mask_follow_spec (dt := dt) h l' m hm (fun i hi => by have := (hl _ ((h2 i).1 hi)).2; omega)
  refine ⟨m', by rw [h1]; exact r1, r2, fun j => ?_⟩
  rw [r3]
  simp only [h2]

/-- **C70**: `mask_obs_close_event` selects exactly the observations which are, along the links, at less than `dt` days of a side of a
merging or of a splitting. Missing: mergings whose target has no past, splittings whose source has no future, see `close_wrong`. -/
theorem close_event_partial (obs : List Obs) (time : List Int) (hne : obs ≠ []) (hv : Valid obs) (hc : Complete obs)
    (hn : Timed (obs.map (·.next)) time 1) (hp : Timed (obs.map (·.prev)) time (-1)) (merging spliting : Bool) (dt : Int) :
    ∃ m, closeMask obs time merging spliting dt = some m ∧ m.length = obs.length ∧ ∀ j : Nat, m[j]? = some true ↔
      (merging = true ∧ ∃ t p s, Merges obs t p s ∧ (Near (obs.map (·.prev)) time dt p j ∨ Near (obs.map (·.prev)) time dt s j ∨
        Near (obs.map (·.next)) time dt t j)) ∨
      (spliting = true ∧ ∃ t p s, Splits obs t p s ∧ (Near (obs.map (·.next)) time dt p j ∨ Near (obs.map (·.next)) time dt s j ∨
        Near (obs.map (·.prev)) time dt t j)) := by
  have ht : time.length = obs.length := by rw [← hn.len, List.length_map]
  obtain ⟨e, e1, _, _, e4⟩ := merging_triplets obs time hne hv ht
  obtain ⟨f, f1, _, _, f4⟩ := splitting_triplets obs time hne hv ht
  have em : ∀ t p s, (t, p, s) ∈ e ↔ ∃ t' p' : Nat, t = t' ∧ p = p' ∧ Merges obs t' p' s := by
    intro t p s
    rw [e4]
    constructor
    · rintro ⟨g1, o, o', ho, g2, g3, ho', g4⟩
      have hb := valid_next hv ho (by rw [g2]; exact g3)
      rw [g2] at hb
      obtain ⟨t', rfl⟩ := Int.eq_ofNat_of_zero_le hb.1
      rw [Int.toNat_natCast] at ho'
      have hpast := hc.past s t' o o' g1 ho g2 ho'
      have hb' := valid_prev hv ho' hpast
      rw [g4] at hb'
      obtain ⟨p', rfl⟩ := Int.eq_ofNat_of_zero_le hb'.1
      exact ⟨t', p', rfl, rfl, g1, o, o', ho, g2, ho', g4⟩
    · rintro ⟨t', p', rfl, rfl, g1, o, o', ho, g2, ho', g4⟩
      exact ⟨g1, o, o', ho, g2, by omega, by rw [Int.toNat_natCast]; exact ho', g4⟩
  have fm : ∀ t p s, (t, p, s) ∈ f ↔ ∃ t' p' : Nat, t = t' ∧ p = p' ∧ Splits obs t' p' s := by
    intro t p s
    rw [f4]
    constructor
    · rintro ⟨g1, o, o', ho, g2, g3, ho', g4⟩
      have hb := valid_prev hv ho (by rw [g2]; exact g3)
      rw [g2] at hb
      obtain ⟨t', rfl⟩ := Int.eq_ofNat_of_zero_le hb.1
      rw [Int.toNat_natCast] at ho'
      have hfut := hc.future s t' o o' g1 ho g2 ho'
      have hb' := valid_next hv ho' hfut
      rw [g4] at hb'
      obtain ⟨p', rfl⟩ := Int.eq_ofNat_of_zero_le hb'.1
      exact ⟨t', p', rfl, rfl, g1, o, o', ho, g2, ho', g4⟩
    · rintro ⟨t', p', rfl, rfl, g1, o, o', ho, g2, ho', g4⟩
      exact ⟨g1, o, o', ho, g2, by omega, by rw [Int.toNat_natCast]; exact ho', g4⟩
  have bound : ∀ {n : Nat} {o : Obs}, obs[n]? = some o → (0 : Int) ≤ n ∧ (n : Int) < time.length := by
    intro n o ho
    have := (List.getElem?_eq_some_iff.1 ho).1
    omega
  -- the three calls of one kind
  have stage : ∀ (l1 l2 : List Int) (σ1 σ2 : Int), Timed l1 time σ1 → Timed l2 time σ2 → ∀ (g : List (Int × Int × Nat)) (m : List Bool),
      m.length = time.length → (∀ t p s, (t, p, s) ∈ g → (0 ≤ t ∧ t < time.length) ∧ (0 ≤ p ∧ p < time.length) ∧ s < time.length) →
      ∃ m', (do
          let m ← maskFollow l1 time dt (g.map (·.2.1)) m
          let m ← maskFollow l1 time dt (g.map (fun p => (p.2.2 : Int))) m
          maskFollow l2 time dt (g.map (·.1)) m) = some m' ∧ m'.length = time.length ∧
        ∀ j : Nat, m'[j]? = some true ↔ m[j]? = some true ∨ ∃ t p s : Nat, ((t : Int), (p : Int), s) ∈ g ∧
          (Near l1 time dt p j ∨ Near l1 time dt s j ∨ Near l2 time dt t j) := by
    intro l1 l2 σ1 σ2 h1 h2 g m hm hg
    obtain ⟨m1, a1, a2, a3⟩ := mask_follow_ints (dt := dt) h1 (g.map (·.2.1)) m hm (by
      intro x hx
      obtain ⟨⟨t, p, s⟩, hx', rfl⟩ := List.mem_map.1 hx
      exact (hg t p s hx').2.1)
    obtain ⟨m2, b1, b2, b3⟩ := mask_follow_ints (dt := dt) h1 (g.map (fun p => (p.2.2 : Int))) m1 a2 (by
      intro x hx
      obtain ⟨⟨t, p, s⟩, hx', rfl⟩ := List.mem_map.1 hx
      have := (hg t p s hx').2.2
      simp only
      omega)
    obtain ⟨m3, c1, c2, c3⟩ := mask_follow_ints (dt := dt) h2 (g.map (·.1)) m2 b2 (by
      intro x hx
      obtain ⟨⟨t, p, s⟩, hx', rfl⟩ := List.mem_map.1 hx
      exact (hg t p s hx').1)
    refine ⟨m3, by rw [a1]; simp only [Option.bind_eq_bind, Option.bind_some]; rw [b1]; exact c1, c2, fun j => ?_⟩
    rw [c3, b3, a3]
    constructor
    · rintro (((q | ⟨i, hi, q⟩) | ⟨i, hi, q⟩) | ⟨i, hi, q⟩)
      · exact Or.inl q
      · obtain ⟨⟨t, p, s⟩, hx, e⟩ := List.mem_map.1 hi
        simp only at e
        subst e
        obtain ⟨t', rfl⟩ := Int.eq_ofNat_of_zero_le (hg _ _ _ hx).1.1
        exact Or.inr ⟨t', i, s, hx, Or.inl q⟩
      · obtain ⟨⟨t, p, s⟩, hx, e⟩ := List.mem_map.1 hi
        simp only at e
        obtain ⟨t', rfl⟩ := Int.eq_ofNat_of_zero_le (hg _ _ _ hx).1.1
        obtain ⟨p', rfl⟩ := Int.eq_ofNat_of_zero_le (hg _ _ _ hx).2.1.1
        have : s = i := by omega
        subst this
        exact Or.inr ⟨t', p', s, hx, Or.inr (Or.inl q)⟩
      · obtain ⟨⟨t, p, s⟩, hx, e⟩ := List.mem_map.1 hi
        simp only at e
        subst e
        obtain ⟨p', rfl⟩ := Int.eq_ofNat_of_zero_le (hg _ _ _ hx).2.1.1
        exact Or.inr ⟨i, p', s, hx, Or.inr (Or.inr q)⟩
    · rintro (q | ⟨t, p, s, hx, q | q | q⟩)
      · exact Or.inl (Or.inl (Or.inl q))
      · exact Or.inl (Or.inl (Or.inr ⟨p, List.mem_map.2 ⟨_, hx, rfl⟩, q⟩))
      · exact Or.inl (Or.inr ⟨s, List.mem_map.2 ⟨_, hx, rfl⟩, q⟩)
      · exact Or.inr ⟨t, List.mem_map.2 ⟨_, hx, rfl⟩, q⟩
  have hge : ∀ t p s, (t, p, s) ∈ e → (0 ≤ t ∧ t < time.length) ∧ (0 ≤ p ∧ p < time.length) ∧ s < time.length := by
    intro t p s hx
    obtain ⟨t', p', rfl, rfl, g1, o, o', ho, g2, ho', g4⟩ := (em t p s).1 hx
    have hb := valid_prev hv ho' (by omega)
    rw [g4] at hb
    have := bound ho
    exact ⟨bound ho', by omega, by omega⟩
  have hgf : ∀ t p s, (t, p, s) ∈ f → (0 ≤ t ∧ t < time.length) ∧ (0 ≤ p ∧ p < time.length) ∧ s < time.length := by
    intro t p s hx
    obtain ⟨t', p', rfl, rfl, g1, o, o', ho, g2, ho', g4⟩ := (fm t p s).1 hx
    have hb := valid_next hv ho' (by omega)
    rw [g4] at hb
    have := bound ho
    exact ⟨bound ho', by omega, by omega⟩
  have hm0 : (List.replicate obs.length false).length = time.length := by rw [List.length_replicate, ht]
  have hz : ∀ j : Nat, (List.replicate obs.length false)[j]? ≠ some true := by
    intro j hj
    have := List.mem_of_getElem? hj
    rw [List.mem_replicate] at this
    exact absurd this.2 (by decide)
  -- mergings
  obtain ⟨m1, r1, r2, r3⟩ : ∃ m1, (if merging then markMerging obs time dt (List.replicate obs.length false) else some (List.replicate obs.length false)) = some m1 ∧
      m1.length = time.length ∧ ∀ j : Nat, m1[j]? = some true ↔ (merging = true ∧ ∃ t p s, Merges obs t p s ∧
        (Near (obs.map (·.prev)) time dt p j ∨ Near (obs.map (·.prev)) time dt s j ∨ Near (obs.map (·.next)) time dt t j)) := by
    cases merging with
    | false => exact ⟨_, rfl, hm0, fun j => ⟨fun q => absurd q (hz j), fun q => by simp at q⟩⟩
    | true =>
      obtain ⟨m1, r1, r2, r3⟩ := stage _ _ _ _ hp hn e _ hm0 hge
      refine ⟨m1, by rw [if_pos rfl, markMerging, e1]; exact r1, r2, fun j => ?_⟩
      rw [r3]
      constructor
      · rintro (q | ⟨t, p, s, hx, q⟩)
        · exact absurd q (hz j)
        · obtain ⟨t', p', h1, h2, h3⟩ := (em _ _ _).1 hx
          have h1' : t = t' := by omega
          have h2' : p = p' := by omega
          subst h1' h2'
          exact ⟨rfl, t, p, s, h3, q⟩
      · rintro ⟨_, t, p, s, h3, q⟩
        exact Or.inr ⟨t, p, s, (em _ _ _).2 ⟨t, p, rfl, rfl, h3⟩, q⟩
  -- splittings
  obtain ⟨m2, s1, s2, s3⟩ : ∃ m2, (if spliting then markSplitting obs time dt m1 else some m1) = some m2 ∧
      m2.length = time.length ∧ ∀ j : Nat, m2[j]? = some true ↔ m1[j]? = some true ∨ (spliting = true ∧ ∃ t p s, Splits obs t p s ∧
        (Near (obs.map (·.next)) time dt p j ∨ Near (obs.map (·.next)) time dt s j ∨ Near (obs.map (·.prev)) time dt t j)) := by
    cases spliting with
    | false => exact ⟨_, rfl, r2, fun j => by simp⟩
    | true =>
      obtain ⟨m2, s1, s2, s3⟩ := stage _ _ _ _ hn hp f _ r2 hgf
      refine ⟨m2, by rw [if_pos rfl, markSplitting, f1]; exact s1, s2, fun j => ?_⟩
      rw [s3]
      constructor
      · rintro (q | ⟨t, p, s, hx, q⟩)
        · exact Or.inl q
        · obtain ⟨t', p', h1, h2, h3⟩ := (fm _ _ _).1 hx
          have h1' : t = t' := by omega
          have h2' : p = p' := by omega
          subst h1' h2'
          exact Or.inr ⟨rfl, t, p, s, h3, q⟩
      · rintro (q | ⟨_, t, p, s, h3, q⟩)
        · exact Or.inl q
        · exact Or.inr ⟨t, p, s, (fm _ _ _).2 ⟨t, p, rfl, rfl, h3⟩, q⟩
  refine ⟨m2, ?_, by rw [s2, ht], fun j => by rw [s3, r3]⟩
  unfold closeMask
  simp only
  rw [r1]
  exact s1

/-- A merging whose target has no past marks the last observation of the file, of another network. -/
theorem close_wrong : let obs : List Obs := [⟨1, 1, -1, 1⟩, ⟨1, 2, -1, -1⟩, ⟨2, 1, -1, -1⟩]
    closeMask obs [0, 1, 50] true false 3 = some [true, true, true] := by decide

/-- A network with a splitting and a merging, all hypotheses hold. -/
example : let obs : List Obs := [⟨1, 1, -1, 1⟩, ⟨1, 1, 0, 2⟩, ⟨1, 1, 1, 3⟩, ⟨1, 1, 2, -1⟩, ⟨1, 2, 0, 2⟩]
    let time : List Int := [0, 1, 2, 10, 1]
    Timed (obs.map (·.next)) time 1 ∧ Timed (obs.map (·.prev)) time (-1) ∧
      closeMask obs time true false 3 = some [true, true, true, false, true] := by
  refine ⟨⟨by decide, by decide, by decide, ?_⟩, ⟨by decide, by decide, by decide, ?_⟩, by decide⟩
  · intro i j ti tj h1 h2 h3
    have hi : i < 5 := (List.getElem?_eq_some_iff.1 h2).1
    have hj : j < 5 := (List.getElem?_eq_some_iff.1 h3).1
    interval_cases i <;> interval_cases j <;> simp at h1 h2 h3 <;> omega
  · intro i j ti tj h1 h2 h3
    have hi : i < 5 := (List.getElem?_eq_some_iff.1 h2).1
    have hj : j < 5 := (List.getElem?_eq_some_iff.1 h3).1
    interval_cases i <;> interval_cases j <;> simp at h1 h2 h3 <;> omega

end Verif.Events
