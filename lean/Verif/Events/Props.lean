import Verif.Events.Lemmas

/-!
# C68, C69, C70: births, deaths, mergings and splittings of a network
-/

namespace Verif.Events

open Verif.Segments

/-! ### Reads -/

theorem select_filter {α : Type} (l : List α) (p : α → Bool) : Py.select (l.map p) l = l.filter p := by
  have := Py.select_map l p (fun x => x)
  simpa using this

theorem prev_read {obs : List Obs} {first : List Nat} (h : ∀ i ∈ first, First obs i) :
    first.mapM (fun (k : Nat) => Py.get (obs.map (·.prev)) (k : Int)) = some (first.map (fun k => at' (obs.map (·.prev)) k)) := by
  apply Tracks.mapM_some_map
  intro b hb
  obtain ⟨o, ho, _⟩ := h b hb
  rw [Py.get_natCast, at', List.getElem?_map, ho]; rfl

theorem next_read {obs : List Obs} {last : List Nat} (h : ∀ b ∈ last, ∃ i, b = i + 1 ∧ Last obs i) :
    last.mapM (fun (k : Nat) => Py.get (obs.map (·.next)) ((k : Int) - 1)) =
      some (last.map (fun k => at' (obs.map (·.next)) (k - 1))) := by
  apply Tracks.mapM_some_map
  intro b hb
  obtain ⟨i, rfl, o, ho, _⟩ := h b hb
  rw [show ((i + 1 : Nat) : Int) - 1 = (i : Int) by omega, Py.get_natCast, Nat.add_sub_cancel, at',
    List.getElem?_map, ho]; rfl

theorem at_prev {obs : List Obs} {i : Nat} {o : Obs} (h : obs[i]? = some o) : at' (obs.map (·.prev)) i = o.prev := by
  rw [at', List.getElem?_map, h]; rfl

theorem at_next {obs : List Obs} {i : Nat} {o : Obs} (h : obs[i]? = some o) : at' (obs.map (·.next)) i = o.next := by
  rw [at', List.getElem?_map, h]; rfl

/-! ### C68: births and deaths -/

/-- The trash: the network 0 holds the observations without any link, in one segment; the networks are sorted; and the first segment of
a dataset without trash has a link. -/
structure TrashIsZero (obs : List Obs) : Prop where
  sorted : (obs.map (·.track)).Pairwise (· ≤ ·)
  alone : ∀ o ∈ obs, o.track = 0 → o.prev = -1 ∧ o.next = -1
  one : ∀ o ∈ obs, ∀ o' ∈ obs, o.track = 0 → o'.track = 0 → o.seg = o'.seg
  linked : ∀ o, obs[0]? = some o → o.track ≠ 0 → ∃ (i : Nat) (o' : Obs), obs[i]? = some o' ∧
    (∀ (k : Nat) o'', k ≤ i → obs[k]? = some o'' → o''.key = o.key) ∧ (o'.prev ≠ -1 ∨ o'.next ≠ -1)

theorem trash_iff {obs : List Obs} (hne : obs ≠ []) (h : TrashIsZero obs) :
    ∃ o, obs[0]? = some o ∧ firstIsTrash obs = some (decide (o.track = 0)) := by
  obtain ⟨first, last, hb, hlen, hpos, _, _, hf, hl, h0, hseg⟩ := bounds_spec obs hne
  have hz : 0 < last.length := by omega
  obtain ⟨c1, c2, c3⟩ := hseg 0 0 _ h0 (List.getElem?_eq_getElem hz)
  have ho : 0 < obs.length := by omega
  refine ⟨obs[0], List.getElem?_eq_getElem ho, ?_⟩
  unfold firstIsTrash
  rw [hb]
  simp only [Option.bind_eq_bind, Option.bind_some, h0, List.getElem?_eq_getElem hz, List.drop_zero, Option.some.injEq]
  rw [Bool.eq_iff_iff, Bool.and_eq_true, List.all_eq_true, List.all_eq_true, decide_eq_true_eq]
  have hmem : ∀ o, o ∈ obs.take last[0] ↔ ∃ k, k < last[0] ∧ obs[k]? = some o := by
    intro o
    rw [List.mem_iff_getElem?]
    constructor
    · rintro ⟨k, hk⟩
      rw [List.getElem?_take] at hk
      split at hk
      · exact ⟨k, by assumption, hk⟩
      · cases hk
    · rintro ⟨k, h1, h2⟩
      exact ⟨k, by rw [List.getElem?_take, if_pos h1, h2]⟩
  constructor
  · rintro ⟨h1, h2⟩
    by_contra hc
    obtain ⟨i, o', hi, hk, hor⟩ := h.linked _ (List.getElem?_eq_getElem ho) hc
    have hin : i < last[0] := by
      by_contra hge
      obtain ⟨j, hj, oj, hoj, hnext⟩ := (hl last[0]).1 (List.getElem_mem hz)
      have hj1 : j + 1 < obs.length := by have := (List.getElem?_eq_some_iff.1 hi).1; omega
      have e1 := hk j oj (by omega) hoj
      have e2 := hk (j + 1) _ (by omega) (List.getElem?_eq_getElem hj1)
      exact hnext _ (List.getElem?_eq_getElem hj1) (by rw [e2, e1])
    have hm := (hmem o').2 ⟨i, hin, hi⟩
    have := h1 o' hm
    have := h2 o' hm
    simp_all
  · intro ht
    have : ∀ o ∈ obs.take last[0], o.prev = -1 ∧ o.next = -1 := by
      intro o hm
      obtain ⟨k, hk, hko⟩ := (hmem o).1 hm
      have hkey := c3 k o _ hko (List.getElem?_eq_getElem ho) (Nat.zero_le _) hk
      exact h.alone o (List.mem_of_getElem? hko) (by
        have := congrArg Prod.snd hkey
        simp only [Obs.key] at this
        rw [this, ht])
    exact ⟨fun o hm => by simp [(this o hm).1], fun o hm => by simp [(this o hm).2]⟩

/-- In the network 0, the first row of a segment is the first row of the dataset. -/
theorem zero_first {obs : List Obs} (h : TrashIsZero obs) {i : Nat} {o : Obs} (hi : obs[i]? = some o) (ht : o.track = 0)
    (hf : First obs i) : i = 0 := by
  by_contra hc
  obtain ⟨o2, h2, hprev⟩ := hf
  rw [hi] at h2; cases h2
  have hlt : i - 1 < obs.length := by have := (List.getElem?_eq_some_iff.1 hi).1; omega
  have hi' := (List.getElem?_eq_some_iff.1 hi)
  have hle : obs[i - 1].track ≤ o.track := by
    have := List.pairwise_iff_getElem.1 h.sorted (i - 1) i (by simpa using hlt) (by simpa using hi'.1) (by omega)
    simp only [List.getElem_map] at this
    rw [hi'.2] at this
    exact this
  refine hprev _ (by omega) (List.getElem?_eq_getElem hlt) (Prod.ext ?_ ?_)
  · exact h.one _ (List.getElem_mem hlt) _ (List.mem_of_getElem? hi) (by omega) ht
  · show obs[i - 1].track = o.track; omega

/-- The row after the last row of the segment of the trash is in another network. -/
theorem zero_last {obs : List Obs} (h : TrashIsZero obs) {i j : Nat} {o o' : Obs} (hi : obs[i]? = some o) (ht : o.track = 0)
    (hl : Last obs i) (hj : obs[j]? = some o') (ht' : o'.track = 0) : j ≤ i := by
  by_contra hc
  obtain ⟨o2, h2, hnext⟩ := hl
  rw [hi] at h2; cases h2
  have hj' := List.getElem?_eq_some_iff.1 hj
  have hlt : i + 1 < obs.length := by have := hj'.1; omega
  have hle : obs[i + 1].track ≤ o'.track := by
    rcases Nat.eq_or_lt_of_le (show i + 1 ≤ j by omega) with e | e
    · subst e; rw [hj'.2]
    · have := List.pairwise_iff_getElem.1 h.sorted (i + 1) j (by simpa using hlt) (by simpa using hj'.1) e
      simp only [List.getElem_map] at this
      rw [hj'.2] at this
      exact this
  refine hnext _ (List.getElem?_eq_getElem hlt) (Prod.ext ?_ ?_)
  · exact h.one _ (List.getElem_mem hlt) _ (List.mem_of_getElem? hi) (by omega) ht
  · show obs[i + 1].track = o.track; omega

/-- A sorted list without its first element. -/
theorem drop_sorted {l : List Nat} {a : Nat} (hs : l.Pairwise (· < ·)) (ha : a ∈ l) (hmin : ∀ x ∈ l, a ≤ x) :
    (l.drop 1).Pairwise (· < ·) ∧ ∀ x, x ∈ l.drop 1 ↔ x ∈ l ∧ x ≠ a := by
  cases l with
  | nil => cases ha
  | cons b l =>
    have hs' := List.pairwise_cons.1 hs
    have : b = a := by
      rcases List.mem_cons.1 ha with e | e
      · exact e.symm
      · have := hs'.1 a e
        have := hmin b (by simp)
        omega
    subst this
    refine ⟨hs'.2, fun x => ?_⟩
    rw [List.drop_one, List.tail_cons]
    constructor
    · intro hx; exact ⟨List.mem_cons_of_mem _ hx, by have := hs'.1 x hx; omega⟩
    · rintro ⟨hx, hne⟩
      rcases List.mem_cons.1 hx with e | e
      · exact absurd e hne
      · exact e

/-- **C68**: `birth_event` gives, in the order of the file, exactly the first observations of the segments of the networks (the trash
excluded) which come from no other observation. Missing: datasets where the network 0 is not the trash, see `birth_wrong`. -/
theorem birth_partial (obs : List Obs) (hne : obs ≠ []) (h : TrashIsZero obs) :
    ∃ l, birth obs = some l ∧ l.Pairwise (· < ·) ∧
      ∀ i, i ∈ l ↔ First obs i ∧ ∃ o, obs[i]? = some o ∧ o.prev = -1 ∧ o.track ≠ 0 := by
  obtain ⟨o0, ho0, ht⟩ := trash_iff hne h
  obtain ⟨first, last, hb, hlen, hpos, hs1, _, hf, _, h0, hseg⟩ := bounds_spec obs hne
  have hmem : ∀ i, i ∈ first.filter (fun k => at' (obs.map (·.prev)) k == -1) ↔
      First obs i ∧ ∃ o, obs[i]? = some o ∧ o.prev = -1 := by
    intro i
    rw [List.mem_filter, hf i]
    constructor
    · rintro ⟨h1, h2⟩
      obtain ⟨o, ho, _⟩ := id h1
      rw [at_prev ho] at h2
      exact ⟨h1, o, ho, by simpa using h2⟩
    · rintro ⟨h1, o, ho, h2⟩
      exact ⟨h1, by rw [at_prev ho, h2]; rfl⟩
  have hrun : birth obs = some (if decide (o0.track = 0) = true then
      (first.filter (fun k => at' (obs.map (·.prev)) k == -1)).drop 1 else
      first.filter (fun k => at' (obs.map (·.prev)) k == -1)) := by
    unfold birth
    rw [hb]
    simp only [Option.bind_eq_bind, Option.bind_some]
    rw [prev_read (fun i hi => (hf i).1 hi), ht]
    simp only [Option.bind_some, List.map_map]
    rw [show (fun k => at' (obs.map (·.prev)) k == -1) = ((fun x => x == -1) ∘ fun k => at' (obs.map (·.prev)) k) from rfl,
      select_filter]
  refine ⟨_, hrun, ?_⟩
  have hsorted : (first.filter (fun k => at' (obs.map (·.prev)) k == -1)).Pairwise (· < ·) := hs1.filter _
  by_cases hz : o0.track = 0
  · simp only [hz, decide_true, if_true]
    have h00 : 0 ∈ first.filter (fun k => at' (obs.map (·.prev)) k == -1) := by
      rw [hmem]
      exact ⟨(hf 0).1 (List.mem_of_getElem? h0), o0, ho0, (h.alone o0 (List.mem_of_getElem? ho0) hz).1⟩
    obtain ⟨d1, d2⟩ := drop_sorted hsorted h00 (fun x _ => Nat.zero_le x)
    refine ⟨d1, fun i => ?_⟩
    rw [d2, hmem]
    constructor
    · rintro ⟨⟨h1, o, ho, h2⟩, hi⟩
      exact ⟨h1, o, ho, h2, fun hc => hi (zero_first h ho hc h1)⟩
    · rintro ⟨h1, o, ho, h2, h3⟩
      refine ⟨⟨h1, o, ho, h2⟩, ?_⟩
      rintro rfl
      rw [ho0] at ho; cases ho
      exact h3 hz
  · simp only [hz, decide_false, Bool.false_eq_true, if_false]
    refine ⟨hsorted, fun i => ?_⟩
    rw [hmem]
    constructor
    · rintro ⟨h1, o, ho, h2⟩
      refine ⟨h1, o, ho, h2, fun hc => hz ?_⟩
      have := zero_first h ho hc h1
      subst this
      rw [ho0] at ho; cases ho
      exact hc
    · rintro ⟨h1, o, ho, h2, _⟩
      exact ⟨h1, o, ho, h2⟩

/-- **C68**: `death_event` gives, in the order of the file, exactly the last observations of the segments of the networks (the trash
excluded) which go to no other observation. Missing: datasets where the network 0 is not the trash. -/
theorem death_partial (obs : List Obs) (hne : obs ≠ []) (h : TrashIsZero obs) :
    ∃ l, death obs = some l ∧ l.Pairwise (· < ·) ∧
      ∀ i, i ∈ l ↔ Last obs i ∧ ∃ o, obs[i]? = some o ∧ o.next = -1 ∧ o.track ≠ 0 := by
  obtain ⟨o0, ho0, ht⟩ := trash_iff hne h
  obtain ⟨first, last, hb, hlen, hpos, _, hs2, _, hl, h0, hseg⟩ := bounds_spec obs hne
  let ind := (last.filter (fun k => at' (obs.map (·.next)) (k - 1) == -1)).map (· - 1)
  have hmem : ∀ i, i ∈ ind ↔ Last obs i ∧ ∃ o, obs[i]? = some o ∧ o.next = -1 := by
    intro i
    show i ∈ List.map _ _ ↔ _
    rw [List.mem_map]
    constructor
    · rintro ⟨b, hb', rfl⟩
      obtain ⟨h1, h2⟩ := List.mem_filter.1 hb'
      obtain ⟨j, rfl, hj⟩ := (hl b).1 h1
      obtain ⟨o, ho, _⟩ := id hj
      simp only [Nat.add_sub_cancel] at h2 ⊢
      rw [at_next ho] at h2
      exact ⟨hj, o, ho, by simpa using h2⟩
    · rintro ⟨h1, o, ho, h2⟩
      refine ⟨i + 1, List.mem_filter.2 ⟨(hl _).2 ⟨i, rfl, h1⟩, ?_⟩, Nat.add_sub_cancel i 1⟩
      rw [Nat.add_sub_cancel, at_next ho, h2]; rfl
  have hrun : death obs = some (if decide (o0.track = 0) = true then ind.drop 1 else ind) := by
    unfold death
    rw [hb]
    simp only [Option.bind_eq_bind, Option.bind_some]
    rw [next_read (fun i hi => (hl i).1 hi), ht]
    simp only [Option.bind_some, List.map_map]
    rw [show ((fun x => x == -1) ∘ fun k => at' (obs.map (·.next)) (k - 1)) =
      (fun k => at' (obs.map (·.next)) (k - 1) == -1) from rfl, select_filter]
  refine ⟨_, hrun, ?_⟩
  have hsorted : ind.Pairwise (· < ·) := by
    show (List.map _ _).Pairwise _
    rw [List.pairwise_map]
    refine (hs2.filter _).imp_of_mem ?_
    intro a b ha hb' hab
    obtain ⟨j, rfl, _⟩ := (hl a).1 (List.mem_filter.1 ha).1
    obtain ⟨j', rfl, _⟩ := (hl b).1 (List.mem_filter.1 hb').1
    omega
  by_cases hz : o0.track = 0
  · simp only [hz, decide_true, if_true]
    -- the last row of the trash
    obtain ⟨c1, c2, c3⟩ := hseg 0 0 _ h0 (List.getElem?_eq_getElem (show 0 < last.length by omega))
    obtain ⟨e, he, hle⟩ := (hl last[0]).1 (List.getElem_mem (show 0 < last.length by omega))
    have hlt : e < obs.length := by omega
    have hoe := List.getElem?_eq_getElem hlt
    have hte : obs[e].track = 0 := by
      have := congrArg Prod.snd (c3 e _ _ hoe ho0 (Nat.zero_le _) (by omega))
      simp only [Obs.key] at this
      rw [this, hz]
    have he' : e ∈ ind := by
      rw [hmem]
      exact ⟨hle, _, hoe, (h.alone _ (List.getElem_mem hlt) hte).2⟩
    have hunique : ∀ x ∈ ind, ∀ o, obs[x]? = some o → o.track = 0 → x = e := by
      intro x hx o ho hc
      obtain ⟨h1, _⟩ := (hmem x).1 hx
      exact le_antisymm (zero_last h hoe hte hle ho hc) (zero_last h ho hc h1 hoe hte)
    have hmin : ∀ x ∈ ind, e ≤ x := by
      intro x hx
      by_contra hlt'
      obtain ⟨h1, o, ho, _⟩ := (hmem x).1 hx
      have hxt : o.track = 0 := by
        have := congrArg Prod.snd (c3 x o _ ho ho0 (Nat.zero_le _) (by omega))
        simp only [Obs.key] at this
        rw [this, hz]
      have := hunique x hx o ho hxt
      omega
    obtain ⟨d1, d2⟩ := drop_sorted hsorted he' hmin
    refine ⟨d1, fun i => ?_⟩
    rw [d2]
    constructor
    · rintro ⟨h1, hi⟩
      obtain ⟨h2, o, ho, h3⟩ := (hmem i).1 h1
      exact ⟨h2, o, ho, h3, fun hc => hi (hunique i h1 o ho hc)⟩
    · rintro ⟨h1, o, ho, h2, h3⟩
      refine ⟨(hmem i).2 ⟨h1, o, ho, h2⟩, ?_⟩
      rintro rfl
      rw [hoe] at ho; cases ho
      exact h3 hte
  · simp only [hz, decide_false, Bool.false_eq_true, if_false]
    refine ⟨hsorted, fun i => ?_⟩
    rw [hmem]
    constructor
    · rintro ⟨h1, o, ho, h2⟩
      refine ⟨h1, o, ho, h2, fun hc => hz ?_⟩
      have hlt0 : 0 < obs.length := by have := (List.getElem?_eq_some_iff.1 ho).1; omega
      rcases Nat.eq_zero_or_pos i with rfl | hpos'
      · rw [ho0] at ho; cases ho; exact hc
      · have hi' := List.getElem?_eq_some_iff.1 ho
        have := List.pairwise_iff_getElem.1 h.sorted 0 i (by simpa using hlt0) (by simpa using hi'.1) hpos'
        simp only [List.getElem_map] at this
        rw [hi'.2] at this
        have h00 := List.getElem?_eq_some_iff.1 ho0
        rw [h00.2] at this
        omega
    · rintro ⟨h1, o, ho, h2, _⟩
      exact ⟨h1, o, ho, h2⟩

/-- A dataset without trash whose first segment is alone in the network 1: its birth and its death are not given. -/
theorem birth_wrong : birth [⟨1, 1, -1, -1⟩, ⟨2, 1, -1, 2⟩, ⟨2, 1, 1, -1⟩] = some [1] ∧
    death [⟨1, 1, -1, -1⟩, ⟨2, 1, -1, 2⟩, ⟨2, 1, 1, -1⟩] = some [2] := by decide

example : TrashIsZero [⟨0, 0, -1, -1⟩, ⟨0, 0, -1, -1⟩, ⟨1, 1, -1, 3⟩, ⟨1, 1, 2, -1⟩, ⟨1, 2, 2, -1⟩] ∧
    birth [⟨0, 0, -1, -1⟩, ⟨0, 0, -1, -1⟩, ⟨1, 1, -1, 3⟩, ⟨1, 1, 2, -1⟩, ⟨1, 2, 2, -1⟩] = some [2] ∧
    death [⟨0, 0, -1, -1⟩, ⟨0, 0, -1, -1⟩, ⟨1, 1, -1, 3⟩, ⟨1, 1, 2, -1⟩, ⟨1, 2, 2, -1⟩] = some [3, 4] := by
  refine ⟨⟨by decide, by decide, by decide, ?_⟩, by decide, by decide⟩
  intro o ho ht
  simp at ho
  subst ho
  exact absurd rfl ht

/-- `remove_trash` removes exactly the network 0 when it is the trash. -/
theorem remove_trash_partial (obs : List Obs) (hne : obs ≠ []) (h : TrashIsZero obs) :
    removeTrash obs = some (obs.map (fun o => decide (o.track ≠ 0))) := by
  obtain ⟨o0, ho0, ht⟩ := trash_iff hne h
  unfold removeTrash
  rw [ht]
  simp only [Option.bind_eq_bind, Option.bind_some, Option.some.injEq]
  apply List.map_congr_left
  intro o ho
  by_cases hz : o0.track = 0
  · simp [hz]
  · obtain ⟨i, hi⟩ := List.getElem?_of_mem ho
    have hlt0 : 0 < obs.length := by have := (List.getElem?_eq_some_iff.1 hi).1; omega
    have hne0 : o.track ≠ 0 := by
      intro hc
      apply hz
      rcases Nat.eq_zero_or_pos i with rfl | hpos'
      · rw [ho0] at hi; cases hi; exact hc
      · have hi' := List.getElem?_eq_some_iff.1 hi
        have := List.pairwise_iff_getElem.1 h.sorted 0 i (by simpa using hlt0) (by simpa using hi'.1) hpos'
        simp only [List.getElem_map] at this
        rw [hi'.2, (List.getElem?_eq_some_iff.1 ho0).2] at this
        omega
    simp [hz, hne0]

/-! ### C69: mergings and splittings -/

/-- Value of an array at a link. -/
def timeAt (time : List Int) (i : Int) : Int := time.getD i.toNat 0

theorem byTime_spec {time : List Int} {l : List (Int × Nat)} (h : ∀ p ∈ l, 0 ≤ p.1 ∧ p.1 < time.length) :
    ∃ out, byTime time l = some out ∧ out.Perm l ∧ out.Pairwise (fun p q => timeAt time p.1 ≤ timeAt time q.1) := by
  have hrun : l.mapM (fun p => do
      let t ← Py.get time p.1
      some (t, p)) = some (l.map (fun p => (timeAt time p.1, p))) := by
    apply Tracks.mapM_some_map
    rintro ⟨p, k⟩ hp
    obtain ⟨h1, h2⟩ := h _ hp
    simp only at h1 h2 ⊢
    obtain ⟨n, rfl⟩ := Int.eq_ofNat_of_zero_le h1
    have hlt : n < time.length := by omega
    rw [Py.get_natCast, List.getElem?_eq_getElem hlt]
    simp [timeAt, List.getD_eq_getElem?_getD, List.getElem?_eq_getElem hlt]
  refine ⟨_, by unfold byTime; rw [hrun]; rfl, ?_, ?_⟩
  · have := (List.perm_insertionSort (fun a b : Int × Int × Nat => a.1 ≤ b.1) (l.map (fun p => (timeAt time p.1, p)))).map (·.2)
    refine this.trans ?_
    rw [List.map_map]
    exact List.Perm.of_eq (by simp [Function.comp_def])
  · have htot : Std.Total (fun a b : Int × Int × Nat => a.1 ≤ b.1) := ⟨fun a b => Int.le_total _ _⟩
    have htr : IsTrans (Int × Int × Nat) (fun a b => a.1 ≤ b.1) := ⟨fun a b c h1 h2 => le_trans h1 h2⟩
    rw [List.pairwise_map]
    refine (List.pairwise_insertionSort (fun a b : Int × Int × Nat => a.1 ≤ b.1) (l.map (fun p => (timeAt time p.1, p)))).imp_of_mem ?_
    intro a b ha hb hab
    rw [List.mem_insertionSort] at ha hb
    obtain ⟨p, _, rfl⟩ := List.mem_map.1 ha
    obtain ⟨q, _, rfl⟩ := List.mem_map.1 hb
    exact hab

/-- Couples of links and ends. -/
theorem pairs_spec {ends : List Nat} (hs : ends.Pairwise (· < ·)) (f : Nat → Int) :
    (((ends.map f).zip ends).filter (fun p => decide (p.1 ≠ -1))).Nodup ∧
    ((((ends.map f).zip ends).filter (fun p => decide (p.1 ≠ -1))).map (·.2)).Nodup ∧
    ∀ t s, (t, s) ∈ ((ends.map f).zip ends).filter (fun p => decide (p.1 ≠ -1)) ↔ s ∈ ends ∧ t = f s ∧ t ≠ -1 := by
  rw [zip_map_left]
  have hnd : ends.Nodup := hs.imp (fun h => by omega)
  have h2 : (((ends.map (fun x => (f x, x))).filter (fun p => decide (p.1 ≠ -1))).map (·.2)).Nodup := by
    refine List.Nodup.sublist (List.Sublist.map _ List.filter_sublist) ?_
    rw [List.map_map]
    simpa [Function.comp_def] using hnd
  refine ⟨List.Nodup.of_map _ h2, h2, fun t s => ?_⟩
  rw [List.mem_filter, List.mem_map]
  constructor
  · rintro ⟨⟨x, hx, e⟩, h⟩
    rw [Prod.mk.injEq] at e
    obtain ⟨rfl, rfl⟩ := e
    exact ⟨hx, rfl, by simpa using h⟩
  · rintro ⟨h1, rfl, h3⟩
    exact ⟨⟨s, h1, rfl⟩, by simpa using h3⟩

theorem valid_next {obs : List Obs} (hv : Valid obs) {i : Nat} {o : Obs} (h : obs[i]? = some o) (hn : o.next ≠ -1) :
    0 ≤ o.next ∧ o.next < obs.length := ((hv o (List.mem_of_getElem? h)).2).resolve_left hn

theorem valid_prev {obs : List Obs} (hv : Valid obs) {i : Nat} {o : Obs} (h : obs[i]? = some o) (hn : o.prev ≠ -1) :
    0 ≤ o.prev ∧ o.prev < obs.length := ((hv o (List.mem_of_getElem? h)).1).resolve_left hn

theorem mergingPairs_spec (obs : List Obs) (time : List Int) (hne : obs ≠ []) (hv : Valid obs) (ht : time.length = obs.length) :
    ∃ l, mergingPairs obs time = some l ∧ (l.map (·.2)).Nodup ∧
      l.Pairwise (fun p q => timeAt time p.1 ≤ timeAt time q.1) ∧
      ∀ t s, (t, s) ∈ l ↔ Last obs s ∧ ∃ o, obs[s]? = some o ∧ o.next = t ∧ t ≠ -1 := by
  obtain ⟨first, last, hb, hlen, hpos, _, hs2, _, hl, h0, hseg⟩ := bounds_spec obs hne
  have hends : (last.map (· - 1)).Pairwise (· < ·) := by
    rw [List.pairwise_map]
    refine hs2.imp_of_mem ?_
    intro a b ha hb' hab
    obtain ⟨j, rfl, _⟩ := (hl a).1 ha
    obtain ⟨j', rfl, _⟩ := (hl b).1 hb'
    omega
  have hmem : ∀ s, s ∈ last.map (· - 1) ↔ Last obs s := by
    intro s
    rw [List.mem_map]
    constructor
    · rintro ⟨b, hb', rfl⟩
      obtain ⟨j, rfl, hj⟩ := (hl b).1 hb'
      simpa using hj
    · intro hs
      exact ⟨s + 1, (hl _).2 ⟨s, rfl, hs⟩, by simp⟩
  obtain ⟨p1, p2, p3⟩ := pairs_spec hends (fun k => at' (obs.map (·.next)) k)
  have hiff : ∀ t s, (t, s) ∈ (((last.map (· - 1)).map (fun k => at' (obs.map (·.next)) k)).zip (last.map (· - 1))).filter
      (fun p => decide (p.1 ≠ -1)) ↔ Last obs s ∧ ∃ o, obs[s]? = some o ∧ o.next = t ∧ t ≠ -1 := by
    intro t s
    rw [p3, hmem]
    constructor
    · rintro ⟨h1, h2, h3⟩
      obtain ⟨o, ho, _⟩ := id h1
      rw [at_next ho] at h2
      exact ⟨h1, o, ho, h2.symm, h3⟩
    · rintro ⟨h1, o, ho, h2, h3⟩
      exact ⟨h1, by rw [at_next ho, h2], h3⟩
  have hread : (last.map (· - 1)).mapM (fun (k : Nat) => Py.get (obs.map (·.next)) (k : Int)) =
      some ((last.map (· - 1)).map (fun k => at' (obs.map (·.next)) k)) := by
    apply Tracks.mapM_some_map
    intro b hb'
    obtain ⟨o, ho, _⟩ := (hmem b).1 hb'
    rw [Py.get_natCast, at', List.getElem?_map, ho]; rfl
  obtain ⟨out, o1, o2, o3⟩ := byTime_spec (time := time) (l := (((last.map (· - 1)).map (fun k => at' (obs.map (·.next)) k)).zip
    (last.map (· - 1))).filter (fun p => decide (p.1 ≠ -1))) (by
      rintro ⟨t, s⟩ hp
      obtain ⟨_, o, ho, h2, h3⟩ := (hiff t s).1 hp
      have := valid_next hv ho (by rw [h2]; exact h3)
      simp only
      rw [ht, ← h2]
      exact this)
  refine ⟨out, ?_, ?_, o3, fun t s => by rw [o2.mem_iff, hiff]⟩
  · unfold mergingPairs
    rw [hb]
    simp only [Option.bind_eq_bind, Option.bind_some]
    rw [hread]
    exact o1
  · exact (o2.map (·.2)).nodup_iff.2 p2

theorem splittingPairs_spec (obs : List Obs) (time : List Int) (hne : obs ≠ []) (hv : Valid obs) (ht : time.length = obs.length) :
    ∃ l, splittingPairs obs time = some l ∧ (l.map (·.2)).Nodup ∧
      l.Pairwise (fun p q => timeAt time p.1 ≤ timeAt time q.1) ∧
      ∀ t s, (t, s) ∈ l ↔ First obs s ∧ ∃ o, obs[s]? = some o ∧ o.prev = t ∧ t ≠ -1 := by
  obtain ⟨first, last, hb, hlen, hpos, hs1, _, hf, _, h0, hseg⟩ := bounds_spec obs hne
  obtain ⟨p1, p2, p3⟩ := pairs_spec hs1 (fun k => at' (obs.map (·.prev)) k)
  have hiff : ∀ t s, (t, s) ∈ ((first.map (fun k => at' (obs.map (·.prev)) k)).zip first).filter
      (fun p => decide (p.1 ≠ -1)) ↔ First obs s ∧ ∃ o, obs[s]? = some o ∧ o.prev = t ∧ t ≠ -1 := by
    intro t s
    rw [p3, hf]
    constructor
    · rintro ⟨h1, h2, h3⟩
      obtain ⟨o, ho, _⟩ := id h1
      rw [at_prev ho] at h2
      exact ⟨h1, o, ho, h2.symm, h3⟩
    · rintro ⟨h1, o, ho, h2, h3⟩
      exact ⟨h1, by rw [at_prev ho, h2], h3⟩
  obtain ⟨out, o1, o2, o3⟩ := byTime_spec (time := time) (l := ((first.map (fun k => at' (obs.map (·.prev)) k)).zip first).filter
    (fun p => decide (p.1 ≠ -1))) (by
      rintro ⟨t, s⟩ hp
      obtain ⟨_, o, ho, h2, h3⟩ := (hiff t s).1 hp
      have := valid_prev hv ho (by rw [h2]; exact h3)
      simp only
      rw [ht, ← h2]
      exact this)
  refine ⟨out, ?_, ?_, o3, fun t s => by rw [o2.mem_iff, hiff]⟩
  · unfold splittingPairs
    rw [hb]
    simp only [Option.bind_eq_bind, Option.bind_some]
    rw [prev_read (fun i hi => (hf i).1 hi)]
    exact o1
  · exact (o2.map (·.2)).nodup_iff.2 p2

/-- **C69**: `merging_event(only_index=True)` gives, in increasing order and once, exactly the observations to which the last
observation of a segment is linked. -/
theorem merging_index (obs : List Obs) (time : List Int) (hne : obs ≠ []) (hv : Valid obs) (ht : time.length = obs.length) :
    ∃ l, merging1 obs time = some l ∧ l.Pairwise (· < ·) ∧
      ∀ t : Nat, t ∈ l ↔ ∃ s o, Last obs s ∧ obs[s]? = some o ∧ o.next = t := by
  obtain ⟨l, h1, _, _, h4⟩ := mergingPairs_spec obs time hne hv ht
  refine ⟨_, by unfold merging1; rw [h1]; rfl, Py.unique_sorted _, fun t => ?_⟩
  rw [Py.mem_unique, List.mem_map]
  constructor
  · rintro ⟨⟨a, s⟩, hp, e⟩
    obtain ⟨g1, o, ho, g2, g3⟩ := (h4 a s).1 hp
    have := valid_next hv ho (by rw [g2]; exact g3)
    refine ⟨s, o, g1, ho, ?_⟩
    simp only at e
    omega
  · rintro ⟨s, o, g1, ho, g2⟩
    exact ⟨(t, s), (h4 _ _).2 ⟨g1, o, ho, g2, by omega⟩, by simp⟩

/-- **C69**: `splitting_event(only_index=True)` gives, in increasing order and once, exactly the observations from which the first
observation of a segment comes. -/
theorem splitting_index (obs : List Obs) (time : List Int) (hne : obs ≠ []) (hv : Valid obs) (ht : time.length = obs.length) :
    ∃ l, splitting1 obs time = some l ∧ l.Pairwise (· < ·) ∧
      ∀ t : Nat, t ∈ l ↔ ∃ s o, First obs s ∧ obs[s]? = some o ∧ o.prev = t := by
  obtain ⟨l, h1, _, _, h4⟩ := splittingPairs_spec obs time hne hv ht
  refine ⟨_, by unfold splitting1; rw [h1]; rfl, Py.unique_sorted _, fun t => ?_⟩
  rw [Py.mem_unique, List.mem_map]
  constructor
  · rintro ⟨⟨a, s⟩, hp, e⟩
    obtain ⟨g1, o, ho, g2, g3⟩ := (h4 a s).1 hp
    have := valid_prev hv ho (by rw [g2]; exact g3)
    refine ⟨s, o, g1, ho, ?_⟩
    simp only at e
    omega
  · rintro ⟨s, o, g1, ho, g2⟩
    exact ⟨(t, s), (h4 _ _).2 ⟨g1, o, ho, g2, by omega⟩, by simp⟩

/-- **C69**: `merging_event(triplet=True, only_index=True)`, ordered by the time of the target, one triplet for each segment whose last
observation is linked: the target, the link of the target to the past, the last observation. -/
theorem merging_triplets (obs : List Obs) (time : List Int) (hne : obs ≠ []) (hv : Valid obs) (ht : time.length = obs.length) :
    ∃ l, merging3 obs time = some l ∧ (l.map (·.2.2)).Nodup ∧
      l.Pairwise (fun p q => timeAt time p.1 ≤ timeAt time q.1) ∧
      ∀ t p s, (t, p, s) ∈ l ↔ Last obs s ∧ ∃ o o', obs[s]? = some o ∧ o.next = t ∧ t ≠ -1 ∧ obs[t.toNat]? = some o' ∧ o'.prev = p := by
  obtain ⟨l, h1, h2, h3, h4⟩ := mergingPairs_spec obs time hne hv ht
  have hrun : l.mapM (fun p => do
      let before ← Py.get (obs.map (·.prev)) p.1
      some (p.1, before, p.2)) = some (l.map (fun p => (p.1, at' (obs.map (·.prev)) p.1.toNat, p.2))) := by
    apply Tracks.mapM_some_map
    rintro ⟨t, s⟩ hp
    obtain ⟨_, o, ho, g2, g3⟩ := (h4 t s).1 hp
    have := valid_next hv ho (by rw [g2]; exact g3)
    rw [g2] at this
    obtain ⟨n, rfl⟩ := Int.eq_ofNat_of_zero_le this.1
    have hlt : n < obs.length := by omega
    simp only
    rw [Py.get_natCast, List.getElem?_map, List.getElem?_eq_getElem hlt]
    simp only [Int.toNat_natCast]
    rw [at_prev (List.getElem?_eq_getElem hlt)]
    rfl
  refine ⟨_, by unfold merging3; rw [h1]; exact hrun, ?_, ?_, fun t p s => ?_⟩
  · rw [List.map_map]; exact h2
  · rw [List.pairwise_map]; exact h3
  · rw [List.mem_map]
    constructor
    · rintro ⟨⟨a, b⟩, hp, e⟩
      simp only [Prod.mk.injEq] at e
      obtain ⟨rfl, rfl, rfl⟩ := e
      obtain ⟨g1, o, ho, g2, g3⟩ := (h4 a b).1 hp
      have := valid_next hv ho (by rw [g2]; exact g3)
      rw [g2] at this
      have hlt : a.toNat < obs.length := by omega
      exact ⟨g1, o, _, ho, g2, g3, List.getElem?_eq_getElem hlt, (at_prev (List.getElem?_eq_getElem hlt)).symm⟩
    · rintro ⟨g1, o, o', ho, g2, g3, ho', g4⟩
      exact ⟨(t, s), (h4 _ _).2 ⟨g1, o, ho, g2, g3⟩, by simp only; rw [at_prev ho', g4]⟩

/-- **C69**: `splitting_event(triplet=True, only_index=True)`, ordered by the time of the source, one triplet for each segment whose
first observation is linked: the source, the link of the source to the future, the first observation. -/
theorem splitting_triplets (obs : List Obs) (time : List Int) (hne : obs ≠ []) (hv : Valid obs) (ht : time.length = obs.length) :
    ∃ l, splitting3 obs time = some l ∧ (l.map (·.2.2)).Nodup ∧
      l.Pairwise (fun p q => timeAt time p.1 ≤ timeAt time q.1) ∧
      ∀ t p s, (t, p, s) ∈ l ↔ First obs s ∧ ∃ o o', obs[s]? = some o ∧ o.prev = t ∧ t ≠ -1 ∧ obs[t.toNat]? = some o' ∧ o'.next = p := by
  obtain ⟨l, h1, h2, h3, h4⟩ := splittingPairs_spec obs time hne hv ht
  have hrun : l.mapM (fun p => do
      let after ← Py.get (obs.map (·.next)) p.1
      some (p.1, after, p.2)) = some (l.map (fun p => (p.1, at' (obs.map (·.next)) p.1.toNat, p.2))) := by
    apply Tracks.mapM_some_map
    rintro ⟨t, s⟩ hp
    obtain ⟨_, o, ho, g2, g3⟩ := (h4 t s).1 hp
    have := valid_prev hv ho (by rw [g2]; exact g3)
    rw [g2] at this
    obtain ⟨n, rfl⟩ := Int.eq_ofNat_of_zero_le this.1
    have hlt : n < obs.length := by omega
    simp only
    rw [Py.get_natCast, List.getElem?_map, List.getElem?_eq_getElem hlt]
    simp only [Int.toNat_natCast]
    rw [at_next (List.getElem?_eq_getElem hlt)]
    rfl
  refine ⟨_, by unfold splitting3; rw [h1]; exact hrun, ?_, ?_, fun t p s => ?_⟩
  · rw [List.map_map]; exact h2
  · rw [List.pairwise_map]; exact h3
  · rw [List.mem_map]
    constructor
    · rintro ⟨⟨a, b⟩, hp, e⟩
      simp only [Prod.mk.injEq] at e
      obtain ⟨rfl, rfl, rfl⟩ := e
      obtain ⟨g1, o, ho, g2, g3⟩ := (h4 a b).1 hp
      have := valid_prev hv ho (by rw [g2]; exact g3)
      rw [g2] at this
      have hlt : a.toNat < obs.length := by omega
      exact ⟨g1, o, _, ho, g2, g3, List.getElem?_eq_getElem hlt, (at_next (List.getElem?_eq_getElem hlt)).symm⟩
    · rintro ⟨g1, o, o', ho, g2, g3, ho', g4⟩
      exact ⟨(t, s), (h4 _ _).2 ⟨g1, o, ho, g2, g3⟩, by simp only; rw [at_next ho', g4]⟩

/-- `extract_event` gives the rows of the links which are not absent. Missing: absent links, see `triplet_wrong`. -/
theorem extract_event_partial {α : Type} (rows : List α) (indices : List Int) (h : ∀ i ∈ indices, 0 ≤ i ∧ i < rows.length) :
    ∃ out, extractEvent rows indices = some out ∧ out.length = indices.length ∧
      ∀ (k : Nat) r, out[k]? = some r → ∃ i : Nat, indices[k]? = some (i : Int) ∧ rows[i]? = some r := by
  obtain ⟨out, h1, h2, h3⟩ := Links.mapM_some (Py.get rows) indices (by
    intro i hi
    obtain ⟨g1, g2⟩ := h i hi
    obtain ⟨n, rfl⟩ := Int.eq_ofNat_of_zero_le g1
    exact ⟨_, by rw [Py.get_natCast]; exact List.getElem?_eq_getElem (by omega)⟩)
  refine ⟨out, h1, h2, fun k r hk => ?_⟩
  obtain ⟨i, e1, e2⟩ := h3 k r hk
  obtain ⟨g1, g2⟩ := h i (List.mem_of_getElem? e1)
  obtain ⟨n, rfl⟩ := Int.eq_ofNat_of_zero_le g1
  rw [Py.get_natCast] at e2
  exact ⟨n, e1, e2⟩

/-- When the target of a merging has no past, the observation "before the merging" is the last one of the file, of another network. -/
theorem triplet_wrong : let obs : List Obs := [⟨1, 1, -1, 1⟩, ⟨1, 2, -1, -1⟩, ⟨2, 1, -1, -1⟩]
    merging3 obs [0, 1, 0] = some [(1, -1, 0)] ∧ extractEvent obs [-1] = some [⟨2, 1, -1, -1⟩] := by decide

/-- A network with a splitting and a merging: the segment 2 comes from the row 0 and goes to the row 2. -/
example : let obs : List Obs := [⟨1, 1, -1, 1⟩, ⟨1, 1, 0, 2⟩, ⟨1, 1, 1, -1⟩, ⟨1, 2, 0, 2⟩]
    Valid obs ∧ merging3 obs [0, 1, 2, 1] = some [(2, 1, 3)] ∧ splitting3 obs [0, 1, 2, 1] = some [(0, 1, 3)] ∧
      merging1 obs [0, 1, 2, 1] = some [2] ∧ splitting1 obs [0, 1, 2, 1] = some [0] := by
  refine ⟨by unfold Valid; decide, by decide, by decide, by decide, by decide⟩

end Verif.Events
