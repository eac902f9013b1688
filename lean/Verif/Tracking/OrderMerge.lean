import Verif.Tracking.Order
import Mathlib.Data.List.Perm.Subperm
import Mathlib.Algebra.BigOperators.Group.List.Basic

/-!
# C217: the merged dataset of the tracks when the rows of the files are in another order

Model of `Verif.Tracking.Merge` (src/py_eddy_tracker/tracking.py:575-722) on the two runs of C216.
-/

namespace Verif.Tracking.Order

variable {α δ : Type}

/-! ### Specification -/

/-- What a user reads in a row of the merged dataset: the date and the observation (nothing in the row of a lost observation). -/
def rowSeen (files : List (List α)) (r : Option (Nat × Nat)) : Option (Nat × Option α) :=
  r.map (fun y => (y.1, (files[y.1]?).bind (fun f => f[y.2]?)))

/-! ### Proofs -/

theorem link_to {ρ : Nat → Nat} {F F' : List (List α)} {h h' : List (List Link)} (S : SameTables ρ F F' h h') {k : Nat} {l : Link} (hl : LinkAt h k l) :
    ∃ l', LinkAt h' k l' ∧ l'.id = ρ l.id ∧ seen F' k l' = seen F k l := by
  have hk := hl.lt
  obtain ⟨c, hc, hm⟩ := hl
  obtain ⟨d, hd⟩ : ∃ d, h'.reverse[k]? = some d := ⟨_, List.getElem?_eq_getElem (by rw [List.length_reverse, S.1]; exact hk)⟩
  have := (S.2 k c d hc hd).mem_iff.2 (List.mem_map.2 ⟨l, hm, rfl⟩)
  obtain ⟨l', hl', e⟩ := List.mem_map.1 this
  exact ⟨l', ⟨d, hd, hl'⟩, (Prod.mk.inj e).1, (Prod.mk.inj e).2⟩

theorem link_from {ρ : Nat → Nat} {F F' : List (List α)} {h h' : List (List Link)} (S : SameTables ρ F F' h h') {k : Nat} {l' : Link}
    (hl : LinkAt h' k l') : ∃ l, LinkAt h k l ∧ l'.id = ρ l.id ∧ seen F' k l' = seen F k l := by
  have hk := hl.lt
  obtain ⟨d, hd, hm⟩ := hl
  obtain ⟨c, hc⟩ : ∃ c, h.reverse[k]? = some c := ⟨_, List.getElem?_eq_getElem (by rw [List.length_reverse, ← S.1]; exact hk)⟩
  have := (S.2 k c d hc hd).mem_iff.1 (List.mem_map.2 ⟨l', hm, rfl⟩)
  obtain ⟨l, hl', e⟩ := List.mem_map.1 this
  exact ⟨l, ⟨c, hc, hl'⟩, (Prod.mk.inj e).1.symm, (Prod.mk.inj e).2.symm⟩

theorem used_iff {ρ : Nat → Nat} (hρ : Function.Injective ρ) {F F' : List (List α)} {h h' : List (List Link)} (S : SameTables ρ F F' h h') (k i : Nat) :
    UsedAt h' k (ρ i) ↔ UsedAt h k i := by
  constructor
  · rintro ⟨l', hl', e⟩
    obtain ⟨l, hl, e2, _⟩ := link_from S hl'
    exact ⟨l, hl, hρ (e2.symm.trans e)⟩
  · rintro ⟨l, hl, rfl⟩
    obtain ⟨l', hl', e, _⟩ := link_to S hl
    exact ⟨l', hl', e⟩

theorem first_iff {ρ : Nat → Nat} (hρ : Function.Injective ρ) {F F' : List (List α)} {h h' : List (List Link)} (S : SameTables ρ F F' h h') (k i : Nat) :
    FirstAt h' (ρ i) k ↔ FirstAt h i k := by
  unfold FirstAt
  simp only [used_iff hρ S]

theorem last_iff {ρ : Nat → Nat} (hρ : Function.Injective ρ) {F F' : List (List α)} {h h' : List (List Link)} (S : SameTables ρ F F' h h') (k i : Nat) :
    LastAt h' (ρ i) k ↔ LastAt h i k := by
  unfold LastAt
  simp only [used_iff hρ S]

theorem first_exists {h : List (List Link)} {k i : Nat} (hu : UsedAt h k i) : ∃ k0, FirstAt h i k0 := by
  classical
  have he : ∃ k, UsedAt h k i := ⟨k, hu⟩
  exact ⟨Nat.find he, Nat.find_spec he, fun j hj => Nat.find_min he hj⟩

theorem last_exists {h : List (List Link)} {k i : Nat} (hu : UsedAt h k i) : ∃ k1, LastAt h i k1 := by
  classical
  have hb : ∀ j, UsedAt h j i → j ≤ h.length := fun j ⟨_, hl, _⟩ => le_of_lt hl.lt
  refine ⟨Nat.findGreatest (fun j => UsedAt h j i) h.length, Nat.findGreatest_spec (P := fun j => UsedAt h j i) (hb k hu) hu, fun j hj hju => ?_⟩
  exact absurd (Nat.le_findGreatest (P := fun j => UsedAt h j i) (hb j hju) hju) (not_le.2 hj)

theorem nb_iff {nbV : Nat} {ρ : Nat → Nat} (hρ : Function.Injective ρ) {F F' : List (List α)} {h h' : List (List Link)} (S : SameTables ρ F F' h h')
    (wf : WF nbV h) (wf' : WF nbV h') (i : Nat) : nbObsByTracks (decide (0 < nbV)) h' (ρ i) = nbObsByTracks (decide (0 < nbV)) h i := by
  obtain ⟨a1, a2⟩ := nbObs_spec wf i
  obtain ⟨b1, b2⟩ := nbObs_spec wf' (ρ i)
  by_cases hu : ∃ k, UsedAt h k i
  · obtain ⟨k, hu⟩ := hu
    obtain ⟨k0, h0⟩ := first_exists hu
    obtain ⟨k1, h1⟩ := last_exists hu
    have := a2 k0 k1 h0 h1
    have := b2 k0 k1 ((first_iff hρ S k0 i).2 h0) ((last_iff hρ S k1 i).2 h1)
    omega
  · have hu' : ∀ k, ¬ UsedAt h k i := fun k hk => hu ⟨k, hk⟩
    rw [a1 hu', b1 (fun k hk => hu' k ((used_iff hρ S k i).1 hk))]

theorem seen_out {F F' : List (List α)} {k : Nat} {l l' : Link} (e : seen F' k l' = seen F k l) :
    (F'[k + 1]?).bind (fun f => f[l'.out]?) = (F[k + 1]?).bind (fun f => f[l.out]?) := (Prod.mk.inj (Prod.mk.inj e).2).1

theorem seen_virt {F F' : List (List α)} {k : Nat} {l l' : Link} (e : seen F' k l' = seen F k l) : l'.virt = l.virt :=
  (Prod.mk.inj (Prod.mk.inj (Prod.mk.inj (Prod.mk.inj e).2).2).2).1

theorem seen_cost {F F' : List (List α)} {k : Nat} {l l' : Link} (e : seen F' k l' = seen F k l) : l'.cost = l.cost :=
  (Prod.mk.inj (Prod.mk.inj (Prod.mk.inj e).2).2).1

theorem seen_inp {F F' : List (List α)} {k : Nat} {l l' : Link} (e : seen F' k l' = seen F k l) (hv : l.virt = false) :
    (F'[k]?).bind (fun f => f[l'.inp]?) = (F[k]?).bind (fun f => f[l.inp]?) := by
  have h1 := (Prod.mk.inj e).1
  rw [seen_virt e, hv] at h1
  simpa using h1

theorem not_virt {nbV : Nat} {h : List (List Link)} (wf : WF nbV h) {d : Nat} {l : Link} (hl : LinkAt h d l) (hno : ∀ k, k < d → ¬ UsedAt h k l.id) :
    l.virt = false := by
  cases hv : l.virt with
  | false => rfl
  | true =>
    obtain ⟨h1, _, h3, h4, _⟩ := wf.virt d l hl hv
    exact absurd h4 (hno _ (by omega))

theorem obs_to {nbV : Nat} {ρ : Nat → Nat} (hρ : Function.Injective ρ) {F F' : List (List α)} {h h' : List (List Link)} (S : SameTables ρ F F' h h')
    (wf : WF nbV h) {i d j : Nat} (ho : ObsAt h i d j) :
    ∃ j', ObsAt h' (ρ i) d j' ∧ (F'[d]?).bind (fun f => f[j']?) = (F[d]?).bind (fun f => f[j]?) := by
  rcases ho with ⟨k, l, rfl, hl, rfl, rfl⟩ | ⟨l, hl, rfl, rfl, hno⟩
  · obtain ⟨l', hl', e, es⟩ := link_to S hl
    exact ⟨l'.out, .inl ⟨k, l', rfl, hl', e, rfl⟩, seen_out es⟩
  · obtain ⟨l', hl', e, es⟩ := link_to S hl
    exact ⟨l'.inp, .inr ⟨l', hl', e, rfl, fun k hk hu => hno k hk ((used_iff hρ S k l.id).1 hu)⟩, seen_inp es (not_virt wf hl hno)⟩

theorem obs_from {ρ : Nat → Nat} (hρ : Function.Injective ρ) {F F' : List (List α)} {h h' : List (List Link)} (S : SameTables ρ F F' h h')
    {i d j' : Nat} (ho : ObsAt h' (ρ i) d j') : ∃ j, ObsAt h i d j := by
  rcases ho with ⟨k, l', rfl, hl', e, rfl⟩ | ⟨l', hl', e, rfl, hno⟩
  · obtain ⟨l, hl, e2, _⟩ := link_from S hl'
    exact ⟨l.out, .inl ⟨k, l, rfl, hl, hρ (e2.symm.trans e), rfl⟩⟩
  · obtain ⟨l, hl, e2, _⟩ := link_from S hl'
    exact ⟨l.inp, .inr ⟨l, hl, hρ (e2.symm.trans e), rfl, fun k hk hu => hno k hk ((used_iff hρ S k i).2 hu)⟩⟩

theorem rows_same {nbV : Nat} {ρ : Nat → Nat} (hρ : Function.Injective ρ) {F F' : List (List α)} {h h' : List (List Link)} (S : SameTables ρ F F' h h')
    (wf : WF nbV h) (wf' : WF nbV h') {v : Bool} (hv : v = decide (0 < nbV)) {nb nb' : Nat → Nat} (e1 : nb = nbObsByTracks v h)
    (e2 : nb' = nbObsByTracks v h') (i n : Nat) (hn : n < nb i) :
    rowSeen F' ((merge v nb' h').rows (start nb' (ρ i) + n)) = rowSeen F ((merge v nb h).rows (start nb i + n)) ∧
    (merge v nb' h').cost (start nb' (ρ i) + n) = (merge v nb h).cost (start nb i + n) := by
  subst hv e1 e2
  have m := merge_inv _ wf (fun _ => Nat.le_refl _)
  have m' := merge_inv _ wf' (fun _ => Nat.le_refl _)
  have hn' : n < nbObsByTracks (decide (0 < nbV)) h' (ρ i) := by rw [nb_iff hρ S wf wf']; exact hn
  constructor
  · cases hy : (merge (decide (0 < nbV)) (nbObsByTracks (decide (0 < nbV)) h) h).rows (start (nbObsByTracks (decide (0 < nbV)) h) i + n) with
    | none =>
      cases hy' : (merge (decide (0 < nbV)) (nbObsByTracks (decide (0 < nbV)) h') h').rows (start (nbObsByTracks (decide (0 < nbV)) h') (ρ i) + n) with
      | none => rfl
      | some y' =>
        obtain ⟨k0, j', hk, rfl, ho⟩ := (m'.rows (ρ i) n hn' y').1 hy'
        obtain ⟨j, hj⟩ := obs_from hρ S ho
        rw [(m.rows i n hn (k0 + n, j)).2 ⟨k0, j, (first_iff hρ S k0 i).1 hk, rfl, hj⟩] at hy
        cases hy
    | some y =>
      obtain ⟨k0, j, hk, rfl, ho⟩ := (m.rows i n hn y).1 hy
      obtain ⟨j', hj', e⟩ := obs_to hρ S wf ho
      rw [(m'.rows (ρ i) n hn' (k0 + n, j')).2 ⟨k0, j', (first_iff hρ S k0 i).2 hk, rfl, hj'⟩]
      simp only [rowSeen, Option.map_some, e]
  · refine Option.ext (fun q => ?_)
    rw [m.cost i n hn q, m'.cost (ρ i) n hn' q]
    constructor
    · rintro ⟨k0, l', hk, hl', e, rfl⟩
      obtain ⟨l, hl, e2, es⟩ := link_from S hl'
      exact ⟨k0, l, (first_iff hρ S k0 i).1 hk, hl, hρ (e2.symm.trans e), (seen_cost es).symm⟩
    · rintro ⟨k0, l, hk, hl, rfl, rfl⟩
      obtain ⟨l', hl', e, es⟩ := link_to S hl
      exact ⟨k0, l', (first_iff hρ S k0 l.id).2 hk, hl', e, seen_cost es⟩

/-! ### C217 -/

/-- **C217** (merged tracks): the files hold the same observations in another order. The merged datasets of the two runs hold the same tracks under other
numbers: as many rows for each track, and at each row of the track the same date, the same observation and the same cost. -/
theorem merge_order (cfg : Cfg α δ) {f f' : List α} {fs fs' : List (List α)} (h0 : f.Perm f')
    (hf : List.Forall₂ List.Perm fs fs') (hr : OrderRun cfg (swap init f) fs) :
    ∃ s t ρ, track cfg (f :: fs) = some s ∧ track cfg (f' :: fs') = some t ∧ t.currentId = s.currentId ∧ Function.Injective ρ ∧
      (∀ i, i < s.currentId → ρ i < s.currentId) ∧ (∀ i, counts cfg t (ρ i) = counts cfg s i) ∧
      ∀ i n, n < counts cfg s i →
        rowSeen (f' :: fs') ((merged cfg t).rows (start (counts cfg t) (ρ i) + n)) =
          rowSeen (f :: fs) ((merged cfg s).rows (start (counts cfg s) i + n)) ∧
        (merged cfg t).cost (start (counts cfg t) (ρ i) + n) = (merged cfg s).cost (start (counts cfg s) i + n) := by
  obtain ⟨s, t, ρ, e1, e2, h, inv, inv'⟩ := track_sim cfg h0 hf hr
  have S := h.tables
  have hnb : ∀ i, counts cfg t (ρ i) = counts cfg s i := fun i => nb_iff h.inj S inv.wf inv'.wf i
  exact ⟨s, t, ρ, e1, e2, h.cid, h.inj, h.low, hnb, fun i n hn => rows_same h.inj S inv.wf inv'.wf rfl rfl rfl i n hn⟩

/-- **C217** (sizes): the sizes of the tracks are the same, so the merged datasets have as many rows, and as many tracks are longer than any limit. -/
theorem sizes_order (cfg : Cfg α δ) {f f' : List α} {fs fs' : List (List α)} (h0 : f.Perm f')
    (hf : List.Forall₂ List.Perm fs fs') (hr : OrderRun cfg (swap init f) fs) :
    ∃ s t, track cfg (f :: fs) = some s ∧ track cfg (f' :: fs') = some t ∧ t.currentId = s.currentId ∧
      ((List.range t.currentId).map (counts cfg t)).Perm ((List.range s.currentId).map (counts cfg s)) ∧
      nbObs (counts cfg t) t.currentId = nbObs (counts cfg s) s.currentId ∧
      ∀ m, ((List.range t.currentId).filter (fun i => decide (m ≤ counts cfg t i))).length =
        ((List.range s.currentId).filter (fun i => decide (m ≤ counts cfg s i))).length := by
  obtain ⟨s, t, ρ, e1, e2, hc, hi, hl, hn, _⟩ := merge_order cfg h0 hf hr
  have hp : ((List.range s.currentId).map ρ).Perm (List.range s.currentId) := by
    refine List.Subperm.perm_of_length_le (List.Nodup.subperm (List.nodup_range.map hi) ?_) (by simp)
    intro x hx
    obtain ⟨i, h1, rfl⟩ := List.mem_map.1 hx
    exact List.mem_range.2 (hl i (List.mem_range.1 h1))
  have hs : ((List.range t.currentId).map (counts cfg t)).Perm ((List.range s.currentId).map (counts cfg s)) := by
    rw [hc]
    refine (hp.map (counts cfg t)).symm.trans (List.Perm.of_eq ?_)
    rw [List.map_map]
    exact List.map_congr_left (fun i _ => hn i)
  refine ⟨s, t, e1, e2, hc, hs, hs.sum_eq, fun m => ?_⟩
  have := (hs.filter (fun c => decide (m ≤ c))).length_eq
  rw [List.filter_map, List.filter_map, List.length_map, List.length_map] at this
  exact this

end Verif.Tracking.Order
