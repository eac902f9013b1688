import Verif.Links.Props
import Verif.Segments.Props

/-!
# `remove_dead_end` (C18)
-/

namespace Verif.Links

open Segments (First Last Event)

/-! ### Specification -/

/-- The rows of a segment follow each other. -/
def Contiguous (obs : List Segments.Obs) : Prop :=
  ∀ (i j k : Nat) a b c, i ≤ j → j ≤ k → obs[i]? = some a → obs[j]? = some b → obs[k]? = some c → a.key = c.key → b.key = a.key

/-- The segment of key `s` is long enough. -/
def Long (rows : List (Row Fields)) (nobs : Nat) (ndays : Int) (s : Nat × Nat) : Prop :=
  nobs ≤ rows.countP (fun r => decide ((toObs r).key = s)) ∧
  ∃ (a b : Nat) (ra rb : Row Fields), rows[a]? = some ra ∧ rows[b]? = some rb ∧ (toObs ra).key = s ∧ (toObs rb).key = s ∧
    First (rows.map toObs) a ∧ Last (rows.map toObs) b ∧ ndays ≤ rb.data.time - ra.data.time + 1

/-- Segments `s` and `t` touch. -/
def TouchKey (rows : List (Row Fields)) (s t : Nat × Nat) : Prop :=
  ∃ (i j : Nat) (ri rj : Row Fields), rows[i]? = some ri ∧ rows[j]? = some rj ∧ (toObs ri).key = s ∧ (toObs rj).key = t ∧
    (Event (rows.map toObs) i j ∨ Event (rows.map toObs) j i)

/-- The rows which must be kept. -/
def Keep (rows : List (Row Fields)) (nobs : Nat) (ndays : Int) (mask : Option (List Bool)) (i : Nat) : Prop :=
  ∃ r, rows[i]? = some r ∧
    (Long rows nobs ndays (toObs r).key ∨
     (∃ s t, s ≠ t ∧ TouchKey rows (toObs r).key s ∧ TouchKey rows (toObs r).key t) ∨
     ∃ (mk : List Bool) (j : Nat) (r' : Row Fields), mask = some mk ∧ mk[j]? = some true ∧ rows[j]? = some r' ∧ (toObs r').key = (toObs r).key)

/-- The link `p` becomes `q`: unchanged to a kept row, absent otherwise. -/
def CutLink (keep : Nat → Prop) (p q : Int) : Prop :=
  (∃ t : Nat, p = t ∧ keep t ∧ q = p) ∨ (q = -1 ∧ ∀ t : Nat, p = t → ¬ keep t)

/-! ### Proofs -/

theorem two_le_dedup (l : List Nat) : 2 ≤ l.dedup.length ↔ ∃ a ∈ l, ∃ b ∈ l, a ≠ b := by
  have hnd := List.nodup_dedup l
  have hm : ∀ x, x ∈ l.dedup ↔ x ∈ l := fun x => List.mem_dedup
  generalize l.dedup = d at *
  constructor
  · intro h
    match d, h, hnd, hm with
    | a :: b :: d, _, hnd, hm =>
      refine ⟨a, (hm a).1 (by simp), b, (hm b).1 (by simp), ?_⟩
      rintro rfl
      rw [List.nodup_cons] at hnd
      exact hnd.1 List.mem_cons_self
  · rintro ⟨a, ha, b, hb, hab⟩
    rw [← hm] at ha hb
    match d, ha, hb with
    | [], ha, _ => cases ha
    | [x], ha, hb => rw [List.mem_singleton] at ha hb; exact absurd (ha.trans hb.symm) hab
    | _ :: _ :: d, _, _ => simp

theorem same_number_iff {obs : List Segments.Obs} {sta : List Nat} (h : Segments.IsNumbering obs sta) (hc : Contiguous obs)
    (i j a b : Nat) (o o' : Segments.Obs) (ha : sta[i]? = some a) (hb : sta[j]? = some b) (ho : obs[i]? = some o)
    (ho' : obs[j]? = some o') : a = b ↔ o.key = o'.key := by
  have key : ∀ d (i a b : Nat) (o o' : Segments.Obs), sta[i]? = some a → sta[i + d]? = some b → obs[i]? = some o →
      obs[i + d]? = some o' → (a = b ↔ o.key = o'.key) := by
    intro d
    induction d with
    | zero => intro i a b o o' h1 h2 h3 h4; rw [Nat.add_zero] at h2 h4; rw [h1] at h2; rw [h3] at h4; cases h2; cases h4; simp
    | succ d ih =>
      intro i a b o o' h1 h2 h3 h4
      have hlt := (List.getElem?_eq_some_iff.1 h4).1
      have hlt' := (List.getElem?_eq_some_iff.1 h2).1
      obtain ⟨w, e1⟩ : ∃ w, obs[i + d]? = some w := ⟨_, List.getElem?_eq_getElem (by omega)⟩
      obtain ⟨v, e2⟩ : ∃ v, sta[i + d]? = some v := ⟨_, List.getElem?_eq_getElem (by omega)⟩
      have hih := ih i a v o w h1 e2 h3 e1
      have hs := h.same_iff (i + d) v w o' e2 e1 h4
      have m1 := h.mono i (i + d) a v (by omega) h1 e2
      have m2 := h.mono (i + d) (i + (d + 1)) v b (by omega) e2 h2
      constructor
      · rintro rfl
        have : v = a := by omega
        subst this
        rw [hih.1 rfl, (hs.1 h2)]
      · intro hk
        have h5 := hc i (i + d) (i + (d + 1)) o w o' (by omega) (by omega) h3 e1 h4 hk
        rw [hih.2 h5.symm]
        have h6 : sta[i + d + 1]? = some v := hs.2 (by rw [h5, ← hk])
        rw [show i + (d + 1) = i + d + 1 by omega] at h2
        rw [h2] at h6
        cases h6; rfl
  rcases Nat.le_total i j with hij | hij
  · obtain ⟨d, rfl⟩ := Nat.exists_eq_add_of_le hij
    exact key d i a b o o' ha hb ho ho'
  · obtain ⟨d, rfl⟩ := Nat.exists_eq_add_of_le hij
    have := key d j b a o' o hb ha ho' ho
    exact ⟨fun e => (this.1 e.symm).symm, fun e => (this.2 e.symm).symm⟩

theorem countP_slice {β : Type} (l : List β) (p : β → Bool) (a b : Nat) (hab : a ≤ b) (hb : b ≤ l.length)
    (h : ∀ (k : Nat) x, l[k]? = some x → (p x = true ↔ a ≤ k ∧ k < b)) : l.countP p = b - a := by
  induction l generalizing a b with
  | nil => simp at hb ⊢; omega
  | cons y l ih =>
    rw [List.countP_cons]
    have h0 := h 0 y rfl
    have hrec := ih (a - 1) (b - 1) (by omega) (by simp at hb; omega) (fun k x hk => by
      rw [h (k + 1) x (by simpa using hk)]
      omega)
    rw [hrec]
    by_cases hy : p y = true
    · rw [if_pos hy]
      have := h0.1 hy
      omega
    · rw [if_neg hy]
      by_cases hab' : a = 0
      · have : ¬ (a ≤ 0 ∧ 0 < b) := fun hh => hy (h0.2 hh)
        omega
      · omega

theorem event_lt {obs : List Segments.Obs} (hv : Segments.Valid obs) {p q : Nat} (hev : Event obs p q) :
    p < obs.length ∧ q < obs.length := by
  rcases hev with ⟨_, o, ho, e⟩ | ⟨_, o, ho, e⟩
  · have := (hv o (List.mem_of_getElem? ho)).1
    exact ⟨(List.getElem?_eq_some_iff.1 ho).1, by omega⟩
  · have := (hv o (List.mem_of_getElem? ho)).2
    exact ⟨(List.getElem?_eq_some_iff.1 ho).1, by omega⟩

theorem valid_toObs {rows : List (Row Fields)} (hv : Valid rows) : Segments.Valid (rows.map toObs) := by
  intro o ho
  obtain ⟨r, hr, rfl⟩ := List.mem_map.1 ho
  have := hv r hr
  rw [List.length_map]
  unfold toObs
  simp only
  omega

theorem mem_select {β : Type} (m : List Bool) (a : List β) (x : β) :
    x ∈ Py.select m a ↔ ∃ j : Nat, m[j]? = some true ∧ a[j]? = some x := by
  unfold Py.select
  rw [List.mem_filterMap]
  constructor
  · rintro ⟨⟨b, y⟩, hp, e⟩
    obtain ⟨j, hj⟩ := List.getElem?_of_mem hp
    have := (List.getElem?_zip_eq_some (z := (b, y))).1 hj
    cases b with
    | false => simp at e
    | true => simp at e; subst e; exact ⟨j, this⟩
  · rintro ⟨j, h1, h2⟩
    exact ⟨(true, x), List.mem_of_getElem? ((List.getElem?_zip_eq_some (z := (true, x))).2 ⟨h1, h2⟩), rfl⟩

/-- The mask of the removed rows. -/
theorem removed_spec (rows : List (Row Fields)) (hne : rows ≠ []) (hv : Valid rows) (hc : Contiguous (rows.map toObs))
    (nobs : Nat) (ndays : Int) (mask : Option (List Bool)) (hm : ∀ mk, mask = some mk → mk.length = rows.length) :
    ∃ m, removed rows nobs ndays mask = some m ∧ m.length = rows.length ∧
      ∀ i : Nat, i < rows.length → (m[i]? = some true ↔ ¬ Keep rows nobs ndays mask i) := by
  have hne' : rows.map toObs ≠ [] := by simpa using hne
  have hvo := valid_toObs hv
  obtain ⟨sta, hsta, hnum⟩ := Segments.segTrackArray_spec (rows.map toObs) hne'
  obtain ⟨E, hE, hmem⟩ := Segments.connexions_spec sta (rows.map toObs) hne' hvo hnum.len
  have hlen : sta.length = rows.length := by rw [hnum.len, List.length_map]
  have hpos : 0 < rows.length := List.length_pos_of_ne_nil hne
  obtain ⟨first, last, i0, hbi, ⟨hfl, hrange, hslice⟩, hi0, hmx, hps⟩ :=
    Index.build_index_spec (sta.map (fun (k : Nat) => (k : Int))) (by
      intro h; have := congrArg List.length h; simp at this; rw [this] at hlen; simp at hlen; omega) hnum.sorted
  have hz : i0 = 0 := by
    obtain ⟨z, _, rfl⟩ := List.mem_map.1 hi0
    have := hrange 0 (List.mem_map.2 ⟨0, List.mem_of_getElem? hnum.zero, rfl⟩)
    omega
  subst hz
  have hobs : ∀ (k : Nat) r, rows[k]? = some r → (rows.map toObs)[k]? = some (toObs r) := by
    intro k r hk; rw [List.getElem?_map, hk]; rfl
  have hslice' : ∀ (s a b : Nat), first[s]? = some a → last[s]? = some b →
      a ≤ b ∧ b ≤ rows.length ∧ ∀ k : Nat, sta[k]? = some s ↔ a ≤ k ∧ k < b := by
    intro s a b h1 h2
    obtain ⟨s1, s2, s3⟩ := hslice s a b h1 h2
    refine ⟨s1, by rw [List.length_map, hlen] at s2; exact s2, fun k => ?_⟩
    rw [← s3 k, List.getElem?_map]
    cases sta[k]? with
    | none => simp
    | some v => simp only [Option.map_some, Option.some.injEq]; omega
  have hattained : ∀ s, s < first.length → ∃ k : Nat, sta[k]? = some s := by
    intro s hs
    obtain ⟨v, hv1, hv2⟩ := List.mem_map.1 hmx
    obtain ⟨k, hk⟩ := List.getElem?_of_mem hv1
    obtain ⟨k', _, hk'⟩ := hnum.attained _ _ s hk (by omega)
    exact ⟨k', hk'⟩
  have hadj : ∀ s x, x ∈ Segments.adjOf E s ↔ ∃ p q : Nat, sta[p]? = some s ∧ sta[q]? = some x ∧
      (Event (rows.map toObs) p q ∨ Event (rows.map toObs) q p) := by
    intro s x
    rw [Segments.adjOf_enumerates E s x, hmem, hmem]
    constructor
    · rintro (⟨i, j, h1, h2, h3⟩ | ⟨i, j, h1, h2, h3⟩)
      · exact ⟨j, i, h2, h3, Or.inr h1⟩
      · exact ⟨i, j, h3, h2, Or.inl h1⟩
    · rintro ⟨p, q, h1, h2, h3 | h3⟩
      · exact Or.inr ⟨p, q, h3, h2, h1⟩
      · exact Or.inl ⟨q, p, h3, h1, h2⟩
  -- long enough
  have hlong : ∀ (s a b : Nat), first[s]? = some a → last[s]? = some b →
      ∃ v, longEnough rows E nobs ndays s a b = some v ∧ ∀ (i : Nat) r, sta[i]? = some s → rows[i]? = some r →
        (v = true ↔ Long rows nobs ndays (toObs r).key ∨
          ∃ s t, s ≠ t ∧ TouchKey rows (toObs r).key s ∧ TouchKey rows (toObs r).key t) := by
    intro s a b h1 h2
    obtain ⟨s1, s2, s3⟩ := hslice' s a b h1 h2
    obtain ⟨k0, hk0⟩ := hattained s (List.getElem?_eq_some_iff.1 h1).1
    have hk0' := (s3 k0).1 hk0
    obtain ⟨ra, hra⟩ : ∃ r, rows[a]? = some r := ⟨_, List.getElem?_eq_getElem (by omega)⟩
    obtain ⟨rb, hrb⟩ : ∃ r, rows[b - 1]? = some r := ⟨_, List.getElem?_eq_getElem (by omega)⟩
    have hsa : sta[a]? = some s := (s3 a).2 (by omega)
    have hsb : sta[b - 1]? = some s := (s3 (b - 1)).2 (by omega)
    refine ⟨(decide (ndays ≤ rb.data.time - ra.data.time + 1) && decide (nobs ≤ b - a)) || decide (2 ≤ degree E s), by
      unfold longEnough
      simp only [Option.bind_eq_bind]
      rw [show ((b : Int) - 1) = ((b - 1 : Nat) : Int) by omega, Py.get_natCast, Py.get_natCast, List.getElem?_map,
        List.getElem?_map, hra, hrb]
      rfl, ?_⟩
    intro i r hi hr
    have hkey : ∀ (k t : Nat) r', sta[k]? = some t → rows[k]? = some r' → (t = s ↔ (toObs r').key = (toObs r).key) :=
      fun k t r' h1 h2 => same_number_iff hnum hc k i t s _ _ h1 hi (hobs _ _ h2) (hobs _ _ hr)
    have hcount : rows.countP (fun r' => decide ((toObs r').key = (toObs r).key)) = b - a := by
      refine countP_slice rows _ a b s1 s2 (fun k x hk => ?_)
      have hks : k < sta.length := by rw [hlen]; exact (List.getElem?_eq_some_iff.1 hk).1
      have e := List.getElem?_eq_getElem hks
      rw [decide_eq_true_eq, ← hkey k _ x e hk, ← s3 k, e, Option.some.injEq]
    have hFa : First (rows.map toObs) a := by
      rw [hnum.first_iff a s hsa]
      rintro k v hk hkv rfl
      have := (s3 k).1 hkv
      omega
    have hLb : Last (rows.map toObs) (b - 1) := by
      rw [hnum.last_iff (b - 1) s hsb]
      rintro k v hk hkv rfl
      have := (s3 k).1 hkv
      omega
    have hrow : ∀ (k : Nat) t, sta[k]? = some t → ∃ r', rows[k]? = some r' := by
      intro k t hk
      exact ⟨_, List.getElem?_eq_getElem (by rw [← hlen]; exact (List.getElem?_eq_some_iff.1 hk).1)⟩
    have hsta' : ∀ (k : Nat) r', rows[k]? = some r' → ∃ t, sta[k]? = some t := by
      intro k r' hk
      exact ⟨_, List.getElem?_eq_getElem (by rw [hlen]; exact (List.getElem?_eq_some_iff.1 hk).1)⟩
    have hl : Long rows nobs ndays (toObs r).key ↔ ndays ≤ rb.data.time - ra.data.time + 1 ∧ nobs ≤ b - a := by
      unfold Long
      rw [hcount]
      constructor
      · rintro ⟨c1, a', b', ra', rb', e1, e2, e3, e4, f1, f2, c2⟩
        obtain ⟨t, ht⟩ := hsta' a' ra' e1
        have := (hkey a' t ra' ht e1).2 e3
        subst this
        obtain ⟨t', ht'⟩ := hsta' b' rb' e2
        have := (hkey b' t' rb' ht' e2).2 e4
        subst this
        have ha' := (s3 a').1 ht
        have hb' := (s3 b').1 ht'
        have hF := (hnum.first_iff a' _ ht).1 f1
        have hL := (hnum.last_iff b' _ ht').1 f2
        have ea : a' = a := by
          by_contra hc
          exact hF a _ (by omega) hsa rfl
        have eb : b' = b - 1 := by
          by_contra hc
          exact hL (b - 1) _ (by omega) hsb rfl
        subst ea; subst eb
        rw [hra] at e1; cases e1
        rw [hrb] at e2; cases e2
        exact ⟨c2, c1⟩
      · rintro ⟨c2, c1⟩
        exact ⟨c1, a, b - 1, ra, rb, hra, hrb, (hkey a s ra hsa hra).1 rfl, (hkey (b - 1) s rb hsb hrb).1 rfl, hFa, hLb, c2⟩
    have htouch : ∀ (q x : Nat) (rq : Row Fields), sta[q]? = some x → rows[q]? = some rq →
        (x ∈ Segments.adjOf E s ↔ TouchKey rows (toObs r).key (toObs rq).key) := by
      intro q x rq hq hrq
      rw [hadj]
      constructor
      · rintro ⟨p, q', h1, h2, h3⟩
        obtain ⟨rp, hrp⟩ := hrow p s h1
        obtain ⟨rq', hrq'⟩ := hrow q' x h2
        exact ⟨p, q', rp, rq', hrp, hrq', (hkey p s rp h1 hrp).1 rfl,
          (same_number_iff hnum hc q' q x x _ _ h2 hq (hobs _ _ hrq') (hobs _ _ hrq)).1 rfl, h3⟩
      · rintro ⟨p, q', rp, rq', hrp, hrq', e1, e2, h3⟩
        obtain ⟨t, ht⟩ := hsta' p rp hrp
        obtain ⟨t', ht'⟩ := hsta' q' rq' hrq'
        have := (hkey p t rp ht hrp).2 e1
        subst this
        have := (same_number_iff hnum hc q' q t' x _ _ ht' hq (hobs _ _ hrq') (hobs _ _ hrq)).2 e2
        subst this
        exact ⟨p, q', ht, ht', h3⟩
    have hd : 2 ≤ degree E s ↔ ∃ u t, u ≠ t ∧ TouchKey rows (toObs r).key u ∧ TouchKey rows (toObs r).key t := by
      unfold degree
      rw [two_le_dedup]
      constructor
      · rintro ⟨x, hx, y, hy, hxy⟩
        obtain ⟨p, q, h1, h2, h3⟩ := (hadj s x).1 hx
        obtain ⟨p', q', h1', h2', h3'⟩ := (hadj s y).1 hy
        obtain ⟨rq, hrq⟩ := hrow q x h2
        obtain ⟨rq', hrq'⟩ := hrow q' y h2'
        refine ⟨(toObs rq).key, (toObs rq').key, ?_, (htouch q x rq h2 hrq).1 hx, (htouch q' y rq' h2' hrq').1 hy⟩
        intro e
        exact hxy ((same_number_iff hnum hc q q' x y _ _ h2 h2' (hobs _ _ hrq) (hobs _ _ hrq')).2 e)
      · rintro ⟨u, t, hut, h1, h2⟩
        obtain ⟨p, q, rp, rq, hrp, hrq, e1, rfl, h3⟩ := id h1
        obtain ⟨p', q', rp', rq', hrp', hrq', e1', rfl, h3'⟩ := id h2
        obtain ⟨x, hx⟩ := hsta' q rq hrq
        obtain ⟨y, hy⟩ := hsta' q' rq' hrq'
        refine ⟨x, (htouch q x rq hx hrq).2 h1, y, (htouch q' y rq' hy hrq').2 h2, ?_⟩
        intro e
        exact hut ((same_number_iff hnum hc q q' x y _ _ hx hy (hobs _ _ hrq) (hobs _ _ hrq')).1 e)
    rw [Bool.or_eq_true, Bool.and_eq_true, decide_eq_true_eq, decide_eq_true_eq, decide_eq_true_eq, hd, hl]
  obtain ⟨m, hm1, hm2, hm3⟩ := mapM_some (fun p : (Nat × Nat) × Nat => longEnough rows E nobs ndays p.2 p.1.1 p.1.2)
    (first.zip last).zipIdx (by
      rintro ⟨⟨a, b⟩, s⟩ hp
      rw [List.mem_zipIdx_iff_getElem?] at hp
      have := (List.getElem?_zip_eq_some (z := (a, b))).1 hp
      obtain ⟨v, hv, _⟩ := hlong s a b this.1 this.2
      exact ⟨v, hv⟩)
  have hprot : ∃ protect, protectedSegs mask sta = some protect ∧ ∀ s, (protect.contains s = true ↔
      ∃ (mk : List Bool) (j : Nat), mask = some mk ∧ mk[j]? = some true ∧ sta[j]? = some s) := by
    cases mask with
    | none => exact ⟨[], rfl, fun s => by simp⟩
    | some mk =>
      refine ⟨Py.select mk sta, ?_, fun s => ?_⟩
      · unfold protectedSegs
        simp only
        rw [if_neg]
        rw [hlen]
        exact not_not.2 (hm mk rfl)
      · rw [List.contains_iff_mem, mem_select]
        constructor
        · rintro ⟨j, h⟩; exact ⟨mk, j, rfl, h⟩
        · rintro ⟨mk', j, e, h⟩; cases e; exact ⟨j, h⟩
  obtain ⟨protect, hp1, hp2⟩ := hprot
  refine ⟨sta.map (fun s => !(m.getD s false || protect.contains s)), by
    unfold removed
    simp only [Option.bind_eq_bind]
    rw [hsta, Option.bind_some, hE, Option.bind_some, hbi, Option.bind_some, hm1, Option.bind_some, hp1, Option.bind_some],
    by simp [hlen], ?_⟩
  intro i hi
  have hir := List.getElem?_eq_getElem hi
  have his := List.getElem?_eq_getElem (l := sta) (i := i) (by omega)
  generalize hr : rows[i] = r at *
  generalize hs : sta[i] = s at *
  have hsl : s < first.length := by
    have := hrange s (List.mem_map.2 ⟨s, List.mem_of_getElem? his, rfl⟩)
    omega
  have hmlen : m.length = first.length := by
    rw [hm2, List.length_zipIdx, List.length_zip, ← hfl]; simp
  have hms := List.getElem?_eq_getElem (l := m) (i := s) (by omega)
  obtain ⟨⟨⟨a, b⟩, s'⟩, hz, hv'⟩ := hm3 s _ hms
  have hz' := hz
  rw [List.getElem?_zipIdx] at hz'
  obtain ⟨⟨a', b'⟩, hab, e⟩ := Option.map_eq_some_iff.1 hz'
  cases e
  have hab' := (List.getElem?_zip_eq_some (z := (a, b))).1 hab
  obtain ⟨v, hv1, hv2⟩ := hlong s a b hab'.1 hab'.2
  simp only [Nat.zero_add] at hv'
  rw [hv1] at hv'
  have hprot : protect.contains s = true ↔ ∃ (mk : List Bool) (j : Nat) (r' : Row Fields), mask = some mk ∧
      mk[j]? = some true ∧ rows[j]? = some r' ∧ (toObs r').key = (toObs r).key := by
    rw [hp2 s]
    constructor
    · rintro ⟨mk, j, h0, h1, h2⟩
      have hj : j < rows.length := by rw [← hlen]; exact (List.getElem?_eq_some_iff.1 h2).1
      have e := List.getElem?_eq_getElem hj
      exact ⟨mk, j, _, h0, h1, e, (same_number_iff hnum hc j i s s _ _ h2 his (hobs _ _ e) (hobs _ _ hir)).1 rfl⟩
    · rintro ⟨mk, j, r', h0, h1, h2, h3⟩
      have hj : j < sta.length := by rw [hlen]; exact (List.getElem?_eq_some_iff.1 h2).1
      have e := List.getElem?_eq_getElem hj
      have := (same_number_iff hnum hc j i _ s _ _ e his (hobs _ _ h2) (hobs _ _ hir)).2 h3
      exact ⟨mk, j, h0, h1, by rw [e, this]⟩
  rw [List.getElem?_map, his, Option.map_some, Option.some.injEq, Bool.not_eq_true', Bool.or_eq_false_iff,
    List.getD, hms, Option.getD_some, ← Option.some.inj hv', ← Bool.not_eq_true, ← Bool.not_eq_true, hprot,
    hv2 i r his hir, ← not_or]
  unfold Keep
  apply not_congr
  constructor
  · rintro ((h | h) | h)
    · exact ⟨r, hir, Or.inl h⟩
    · exact ⟨r, hir, Or.inr (Or.inl h)⟩
    · exact ⟨r, hir, Or.inr (Or.inr h)⟩
  · rintro ⟨r', e, h⟩
    rw [hir] at e; cases e
    rcases h with h | h | h
    · exact Or.inl (Or.inl h)
    · exact Or.inl (Or.inr h)
    · exact Or.inr h

theorem cut_spec (m : List Bool) (n : Nat) (hn : m.length = n) (hpos : 0 < n) (keep : Nat → Prop)
    (hm : ∀ i : Nat, i < n → (m[i]? = some true ↔ ¬ keep i)) (r : Row Fields)
    (h1 : -1 ≤ r.prev ∧ r.prev < n) (h2 : -1 ≤ r.next ∧ r.next < n) :
    ∃ r', cut m r = some r' ∧ CutLink keep r.prev r'.prev ∧ CutLink keep r.next r'.next ∧
      (r'.data.track = r.data.track ∧ r'.data.seg = r.data.seg ∧ r'.data.time = r.data.time ∧ r'.data.id = r.data.id) ∧
      (∀ t : Nat, r.prev = t → (keep t → r'.data.pcost = r.data.pcost) ∧ (¬ keep t → r'.data.pcost = 0)) ∧
      (∀ t : Nat, r.next = t → (keep t → r'.data.ncost = r.data.ncost) ∧ (¬ keep t → r'.data.ncost = 0)) ∧
      (r.data.pcost = 0 → r'.data.pcost = 0) ∧ (r.data.ncost = 0 → r'.data.ncost = 0) := by
  have hget : ∀ p : Int, -1 ≤ p → p < n → ∃ b, Py.get m p = some b ∧ (∀ t : Nat, p = t → (b = true ↔ ¬ keep t)) := by
    intro p a1 a2
    by_cases hp : p = -1
    · subst hp
      unfold Py.get Py.idx
      rw [if_neg (by omega), if_pos (by omega), Option.bind_some, List.getElem?_eq_getElem (by omega)]
      exact ⟨_, rfl, fun t ht => by omega⟩
    · obtain ⟨t, rfl⟩ := Int.eq_ofNat_of_zero_le (show 0 ≤ p by omega)
      have hlt : t < m.length := by omega
      refine ⟨m[t], by rw [Py.get_natCast]; exact List.getElem?_eq_getElem hlt, fun t' ht' => ?_⟩
      have : t = t' := by omega
      subst this
      rw [← hm t (by omega), List.getElem?_eq_getElem hlt, Option.some.injEq]
  obtain ⟨bp, e1, k1⟩ := hget r.prev h1.1 h1.2
  obtain ⟨bn, e2, k2⟩ := hget r.next h2.1 h2.2
  have hlink : ∀ (p : Int) (b : Bool), -1 ≤ p → (∀ t : Nat, p = t → (b = true ↔ ¬ keep t)) →
      CutLink keep p (if b = true then -1 else p) := by
    intro p b hp hk
    cases b with
    | true => exact Or.inr ⟨by simp, fun t ht => (hk t ht).1 rfl⟩
    | false =>
      by_cases hp' : p = -1
      · subst hp'; exact Or.inr ⟨by simp, fun t ht => by omega⟩
      · obtain ⟨t, rfl⟩ := Int.eq_ofNat_of_zero_le (show 0 ≤ p by omega)
        refine Or.inl ⟨t, rfl, ?_, by simp⟩
        by_contra hc
        have := (hk t rfl).2 hc
        cases this
  have l1 := hlink r.prev bp h1.1 k1
  have l2 := hlink r.next bn h2.1 k2
  have hcost : ∀ (c : Rat) (p : Int) (b : Bool), (∀ t : Nat, p = t → (b = true ↔ ¬ keep t)) → ∀ t : Nat, p = t →
      (keep t → (if b = true then (0 : Rat) else c) = c) ∧ (¬ keep t → (if b = true then (0 : Rat) else c) = 0) := by
    intro c p b hk t ht
    have := hk t ht
    refine ⟨fun h => ?_, fun h => by rw [if_pos (this.2 h)]⟩
    rw [if_neg (fun hb => (this.1 hb) h)]
  have c1 := hcost r.data.pcost r.prev bp k1
  have c2 := hcost r.data.ncost r.next bn k2
  refine ⟨⟨{ r.data with pcost := if bp = true then 0 else r.data.pcost, ncost := if bn = true then 0 else r.data.ncost },
    if bp = true then -1 else r.prev, if bn = true then -1 else r.next⟩, ?_, l1, l2, ⟨rfl, rfl, rfl, rfl⟩, c1, c2, ?_, ?_⟩
  · unfold cut
    rw [e1, e2]
    cases bp <;> cases bn <;> rfl
  · intro h; simp only; split <;> [rfl; exact h]
  · intro h; simp only; split <;> [rfl; exact h]

/-- C18: after one pass of `remove_dead_end`, the rows are a permutation of the rows; a row which must be kept has its
fields and its links to kept rows; the others have network and segment 0 and no link. -/
theorem remove_once_spec (le : Row Fields → Row Fields → Bool) (rows : List (Row Fields)) (hne : rows ≠ []) (hv : Valid rows)
    (hc : Contiguous (rows.map toObs)) (nobs : Nat) (ndays : Int) (mask : Option (List Bool))
    (hm : ∀ mk, mask = some mk → mk.length = rows.length) :
    ∃ (out : List (Row Fields)) (idx : List Nat), removeOnce le rows nobs ndays mask = some out ∧ idx.Perm (List.range rows.length) ∧
      out.length = rows.length ∧ Valid out ∧
      ∀ (k : Nat) (r : Row Fields), out[k]? = some r → ∃ (i : Nat) (r0 : Row Fields), idx[k]? = some i ∧ rows[i]? = some r0 ∧
        r.data.time = r0.data.time ∧ r.data.id = r0.data.id ∧
        (Keep rows nobs ndays mask i →
          r.data.track = r0.data.track ∧ r.data.seg = r0.data.seg ∧
          (∃ p, CutLink (Keep rows nobs ndays mask) r0.prev p ∧ Image idx p r.prev) ∧
          (∃ n, CutLink (Keep rows nobs ndays mask) r0.next n ∧ Image idx n r.next) ∧
          (∀ t : Nat, r0.prev = t → Keep rows nobs ndays mask t → r.data.pcost = r0.data.pcost) ∧
          (∀ t : Nat, r0.next = t → Keep rows nobs ndays mask t → r.data.ncost = r0.data.ncost)) ∧
        (¬ Keep rows nobs ndays mask i →
          r.data.track = 0 ∧ r.data.seg = 0 ∧ r.prev = -1 ∧ r.next = -1 ∧ r.data.pcost = 0 ∧ r.data.ncost = 0) := by
  obtain ⟨m, hm1, hm2, hm3⟩ := removed_spec rows hne hv hc nobs ndays mask hm
  have hpos : 0 < rows.length := List.length_pos_of_ne_nil hne
  have hzlen : (List.zipWith (fun r b => if b then erase r else r) rows m).length = rows.length := by
    rw [List.length_zipWith, hm2]; simp
  have hz : ∀ (i : Nat) (r : Row Fields), (List.zipWith (fun r b => if b then erase r else r) rows m)[i]? = some r →
      ∃ r0, rows[i]? = some r0 ∧ (Keep rows nobs ndays mask i → r = r0) ∧ (¬ Keep rows nobs ndays mask i → r = erase r0) := by
    intro i r hi
    have hlt : i < rows.length := by rw [← hzlen]; exact (List.getElem?_eq_some_iff.1 hi).1
    have hmi := hm3 i hlt
    rw [List.getElem?_zipWith, List.getElem?_eq_getElem hlt, List.getElem?_eq_getElem (l := m) (i := i) (by omega)] at hi
    rw [List.getElem?_eq_getElem (l := m) (i := i) (by omega), Option.some.injEq] at hmi
    simp only [Option.some.injEq] at hi
    refine ⟨_, List.getElem?_eq_getElem hlt, fun hk => ?_, fun hk => ?_⟩
    · rw [← hi, if_neg (fun hb => (hmi.1 hb) hk)]
    · rw [← hi, if_pos (hmi.2 hk)]
  have hvz : ∀ r : Row Fields, r ∈ List.zipWith (fun r b => if b then erase r else r) rows m →
      (-1 ≤ r.prev ∧ r.prev < rows.length) ∧ (-1 ≤ r.next ∧ r.next < rows.length) := by
    intro r hr
    obtain ⟨i, hi⟩ := List.getElem?_of_mem hr
    obtain ⟨r0, h0, h1, h2⟩ := hz i r hi
    by_cases hk : Keep rows nobs ndays mask i
    · rw [h1 hk]; exact hv r0 (List.mem_of_getElem? h0)
    · rw [h2 hk]; unfold erase; simp only; omega
  obtain ⟨cutRows, hc1, hc2, hc3⟩ := mapM_some (cut m) (List.zipWith (fun r b => if b then erase r else r) rows m) (by
    intro r hr
    have := hvz r hr
    obtain ⟨r', h, _⟩ := cut_spec m rows.length hm2 hpos _ hm3 r this.1 this.2
    exact ⟨r', h⟩)
  have hcl : cutRows.length = rows.length := by rw [hc2, hzlen]
  have hcut : ∀ (i : Nat) (r : Row Fields), cutRows[i]? = some r → ∃ r1 : Row Fields, (List.zipWith (fun r b => if b then erase r else r) rows m)[i]? =
      some r1 ∧ CutLink (Keep rows nobs ndays mask) r1.prev r.prev ∧ CutLink (Keep rows nobs ndays mask) r1.next r.next ∧
      (r.data.track = r1.data.track ∧ r.data.seg = r1.data.seg ∧ r.data.time = r1.data.time ∧ r.data.id = r1.data.id) ∧
      (∀ t : Nat, r1.prev = t → Keep rows nobs ndays mask t → r.data.pcost = r1.data.pcost) ∧
      (∀ t : Nat, r1.next = t → Keep rows nobs ndays mask t → r.data.ncost = r1.data.ncost) ∧
      (r1.data.pcost = 0 → r.data.pcost = 0) ∧ (r1.data.ncost = 0 → r.data.ncost = 0) := by
    intro i r hi
    obtain ⟨r1, h1, h2⟩ := hc3 i r hi
    have := hvz r1 (List.mem_of_getElem? h1)
    obtain ⟨r', h, a1, a2, a3, a4, a5, a6, a7⟩ := cut_spec m rows.length hm2 hpos _ hm3 r1 this.1 this.2
    rw [h2] at h; cases h
    exact ⟨r1, h1, a1, a2, a3, fun t ht => (a4 t ht).1, fun t ht => (a5 t ht).1, a6, a7⟩
  have hvc : Valid cutRows := by
    intro r hr
    obtain ⟨i, hi⟩ := List.getElem?_of_mem hr
    obtain ⟨r1, h1, a1, a2, _⟩ := hcut i r hi
    have hb := hvz r1 (List.mem_of_getElem? h1)
    rw [hcl]
    constructor
    · rcases a1 with ⟨t, h, _, e⟩ | ⟨e, _⟩
      · rw [e]; exact hb.1
      · rw [e]; omega
    · rcases a2 with ⟨t, h, _, e⟩ | ⟨e, _⟩
      · rw [e]; exact hb.2
      · rw [e]; omega
  obtain ⟨out, idx, hs, hp, ht, hvo, _⟩ := sort_links le cutRows hvc
  refine ⟨out, idx, ?_, by rw [← hcl]; exact hp, by rw [ht.1, hp.length_eq, List.length_range, hcl], hvo, ?_⟩
  · unfold removeOnce
    simp only [Option.bind_eq_bind]
    rw [hm1, Option.bind_some, hc1, Option.bind_some, hs]
  · intro k r hk
    obtain ⟨i, rc, hi, hrc, hd, hpi, hni⟩ := ht.2 k r hk
    obtain ⟨r1, h1, a1, a2, ⟨a3, a4, a5, a6⟩, a7, a8, a9, a10⟩ := hcut i rc hrc
    obtain ⟨r0, h0, hk1, hk2⟩ := hz i r1 h1
    by_cases hK : Keep rows nobs ndays mask i
    · have := hk1 hK
      subst this
      refine ⟨i, r1, hi, h0, by rw [hd, a5], by rw [hd, a6], fun _ => ?_, fun h => absurd hK h⟩
      exact ⟨by rw [hd, a3], by rw [hd, a4], ⟨_, a1, hpi⟩, ⟨_, a2, hni⟩, fun t ht hkt => by rw [hd, a7 t ht hkt],
        fun t ht hkt => by rw [hd, a8 t ht hkt]⟩
    · have := hk2 hK
      subst this
      have habs : ∀ q q' : Int, q = -1 → CutLink (Keep rows nobs ndays mask) (-1) q → Image idx q q' → q' = -1 := by
        rintro q q' rfl _ h
        rcases h with ⟨k, t, e, _⟩ | ⟨e, _⟩
        · omega
        · exact e
      have hcn : ∀ q : Int, CutLink (Keep rows nobs ndays mask) (-1) q → q = -1 := by
        rintro q (⟨t, e, _⟩ | ⟨e, _⟩)
        · omega
        · exact e
      refine ⟨i, r0, hi, h0, by rw [hd, a5]; rfl, by rw [hd, a6]; rfl, fun h => absurd h hK, fun _ => ?_⟩
      exact ⟨by rw [hd, a3]; rfl, by rw [hd, a4]; rfl, habs _ _ (hcn _ a1) a1 hpi, habs _ _ (hcn _ a2) a2 hni,
        by rw [hd]; exact a9 rfl, by rw [hd]; exact a10 rfl⟩

/-- C18: after one pass no link leaves from or goes to a removed row. -/
theorem remove_once_no_dangling (le : Row Fields → Row Fields → Bool) (rows : List (Row Fields)) (hne : rows ≠ [])
    (hv : Valid rows) (hc : Contiguous (rows.map toObs)) (nobs : Nat) (ndays : Int) (mask : Option (List Bool))
    (hm : ∀ mk, mask = some mk → mk.length = rows.length) :
    ∃ (out : List (Row Fields)) (idx : List Nat), removeOnce le rows nobs ndays mask = some out ∧ idx.Perm (List.range rows.length) ∧
      ∀ (k k' : Nat) (r : Row Fields), out[k]? = some r → (r.prev = k' ∨ r.next = k') →
        ∃ i i', idx[k]? = some i ∧ idx[k']? = some i' ∧ Keep rows nobs ndays mask i ∧ Keep rows nobs ndays mask i' := by
  obtain ⟨out, idx, h1, h2, h3, h4, h5⟩ := remove_once_spec le rows hne hv hc nobs ndays mask hm
  refine ⟨out, idx, h1, h2, fun k k' r hk hl => ?_⟩
  obtain ⟨i, r0, hi, h0, _, _, hK, hN⟩ := h5 k r hk
  by_cases hkeep : Keep rows nobs ndays mask i
  · obtain ⟨_, _, ⟨p, hp, ip⟩, ⟨n, hn, iN⟩, _⟩ := hK hkeep
    have key : ∀ p q q' : Int, CutLink (Keep rows nobs ndays mask) p q → Image idx q q' → q' = k' →
        ∃ i', idx[k']? = some i' ∧ Keep rows nobs ndays mask i' := by
      rintro p q q' hcl him rfl
      rcases him with ⟨k2, t, rfl, hk2, e⟩ | ⟨e, _⟩
      · have : k' = k2 := by omega
        subst this
        rcases hcl with ⟨t', e1, hkt, e2⟩ | ⟨e1, _⟩
        · have : t = t' := by omega
          subst this
          exact ⟨t, hk2, hkt⟩
        · omega
      · omega
    rcases hl with e | e
    · obtain ⟨i', a, b⟩ := key _ _ _ hp ip e
      exact ⟨i, i', hi, a, hkeep, b⟩
    · obtain ⟨i', a, b⟩ := key _ _ _ hn iN e
      exact ⟨i, i', hi, a, hkeep, b⟩
  · obtain ⟨_, _, e1, e2, _⟩ := hN hkeep
    rcases hl with e | e <;> omega

/-! ### Repetition -/

/-- `le` is an order of the records whose first keys are the network and the segment. -/
structure IsOrder (le : Row Fields → Row Fields → Bool) : Prop where
  total : ∀ a b, le a b = true ∨ le b a = true
  trans : ∀ a b c, le a b = true → le b c = true → le a c = true
  lex : ∀ a b, le a b = true → a.data.track < b.data.track ∨ (a.data.track = b.data.track ∧ a.data.seg ≤ b.data.seg)

theorem sort_contiguous (le : Row Fields → Row Fields → Bool) (hle : IsOrder le) (rows out : List (Row Fields))
    (hv : Valid rows) (h : sort le rows = some out) : Contiguous (out.map toObs) := by
  have hs := sort_sorted le (fun a b : Fields => a.track < b.track ∨ (a.track = b.track ∧ a.seg ≤ b.seg)) hle.lex hle.total
    hle.trans rows out hv h
  rw [List.pairwise_map, List.pairwise_iff_getElem] at hs
  intro i j k a b c hij hjk ha hb hc hac
  rw [List.getElem?_map] at ha hb hc
  obtain ⟨ra, ha', rfl⟩ := Option.map_eq_some_iff.1 ha
  obtain ⟨rb, hb', rfl⟩ := Option.map_eq_some_iff.1 hb
  obtain ⟨rc, hc', rfl⟩ := Option.map_eq_some_iff.1 hc
  obtain ⟨ia, ea⟩ := List.getElem?_eq_some_iff.1 ha'
  obtain ⟨ib, eb⟩ := List.getElem?_eq_some_iff.1 hb'
  obtain ⟨ic, ec⟩ := List.getElem?_eq_some_iff.1 hc'
  have h1 : ra = rb ∨ (ra.data.track < rb.data.track ∨ (ra.data.track = rb.data.track ∧ ra.data.seg ≤ rb.data.seg)) := by
    rcases Nat.lt_or_eq_of_le hij with hlt | rfl
    · right; rw [← ea, ← eb]; exact hs i j ia ib hlt
    · left; rw [← ea, ← eb]
  have h2 : rb = rc ∨ (rb.data.track < rc.data.track ∨ (rb.data.track = rc.data.track ∧ rb.data.seg ≤ rc.data.seg)) := by
    rcases Nat.lt_or_eq_of_le hjk with hlt | rfl
    · right; rw [← eb, ← ec]; exact hs j k ib ic hlt
    · left; rw [← eb, ← ec]
  unfold toObs Segments.Obs.key at hac ⊢
  simp only [Prod.mk.injEq] at hac ⊢
  rcases h1 with rfl | h1
  · exact ⟨rfl, rfl⟩
  · rcases h2 with rfl | h2
    · exact ⟨hac.1.symm, hac.2.symm⟩
    · omega

/-- Any number of passes succeeds and leaves only links between rows, whatever was removed. -/
theorem remove_dead_end_valid (le : Row Fields → Row Fields → Bool) (hle : IsOrder le) (nobs : Nat) (ndays : Int) (k : Nat) :
    ∀ (rows : List (Row Fields)) (mask : Option (List Bool)), rows ≠ [] → Valid rows → Contiguous (rows.map toObs) →
      (∀ mk, mask = some mk → mk.length = rows.length) →
      ∃ out, removeDeadEnd le rows nobs ndays k mask = some out ∧ out.length = rows.length ∧ Valid out ∧
        Contiguous (out.map toObs) := by
  have hone : ∀ (rows : List (Row Fields)) (mask : Option (List Bool)), rows ≠ [] → Valid rows →
      Contiguous (rows.map toObs) → (∀ mk, mask = some mk → mk.length = rows.length) →
      ∃ out, removeOnce le rows nobs ndays mask = some out ∧ out.length = rows.length ∧ Valid out ∧
        Contiguous (out.map toObs) := by
    intro rows mask hne hv hc hm
    obtain ⟨out, idx, h1, h2, h3, h4, h5⟩ := remove_once_spec le rows hne hv hc nobs ndays mask hm
    refine ⟨out, h1, h3, h4, ?_⟩
    unfold removeOnce at h1
    simp only [Option.bind_eq_bind] at h1
    obtain ⟨m, e1, h1⟩ := Option.bind_eq_some_iff.1 h1
    obtain ⟨cutRows, e2, h1⟩ := Option.bind_eq_some_iff.1 h1
    -- the rows given to the sort have valid links, otherwise it raises
    obtain ⟨m', hm1, hm2, hm3⟩ := removed_spec rows hne hv hc nobs ndays mask hm
    rw [e1] at hm1; cases hm1
    have hpos : 0 < rows.length := List.length_pos_of_ne_nil hne
    have hvc : Valid cutRows := by
      have hzlen : (List.zipWith (fun r b => if b then erase r else r) rows m).length = rows.length := by
        rw [List.length_zipWith, hm2]; simp
      have hvz : ∀ r : Row Fields, r ∈ List.zipWith (fun r b => if b then erase r else r) rows m →
          (-1 ≤ r.prev ∧ r.prev < rows.length) ∧ (-1 ≤ r.next ∧ r.next < rows.length) := by
        intro r hr
        obtain ⟨i, hi⟩ := List.getElem?_of_mem hr
        rw [List.getElem?_zipWith] at hi
        cases hri : rows[i]? with
        | none => rw [hri] at hi; simp at hi
        | some r0 =>
          cases hmi : m[i]? with
          | none => rw [hri, hmi] at hi; simp at hi
          | some b =>
            rw [hri, hmi] at hi
            simp only [Option.some.injEq] at hi
            cases b with
            | true => rw [if_pos rfl] at hi; rw [← hi]; unfold erase; simp only; omega
            | false => simp at hi; rw [← hi]; exact hv r0 (List.mem_of_getElem? hri)
      obtain ⟨cr, f1, f2, f3⟩ := mapM_some (cut m) (List.zipWith (fun r b => if b then erase r else r) rows m) (by
        intro r hr
        obtain ⟨r', h, _⟩ := cut_spec m rows.length hm2 hpos _ hm3 r (hvz r hr).1 (hvz r hr).2
        exact ⟨r', h⟩)
      rw [e2] at f1; cases f1
      intro r hr
      obtain ⟨i, hi⟩ := List.getElem?_of_mem hr
      obtain ⟨r1, g1, g2⟩ := f3 i r hi
      have hb := hvz r1 (List.mem_of_getElem? g1)
      obtain ⟨r', h, a1, a2, _⟩ := cut_spec m rows.length hm2 hpos _ hm3 r1 hb.1 hb.2
      rw [g2] at h; cases h
      rw [f2, hzlen]
      constructor
      · rcases a1 with ⟨t, h, _, e⟩ | ⟨e, _⟩
        · rw [e]; exact hb.1
        · rw [e]; omega
      · rcases a2 with ⟨t, h, _, e⟩ | ⟨e, _⟩
        · rw [e]; exact hb.2
        · rw [e]; omega
    exact sort_contiguous le hle cutRows out hvc h1
  induction k with
  | zero => intro rows mask hne hv hc hm; exact hone rows mask hne hv hc hm
  | succ k ih =>
    intro rows mask hne hv hc hm
    obtain ⟨out, h1, h2, h3, h4⟩ := hone rows mask hne hv hc hm
    have hne' : out ≠ [] := by
      intro h
      rw [h] at h2
      have := List.length_pos_of_ne_nil hne
      simp at h2; omega
    obtain ⟨out', g1, g2, g3, g4⟩ := ih out none hne' h3 h4 (fun mk h => by cases h)
    refine ⟨out', ?_, by omega, g3, g4⟩
    rw [removeDeadEnd, h1]
    exact g1

/-! ### Examples -/

theorem lexLe_isOrder : IsOrder lexLe := by
  refine ⟨fun a b => ?_, fun a b c => ?_, fun a b => ?_⟩
  · simp only [lexLe, decide_eq_true_eq]; omega
  · simp only [lexLe, decide_eq_true_eq]; omega
  · simp only [lexLe, decide_eq_true_eq]; omega

/-- Segment 1 has three rows; segment 2 (one row) comes from row 1; segment 3 (one row) is attached to nothing. -/
def exNet : List (Row Fields) :=
  [⟨⟨1, 1, 0, 0, 1, 0⟩, -1, 1⟩, ⟨⟨1, 1, 1, 1, 1, 1⟩, 0, 2⟩, ⟨⟨1, 1, 2, 1, 0, 2⟩, 1, -1⟩, ⟨⟨1, 2, 2, 1, 0, 3⟩, 1, -1⟩,
   ⟨⟨1, 3, 5, 0, 0, 4⟩, -1, -1⟩]

example : Valid exNet := by unfold Valid exNet; decide +kernel

/-- Without mask, segments 2 and 3 are removed: their rows come first. -/
example : (removeDeadEnd lexLe exNet 2 0 0 none).map (fun l => l.map (fun r => (r.data.id, r.data.seg, r.prev, r.next))) =
    some [(3, 0, -1, -1), (4, 0, -1, -1), (0, 1, -1, 3), (1, 1, 2, 4), (2, 1, 3, -1)] := by decide +kernel

/-- With a mask on the row of segment 2, this segment is kept. -/
example : (removeDeadEnd lexLe exNet 2 0 0 (some [false, false, false, true, false])).map
    (fun l => l.map (fun r => (r.data.id, r.data.seg, r.prev, r.next))) =
    some [(4, 0, -1, -1), (0, 1, -1, 2), (1, 1, 1, 3), (2, 1, 2, -1), (3, 2, 2, -1)] := by decide +kernel

/-- C18 is refuted for `recursive`: the mask is forgotten by the second pass, which removes the protected segment. -/
theorem recursive_forgets_mask :
    (removeDeadEnd lexLe exNet 2 0 1 (some [false, false, false, true, false])).map
      (fun l => l.map (fun r => (r.data.id, r.data.seg, r.prev, r.next))) =
    some [(3, 0, -1, -1), (4, 0, -1, -1), (0, 1, -1, 3), (1, 1, 2, 4), (2, 1, 3, -1)] ∧
    Keep exNet 2 0 (some [false, false, false, true, false]) 3 := by
  refine ⟨by decide +kernel, ⟨⟨1, 2, 2, 1, 0, 3⟩, 1, -1⟩, rfl, Or.inr (Or.inr ⟨_, 3, _, rfl, rfl, rfl, rfl⟩)⟩

/-- The function raises on an empty network. -/
theorem remove_dead_end_empty_raises (le : Row Fields → Row Fields → Bool) (nobs : Nat) (ndays : Int) (k : Nat)
    (mask : Option (List Bool)) : removeDeadEnd le [] nobs ndays k mask = none := by
  cases k <;> rfl

end Verif.Links
