import Verif.Bins.Lemmas

/-!
# C31: `iter_on` yields for each bin exactly its observations
-/

namespace Verif.Bins

/-! ### Specification -/

/-- The value of observation `j` is in the bin `[lo, hi[`. -/
def InBin (x : List Rat) (j : Nat) (lo hi : Rat) : Prop := ∃ v, x[j]? = some v ∧ lo ≤ v ∧ v < hi

/-- A run of `iter_on` is right: no exception; groups in increasing order of their bin (so that no bin is visited twice);
every group is a bin and holds exactly the observations of this bin, each of them once, and is not empty; every bin with an
observation is visited. -/
structure Correct (x bins : List Rat) (r : Run Group) : Prop where
  ok : r.ok = true
  ordered : r.items.Pairwise (fun g h => g.lo < h.lo)
  bounds : ∀ g ∈ r.items, ∃ k : Nat, bins[k]? = some g.lo ∧ bins[k + 1]? = some g.hi
  nonempty : ∀ g ∈ r.items, g.obs ≠ []
  nodup : ∀ g ∈ r.items, g.obs.Nodup
  mem : ∀ g ∈ r.items, ∀ j, j ∈ g.obs ↔ InBin x j g.lo g.hi
  covered : ∀ (k : Nat) (lo hi : Rat) (j : Nat), bins[k]? = some lo → bins[k + 1]? = some hi → InBin x j lo hi →
    ∃ g ∈ r.items, g.lo = lo ∧ g.hi = hi

/-- What is known of `argsort`: the positions of all elements, in an order which sorts the elements. -/
def IsArgsort (i : List Int) (order : List Nat) : Prop :=
  order.Perm (List.range i.length) ∧ (order.map (fun k => i.getD k 0)).Pairwise (· ≤ ·)

/-! ### The loop on groups -/

theorem emit_spec {α β : Type} {f : β → Option (Option α)} : ∀ {l : List β}, (∀ x ∈ l, ∃ o, f x = some o) →
    emit f l = ⟨l.filterMap (fun x => (f x).join), true⟩
  | [], _ => rfl
  | x :: l, h => by
    obtain ⟨o, ho⟩ := h x (by simp)
    have ih := emit_spec (f := f) (l := l) (fun y hy => h y (by simp [hy]))
    unfold emit
    rw [ho]
    cases o with
    | none => simp [ih, ho]
    | some y => simp [ih, ho]

theorem mem_slice {α : Type} {a : List α} {p : Nat × Nat} {y : α} :
    y ∈ slice a p ↔ ∃ k : Nat, p.1 ≤ k ∧ k < p.2 ∧ a[k]? = some y := by
  unfold slice
  rw [List.mem_iff_getElem?]
  constructor
  · rintro ⟨k, hk⟩
    rw [List.getElem?_take] at hk
    split at hk
    · rw [List.getElem?_drop] at hk
      exact ⟨p.1 + k, by omega, by omega, hk⟩
    · cases hk
  · rintro ⟨k, h1, h2, h3⟩
    refine ⟨k - p.1, ?_⟩
    rw [List.getElem?_take, if_pos (by omega), List.getElem?_drop, ← h3]
    congr 1; omega

theorem slice_sublist {α : Type} (a : List α) (p : Nat × Nat) : (slice a p).Sublist a :=
  (List.take_sublist _ _).trans (List.drop_sublist _ _)

theorem get_nat {bins : List Rat} {g : Int} {k : Nat} (h : g = (k : Int)) : Py.get bins g = bins[k]? := by
  rw [h, Py.get_natCast]

/-- The groups of any sorted view of the bin numbers. -/
theorem core {x bins : List Rat} {s : List Int} {order' : List Nat} {f : Nat × Nat → Option (Option Group)} {arr : Bool}
    {r : List Nat × List Nat × Int} (hb : bins.Pairwise (· < ·)) (hb2 : 2 ≤ bins.length)
    (hlen : s.length = order'.length) (hss : s.Pairwise (· ≤ ·)) (hne : s ≠ [])
    (hval : ∀ (k j : Nat), order'[k]? = some j → ∃ v, x[j]? = some v ∧ s[k]? = some (digitize bins v - 1))
    (hnd : order'.Nodup)
    (hcov : ∀ (j : Nat) (v lo hi : Rat) (k : Nat), x[j]? = some v → bins[k]? = some lo → bins[k + 1]? = some hi → lo ≤ v →
      v < hi → j ∈ order')
    (hr : Index.buildIndex s = some r)
    (hf : ∀ p ∈ slices r.1 r.2.1, ∀ b, s[p.1]? = some b → f p =
      if b = -1 ∨ b = (bins.length : Int) - 1 then some none
      else (Py.get bins b).bind (fun lo => (Py.get bins (b + 1)).bind (fun hi => some (some ⟨slice order' p, arr, lo, hi⟩)))) :
    Correct x bins (emit f (slices r.1 r.2.1)) := by
  obtain ⟨r', hr', h1, h2, h3⟩ := runs_spec hne hss
  have hrr : r' = r := by rw [hr] at hr'; exact (Option.some.inj hr').symm
  subst hrr
  have hbne : bins ≠ [] := by rintro rfl; simp at hb2
  -- the number of each slice
  have hnum : ∀ p ∈ slices r'.1 r'.2.1, ∃ g : Int, s[p.1]? = some g ∧ (∀ k : Nat, s[k]? = some g ↔ p.1 ≤ k ∧ k < p.2) ∧
      -1 ≤ g ∧ g ≤ (bins.length : Int) - 1 := by
    intro p hp
    obtain ⟨e1, e2, g, hg⟩ := h1 p hp
    have hg1 := (hg p.1).2 (by omega)
    refine ⟨g, hg1, hg, ?_⟩
    obtain ⟨v, _, hv⟩ := hval p.1 _ (List.getElem?_eq_getElem (show p.1 < order'.length by omega))
    rw [hv] at hg1
    obtain ⟨d1, d2, _⟩ := digit_range hb hbne v
    have := Option.some.inj hg1
    omega
  have hstep : ∀ p ∈ slices r'.1 r'.2.1, (f p = some none) ∨ ∃ (k : Nat) (lo hi : Rat),
      bins[k]? = some lo ∧ bins[k + 1]? = some hi ∧ f p = some (some ⟨slice order' p, arr, lo, hi⟩) ∧
      ∀ j : Nat, s[j]? = some (k : Int) ↔ p.1 ≤ j ∧ j < p.2 := by
    intro p hp
    obtain ⟨g, hg1, hg2, hg3, hg4⟩ := hnum p hp
    have hfp := hf p hp g hg1
    by_cases hg : g = -1 ∨ g = (bins.length : Int) - 1
    · left; rw [hfp, if_pos hg]
    · right
      rw [if_neg hg] at hfp
      have hgk : g = (g.toNat : Int) := by omega
      have e0 := List.getElem?_eq_getElem (show g.toNat < bins.length by omega)
      have e1 := List.getElem?_eq_getElem (show g.toNat + 1 < bins.length by omega)
      refine ⟨g.toNat, _, _, e0, e1, ?_, ?_⟩
      · rw [hfp, get_nat hgk, e0, Option.bind_some, get_nat (k := g.toNat + 1) (by push_cast; omega), e1, Option.bind_some]
      · rw [← hgk]; exact hg2
  have hem := emit_spec (f := f) (l := slices r'.1 r'.2.1) (fun p hp => by
    rcases hstep p hp with h | ⟨_, _, _, _, _, h, _⟩
    · exact ⟨_, h⟩
    · exact ⟨_, h⟩)
  rw [hem]
  have hitem : ∀ g, g ∈ (slices r'.1 r'.2.1).filterMap (fun p => (f p).join) → ∃ p ∈ slices r'.1 r'.2.1, ∃ (k : Nat),
      bins[k]? = some g.lo ∧ bins[k + 1]? = some g.hi ∧ g.obs = slice order' p ∧
      ∀ j : Nat, s[j]? = some (k : Int) ↔ p.1 ≤ j ∧ j < p.2 := by
    intro g hg
    rw [List.mem_filterMap] at hg
    obtain ⟨p, hp, hpg⟩ := hg
    rcases hstep p hp with h | ⟨k, lo, hi, e0, e1, h, e2⟩
    · rw [h] at hpg; cases hpg
    · rw [h] at hpg
      simp only [Option.join_some, Option.some.injEq] at hpg
      subst hpg
      exact ⟨p, hp, k, e0, e1, rfl, e2⟩
  refine ⟨rfl, ?_, ?_, ?_, ?_, ?_, ?_⟩
  · simp only
    rw [List.pairwise_filterMap]
    refine List.Pairwise.imp_of_mem ?_ h3
    intro p q hp hq hpq g hg g' hg'
    rcases hstep p hp with h | ⟨k, lo, hi, e0, e1, h, e2⟩
    · rw [h] at hg; cases hg
    rcases hstep q hq with h' | ⟨k', lo', hi', e0', e1', h', e2'⟩
    · rw [h'] at hg'; cases hg'
    rw [h] at hg; rw [h'] at hg'
    simp only [Option.join_some, Option.some.injEq] at hg hg'
    subst hg; subst hg'
    simp only
    have b1 := (h1 p hp).1
    have b2 := (h1 q hq).1
    have a1 := (e2 p.1).2 (by omega)
    have a2 := (e2' q.1).2 (by omega)
    obtain ⟨k1, a1'⟩ := List.getElem?_eq_some_iff.1 a1
    obtain ⟨k2, a2'⟩ := List.getElem?_eq_some_iff.1 a2
    have hle := (List.pairwise_iff_getElem.1 hss) p.1 q.1 k1 k2 (by omega)
    rw [a1', a2'] at hle
    have hkk : k ≠ k' := by
      rintro rfl
      have := (e2 q.1).1 a2
      omega
    obtain ⟨c1, e0''⟩ := List.getElem?_eq_some_iff.1 e0
    obtain ⟨c2, e0'''⟩ := List.getElem?_eq_some_iff.1 e0'
    have := (List.pairwise_iff_getElem.1 hb) k k' c1 c2 (by omega)
    rw [e0'', e0'''] at this
    exact this
  · intro g hg
    obtain ⟨p, hp, k, e0, e1, _, _⟩ := hitem g hg
    exact ⟨k, e0, e1⟩
  · intro g hg
    obtain ⟨p, hp, k, e0, e1, e2, _⟩ := hitem g hg
    obtain ⟨b1, b2, _⟩ := h1 p hp
    rw [e2]
    intro hnil
    have : order'[p.1]'(by omega) ∈ slice order' p :=
      mem_slice.2 ⟨p.1, by omega, b1, List.getElem?_eq_getElem (by omega)⟩
    rw [hnil] at this; cases this
  · intro g hg
    obtain ⟨p, hp, k, e0, e1, e2, _⟩ := hitem g hg
    rw [e2]; exact hnd.sublist (slice_sublist _ _)
  · intro g hg j
    obtain ⟨p, hp, k, e0, e1, e2, e3⟩ := hitem g hg
    rw [e2, mem_slice]
    constructor
    · rintro ⟨m, m1, m2, m3⟩
      obtain ⟨v, hv, hs⟩ := hval m j m3
      rw [(e3 m).2 ⟨m1, m2⟩] at hs
      exact ⟨v, hv, (digit_spec hb v e0 e1).1 (Option.some.inj hs).symm⟩
    · rintro ⟨v, hv, hlo, hhi⟩
      obtain ⟨m, hm⟩ := List.mem_iff_getElem?.1 (hcov j v _ _ k hv e0 e1 hlo hhi)
      obtain ⟨v', hv', hs⟩ := hval m j hm
      rw [hv] at hv'; cases hv'
      rw [(digit_spec hb v e0 e1).2 ⟨hlo, hhi⟩] at hs
      have := (e3 m).1 hs
      exact ⟨m, this.1, this.2, hm⟩
  · rintro k lo hi j e0 e1 ⟨v, hv, hlo, hhi⟩
    obtain ⟨m, hm⟩ := List.mem_iff_getElem?.1 (hcov j v _ _ k hv e0 e1 hlo hhi)
    obtain ⟨v', hv', hs⟩ := hval m j hm
    rw [hv] at hv'; cases hv'
    rw [(digit_spec hb v e0 e1).2 ⟨hlo, hhi⟩] at hs
    obtain ⟨hml, _⟩ := List.getElem?_eq_some_iff.1 hs
    obtain ⟨p, hp, p1, p2⟩ := h2 m hml
    rcases hstep p hp with h | ⟨k', lo', hi', e0', e1', h, e2'⟩
    · exfalso
      obtain ⟨g, hg1, hg2, _⟩ := hnum p hp
      have hgm := (hg2 m).2 ⟨p1, p2⟩
      rw [hs] at hgm
      have hgk := (Option.some.inj hgm).symm
      have hfp := hf p hp g hg1
      obtain ⟨c1, _⟩ := List.getElem?_eq_some_iff.1 e1
      rw [if_neg (by omega), get_nat hgk, e0, Option.bind_some, get_nat (k := k + 1) (by push_cast; omega), e1,
        Option.bind_some, h] at hfp
      cases hfp
    · have hkk := (e2' m).2 ⟨p1, p2⟩
      rw [hs] at hkk
      have : k = k' := by have := Option.some.inj hkk; omega
      subst this
      rw [e0] at e0'; rw [e1] at e1'
      refine ⟨⟨slice order' p, arr, lo', hi'⟩, ?_, (Option.some.inj e0').symm, (Option.some.inj e1').symm⟩
      rw [List.mem_filterMap]
      exact ⟨p, hp, by rw [h]; rfl⟩

/-! ### Monotonous data -/

theorem decreases_of_sorted {u : Bool} : ∀ {x : List Rat}, x.Pairwise (· ≤ ·) → decreases u x = false
  | [], _ => rfl
  | [_], _ => rfl
  | a :: b :: l, h => by
    have h' := List.pairwise_cons.1 h
    have hab := h'.1 b (by simp)
    rw [decreases, decreases_of_sorted h'.2]
    have : ¬ b - a < 0 := by linarith
    simp [this]

theorem sorted_of_decreases : ∀ {x : List Rat}, decreases false x = false → x.Pairwise (· ≤ ·)
  | [], _ => List.Pairwise.nil
  | [_], _ => List.pairwise_singleton _ _
  | a :: b :: l, h => by
    rw [decreases] at h
    simp only [Bool.not_false, Bool.true_and, Bool.or_eq_false_iff, decide_eq_false_iff_not, not_lt] at h
    have ih := sorted_of_decreases h.2
    refine List.pairwise_cons.2 ⟨?_, ih⟩
    intro c hc
    have hab : a ≤ b := by linarith
    rcases List.mem_cons.1 hc with rfl | hc
    · exact hab
    · exact le_trans hab ((List.pairwise_cons.1 ih).1 c hc)

theorem digitize_mono (bins : List Rat) {v w : Rat} (h : v ≤ w) : digitize bins v ≤ digitize bins w := by
  unfold digitize
  have : bins.countP (fun b => decide (b ≤ v)) ≤ bins.countP (fun b => decide (b ≤ w)) := by
    apply List.countP_mono_left
    intro b _ hb
    simp only [decide_eq_true_eq] at hb ⊢
    linarith
  omega

/-- **C31** (partial: monotonous data whose values are all inside of the bounds). `iter_on` yields exactly the bins. Full
statement: also with values outside of the bounds, see `monotone_below_wrong` and `monotone_above_raises`. -/
theorem iter_on_monotone_partial {argsort : List Int → List Nat} {unsigned : Bool} {x bins : List Rat}
    (hb : bins.Pairwise (· < ·)) (hb2 : 2 ≤ bins.length) (hne : x ≠ []) (hx : x.Pairwise (· ≤ ·))
    (hin : ∀ v ∈ x, ∀ lo hi, bins.head? = some lo → bins.getLast? = some hi → lo ≤ v ∧ v < hi) :
    Correct x bins (iterOn argsort unsigned x bins) := by
  have hbne : bins ≠ [] := by rintro rfl; simp at hb2
  unfold iterOn
  rw [decreases_of_sorted hx]
  simp only [Bool.false_eq_true, if_false]
  have hs : ((x.map (digitize bins)).map (· - 1)).Pairwise (· ≤ ·) := by
    rw [List.map_map, List.pairwise_map]
    refine hx.imp ?_
    intro a b hab
    have := digitize_mono bins hab
    simp only [Function.comp]; omega
  have hsne : (x.map (digitize bins)).map (· - 1) ≠ [] := by simpa using hne
  obtain ⟨r, hr, h1, _⟩ := runs_spec hsne hs
  have hit : iterMonotone x bins = some (slices r.1 r.2.1, (x.map (digitize bins)).map (· - 1)) := by
    unfold iterMonotone
    rw [numbaDigitize_eq hb2 hb]
    simp only [Option.bind_eq_bind, Option.map_some, Option.bind_some]
    rw [hr, Option.bind_some]
  rw [hit]
  simp only
  refine core (arr := false) (order' := List.range x.length) hb hb2 (by simp) hs hsne ?_ List.nodup_range ?_ hr ?_
  · intro k j hk
    have hk' : k < x.length := by
      have := (List.getElem?_eq_some_iff.1 hk).1; simpa using this
    rw [List.getElem?_range hk'] at hk
    cases hk
    exact ⟨x[k], List.getElem?_eq_getElem hk', by simp [List.getElem?_eq_getElem hk']⟩
  · intro j v _ _ _ hv _ _ _ _
    exact List.mem_range.2 (List.getElem?_eq_some_iff.1 hv).1
  · intro p hp b hbp
    have hbr : ¬ (b = -1 ∨ b = (bins.length : Int) - 1) := by
      simp only [List.map_map, List.getElem?_map, Option.map_eq_some_iff] at hbp
      obtain ⟨v, hv, hvb⟩ := hbp
      have hh := List.head?_eq_some_head hbne
      have hl := List.getLast?_eq_some_getLast hbne
      obtain ⟨d1, d2⟩ := hin v (List.mem_of_getElem? hv) _ _ hh hl
      obtain ⟨_, _, e3, e4⟩ := digit_range hb hbne v
      rw [← hvb]
      simp only [Function.comp]
      rw [e3, e4]
      rintro (h | h) <;> linarith
    rw [if_neg hbr]
    unfold bodyMonotone
    rw [hbp]
    rfl

/-! ### Data which is not monotonous -/

theorem takeAt_spec {α : Type} (d : α) {a : List α} : ∀ {idx : List Nat}, (∀ k ∈ idx, k < a.length) →
    takeAt a idx = some (idx.map (fun k => a.getD k d))
  | [], _ => rfl
  | k :: idx, h => by
    have hk := h k (by simp)
    have ih := takeAt_spec d (a := a) (idx := idx) (fun m hm => h m (by simp [hm]))
    unfold takeAt at ih ⊢
    rw [List.mapM_cons, ih, List.getElem?_eq_getElem hk]
    simp [List.getElem?_eq_getElem hk]

theorem reduceMask_spec {limit : Nat} {x0 x1 : Rat} : ∀ {x : List Rat} {c : Nat} {m : List Bool},
    reduceMask limit x0 x1 c x = some m → m = x.map (fun v => decide (x0 ≤ v ∧ v ≤ x1))
  | [], c, m, h => by simp [reduceMask] at h; simp [h]
  | v :: x, c, m, h => by
    rw [reduceMask] at h
    split at h
    · rename_i hv
      split at h
      · cases h
      · rw [Option.map_eq_some_iff] at h
        obtain ⟨m', h1, rfl⟩ := h
        rw [reduceMask_spec h1]; simp [hv]
    · rename_i hv
      rw [Option.map_eq_some_iff] at h
      obtain ⟨m', h1, rfl⟩ := h
      rw [reduceMask_spec h1]
      rw [List.map_cons, decide_eq_false hv]

theorem reduceMask_none {limit : Nat} {x0 x1 : Rat} : ∀ {x : List Rat} {c : Nat},
    reduceMask limit x0 x1 c x = none → ∃ v ∈ x, x0 ≤ v ∧ v ≤ x1
  | [], c, h => by simp [reduceMask] at h
  | v :: x, c, h => by
    rw [reduceMask] at h
    split at h
    · rename_i hv; exact ⟨v, by simp, hv⟩
    · rw [Option.map_eq_none_iff] at h
      obtain ⟨w, h1, h2⟩ := reduceMask_none h
      exact ⟨w, by simp [h1], h2⟩

/-- Translation of the values used by the sorted branch to the full array. -/
structure IsReduction (x : List Rat) (b0 b1 : Rat) (t : List Nat) (y : List Rat) : Prop where
  nodup : t.Nodup
  lt : ∀ j ∈ t, j < x.length
  val : y = t.map (fun j => x.getD j 0)
  cover : ∀ (j : Nat) (v : Rat), x[j]? = some v → b0 ≤ v → v ≤ b1 → j ∈ t

theorem self_map (x : List Rat) : x = (List.range x.length).map (fun j => x.getD j 0) := by
  apply List.ext_getElem?
  intro k
  by_cases hk : k < x.length
  · simp [List.getElem?_range hk, List.getElem?_eq_getElem hk]
  · simp [List.getElem?_eq_none (not_lt.1 hk), hk]

theorem iterModeReduce_spec (x : List Rat) (b0 b1 : Rat) :
    IsReduction x b0 b1 ((iterModeReduce x b0 b1).1.getD (List.range x.length)) (iterModeReduce x b0 b1).2 ∧
    ((iterModeReduce x b0 b1).1 = none → ∃ v ∈ x, b0 ≤ v ∧ v ≤ b1) ∧
    (∀ t, (iterModeReduce x b0 b1).1 = some t → ∀ j ∈ t, ∃ v ∈ x, b0 ≤ v ∧ v ≤ b1) := by
  unfold iterModeReduce
  cases h : reduceMask (x.length / 2) b0 b1 0 x with
  | none =>
    refine ⟨⟨List.nodup_range, by simp, self_map x, ?_⟩, fun _ => reduceMask_none h, by simp⟩
    intro j v hv _ _
    simpa using (List.getElem?_eq_some_iff.1 hv).1
  | some m =>
    have hm := reduceMask_spec h
    have hm' : m = (List.range x.length).map (fun j => decide (b0 ≤ x.getD j 0 ∧ x.getD j 0 ≤ b1)) := by
      rw [hm]; conv_lhs => rw [self_map x]
      rw [List.map_map]; rfl
    have h1 : Py.select m (List.range x.length) =
        (List.range x.length).filter (fun j => decide (b0 ≤ x.getD j 0 ∧ x.getD j 0 ≤ b1)) := by
      have := Py.select_map (List.range x.length) (fun j => decide (b0 ≤ x.getD j 0 ∧ x.getD j 0 ≤ b1)) id
      rw [List.map_id, List.map_id] at this
      rw [hm', this]
    have h2 : Py.select m x =
        ((List.range x.length).filter (fun j => decide (b0 ≤ x.getD j 0 ∧ x.getD j 0 ≤ b1))).map (fun j => x.getD j 0) := by
      have := Py.select_map (List.range x.length) (fun j => decide (b0 ≤ x.getD j 0 ∧ x.getD j 0 ≤ b1)) (fun j => x.getD j 0)
      rw [← hm', ← self_map] at this
      exact this
    simp only [Option.getD_some]
    refine ⟨⟨?_, ?_, ?_, ?_⟩, by simp, ?_⟩
    · rw [h1]; exact List.nodup_range.filter _
    · intro j hj
      rw [h1, List.mem_filter] at hj
      simpa using hj.1
    · rw [h1, h2]
    · intro j v hv h0 hv1
      rw [h1, List.mem_filter]
      obtain ⟨hj, hjv⟩ := List.getElem?_eq_some_iff.1 hv
      refine ⟨List.mem_range.2 hj, ?_⟩
      rw [List.getD_eq_getElem?_getD, hv]
      simp [h0, hv1]
    · rintro t ⟨⟩ j hj
      rw [h1, List.mem_filter] at hj
      have hjl := List.mem_range.1 hj.1
      have := hj.2
      rw [List.getD_eq_getElem?_getD, List.getElem?_eq_getElem hjl] at this
      exact ⟨x[j], List.getElem_mem hjl, by simpa using this⟩

/-- **C31** (partial: some value between the bounds). On data which is not monotonous, `iter_on` yields exactly the bins,
whatever the other values are. Full statement: also without any value between the bounds, where the code raises, see
`nothing_between_raises`. -/
theorem iter_on_sorted_partial {argsort : List Int → List Nat} {unsigned : Bool} {x bins : List Rat}
    (harg : ∀ i, IsArgsort i (argsort i)) (hb : bins.Pairwise (· < ·)) (hb2 : 2 ≤ bins.length)
    (hx : decreases unsigned x = true)
    (hin : ∃ v ∈ x, ∀ lo hi, bins.head? = some lo → bins.getLast? = some hi → lo ≤ v ∧ v ≤ hi) :
    Correct x bins (iterOn argsort unsigned x bins) := by
  have hbne : bins ≠ [] := by rintro rfl; simp at hb2
  have hh := List.head?_eq_some_head hbne
  have hl := List.getLast?_eq_some_getLast hbne
  generalize bins.head hbne = b0 at hh
  generalize bins.getLast hbne = b1 at hl
  obtain ⟨v0, hv0, hv0'⟩ := hin
  obtain ⟨hv1, hv2⟩ := hv0' _ _ hh hl
  obtain ⟨hred, _, _⟩ := iterModeReduce_spec x b0 b1
  generalize htt : (iterModeReduce x b0 b1).1.getD (List.range x.length) = t at hred
  generalize hyy : (iterModeReduce x b0 b1).2 = y at hred
  generalize hii : (y.map (digitize bins)).map (· - 1) = i
  have hil : i.length = t.length := by rw [← hii, hred.val]; simp
  obtain ⟨hperm, hsort⟩ := harg i
  have hol : ∀ k ∈ argsort i, k < i.length := fun k hk => List.mem_range.1 (hperm.mem_iff.1 hk)
  have holen : (argsort i).length = i.length := by rw [hperm.length_eq, List.length_range]
  have hs := takeAt_spec (0 : Int) hol
  have ho' : takeAt t (argsort i) = some ((argsort i).map (fun k => t.getD k 0)) :=
    takeAt_spec 0 (fun k hk => by rw [← hil]; exact hol k hk)
  have htne : t ≠ [] := by
    obtain ⟨j, hj⟩ := List.mem_iff_getElem?.1 hv0
    intro h
    have := hred.cover j v0 hj hv1 hv2
    rw [h] at this; cases this
  have hsne : (argsort i).map (fun k => i.getD k 0) ≠ [] := by
    intro h
    have := congrArg List.length h
    simp only [List.length_map, holen, hil, List.length_nil] at this
    exact htne (List.eq_nil_of_length_eq_zero this)
  obtain ⟨r, hr, h1, _⟩ := runs_spec hsne hsort
  have hmatch : translate (iterModeReduce x b0 b1).1 (argsort i) = some ((argsort i).map (fun k => t.getD k 0)) := by
    unfold translate
    cases hc : (iterModeReduce x b0 b1).1 with
    | none =>
      rw [hc, Option.getD_none] at htt
      simp only
      congr 1
      rw [← htt]
      conv_lhs => rw [← List.map_id (argsort i)]
      apply List.map_congr_left
      intro k hk
      have := hol k hk
      rw [hil, ← htt, List.length_range] at this
      simp [List.getD_eq_getElem?_getD, List.getElem?_range this]
    | some t' =>
      rw [hc, Option.getD_some] at htt
      subst htt
      exact ho'
  have hit : iterSorted argsort x bins = some (slices r.1 r.2.1, i, argsort i, (argsort i).map (fun k => t.getD k 0)) := by
    unfold iterSorted
    rw [hh, hl]
    simp only [Option.bind_eq_bind, Option.bind_some]
    rw [hyy, numbaDigitize_eq hb2 hb, Option.map_some, Option.bind_some, hii, hmatch, Option.bind_some, hs,
      Option.bind_some, hr, Option.bind_some]
  unfold iterOn
  rw [hx]
  simp only [if_true, hit]
  refine core (arr := true) (order' := (argsort i).map (fun k => t.getD k 0)) hb hb2 (by simp) hsort hsne ?_ ?_ ?_ hr ?_
  · intro k j hk
    simp only [List.getElem?_map, Option.map_eq_some_iff] at hk ⊢
    obtain ⟨m, hm, hj⟩ := hk
    have hmt := hol m (List.mem_of_getElem? hm)
    have hmt' : m < t.length := by omega
    rw [List.getD_eq_getElem?_getD, List.getElem?_eq_getElem hmt', Option.getD_some] at hj
    have hjt : j ∈ t := by rw [← hj]; exact List.getElem_mem _
    have hjx := hred.lt j hjt
    refine ⟨x[j], List.getElem?_eq_getElem hjx, m, hm, ?_⟩
    rw [← hii, hred.val]
    simp [List.getD_eq_getElem?_getD, List.getElem?_eq_getElem hmt', hj, List.getElem?_eq_getElem hjx]
  · refine (List.nodup_map_iff_inj_on (hperm.nodup_iff.2 List.nodup_range)).2 ?_
    intro a ha b hb' hab
    have ha' := hol a ha
    have hb'' := hol b hb'
    rw [hil] at ha' hb''
    simp only [List.getD_eq_getElem?_getD, List.getElem?_eq_getElem ha', List.getElem?_eq_getElem hb'',
      Option.getD_some] at hab
    exact (List.Nodup.getElem_inj_iff hred.nodup).1 hab
  · intro j v lo hi k hv e0 e1 hlo hhi
    have hlob : b0 ≤ v := by
      rcases Nat.eq_zero_or_pos k with rfl | hk
      · rw [List.head?_eq_getElem?] at hh
        rw [hh] at e0; cases e0; exact hlo
      · rw [List.head?_eq_getElem?] at hh
        obtain ⟨c1, d1⟩ := List.getElem?_eq_some_iff.1 hh
        obtain ⟨c2, d2⟩ := List.getElem?_eq_some_iff.1 e0
        have := (List.pairwise_iff_getElem.1 hb) 0 k c1 c2 hk
        rw [d1, d2] at this; linarith
    have hhib : v ≤ b1 := by
      rw [List.getLast?_eq_getElem?] at hl
      obtain ⟨c1, d1⟩ := List.getElem?_eq_some_iff.1 hl
      obtain ⟨c2, d2⟩ := List.getElem?_eq_some_iff.1 e1
      rcases Nat.lt_or_ge (k + 1) (bins.length - 1) with hk | hk
      · have := (List.pairwise_iff_getElem.1 hb) (k + 1) (bins.length - 1) c2 c1 hk
        rw [d1, d2] at this; linarith
      · have : k + 1 = bins.length - 1 := by omega
        simp only [this] at d2
        rw [d1] at d2; rw [d2]; exact le_of_lt hhi
    have hjt := hred.cover j v hv hlob hhib
    obtain ⟨m, hm⟩ := List.mem_iff_getElem?.1 hjt
    have hml := (List.getElem?_eq_some_iff.1 hm).1
    rw [List.mem_map]
    refine ⟨m, hperm.mem_iff.2 (List.mem_range.2 (by omega)), ?_⟩
    rw [List.getD_eq_getElem?_getD, hm, Option.getD_some]
  · intro p hp b hbp
    simp only [List.getElem?_map, Option.map_eq_some_iff] at hbp
    obtain ⟨m, hm, hmb⟩ := hbp
    have hmt := hol m (List.mem_of_getElem? hm)
    rw [List.getD_eq_getElem?_getD, List.getElem?_eq_getElem hmt, Option.getD_some] at hmb
    unfold bodySorted
    simp only [Option.bind_eq_bind, hm, Option.bind_some, List.getElem?_eq_getElem hmt, hmb]

/-- **C31 refuted**: on data which is not monotonous and without any value between the bounds, `iter_on` raises (it takes the
minimum of an empty array) instead of yielding nothing. -/
theorem nothing_between_raises {argsort : List Int → List Nat} {unsigned : Bool} {x bins : List Rat} {b0 b1 : Rat}
    (harg : ∀ i, IsArgsort i (argsort i)) (hh : bins.head? = some b0) (hl : bins.getLast? = some b1)
    (hx : decreases unsigned x = true) (hin : ∀ v ∈ x, ¬ (b0 ≤ v ∧ v ≤ b1)) :
    iterOn argsort unsigned x bins = ⟨[], false⟩ := by
  obtain ⟨hred, h1, h2⟩ := iterModeReduce_spec x b0 b1
  cases hc : (iterModeReduce x b0 b1).1 with
  | none =>
    obtain ⟨v, hv, hb⟩ := h1 hc
    exact absurd hb (hin v hv)
  | some t =>
    have ht : t = [] := by
      cases t with
      | nil => rfl
      | cons j t =>
        obtain ⟨v, hv, hb⟩ := h2 _ hc j (by simp)
        exact absurd hb (hin v hv)
    subst ht
    rw [hc] at hred
    have hy : (iterModeReduce x b0 b1).2 = [] := by rw [hred.val]; rfl
    unfold iterOn
    rw [hx]
    have : iterSorted argsort x bins = none := by
      unfold iterSorted
      rw [hh, hl]
      simp only [Option.bind_eq_bind, Option.bind_some]
      rw [hy, hc]
      cases hn : numbaDigitize [] bins with
      | none => rfl
      | some i =>
        have hi : i = [] := by
          unfold numbaDigitize at hn
          split at hn
          · split at hn <;> · cases hn; rfl
          · cases hn
        subst hi
        have hp := (harg []).1
        have : argsort [] = [] := by simpa using hp
        simp only [Option.map_some, List.map_nil, Option.bind_some, this, translate, takeAt, List.mapM_nil]
        rfl
    simp [this]

/-! ### Default bounds -/

theorem foldl_min_le (l : List Rat) (x : Rat) : l.foldl min x ≤ x ∧ ∀ y ∈ l, l.foldl min x ≤ y := by
  induction l generalizing x with
  | nil => simp
  | cons a l ih =>
    obtain ⟨h1, h2⟩ := ih (min x a)
    refine ⟨le_trans h1 (min_le_left _ _), fun y hy => ?_⟩
    rcases List.mem_cons.1 hy with rfl | hy
    · exact le_trans h1 (min_le_right _ _)
    · exact h2 y hy

theorem le_foldl_max (l : List Rat) (x : Rat) : x ≤ l.foldl max x ∧ ∀ y ∈ l, y ≤ l.foldl max x := by
  induction l generalizing x with
  | nil => simp
  | cons a l ih =>
    obtain ⟨h1, h2⟩ := ih (max x a)
    refine ⟨le_trans (le_max_left _ _) h1, fun y hy => ?_⟩
    rcases List.mem_cons.1 hy with rfl | hy
    · exact le_trans (le_max_right _ _) h1
    · exact h2 y hy

theorem arange_sorted (a b : Rat) : (arange a b).Pairwise (· < ·) := by
  unfold arange
  rw [List.pairwise_map]
  refine List.pairwise_lt_range.imp ?_
  intro i j hij
  have : (i : Rat) < j := by exact_mod_cast hij
  linarith

theorem arange_spec {a b : Rat} (h : a + 2 ≤ b) : 2 ≤ (arange a b).length ∧ (arange a b).head? = some a ∧
    ∀ c, (arange a b).getLast? = some c → b - 1 ≤ c := by
  have h2 : (2 : Int) ≤ ⌈b - a⌉ := by
    have : (2 : Rat) ≤ b - a := by linarith
    have h1 : (2 : Rat) ≤ ⌈b - a⌉ := le_trans this (Int.le_ceil _)
    exact_mod_cast h1
  obtain ⟨n, hn⟩ : ∃ n, ⌈b - a⌉.toNat = n + 2 := ⟨⌈b - a⌉.toNat - 2, by omega⟩
  refine ⟨?_, ?_, ?_⟩
  · simp [arange, hn]
  · simp [arange, hn, List.head?_eq_getElem?]
  · intro c hc
    unfold arange at hc
    rw [hn, List.getLast?_eq_getElem?] at hc
    simp at hc
    have h3 : b - a ≤ ⌈b - a⌉ := Int.le_ceil _
    have h4 : ((⌈b - a⌉ : Int) : Rat) = (n : Rat) + 2 := by
      have : ⌈b - a⌉ = ((n + 2 : Nat) : Int) := by omega
      rw [this]; push_cast; ring
    rw [h4] at h3
    linarith

/-- **C31** for the default bounds (`bins=None`): for any data of signed or floating type, `iter_on` yields exactly the bins
`[m + k, m + k + 1[` where `m` is the minimum, and every observation is in a group. -/
theorem iter_on_default {argsort : List Int → List Nat} {x : List Rat} (harg : ∀ i, IsArgsort i (argsort i))
    (hne : x ≠ []) : ∃ bins, defaultBins x = some bins ∧ Correct x bins (iterOnDefault argsort false x) ∧
      ∀ j < x.length, ∃ g ∈ (iterOnDefault argsort false x).items, j ∈ g.obs := by
  cases x with
  | nil => exact absurd rfl hne
  | cons a l =>
    have hmin := foldl_min_le l a
    have hmax := le_foldl_max l a
    refine ⟨_, rfl, ?_⟩
    have hdef : iterOnDefault argsort false (a :: l) =
      iterOn argsort false (a :: l) (arange (l.foldl min a) (l.foldl max a + 2)) := rfl
    rw [hdef]
    have hsp := arange_spec (a := l.foldl min a) (b := l.foldl max a + 2) (by linarith [hmin.1, hmax.1])
    have hso := arange_sorted (l.foldl min a) (l.foldl max a + 2)
    have hin : ∀ v ∈ a :: l, ∀ lo hi, (arange (l.foldl min a) (l.foldl max a + 2)).head? = some lo →
        (arange (l.foldl min a) (l.foldl max a + 2)).getLast? = some hi → lo ≤ v ∧ v < hi := by
      intro v hv lo hi hlo hhi
      rw [hsp.2.1] at hlo
      cases hlo
      have h3 := hsp.2.2 hi hhi
      rcases List.mem_cons.1 hv with rfl | hv
      · exact ⟨hmin.1, by linarith [hmax.1]⟩
      · exact ⟨hmin.2 v hv, by linarith [hmax.2 v hv]⟩
    have hcor : Correct (a :: l) (arange (l.foldl min a) (l.foldl max a + 2))
        (iterOn argsort false (a :: l) (arange (l.foldl min a) (l.foldl max a + 2))) := by
      cases hd : decreases false (a :: l) with
      | false => exact iter_on_monotone_partial hso hsp.1 (by simp) (sorted_of_decreases hd) hin
      | true =>
        refine iter_on_sorted_partial harg hso hsp.1 hd ⟨a, by simp, fun lo hi h1 h2 => ?_⟩
        have := hin a (by simp) lo hi h1 h2
        exact ⟨this.1, le_of_lt this.2⟩
    refine ⟨hcor, ?_⟩
    intro j hj
    have hjv := List.getElem?_eq_getElem hj
    have hbne : arange (l.foldl min a) (l.foldl max a + 2) ≠ [] := by
      intro h; rw [h] at hsp; simp at hsp
    obtain ⟨h1, h2⟩ := hin _ (List.getElem_mem hj) _ _ (List.head?_eq_some_head hbne) (List.getLast?_eq_some_getLast hbne)
    obtain ⟨d1, d2, d3, d4⟩ := digit_range hso hbne (a :: l)[j]
    have e3 := mt d3.1 (by linarith)
    have e4 := mt d4.1 (by linarith)
    generalize hd : digitize (arange (l.foldl min a) (l.foldl max a + 2)) (a :: l)[j] - 1 = d at *
    have hdk : d = (d.toNat : Int) := by omega
    have b0 := List.getElem?_eq_getElem (show d.toNat < (arange (l.foldl min a) (l.foldl max a + 2)).length by omega)
    have b1 := List.getElem?_eq_getElem (show d.toNat + 1 < (arange (l.foldl min a) (l.foldl max a + 2)).length by omega)
    have hbin := (digit_spec hso (a :: l)[j] b0 b1).1 (by rw [hd]; exact hdk)
    have hInBin : InBin (a :: l) j _ _ := ⟨_, hjv, hbin⟩
    obtain ⟨g, hg, g1, g2⟩ := hcor.covered d.toNat _ _ j b0 b1 hInBin
    refine ⟨g, hg, (hcor.mem g hg j).2 ?_⟩
    rw [g1, g2]; exact hInBin

/-! ### Where the code disagrees -/

/-- A sort of positions which meets `IsArgsort` (used in the witnesses and examples only). -/
def stableArgsort (i : List Int) : List Nat := (List.range i.length).insertionSort (fun a b => i.getD a 0 ≤ i.getD b 0)

theorem stableArgsort_spec (i : List Int) : IsArgsort i (stableArgsort i) := by
  refine ⟨List.perm_insertionSort _ _, ?_⟩
  rw [List.pairwise_map]
  exact @List.pairwise_insertionSort _ (fun a b => i.getD a 0 ≤ i.getD b 0) _ ⟨fun a b => le_total _ _⟩
    ⟨fun a b c h1 h2 => le_trans h1 h2⟩ _

/-- **C31 refuted**: values below the first bound in increasing data are yielded, with the last and the first bound. -/
theorem monotone_below_wrong :
    iterOn stableArgsort false [0, 5, 6] [5, 6, 7] =
      ⟨[⟨[0], false, 7, 5⟩, ⟨[1], false, 5, 6⟩, ⟨[2], false, 6, 7⟩], true⟩ ∧
    ¬ Correct [0, 5, 6] [5, 6, 7] (iterOn stableArgsort false [0, 5, 6] [5, 6, 7]) := by
  have h : iterOn stableArgsort false [0, 5, 6] [5, 6, 7] =
      ⟨[⟨[0], false, 7, 5⟩, ⟨[1], false, 5, 6⟩, ⟨[2], false, 6, 7⟩], true⟩ := by decide +kernel
  refine ⟨h, fun hc => ?_⟩
  rw [h] at hc
  have := (hc.mem ⟨[0], false, 7, 5⟩ (by simp) 0).1 (by simp)
  obtain ⟨v, _, h1, h2⟩ := this
  simp only at h1 h2
  linarith

/-- **C31 refuted**: a value at or above the last bound in increasing data raises an `IndexError`, after the other groups. -/
theorem monotone_above_raises :
    iterOn stableArgsort false [5, 6, 9] [5, 6, 7] = ⟨[⟨[0], false, 5, 6⟩, ⟨[1], false, 6, 7⟩], false⟩ := by decide +kernel

/-- **C31 refuted**: unsigned data (track and segment numbers are `uint32`) which is not sorted is taken for monotonous data,
because the differences wrap around: observation 1, whose value is 0, is in the group of the bin `[1, 2[`. -/
theorem unsigned_unsorted_wrong :
    (iterOnDefault stableArgsort true [1, 0, 1]).items = [⟨[0, 1], false, 1, 2⟩, ⟨[2], false, 1, 2⟩] ∧
    ¬ InBin [1, 0, 1] 1 1 2 := by
  refine ⟨by decide +kernel, ?_⟩
  rintro ⟨v, hv, h1, h2⟩
  have : v = 0 := by simpa using hv.symm
  rw [this] at h1; linarith

/-! ### Examples which meet the hypotheses -/

example : iterOn stableArgsort false [7, 1, 5, 9, 6, 5] [5, 6, 7] =
    ⟨[⟨[2, 5], true, 5, 6⟩, ⟨[4], true, 6, 7⟩], true⟩ := by decide +kernel

example : iterOn stableArgsort false [7, 1, 5, 9, 20, -3, 5] [5, 6, 8] =
    ⟨[⟨[2, 6], true, 5, 6⟩, ⟨[0], true, 6, 8⟩], true⟩ := by decide +kernel

example : decreases false [7, 1, 5, 9, 6, 5] = true ∧ ([5, 6, 8] : List Rat).Pairwise (· < ·) := by decide +kernel

example : iterOnDefault stableArgsort false [3, 5/2, 7/2] =
    ⟨[⟨[0, 1], true, 5/2, 7/2⟩, ⟨[2], true, 7/2, 9/2⟩], true⟩ := by decide +kernel

end Verif.Bins
