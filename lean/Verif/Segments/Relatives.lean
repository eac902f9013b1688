import Verif.Segments.Props
import Mathlib.Tactic.IntervalCases

/-!
# `relatives` (C15)
-/

namespace Verif.Segments

/-- Inner function `loop` of `relatives`, network.py:643-651, called with `dist + r = order + 1`; the slice of a segment
holds one value, written `d seg`. -/
def relLoop (adj : Nat → List Nat) : Nat → Nat → (Nat → Nat) → Nat → (Nat → Nat)
  | 0, _, d, _ => d
  | r + 1, dist, d, s =>
    if dist < d s then (adj s).foldl (fun d x => relLoop adj r (dist + 1) d x) (Function.update d s dist) else d

/-- Mask of `relatives`, network.py:596-656; `zeros(…, uint16) - 1` is 65535. The rows given by `iter_on(segment)` are the
slices of `segment_track_array`, as in `connexions`. The order of the lists of links is any. -/
def relatives (adj : List (Nat × Nat) → Nat → List Nat) (obs : List Obs) (indices : List Int) (order : Nat) :
    Option (List Bool) := do
  let sta ← segTrackArray obs
  let E ← connexions sta obs
  let segs ← indices.mapM (fun i => Py.get sta i)
  let d := segs.foldl (relLoop (adj E) (order + 1) 0) (fun _ => 65535)
  some (sta.map (fun s => decide (d s ≤ order)))

/-! ### Specification -/

/-- A path from row `i` to row `j` which changes of segment `k` times, at the ends of segments. -/
inductive Path (obs : List Obs) (i : Nat) : Nat → Nat → Prop
  | nil : Path obs i i 0
  | stay {j j' k : Nat} : Path obs i j k → (j' = j + 1 ∨ j = j' + 1) →
      (∃ o o', obs[j]? = some o ∧ obs[j']? = some o' ∧ o.key = o'.key) → Path obs i j' k
  | change {j j' k : Nat} : Path obs i j k → (Event obs j j' ∨ Event obs j' j) → Path obs i j' (k + 1)

/-! ### Proof -/

variable {adj : Nat → List Nat}

/-- The arcs leaving `x` are relaxed, up to the order. -/
def RelaxedTo (adj : Nat → List Nat) (order : Nat) (d : Nat → Nat) (x : Nat) : Prop :=
  d x < order → ∀ y ∈ adj x, d y ≤ d x + 1

/-- What a call does. -/
structure Lowered (adj : Nat → List Nat) (P : Nat → Nat → Prop) (order v : Nat) (d d' : Nat → Nat) : Prop where
  mono : ∀ x, d' x ≤ d x
  level : ∀ x, d' x ≠ d x → v ≤ d' x ∧ d' x ≤ order
  relax : ∀ x, d' x ≠ d x → RelaxedTo adj order d' x
  src : ∀ x, d' x ≠ d x → P x (d' x)

theorem Lowered.refl (P : Nat → Nat → Prop) (order v : Nat) (d : Nat → Nat) : Lowered adj P order v d d :=
  ⟨fun _ => le_refl _, fun _ h => absurd rfl h, fun _ h => absurd rfl h, fun _ h => absurd rfl h⟩

theorem Lowered.trans {P : Nat → Nat → Prop} {order v : Nat} {d d' d'' : Nat → Nat} (h : Lowered adj P order v d d')
    (h' : Lowered adj P order v d' d'') : Lowered adj P order v d d'' := by
  refine ⟨fun x => le_trans (h'.mono x) (h.mono x), ?_, ?_, ?_⟩
  · intro x hx
    by_cases hc : d'' x = d' x
    · rw [hc] at hx ⊢; exact h.level x hx
    · exact h'.level x hc
  · intro x hx
    by_cases hc : d'' x = d' x
    · intro hlt y hy
      rw [hc] at hx hlt ⊢
      exact le_trans (h'.mono y) (h.relax x hx hlt y hy)
    · exact h'.relax x hc
  · intro x hx
    by_cases hc : d'' x = d' x
    · rw [hc] at hx ⊢; exact h.src x hx
    · exact h'.src x hc

theorem foldl_lowered {P : Nat → Nat → Prop} {order v : Nat} (f : (Nat → Nat) → Nat → (Nat → Nat)) (l : List Nat)
    (bound : Nat) (hf : ∀ x ∈ l, ∀ d, Lowered adj P order v d (f d x) ∧ f d x x ≤ bound) :
    ∀ d, Lowered adj P order v d (l.foldl f d) ∧ ∀ x ∈ l, l.foldl f d x ≤ bound := by
  induction l with
  | nil => intro d; exact ⟨Lowered.refl _ _ _ _, fun x hx => by cases hx⟩
  | cons a l ih =>
    intro d
    obtain ⟨h1, h2⟩ := hf a List.mem_cons_self d
    obtain ⟨h3, h4⟩ := ih (fun x hx => hf x (List.mem_cons_of_mem _ hx)) (f d a)
    refine ⟨h1.trans h3, fun x hx => ?_⟩
    rcases List.mem_cons.1 hx with rfl | hx
    · exact le_trans (h3.mono x) h2
    · exact h4 x hx

theorem relLoop_spec (P : Nat → Nat → Prop) (hP : ∀ x k, P x k → ∀ y ∈ adj x, P y (k + 1)) (order r : Nat) :
    ∀ (v : Nat) (d : Nat → Nat) (s : Nat), v + r = order + 1 → P s v →
      Lowered adj P order v d (relLoop adj r v d s) ∧ (0 < r → relLoop adj r v d s s ≤ v) := by
  induction r with
  | zero => intro v d s _ _; exact ⟨Lowered.refl _ _ _ _, fun h => absurd h (lt_irrefl _)⟩
  | succ r ih =>
    intro v d s hv hs
    rw [relLoop]
    split
    · rename_i hlt
      have hsons : ∀ x ∈ adj s, ∀ d, Lowered adj P order (v + 1) d (relLoop adj r (v + 1) d x) ∧
          relLoop adj r (v + 1) d x x ≤ max (v + 1) (if 0 < r then 0 else d x) := by
        intro x hx d
        obtain ⟨h1, h2⟩ := ih (v + 1) d x (by omega) (hP s v hs x hx)
        refine ⟨h1, ?_⟩
        by_cases hr : 0 < r
        · exact le_trans (h2 hr) (le_max_left _ _)
        · rw [if_neg hr]; exact le_trans (h1.mono x) (le_max_right _ _)
      have hfold : Lowered adj P order (v + 1) (Function.update d s v)
            ((adj s).foldl (fun d x => relLoop adj r (v + 1) d x) (Function.update d s v)) ∧
          (0 < r → ∀ x ∈ adj s, (adj s).foldl (fun d x => relLoop adj r (v + 1) d x) (Function.update d s v) x ≤ v + 1) := by
        by_cases hr : 0 < r
        · have := foldl_lowered (adj := adj) (P := P) (order := order) (v := v + 1) (fun d x => relLoop adj r (v + 1) d x)
            (adj s) (v + 1) (fun x hx d => by
              obtain ⟨h1, h2⟩ := hsons x hx d
              rw [if_pos hr] at h2
              exact ⟨h1, by simpa using h2⟩) (Function.update d s v)
          exact ⟨this.1, fun _ => this.2⟩
        · have hr0 : r = 0 := by omega
          subst hr0
          refine ⟨?_, fun h => absurd h hr⟩
          have : ∀ (l : List Nat) (d : Nat → Nat), l.foldl (fun d x => relLoop adj 0 (v + 1) d x) d = d := by
            intro l
            induction l with
            | nil => intro d; rfl
            | cons a l ihl => intro d; exact ihl d
          rw [this]
          exact Lowered.refl _ _ _ _
      obtain ⟨f1, f2⟩ := hfold
      generalize (adj s).foldl (fun d x => relLoop adj r (v + 1) d x) (Function.update d s v) = D at *
      have hDs : D s = v := by
        by_contra hc
        have h1 := f1.level s (by rw [Function.update_self]; exact hc)
        have h2 := f1.mono s
        rw [Function.update_self] at h2
        omega
      refine ⟨⟨?_, ?_, ?_, ?_⟩, fun _ => le_of_eq hDs⟩
      · intro x
        have := f1.mono x
        by_cases hx : x = s
        · subst hx; omega
        · rw [Function.update_of_ne hx] at this; exact this
      · intro x hx
        by_cases hxs : x = s
        · subst hxs; omega
        · have := f1.level x (by rw [Function.update_of_ne hxs]; exact hx)
          omega
      · intro x hx
        by_cases hxs : x = s
        · subst hxs
          intro hlt' y hy
          rw [hDs] at hlt' ⊢
          exact f2 (by omega) y hy
        · exact f1.relax x (by rw [Function.update_of_ne hxs]; exact hx)
      · intro x hx
        by_cases hxs : x = s
        · subst hxs; rw [hDs]; exact hs
        · exact f1.src x (by rw [Function.update_of_ne hxs]; exact hx)
    · rename_i hlt
      exact ⟨Lowered.refl _ _ _ _, fun _ => by omega⟩

/-- Values below the order are reached exactly by short walks. -/
theorem relLoop_walk (segs : List Nat) (order : Nat) (ho : order < 65535) (x : Nat) :
    segs.foldl (relLoop adj (order + 1) 0) (fun _ => 65535) x ≤ order ↔ ∃ s ∈ segs, ∃ k, k ≤ order ∧ Walk adj s x k := by
  have hP : ∀ x k, (∃ s ∈ segs, Walk adj s x k) → ∀ y ∈ adj x, ∃ s ∈ segs, Walk adj s y (k + 1) := by
    rintro x k ⟨s, hs, hw⟩ y hy
    exact ⟨s, hs, Walk.step hw hy⟩
  obtain ⟨h1, h2⟩ := foldl_lowered (adj := adj) (P := fun x k => ∃ s ∈ segs, Walk adj s x k) (order := order) (v := 0)
    (relLoop adj (order + 1) 0) segs 0 (fun s hs d => by
      obtain ⟨a, b⟩ := relLoop_spec _ hP order (order + 1) 0 d s (by omega) ⟨s, hs, Walk.nil s⟩
      exact ⟨a, b (by omega)⟩) (fun _ => 65535)
  generalize segs.foldl (relLoop adj (order + 1) 0) (fun _ => 65535) = D at *
  constructor
  · intro h
    obtain ⟨s, hs, hw⟩ := h1.src x (by omega)
    exact ⟨s, hs, D x, h, hw⟩
  · rintro ⟨s, hs, k, hk, hw⟩
    have : D x ≤ k := by
      induction hw with
      | nil => exact h2 _ hs
      | step _ hy ih =>
        rename_i t u k _
        have hD := ih (by omega)
        have := h1.relax t (by omega) (by omega) u hy
        omega
    omega

theorem path_of_same {obs : List Obs} {sta : List Nat} (h : IsNumbering obs sta) {i p k : Nat} (hp : Path obs i p k) (d a : Nat) :
    (∀ q, q = p + d → sta[p]? = some a → sta[q]? = some a → Path obs i q k) ∧
    (∀ q, p = q + d → sta[p]? = some a → sta[q]? = some a → Path obs i q k) := by
  have hstep : ∀ m : Nat, sta[m]? = some a → sta[m + 1]? = some a →
      ∃ o o', obs[m]? = some o ∧ obs[m + 1]? = some o' ∧ o.key = o'.key := by
    intro m e1 e2
    have hl : m + 1 < obs.length := by rw [← h.len]; exact (List.getElem?_eq_some_iff.1 e2).1
    have e3 := List.getElem?_eq_getElem (l := obs) (i := m) (by omega)
    have e4 := List.getElem?_eq_getElem hl
    exact ⟨_, _, e3, e4, ((h.same_iff _ _ _ _ e1 e3 e4).1 e2).symm⟩
  have hmid : ∀ lo hi m : Nat, lo ≤ m → m ≤ hi → sta[lo]? = some a → sta[hi]? = some a → sta[m]? = some a := by
    intro lo hi m h1 h2 e1 e2
    have hlt : hi < sta.length := (List.getElem?_eq_some_iff.1 e2).1
    have e := List.getElem?_eq_getElem (l := sta) (i := m) (by omega)
    have h3 := h.mono lo m _ _ h1 e1 e
    have h4 := h.mono m hi _ _ h2 e e2
    rw [e]; congr 1; omega
  constructor
  · induction d with
    | zero => rintro q rfl _ _; exact hp
    | succ d ih =>
      rintro q rfl e1 e2
      have e3 := hmid p (p + (d + 1)) (p + d) (by omega) (by omega) e1 e2
      exact Path.stay (ih (p + d) rfl e1 e3) (Or.inl rfl) (hstep _ e3 e2)
  · induction d with
    | zero => rintro q rfl _ _; exact hp
    | succ d ih =>
      rintro q rfl e1 e2
      have e3 := hmid q (q + (d + 1)) (q + 1) (by omega) (by omega) e2 e1
      obtain ⟨o, o', h1, h2, h3⟩ := hstep q e2 e3
      exact Path.stay (ih (q + 1) (by omega) e1 e3) (Or.inr rfl) ⟨o', o, h2, h1, h3.symm⟩

theorem walk_iff_path {adj : List (Nat × Nat) → Nat → List Nat} (ha : Enumerates adj) {obs : List Obs} {sta : List Nat}
    (h : IsNumbering obs sta) (hv : Valid obs) (E : List (Nat × Nat))
    (hE : ∀ a b, (a, b) ∈ E ↔ ∃ i j : Nat, Event obs i j ∧ sta[j]? = some a ∧ sta[i]? = some b)
    (i j a b k : Nat) (hi : sta[i]? = some a) (hj : sta[j]? = some b) : Walk (adj E) a b k ↔ Path obs i j k := by
  have hevent : ∀ p q, Event obs p q → p < obs.length ∧ q < obs.length := by
    intro p q hev
    rcases hev with ⟨_, o, ho, e⟩ | ⟨_, o, ho, e⟩
    · have := (hv o (List.mem_of_getElem? ho)).1
      exact ⟨(List.getElem?_eq_some_iff.1 ho).1, by omega⟩
    · have := (hv o (List.mem_of_getElem? ho)).2
      exact ⟨(List.getElem?_eq_some_iff.1 ho).1, by omega⟩
  have hsame : ∀ {p q k a}, Path obs i p k → sta[p]? = some a → sta[q]? = some a → Path obs i q k := by
    intro p q k a hp e1 e2
    rcases Nat.le_total p q with hle | hle
    · exact (path_of_same h hp (q - p) a).1 q (by omega) e1 e2
    · exact (path_of_same h hp (p - q) a).2 q (by omega) e1 e2
  constructor
  · intro hw
    induction hw generalizing j with
    | nil => exact hsame Path.nil hi hj
    | step _ hy ih =>
      rcases (ha E _ _).1 hy with hm | hm
      · obtain ⟨p, q, hev, hq, hp⟩ := (hE _ _).1 hm
        exact hsame (Path.change (ih q hq) (Or.inr hev)) hp hj
      · obtain ⟨p, q, hev, hq, hp⟩ := (hE _ _).1 hm
        exact hsame (Path.change (ih p hp) (Or.inl hev)) hq hj
  · intro hp
    induction hp generalizing b with
    | nil => rw [hi] at hj; cases hj; exact Walk.nil _
    | stay _ hd hk ih =>
      obtain ⟨o, o', ho, ho', hk⟩ := hk
      refine ih b ?_
      rcases hd with rfl | rfl
      · have hlt := (List.getElem?_eq_some_iff.1 ho).1
        rw [← h.len] at hlt
        have e := List.getElem?_eq_getElem hlt
        rw [(h.same_iff _ _ o o' e ho ho').2 hk.symm] at hj
        rw [e]; exact hj
      · exact (h.same_iff _ _ o' o hj ho' ho).2 hk
    | change _ hev ih =>
      rename_i p q k _
      have hpl : p < sta.length := by
        rw [h.len]
        rcases hev with hev | hev
        · exact (hevent _ _ hev).1
        · exact (hevent _ _ hev).2
      have e := List.getElem?_eq_getElem hpl
      refine Walk.step (ih _ e) ((ha E _ _).2 ?_)
      rcases hev with hev | hev
      · exact Or.inr ((hE _ _).2 ⟨p, q, hev, hj, e⟩)
      · exact Or.inl ((hE _ _).2 ⟨q, p, hev, e, hj⟩)

/-- C15: `relatives(indices, order)` selects exactly the observations related to one of the given ones by a path which
changes of segment at most `order` times. -/
theorem relatives_spec (adj : List (Nat × Nat) → Nat → List Nat) (ha : Enumerates adj) (obs : List Obs) (hv : Valid obs)
    (hne : obs ≠ []) (indices : List Nat) (hi : ∀ i ∈ indices, i < obs.length) (order : Nat) (ho : order < 65535) :
    ∃ out, relatives adj obs (indices.map (fun (i : Nat) => (i : Int))) order = some out ∧ out.length = obs.length ∧
      ∀ j : Nat, out[j]? = some true ↔ j < obs.length ∧ ∃ i ∈ indices, ∃ k, k ≤ order ∧ Path obs i j k := by
  obtain ⟨sta, hsta, hnum⟩ := segTrackArray_spec obs hne
  obtain ⟨E, hE, hmem⟩ := connexions_spec sta obs hne hv hnum.len
  have hsegs : (indices.map (fun (i : Nat) => (i : Int))).mapM (fun i => Py.get sta i) =
      some (indices.map (fun i => sta.getD i 0)) := by
    clear hE hmem
    induction indices with
    | nil => rfl
    | cons i l ih =>
      have hlt : i < sta.length := by rw [hnum.len]; exact hi i List.mem_cons_self
      rw [List.map_cons, List.mapM_cons, ih (fun j hj => hi j (List.mem_cons_of_mem _ hj)), Py.get_natCast]
      simp [List.getD, List.getElem?_eq_getElem hlt]
  refine ⟨_, by
    unfold relatives
    simp only [Option.bind_eq_bind]
    rw [hsta, Option.bind_some, hE, Option.bind_some, hsegs, Option.bind_some], by rw [List.length_map, hnum.len], ?_⟩
  intro j
  rw [List.getElem?_map]
  by_cases hj : j < obs.length
  · have hjs : j < sta.length := by rw [hnum.len]; exact hj
    have ej := List.getElem?_eq_getElem hjs
    rw [ej, Option.map_some, Option.some.injEq, decide_eq_true_eq, relLoop_walk _ _ ho]
    constructor
    · rintro ⟨s, hs, k, hk, hw⟩
      obtain ⟨i, hi', rfl⟩ := List.mem_map.1 hs
      have hlt : i < sta.length := by rw [hnum.len]; exact hi i hi'
      have e : sta[i]? = some (sta.getD i 0) := by rw [List.getD, List.getElem?_eq_getElem hlt]; rfl
      exact ⟨hj, i, hi', k, hk, (walk_iff_path ha hnum hv E hmem i j _ _ k e ej).1 hw⟩
    · rintro ⟨_, i, hi', k, hk, hp⟩
      have hlt : i < sta.length := by rw [hnum.len]; exact hi i hi'
      have e : sta[i]? = some (sta.getD i 0) := by rw [List.getD, List.getElem?_eq_getElem hlt]; rfl
      exact ⟨_, List.mem_map.2 ⟨i, hi', rfl⟩, k, hk, (walk_iff_path ha hnum hv E hmem i j _ _ k e ej).2 hp⟩
  · rw [List.getElem?_eq_none (by rw [hnum.len]; omega)]
    constructor
    · intro h; cases h
    · rintro ⟨h, _⟩; exact absurd h hj

example : relatives adjOf exObs [0] 0 = some [true, true, false, false, false, false, false] := by decide
example : relatives adjOf exObs [0, 5] 1 = some [true, true, true, true, true, true, true] := by decide

/-- Beyond the range of `uint16`, everything is selected. -/
theorem relatives_large_order_wrong : relatives adjOf exObs [0] 65535 = some (List.replicate 7 true) ∧
    ∀ k, ¬ Path exObs 0 4 k := by
  refine ⟨by
    have h : ∀ (s : Nat), (relLoop (adjOf [(0, 1), (2, 3)]) 65536 0 (fun _ => 65535) 0) s ≤ 65535 := by
      intro s
      obtain ⟨h1, _⟩ := relLoop_spec (adj := adjOf [(0, 1), (2, 3)]) (fun _ _ => True) (fun _ _ _ _ _ => trivial) 65535 65536 0
        (fun _ => 65535) 0 (by omega) trivial
      exact h1.mono s
    have hE : connexions [0, 0, 1, 1, 2, 2, 3] exObs = some [(0, 1), (2, 3)] := by decide
    have hs : segTrackArray exObs = some [0, 0, 1, 1, 2, 2, 3] := by decide
    unfold relatives
    simp only [Option.bind_eq_bind]
    rw [hs, Option.bind_some, hE, Option.bind_some,
      show ([0] : List Int).mapM (fun i => Py.get [0, 0, 1, 1, 2, 2, 3] i) = some [0] by decide, Option.bind_some]
    simp [h], ?_⟩
  intro k hp
  have : ∀ j k, Path exObs 0 j k → j < 4 := by
    intro j k hp
    have hget : ∀ (m : Nat) o, exObs[m]? = some o → m < 7 := by
      intro m o h; exact (List.getElem?_eq_some_iff.1 h).1
    induction hp with
    | nil => omega
    | stay _ hd hk ih =>
      rename_i j j' k _
      obtain ⟨o, o', h1, h2, h3⟩ := hk
      by_contra hc
      have hj' : j' = 4 ∧ j = 3 := by omega
      obtain ⟨rfl, rfl⟩ := hj'
      have e1 : exObs[3]? = some ⟨1, 2, 2, -1⟩ := rfl
      have e2 : exObs[4]? = some ⟨1, 3, -1, 5⟩ := rfl
      rw [e1] at h1; rw [e2] at h2
      cases h1; cases h2
      revert h3; decide
    | change _ hev ih =>
      rename_i j j' k _
      have hev' : ∀ p q, Event exObs p q → (p < 4 ↔ q < 4) := by
        intro p q h
        rcases h with ⟨hf, o, ho, e⟩ | ⟨hl, o, ho, e⟩
        · have hp := hget _ _ ho
          interval_cases p <;> (cases ho; simp only at e; omega)
        · have hp := hget _ _ ho
          interval_cases p <;> (cases ho; simp only at e; omega)
      rcases hev with h | h
      · exact (hev' _ _ h).1 ih
      · exact (hev' _ _ h).2 ih
  have := this 4 k hp
  omega

end Verif.Segments
