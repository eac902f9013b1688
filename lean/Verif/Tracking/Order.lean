import Verif.Tracking.Props
import Mathlib.Logic.Equiv.Basic

/-!
# C216: the tracks do not depend on the order of the rows of the files

Model of `Verif.Tracking.Model` (src/py_eddy_tracker/tracking.py:170-403): the rows of each file are given in another order.
-/

namespace Verif.Tracking.Order

variable {α δ : Type}

/-! ### Specification -/

/-- The row `i` of `p` is the row `σ i` of `p'`. -/
structure Moved (σ : Nat → Nat) (p p' : List α) : Prop where
  len : p'.length = p.length
  get : ∀ i, p'[σ i]? = p[i]?
  inj : Function.Injective σ

/-- For these two lists the tracker gives the same links whatever the order of the rows. -/
def OrderFree (tracking : List α → List α → List (Nat × Nat × Rat)) (p c : List α) : Prop :=
  ∀ (p' c' : List α) (σ τ : Nat → Nat), Moved σ p p' → Moved τ c c' →
    (tracking p' c').Perm ((tracking p c).map (fun m => (σ m.1, τ m.2.1, m.2.2)))

/-- Links in the range of the rows, with at most one link for each row. -/
def OneAt (links : List (Nat × Nat × Rat)) (p c : List α) : Prop :=
  (links.map (·.1)).Nodup ∧ (links.map (·.2.1)).Nodup ∧ ∀ m ∈ links, m.1 < p.length ∧ m.2.1 < c.length

/-- At each date of the run, for the rows of the file and of the lost observations, the tracker is one-to-one and does not depend on the order of the rows. -/
def OrderRun (cfg : Cfg α δ) : St α δ → List (List α) → Prop
  | _, [] => True
  | s, f :: fs => (∀ u p, mergeVirtual (swap s f) = some u → u.previous = some p → OneAt (cfg.tracking p f) p f ∧ OrderFree cfg.tracking p f) ∧
      ∀ s', step cfg s f = some s' → OrderRun cfg s' fs

/-- A link with its rows and its number of track in the other run. -/
def relab (ρ σ τ : Nat → Nat) (l : Link) : Link := ⟨σ l.inp, τ l.out, ρ l.id, l.cost, l.virt, l.vlen⟩

/-- What a user sees of a link of the table `k`: the observation it comes from (not for a link from a lost observation), the one it goes to, and its fields. -/
def seen (files : List (List α)) (k : Nat) (l : Link) : Option α × Option α × Rat × Bool × Nat :=
  (if l.virt then none else (files[k]?).bind (fun f => f[l.inp]?), (files[k + 1]?).bind (fun f => f[l.out]?), l.cost, l.virt, l.vlen)

/-- The tables of the two runs have the same links, in tracks with other numbers. -/
def SameTables (ρ : Nat → Nat) (files files' : List (List α)) (h h' : List (List Link)) : Prop :=
  h'.length = h.length ∧ ∀ (k : Nat) c d, h.reverse[k]? = some c → h'.reverse[k]? = some d →
    (d.map (fun l => (l.id, seen files' k l))).Perm (c.map (fun l => (ρ l.id, seen files k l)))

/-! ### Lists -/

theorem perm_moved {p p' : List α} (h : p.Perm p') : ∃ σ, Moved σ p p' := by
  suffices ∃ σ : Nat → Nat, (∀ i, p'[σ i]? = p[i]?) ∧ Function.Injective σ by
    obtain ⟨σ, h1, h2⟩ := this
    exact ⟨σ, h.length_eq.symm, h1, h2⟩
  induction h with
  | nil => exact ⟨id, fun _ => rfl, Function.injective_id⟩
  | cons x _ ih =>
    obtain ⟨σ, h1, h2⟩ := ih
    refine ⟨fun i => match i with | 0 => 0 | k + 1 => σ k + 1, fun i => ?_, fun i j hij => ?_⟩
    · cases i with
      | zero => rfl
      | succ k => simpa using h1 k
    · cases i <;> cases j <;> simp_all
      exact h2 hij
  | swap x y l =>
    refine ⟨Equiv.swap 0 1, fun i => ?_, (Equiv.swap 0 1).injective⟩
    match i with
    | 0 => simp
    | 1 => simp
    | k + 2 => rw [Equiv.swap_apply_of_ne_of_ne (by omega) (by omega)]; rfl
  | trans _ _ ih1 ih2 =>
    obtain ⟨σ, h1, h2⟩ := ih1
    obtain ⟨τ, h3, h4⟩ := ih2
    exact ⟨τ ∘ σ, fun i => by rw [Function.comp, h3, h1], h4.comp h2⟩

theorem Moved.lt {σ : Nat → Nat} {p p' : List α} (h : Moved σ p p') (i : Nat) : σ i < p.length ↔ i < p.length := by
  have e := h.get i
  constructor
  · intro hi
    by_contra hn
    rw [List.getElem?_eq_none (not_lt.1 hn), List.getElem?_eq_none_iff, h.len] at e
    omega
  · intro hi
    by_contra hn
    rw [List.getElem?_eq_getElem hi, List.getElem?_eq_none (by rw [h.len]; exact not_lt.1 hn)] at e
    cases e

theorem Moved.map {β : Type} {σ : Nat → Nat} {p p' : List α} (h : Moved σ p p') (g : α → β) : Moved σ (p.map g) (p'.map g) :=
  ⟨by simp [h.len], fun i => by rw [List.getElem?_map, List.getElem?_map, h.get], h.inj⟩

/-- Rows of a list followed by another one. -/
def glue (n : Nat) (σ τ : Nat → Nat) (i : Nat) : Nat := if i < n then σ i else n + τ (i - n)

theorem moved_append {σ τ : Nat → Nat} {a a' b b' : List α} (h1 : Moved σ a a') (h2 : Moved τ b b') :
    Moved (glue a.length σ τ) (a ++ b) (a' ++ b') := by
  refine ⟨by simp [h1.len, h2.len], fun i => ?_, fun i j hij => ?_⟩
  · unfold glue
    split
    · next hi =>
      rw [List.getElem?_append_left (by rw [h1.len]; exact (h1.lt i).2 hi), List.getElem?_append_left hi, h1.get]
    · next hi =>
      rw [List.getElem?_append_right (by rw [h1.len]; omega), List.getElem?_append_right (by omega), h1.len, Nat.add_sub_cancel_left, h2.get]
  · unfold glue at hij
    have k1 := h1.lt i
    have k2 := h1.lt j
    split at hij <;> split at hij
    · exact h1.inj hij
    · omega
    · omega
    · have := h2.inj (show τ (i - a.length) = τ (j - a.length) by omega)
      omega

theorem mapM_map_eq {β γ β' γ' : Type} {f : β → Option γ} {f' : β' → Option γ'} {g : β → β'} {k : γ → γ'} :
    ∀ {l : List β} {r : List γ}, (∀ x ∈ l, f' (g x) = (f x).map k) → l.mapM f = some r → (l.map g).mapM f' = some (r.map k)
  | [], r, _, h => by
    rw [List.mapM_nil] at h
    obtain rfl := Option.some.inj h
    rfl
  | x :: l, r, hx, h => by
    rw [List.mapM_cons] at h
    cases e : f x with
    | none => rw [e] at h; cases h
    | some y =>
      rw [e] at h
      cases e2 : l.mapM f with
      | none => rw [e2] at h; cases h
      | some ys =>
        rw [e2] at h
        obtain rfl := Option.some.inj h
        have ih := mapM_map_eq (fun z hz => hx z (List.mem_cons_of_mem _ hz)) e2
        rw [List.map_cons, List.mapM_cons, hx x List.mem_cons_self, e, ih]
        rfl

theorem mapM_perm {β γ : Type} {f : β → Option γ} {l l' : List β} (h : l.Perm l') : ∀ {r : List γ}, l.mapM f = some r →
    ∃ r', l'.mapM f = some r' ∧ r.Perm r' := by
  induction h with
  | nil => exact fun hr => ⟨_, hr, .refl _⟩
  | cons x _ ih =>
    intro r hr
    rw [List.mapM_cons] at hr
    cases e : f x with
    | none => rw [e] at hr; cases hr
    | some y =>
      rw [e] at hr
      rename_i l1 l2 _
      cases e2 : l1.mapM f with
      | none => rw [e2] at hr; cases hr
      | some ys =>
        rw [e2] at hr
        obtain rfl := Option.some.inj hr
        obtain ⟨r', h1, h2⟩ := ih e2
        exact ⟨y :: r', by rw [List.mapM_cons, e, h1]; rfl, h2.cons y⟩
  | swap x y l =>
    intro r hr
    rw [List.mapM_cons, List.mapM_cons] at hr
    cases e : f y with
    | none => rw [e] at hr; cases hr
    | some a =>
      cases e1 : f x with
      | none => rw [e, e1] at hr; cases hr
      | some b =>
        cases e2 : l.mapM f with
        | none => rw [e, e1, e2] at hr; cases hr
        | some ys =>
          rw [e, e1, e2] at hr
          obtain rfl := Option.some.inj hr
          exact ⟨b :: a :: ys, by rw [List.mapM_cons, List.mapM_cons, e, e1, e2]; rfl, .swap ..⟩
  | trans _ _ ih1 ih2 =>
    intro r hr
    obtain ⟨r1, h1, h2⟩ := ih1 hr
    obtain ⟨r2, h3, h4⟩ := ih2 h1
    exact ⟨r2, h3, h2.trans h4⟩

/-! ### New numbers -/

/-- A row without number yet, in the other run. -/
def prelab (ρ σ τ : Nat → Nat) (l : PreLink) : PreLink := ⟨σ l.inp, τ l.out, l.id.map ρ, l.cost, l.virt, l.vlen⟩

theorem fill_relab {ρ : Nat → Nat} (σ τ : Nat → Nat) : ∀ {cid : Nat} (pre : List PreLink), (∀ i, cid ≤ i → ρ i = i) →
    fillNew cid (pre.map (prelab ρ σ τ)) = (fillNew cid pre).map (relab ρ σ τ)
  | _, [], _ => rfl
  | cid, ⟨a, b, some i, x, y, z⟩ :: pre, h => by
    have ih := fill_relab σ τ pre h
    simp only [List.map_cons, prelab, Option.map_some, fillNew] at ih ⊢
    rw [ih]
    rfl
  | cid, ⟨a, b, none, x, y, z⟩ :: pre, h => by
    have ih := fill_relab σ τ pre (cid := cid + 1) (fun i hi => h i (by omega))
    simp only [List.map_cons, prelab, Option.map_none, fillNew] at ih ⊢
    rw [ih]
    simp only [LinkOf.setId, relab, h cid (le_refl _)]

/-- Another numbering. -/
def renum (π : Nat → Nat) (l : Link) : Link := ⟨l.inp, l.out, π l.id, l.cost, l.virt, l.vlen⟩

theorem renum_relab (π ρ σ τ : Nat → Nat) (l : Link) : renum π (relab ρ σ τ l) = relab (π ∘ ρ) σ τ l := rfl

theorem renum_id (l : Link) : renum id l = l := rfl

theorem nbNew_perm {pre pre' : List PreLink} (h : pre.Perm pre') : nbNew pre' = nbNew pre := (h.countP_eq _).symm

theorem fill_ids {cid : Nat} {pre : List PreLink} (hp : ∀ r ∈ pre, ∀ i, r.id = some i → i < cid) : ∀ l ∈ fillNew cid pre, l.id < cid + nbNew pre := by
  intro l hl
  obtain ⟨p, hp1, e, h'⟩ := mem_fillNew hl
  rcases h' with h' | ⟨_, _, h'⟩
  · have := hp p hp1 _ h'
    omega
  · exact h'

theorem fill_high {k : Nat} : ∀ {cid : Nat} (pre : List PreLink), k ≤ cid → (∀ r ∈ pre, ∀ i, r.id = some i → i < k) →
    ∀ l ∈ fillNew cid pre, l.id < k ∨ cid ≤ l.id := by
  intro cid pre hk hp l hl
  obtain ⟨p, hp1, e, h'⟩ := mem_fillNew hl
  rcases h' with h' | ⟨_, h1, _⟩
  · exact Or.inl (hp p hp1 _ h')
  · exact Or.inr h1

/-- The numbers of the new tracks of a table given in another order. -/
theorem fill_perm {k : Nat} {pre pre' : List PreLink} (h : pre.Perm pre') : ∀ {cid : Nat}, k ≤ cid → (∀ r ∈ pre, ∀ i, r.id = some i → i < k) →
    ∃ π : Nat → Nat, Function.Injective π ∧ (∀ i, i < cid → π i = i) ∧ (∀ i, cid + nbNew pre ≤ i → π i = i) ∧
      (fillNew cid pre').Perm ((fillNew cid pre).map (renum π)) := by
  have hid : ∀ l : List Link, l.map (renum id) = l := fun l => by
    rw [show (renum id) = id from funext renum_id, List.map_id]
  have hcongr : ∀ {π : Nat → Nat} {l : List Link}, (∀ x ∈ l, π x.id = x.id) → l.map (renum π) = l := by
    intro π l hl
    conv_rhs => rw [← List.map_id l]
    refine List.map_congr_left (fun x hx => ?_)
    show renum π x = x
    unfold renum
    rw [hl x hx]
  induction h with
  | nil => exact fun _ _ => ⟨id, Function.injective_id, fun _ _ => rfl, fun _ _ => rfl, .refl _⟩
  | cons x _ ih =>
    intro cid hk hp
    rcases x with ⟨a, b, i, x, y, z⟩
    cases i with
    | some i =>
      obtain ⟨π, h1, h2, h3, h4⟩ := ih hk (fun r hr => hp r (List.mem_cons_of_mem _ hr))
      have hi := hp _ List.mem_cons_self i rfl
      refine ⟨π, h1, h2, fun j hj => h3 j (by simpa [nbNew] using hj), ?_⟩
      simp only [fillNew, List.map_cons]
      have : renum π (LinkOf.setId ⟨a, b, some i, x, y, z⟩ i) = LinkOf.setId ⟨a, b, some i, x, y, z⟩ i := by
        simp only [renum, LinkOf.setId, h2 i (by omega)]
      rw [this]
      exact h4.cons _
    | none =>
      obtain ⟨π, h1, h2, h3, h4⟩ := ih (cid := cid + 1) (by omega) (fun r hr => hp r (List.mem_cons_of_mem _ hr))
      refine ⟨π, h1, fun j hj => h2 j (by omega), fun j hj => h3 j (by simp [nbNew] at hj ⊢; omega), ?_⟩
      simp only [fillNew, List.map_cons]
      have : renum π ((⟨a, b, none, x, y, z⟩ : PreLink).setId cid) = (⟨a, b, none, x, y, z⟩ : PreLink).setId cid := by
        simp only [renum, LinkOf.setId, h2 cid (by omega)]
      rw [this]
      exact h4.cons _
  | swap x y l =>
    intro cid hk hp
    have hl : ∀ r ∈ l, ∀ i, r.id = some i → i < k := fun r hr => hp r (List.mem_cons_of_mem _ (List.mem_cons_of_mem _ hr))
    rcases x with ⟨xa, xb, xi, x1, x2, x3⟩
    rcases y with ⟨ya, yb, yi, y1, y2, y3⟩
    cases xi with
    | some i =>
      refine ⟨id, Function.injective_id, fun _ _ => rfl, fun _ _ => rfl, ?_⟩
      rw [hid]
      cases yi with
      | some j => exact .swap ..
      | none => exact .swap ..
    | none =>
      cases yi with
      | some j =>
        refine ⟨id, Function.injective_id, fun _ _ => rfl, fun _ _ => rfl, ?_⟩
        rw [hid]
        exact .swap ..
      | none =>
        refine ⟨Equiv.swap cid (cid + 1), (Equiv.swap cid (cid + 1)).injective, fun i hi => Equiv.swap_apply_of_ne_of_ne (by omega) (by omega),
          fun i hi => ?_, ?_⟩
        · simp [nbNew] at hi
          exact Equiv.swap_apply_of_ne_of_ne (by omega) (by omega)
        · simp only [fillNew, List.map_cons]
          rw [hcongr (l := fillNew (cid + 1 + 1) l) (fun z hz => by
            rcases fill_high l (by omega) hl z hz with h | h
            · exact Equiv.swap_apply_of_ne_of_ne (by omega) (by omega)
            · exact Equiv.swap_apply_of_ne_of_ne (by omega) (by omega))]
          simp only [renum, LinkOf.setId, Equiv.swap_apply_left, Equiv.swap_apply_right]
          exact .swap ..
  | trans h1 _ ih1 ih2 =>
    intro cid hk hp
    obtain ⟨π, a1, a2, a3, a4⟩ := ih1 hk hp
    obtain ⟨π', b1, b2, b3, b4⟩ := ih2 hk (fun r hr => hp r (h1.mem_iff.2 hr))
    rw [nbNew_perm h1] at b3
    refine ⟨π' ∘ π, b1.comp a1, fun i hi => by rw [Function.comp, a2 i hi, b2 i hi], fun i hi => by rw [Function.comp, a3 i hi, b3 i hi], ?_⟩
    refine b4.trans ?_
    have := a4.map (renum π')
    rwa [List.map_map] at this

/-! ### Rows and numbers found again -/

theorem mem_relab {ρ σ τ : Nat → Nat} {c d : List Link} (h : d.Perm (c.map (relab ρ σ τ))) {x : Link} : x ∈ d ↔ ∃ l ∈ c, relab ρ σ τ l = x := by
  rw [h.mem_iff, List.mem_map]

theorem find_relab {ρ σ τ : Nat → Nat} (hρ : Function.Injective ρ) {c d : List Link} (hn : (c.map (·.id)).Nodup) (h : d.Perm (c.map (relab ρ σ τ)))
    (i : Nat) : d.find? (fun l => l.id == ρ i) = (c.find? (fun l => l.id == i)).map (relab ρ σ τ) := by
  cases e : c.find? (fun l => l.id == i) with
  | none =>
    rw [Option.map_none, List.find?_eq_none]
    rw [List.find?_eq_none] at e
    intro x hx hxi
    obtain ⟨l, hl, rfl⟩ := (mem_relab h).1 hx
    exact e l hl (by simpa using hρ (by simpa [relab] using hxi))
  | some l =>
    have hl := List.mem_of_find?_eq_some e
    have hi : l.id = i := by simpa using List.find?_some e
    cases e2 : d.find? (fun l => l.id == ρ i) with
    | none =>
      rw [List.find?_eq_none] at e2
      exact absurd (by simp [relab, hi]) (e2 _ ((mem_relab h).2 ⟨l, hl, rfl⟩))
    | some x =>
      have hx := List.mem_of_find?_eq_some e2
      have hxi : x.id = ρ i := by simpa using List.find?_some e2
      obtain ⟨l0, hl0, rfl⟩ := (mem_relab h).1 hx
      have : l0.id = l.id := by rw [hi]; exact hρ hxi
      rw [eq_of_nodup_map hn hl0 hl this]
      rfl

theorem idPrevious_relab {ρ σ τ : Nat → Nat} (hτ : Function.Injective τ) {c d : List Link} (hn : (c.map (·.out)).Nodup)
    (h : d.Perm (c.map (relab ρ σ τ))) (j : Nat) : idPrevious d (τ j) = (idPrevious c j).map ρ := by
  cases e : idPrevious c j with
  | none =>
    have hno := idPrevious_none e
    cases e2 : idPrevious d (τ j) with
    | none => rfl
    | some i =>
      obtain ⟨x, hx, ho, _⟩ := idPrevious_some e2
      obtain ⟨l, hl, rfl⟩ := (mem_relab h).1 hx
      exact absurd (hτ ho) (hno l hl)
  | some i =>
    obtain ⟨l, hl, ho, hi⟩ := idPrevious_some e
    cases e2 : idPrevious d (τ j) with
    | none => exact absurd (by simp [relab, ho]) (idPrevious_none e2 _ ((mem_relab h).2 ⟨l, hl, rfl⟩))
    | some i' =>
      obtain ⟨x, hx, hxo, hxi⟩ := idPrevious_some e2
      obtain ⟨l0, hl0, rfl⟩ := (mem_relab h).1 hx
      have : l0.out = l.out := by rw [ho]; exact hτ hxo
      have := eq_of_nodup_map hn hl0 hl this
      subst this
      rw [← hxi, ← hi]
      rfl

theorem setdiff_relab {ρ : Nat → Nat} (hρ : Function.Injective ρ) {A A' B B' : List Nat} (hA : A'.Perm (A.map ρ)) (hB : B'.Perm (B.map ρ)) :
    (setdiff1d A' B').Perm ((setdiff1d A B).map ρ) := by
  refine (List.perm_ext_iff_of_nodup (nodup_setdiff1d _ _) ((nodup_setdiff1d _ _).map hρ)).2 (fun x => ?_)
  rw [mem_setdiff1d, hA.mem_iff, hB.mem_iff, List.mem_map, List.mem_map, List.mem_map]
  constructor
  · rintro ⟨⟨a, ha, rfl⟩, hb⟩
    exact ⟨a, mem_setdiff1d.2 ⟨ha, fun h => hb ⟨a, h, rfl⟩⟩, rfl⟩
  · rintro ⟨a, ha, rfl⟩
    obtain ⟨h1, h2⟩ := mem_setdiff1d.1 ha
    refine ⟨⟨a, h1, rfl⟩, ?_⟩
    rintro ⟨b, hb, e⟩
    rw [hρ e] at hb
    exact h2 hb

theorem ids_relab {ρ σ τ : Nat → Nat} {c d : List Link} (h : d.Perm (c.map (relab ρ σ τ))) : (ids d).Perm ((ids c).map ρ) := by
  have := h.map (fun l : Link => l.id)
  rw [List.map_map] at this
  unfold ids
  rw [List.map_map]
  exact this

/-- A lost observation in the other run. -/
def vlab (ρ : Nat → Nat) (v : VObs α δ) : VObs α δ := ⟨ρ v.track, v.seg, v.obs, v.drift⟩

theorem dead_relab {cfg : Cfg α δ} {ρ ω τ : Nat → Nat} (hρ : Function.Injective ρ) {p2 p2' p p' : List α} (h2 : Moved ω p2 p2') {c d : List Link}
    (hn : (c.map (·.id)).Nodup) (h : d.Perm (c.map (relab ρ ω τ))) (hout : ∀ l ∈ c, p'[τ l.out]? = p[l.out]?) {dead dead' : List Nat}
    (hd : dead'.Perm (dead.map ρ)) {r : List (VObs α δ)} (hr : deadVirtual cfg p2 p c dead = some r) :
    ∃ r', deadVirtual cfg p2' p' d dead' = some r' ∧ r'.Perm (r.map (vlab ρ)) := by
  unfold deadVirtual at hr ⊢
  have hm := mapM_map_eq (g := ρ) (k := vlab ρ) (f' := fun i => do
    let l ← d.find? (fun l => l.id == i)
    let a ← p2'[l.inp]?
    let b ← p'[l.out]?
    let cd := cfg.extend a b
    some ⟨i, 1, cd.1, cd.2⟩) (l := dead) (r := r) (fun i _ => by
      rw [find_relab hρ hn h]
      cases e : c.find? (fun l => l.id == i) with
      | none => rfl
      | some l =>
        simp only [Option.map_some, Option.bind_eq_bind, Option.bind_some, relab, h2.get, hout l (List.mem_of_find?_eq_some e)]
        cases p2[l.inp]? with
        | none => rfl
        | some a =>
          cases p[l.out]? with
          | none => rfl
          | some b => rfl) hr
  obtain ⟨r', e1, e2⟩ := mapM_perm hd.symm hm
  exact ⟨r', e1, e2.symm⟩

theorem findV_relab {ρ : Nat → Nat} (hρ : Function.Injective ρ) {vs ws : List (VObs α δ)} (hn : (vs.map (·.track)).Nodup) (h : ws.Perm (vs.map (vlab ρ)))
    (i : Nat) : ws.find? (fun l => l.track == ρ i) = (vs.find? (fun l => l.track == i)).map (vlab ρ) := by
  cases e : vs.find? (fun l => l.track == i) with
  | none =>
    rw [Option.map_none, List.find?_eq_none]
    rw [List.find?_eq_none] at e
    intro x hx hxi
    obtain ⟨l, hl, rfl⟩ := List.mem_map.1 (h.mem_iff.1 hx)
    exact e l hl (by simpa using hρ (by simpa [vlab] using hxi))
  | some l =>
    have hl := List.mem_of_find?_eq_some e
    have hi : l.track = i := by simpa using List.find?_some e
    cases e2 : ws.find? (fun l => l.track == ρ i) with
    | none =>
      rw [List.find?_eq_none] at e2
      exact absurd (by simp [vlab, hi]) (e2 _ (h.mem_iff.2 (List.mem_map.2 ⟨l, hl, rfl⟩)))
    | some x =>
      have hx := List.mem_of_find?_eq_some e2
      have hxi : x.track = ρ i := by simpa using List.find?_some e2
      obtain ⟨l0, hl0, rfl⟩ := List.mem_map.1 (h.mem_iff.1 hx)
      have : l0.track = l.track := by rw [hi]; exact hρ hxi
      rw [eq_of_nodup_map hn hl0 hl this]
      rfl

theorem prolonged_relab {cfg : Cfg α δ} {ρ : Nat → Nat} (hρ : Function.Injective ρ) {vs ws : List (VObs α δ)} (hn : (vs.map (·.track)).Nodup)
    (h : ws.Perm (vs.map (vlab ρ))) {B B' : List Nat} (hB : B'.Perm (B.map ρ)) :
    (prolonged cfg ws B').Perm ((prolonged cfg vs B).map (vlab ρ)) := by
  unfold prolonged
  have ht : (ws.map (·.track)).Perm ((vs.map (·.track)).map ρ) := by
    have := h.map (fun v : VObs α δ => v.track)
    rw [List.map_map] at this ⊢
    exact this
  refine ((setdiff_relab hρ ht hB).filterMap _).trans ?_
  rw [List.filterMap_map, List.map_filterMap]
  refine List.Perm.of_eq (List.filterMap_congr (fun i _ => ?_))
  simp only [Function.comp]
  rw [findV_relab hρ hn h]
  cases vs.find? (fun l => l.track == i) with
  | none => rfl
  | some v =>
    simp only [Option.map_some, Option.bind_some, vlab]
    by_cases hs : v.seg < cfg.nbVirtual
    · simp only [if_pos hs, Option.map_some, vlab]
    · simp only [if_neg hs, Option.map_none]

theorem pre_relab {ρ σ κ τ : Nat → Nat} {n np : Nat} {v : Bool} (hσ : Function.Injective σ) (hlt : ∀ i, i < n ↔ σ i < n)
    (hnp : ∀ i, glue n σ κ i < np ↔ i < np) (hv : v = false → np = n) {c d : List Link} (hn : (c.map (·.out)).Nodup)
    {ω : Nat → Nat} (h : d.Perm (c.map (relab ρ ω σ))) {vs ws : Option (List (VObs α δ))}
    (hvs : ∀ j : Nat, (ws.bind (fun l => l[κ j]?)) = (vs.bind (fun l => l[j]?)).map (vlab ρ)) (m : Nat × Nat × Rat) :
    preLink v n np d ws (glue n σ κ m.1, τ m.2.1, m.2.2) = (preLink v n np c vs m).map (prelab ρ (glue n σ κ) τ) := by
  have hsplit : n ≤ glue n σ κ m.1 ↔ n ≤ m.1 := by
    unfold glue
    have := hlt m.1
    split <;> omega
  unfold preLink
  simp only [hnp]
  by_cases h1 : m.1 < np
  · simp only [if_pos h1, rawLink]
    by_cases h2 : n ≤ m.1
    · cases v with
      | false =>
        have := hv rfl
        omega
      | true =>
        have hg : glue n σ κ m.1 - n = κ (m.1 - n) := by
          unfold glue
          rw [if_neg (by omega)]
          omega
        simp only [hsplit, h2, decide_true, Bool.true_and, if_true, hg, hvs]
        cases vs.bind (fun l => l[m.1 - n]?) with
        | none => rfl
        | some w => rfl
    · have hg : glue n σ κ m.1 = σ m.1 := by
        unfold glue
        rw [if_pos (by omega)]
      simp only [hsplit, h2, decide_false, Bool.and_false, Bool.false_eq_true, if_false, Option.map_some, prelab]
      rw [hg, idPrevious_relab hσ hn h]
  · simp only [if_neg h1, Option.map_none]

/-! ### A date -/

theorem step_form (cfg : Cfg α δ) {files : List (List α)} {s : St α δ} (inv : Inv cfg files s) {c : List Link} {h : List (List Link)} (hc : s.corrs = c :: h)
    {real p : List α} (hcur : s.current = some real) (hp : s.previous = some p) (f : List α) :
    ∃ vl : List (VObs α δ), vl = s.virtualObs.getD [] ∧
    mergeVirtual (swap s f) = some { swap s f with previous := some (real ++ vl.map (·.obs)) } ∧
    step cfg s f = ((cfg.tracking (real ++ vl.map (·.obs)) f).mapM (preLink cfg.virtual real.length (real ++ vl.map (·.obs)).length c s.virtualObs)).bind
      (fun pre => if cfg.virtual then
        (deadVirtual cfg p (real ++ vl.map (·.obs)) c (setdiff1d (ids c) (ids (fillNew s.currentId pre)))).map (fun dead =>
          ⟨fillNew s.currentId pre :: c :: h, s.currentId + nbNew pre, some (dead ++ prolonged cfg vl (ids (fillNew s.currentId pre))), s.virtualObs, some p,
            some (real ++ vl.map (·.obs)), some f, true⟩)
        else some ⟨fillNew s.currentId pre :: c :: h, s.currentId + nbNew pre, s.virtualObs, s.prevVirtualObs, some p, some (real ++ vl.map (·.obs)), some f,
          s.flg⟩) := by
  have hm : mergeVirtual (swap s f) = some { swap s f with previous := some (real ++ (s.virtualObs.getD []).map (·.obs)) } := by
    unfold mergeVirtual
    cases hf : s.flg with
    | false => simp [swap, hf, inv.vnone hf, hcur]
    | true =>
      obtain ⟨vs, hvs, _⟩ := inv.vsome hf
      simp [swap, hf, hvs, hcur]
  refine ⟨_, rfl, hm, ?_⟩
  unfold step
  simp only [Option.bind_eq_bind]
  rw [show (swap s f).previous = some real from hcur, Option.bind_some, hm, Option.bind_some, Option.bind_some]
  unfold store
  simp only [swap, hp, hc, List.head?_cons, Option.bind_eq_bind, Option.bind_some]
  generalize hpre : (cfg.tracking (real ++ (s.virtualObs.getD []).map (·.obs)) f).mapM (preLink cfg.virtual real.length
    (real ++ (s.virtualObs.getD []).map (·.obs)).length c s.virtualObs) = pre
  cases pre with
  | none => rfl
  | some pre =>
    simp only [Option.bind_some, Bool.false_eq_true, if_false, recense]
    cases hv : cfg.virtual with
    | false => simp
    | true =>
      simp only [if_true, Option.bind_eq_bind, Option.bind_some]
      generalize deadVirtual cfg p _ c _ = dead
      cases dead with
      | none => rfl
      | some dead =>
        simp only [Option.bind_some, Option.map_some, Option.some.injEq, St.mk.injEq, true_and, and_true]
        cases s.virtualObs with
        | none =>
          simp [prolonged, setdiff1d]
        | some vs => rfl

theorem first_form (cfg : Cfg α δ) {files : List (List α)} {s : St α δ} (inv : Inv cfg files s) (hc : s.corrs = []) {real : List α}
    (hcur : s.current = some real) (f : List α) :
    mergeVirtual (swap s f) = some (swap s f) ∧
    step cfg s f = some { swap s f with
      corrs := fillNew s.currentId ((cfg.tracking real f).map (rawLink cfg.virtual real.length)) :: []
      currentId := s.currentId + (cfg.tracking real f).length } := by
  have hprev := inv.prevNone hc
  have hflg : s.flg = false := by rw [inv.flg, hc]; simp
  constructor
  · simp [mergeVirtual, swap, hflg]
  · simp [step, swap, mergeVirtual, store, hcur, hprev, hflg, hc]

theorem new_numbers {cid : Nat} {ρ : Nat → Nat} (hi : Function.Injective ρ) (hlow : ∀ i, i < cid → ρ i < cid) (hhigh : ∀ i, cid ≤ i → ρ i = i)
    {ω τ : Nat → Nat} {pre pre' : List PreLink} (hids : ∀ r ∈ pre, ∀ i, r.id = some i → i < cid) (h : (pre.map (prelab ρ ω τ)).Perm pre') :
    ∃ ρ' : Nat → Nat, Function.Injective ρ' ∧ (∀ i, i < cid + nbNew pre → ρ' i < cid + nbNew pre) ∧ (∀ i, cid + nbNew pre ≤ i → ρ' i = i) ∧
      (∀ i, i < cid → ρ' i = ρ i) ∧ nbNew pre' = nbNew pre ∧ (fillNew cid pre').Perm ((fillNew cid pre).map (relab ρ' ω τ)) := by
  have hnb : nbNew (pre.map (prelab ρ ω τ)) = nbNew pre := by
    unfold nbNew
    rw [List.countP_map]
    refine List.countP_congr (fun r _ => ?_)
    simp [prelab]
  obtain ⟨π, p1, p2, p3, p4⟩ := fill_perm h (Nat.le_refl cid) (by
    intro r hr i hri
    obtain ⟨r0, hr0, rfl⟩ := List.mem_map.1 hr
    simp only [prelab, Option.map_eq_some_iff] at hri
    obtain ⟨j, hj, rfl⟩ := hri
    exact hlow j (hids r0 hr0 j hj))
  rw [hnb] at p3
  refine ⟨π ∘ ρ, p1.comp hi, fun i hi' => ?_, fun i hi' => ?_, fun i hi' => ?_, ?_, ?_⟩
  · have h1 : ρ i < cid + nbNew pre := by
      rcases Nat.lt_or_ge i cid with h | h
      · have := hlow i h
        omega
      · rw [hhigh i h]
        exact hi'
    by_contra hn
    have h2 := p3 (π (ρ i)) (by simpa using hn)
    have h3 := p1 h2
    simp only [Function.comp] at hn
    omega
  · rw [Function.comp, hhigh i (by omega), p3 i hi']
  · rw [Function.comp, p2 _ (hlow i hi')]
  · rw [nbNew_perm h, hnb]
  · refine p4.trans (List.Perm.of_eq ?_)
    rw [fill_relab ω τ pre hhigh, List.map_map]
    rfl

theorem same_snoc {ρ ρ' : Nat → Nat} {files files' : List (List α)} {hs ht : List (List Link)} (h : SameTables ρ files files' hs ht)
    (hl : hs.length + 1 = files.length) (hl' : hs.length + 1 = files'.length) (hid : ∀ k i, UsedAt hs k i → ρ' i = ρ i) {c d : List Link} {f f' : List α}
    (hnew : (d.map (fun l => (l.id, seen (files' ++ [f']) hs.length l))).Perm (c.map (fun l => (ρ' l.id, seen (files ++ [f]) hs.length l)))) :
    SameTables ρ' (files ++ [f]) (files' ++ [f']) (c :: hs) (d :: ht) := by
  obtain ⟨h1, h2⟩ := h
  refine ⟨by simp [h1], fun k a b ha hb => ?_⟩
  rw [List.reverse_cons] at ha hb
  rcases Nat.lt_trichotomy k hs.length with hk | hk | hk
  · rw [List.getElem?_append_left (by simpa using hk)] at ha
    rw [List.getElem?_append_left (by rw [List.length_reverse]; omega)] at hb
    have hs1 : ∀ (F : List (List α)) (g : List α), hs.length + 1 = F.length → ∀ l, seen (F ++ [g]) k l = seen F k l := by
      intro F g hF l
      unfold seen
      rw [List.getElem?_append_left (by omega), List.getElem?_append_left (by omega)]
    have := h2 k a b ha hb
    rw [List.map_congr_left (fun l _ => by rw [hs1 files' f' hl' l])]
    refine this.trans (List.Perm.of_eq (List.map_congr_left (fun l hlm => ?_)))
    rw [hs1 files f hl l, hid k l.id ⟨l, ⟨a, ha, hlm⟩, rfl⟩]
  · subst hk
    rw [List.getElem?_append_right (by simp)] at ha
    rw [List.getElem?_append_right (by simp [h1])] at hb
    simp [h1] at ha hb
    subst ha
    subst hb
    exact hnew
  · rw [List.getElem?_eq_none (by simp; omega)] at ha
    cases ha

/-- The lost observations of the two runs. -/
def VirtSim (ρ : Nat → Nat) (a b : Option (List (VObs α δ))) : Prop :=
  (a = none ∧ b = none) ∨ ∃ vs ws, a = some vs ∧ b = some ws ∧ ws.Perm (vs.map (vlab ρ))

/-- The states of the two runs. -/
structure Sim (files files' : List (List α)) (ρ : Nat → Nat) (s t : St α δ) : Prop where
  cid : t.currentId = s.currentId
  inj : Function.Injective ρ
  low : ∀ i, i < s.currentId → ρ i < s.currentId
  high : ∀ i, s.currentId ≤ i → ρ i = i
  tables : SameTables ρ files files' s.corrs t.corrs
  cur : ∃ c c' σ, s.current = some c ∧ t.current = some c' ∧ Moved σ c c' ∧ ∀ l h, s.corrs = l :: h → ∃ d h' ω p p', t.corrs = d :: h' ∧
    d.Perm (l.map (relab ρ ω σ)) ∧ s.previous = some p ∧ t.previous = some p' ∧ Moved ω p p'
  virt : VirtSim ρ s.virtualObs t.virtualObs

theorem new_table {files files' : List (List α)} {real real' f f' : List α} {n : Nat} (h1 : n + 1 = files.length) (h1' : n + 1 = files'.length)
    (hr : files[n]? = some real) (hr' : files'[n]? = some real') {ρ ω τ : Nat → Nat} (hf : Moved τ f f') {c d : List Link}
    (h : d.Perm (c.map (relab ρ ω τ))) (hin : ∀ l ∈ c, l.virt = false → real'[ω l.inp]? = real[l.inp]?) :
    (d.map (fun l => (l.id, seen (files' ++ [f']) n l))).Perm (c.map (fun l => (ρ l.id, seen (files ++ [f]) n l))) := by
  refine (h.map _).trans (List.Perm.of_eq ?_)
  rw [List.map_map]
  refine List.map_congr_left (fun l hl => ?_)
  have e1 : (files ++ [f])[n]? = some real := by rw [List.getElem?_append_left (by omega), hr]
  have e2 : (files' ++ [f'])[n]? = some real' := by rw [List.getElem?_append_left (by omega), hr']
  have e3 : (files ++ [f])[n + 1]? = some f := by rw [h1]; simp
  have e4 : (files' ++ [f'])[n + 1]? = some f' := by rw [h1']; simp
  simp only [Function.comp, seen, relab, e1, e2, e3, e4, Option.bind_some, hf.get, Prod.mk.injEq, true_and, and_true]
  by_cases hv : l.virt = true
  · simp [hv]
  · simp [hv, hin l hl (by simpa using hv)]

theorem pre_ids {cfg : Cfg α δ} {files : List (List α)} {s : St α δ} (inv : Inv cfg files s) {c : List Link} {h : List (List Link)} (hc : s.corrs = c :: h)
    {links : List (Nat × Nat × Rat)} {v : Bool} {n np : Nat} {pre : List PreLink} (hp : links.mapM (preLink v n np c s.virtualObs) = some pre) :
    ∀ r ∈ pre, ∀ i, r.id = some i → i < s.currentId := by
  intro r hr i hi
  obtain ⟨m, _, hm⟩ := mapM_mem hp hr
  unfold preLink at hm
  simp only at hm
  split at hm
  · split at hm
    · rw [Option.map_eq_some_iff] at hm
      obtain ⟨w, hw, rfl⟩ := hm
      simp only [Option.some.injEq] at hi
      subst hi
      cases hvo : s.virtualObs with
      | none => rw [hvo] at hw; cases hw
      | some vs =>
        rw [hvo, Option.bind_some] at hw
        have hflg : s.flg = true := by
          by_contra hn
          rw [inv.vnone (by simpa using hn)] at hvo
          cases hvo
        obtain ⟨vs', e, ok⟩ := inv.vsome hflg
        rw [hvo] at e
        obtain rfl := Option.some.inj e
        exact inv.idlt _ _ ((ok.iff w.track w.seg).1 ⟨w, List.mem_of_getElem? hw, rfl, rfl⟩).2.2.2.1
    · obtain rfl := Option.some.inj hm
      obtain ⟨l, hl, _, rfl⟩ := idPrevious_some hi
      exact inv.idlt h.length _ (by rw [hc]; exact usedAt_cons_last.2 (List.mem_map.2 ⟨l, hl, rfl⟩))
  · cases hm

theorem relab_congr {ρ ρ' ω τ : Nat → Nat} {c d : List Link} (h : d.Perm (c.map (relab ρ ω τ))) (hid : ∀ l ∈ c, ρ' l.id = ρ l.id) :
    d.Perm (c.map (relab ρ' ω τ)) :=
  h.trans (List.Perm.of_eq (List.map_congr_left (fun l hl => by simp [relab, hid l hl])))

open Classical in
/-- The same class with a tracker which gives no link instead of links which are not one-to-one. -/
noncomputable def safe (cfg : Cfg α δ) : Cfg α δ :=
  { cfg with tracking := fun p c => if OneAt (cfg.tracking p c) p c then cfg.tracking p c else [] }

theorem safe_one (cfg : Cfg α δ) : OneToOne (safe cfg).tracking := by
  intro p c
  unfold safe
  simp only
  split
  · next h => exact h
  · exact ⟨List.nodup_nil, List.nodup_nil, fun m hm => by cases hm⟩

theorem inv_step_at (cfg : Cfg α δ) {files : List (List α)} {s : St α δ} (inv : Inv cfg files s) {f : List α}
    (h : ∀ u p, mergeVirtual (swap s f) = some u → u.previous = some p → OneAt (cfg.tracking p f) p f) :
    ∃ s', step cfg s f = some s' ∧ Inv cfg (files ++ [f]) s' := by
  have inv1 : Inv (safe cfg) files s :=
    ⟨inv.len, inv.cur, inv.prevNone, inv.prevSome, inv.sized, inv.wf, inv.idlt, inv.idused, inv.flg, inv.vnone, inv.vsome⟩
  obtain ⟨s', e, i⟩ := inv_step (safe cfg) (safe_one cfg) files s inv1 f
  refine ⟨s', ?_, ⟨i.len, i.cur, i.prevNone, i.prevSome, i.sized, i.wf, i.idlt, i.idused, i.flg, i.vnone, i.vsome⟩⟩
  rw [← e]
  unfold step
  simp only [Option.bind_eq_bind]
  cases hp : (swap s f).previous with
  | none => rfl
  | some real =>
    rw [Option.bind_some, Option.bind_some]
    cases hm : mergeVirtual (swap s f) with
    | none => rfl
    | some u =>
      rw [Option.bind_some, Option.bind_some]
      cases hu : u.previous with
      | none => rfl
      | some p =>
        have : (safe cfg).tracking p f = cfg.tracking p f := if_pos (h u p hm hu)
        rw [Option.bind_some, Option.bind_some, this]
        rfl

theorem one_moved {L L' : List (Nat × Nat × Rat)} {p p' c c' : List α} {σ τ : Nat → Nat} (hσ : Moved σ p p') (hτ : Moved τ c c')
    (hL : L'.Perm (L.map (fun m => (σ m.1, τ m.2.1, m.2.2)))) (h : OneAt L p c) : OneAt L' p' c' := by
  obtain ⟨h1, h2, h3⟩ := h
  refine ⟨?_, ?_, fun m hm => ?_⟩
  · rw [(hL.map _).nodup_iff, List.map_map]
    have := h1.map hσ.inj
    rwa [List.map_map] at this
  · rw [(hL.map _).nodup_iff, List.map_map]
    have := h2.map hτ.inj
    rwa [List.map_map] at this
  · obtain ⟨x, hx, rfl⟩ := List.mem_map.1 (hL.mem_iff.1 hm)
    obtain ⟨k1, k2⟩ := h3 x hx
    exact ⟨by rw [hσ.len]; exact (hσ.lt _).2 k1, by rw [hτ.len]; exact (hτ.lt _).2 k2⟩

theorem step_order (cfg : Cfg α δ) {files files' : List (List α)} {s t : St α δ} {ρ : Nat → Nat} (inv : Inv cfg files s)
    (inv' : Inv cfg files' t) (h : Sim files files' ρ s t) {f f' : List α} (hf : f.Perm f')
    (hfree : ∀ u p, mergeVirtual (swap s f) = some u → u.previous = some p → OneAt (cfg.tracking p f) p f ∧ OrderFree cfg.tracking p f) :
    ∃ s' t' ρ', step cfg s f = some s' ∧ step cfg t f' = some t' ∧ Inv cfg (files ++ [f]) s' ∧ Inv cfg (files' ++ [f']) t' ∧
      Sim (files ++ [f]) (files' ++ [f']) ρ' s' t' := by
  obtain ⟨hcid, hinj, hlow, hhigh, htab, ⟨real, real', σ, hcur, hcur', hσ, hhead⟩, hvirt⟩ := h
  obtain ⟨τ, hτ⟩ := perm_moved hf
  obtain ⟨s', es, invs⟩ := inv_step_at cfg inv (fun u p h1 h2 => (hfree u p h1 h2).1)
  have hlen := inv.len
  have hlen' := inv'.len
  rw [htab.1] at hlen'
  have hreal : files[s.corrs.length]? = some real := by rw [← inv.cur, hcur]
  have hreal' : files'[s.corrs.length]? = some real' := by rw [← htab.1, ← inv'.cur, hcur']
  cases hc : s.corrs with
  | nil =>
    have hc' : t.corrs = [] := List.length_eq_zero_iff.1 (by rw [htab.1, hc]; rfl)
    obtain ⟨m1, e1⟩ := first_form cfg inv hc hcur f
    obtain ⟨m2, e2⟩ := first_form cfg inv' hc' hcur' f'
    have hperm := (hfree _ real m1 hcur).2 real' f' σ τ hσ hτ
    obtain ⟨t', et, invt⟩ := inv_step_at cfg inv' (f := f') (fun u q h1 h2 => by
      rw [m2] at h1
      obtain rfl := Option.some.inj h1
      rw [show (swap t f').previous = t.current from rfl, hcur'] at h2
      obtain rfl := Option.some.inj h2
      exact one_moved hσ hτ hperm (hfree _ real m1 hcur).1)
    rw [es] at e1
    rw [et] at e2
    obtain rfl := Option.some.inj e1
    obtain rfl := Option.some.inj e2
    have hpre : (((cfg.tracking real f).map (rawLink cfg.virtual real.length)).map (prelab ρ σ τ)).Perm
        ((cfg.tracking real' f').map (rawLink cfg.virtual real'.length)) := by
      refine .trans (List.Perm.of_eq ?_) (hperm.map _).symm
      rw [List.map_map, List.map_map]
      refine List.map_congr_left (fun m hm => ?_)
      have := hσ.lt m.1
      have h2 := hσ.len
      simp only [Function.comp, rawLink, prelab, Option.map_none, LinkOf.mk.injEq, true_and, and_true]
      congr 1
      rw [h2, decide_eq_decide]
      omega
    have hids : ∀ r ∈ (cfg.tracking real f).map (rawLink cfg.virtual real.length), ∀ i, r.id = some i → i < s.currentId := by
      intro r hr i hi
      obtain ⟨m, _, rfl⟩ := List.mem_map.1 hr
      cases hi
    have hnb : nbNew ((cfg.tracking real f).map (rawLink cfg.virtual real.length)) = (cfg.tracking real f).length := by
      exact nbNew_rawLink _ _ _
    obtain ⟨ρ', r1, r2, r3, r4, r5, r6⟩ := new_numbers hinj hlow hhigh hids hpre
    rw [hnb] at r2 r3
    have hlens : (cfg.tracking real' f').length = (cfg.tracking real f).length := by simpa using hperm.length_eq
    have hvn : s.virtualObs = none ∧ t.virtualObs = none :=
      ⟨inv.vnone (by rw [inv.flg, hc]; simp), inv'.vnone (by rw [inv'.flg, hc']; simp)⟩
    rw [hc] at hlen hlen' hreal hreal' htab
    rw [hc'] at htab
    refine ⟨_, _, ρ', es, et, invs, invt, ⟨?_, r1, r2, r3, ?_, ?_, .inl hvn⟩⟩
    · simp only [hcid, hlens]
    · refine same_snoc htab hlen hlen' (fun k i hu => ?_) ?_
      · obtain ⟨l, hl, _⟩ := hu
        exact absurd hl linkAt_nil
      · rw [hcid]
        exact new_table hlen hlen' hreal hreal' hτ r6 (fun l _ _ => hσ.get _)
    · refine ⟨f, f', τ, rfl, rfl, hτ, fun l h hl => ?_⟩
      simp only [List.cons.injEq] at hl
      obtain ⟨rfl, rfl⟩ := hl
      exact ⟨_, _, σ, real, real', rfl, by rw [hcid]; exact r6, hcur, hcur', hσ⟩
  | cons c h =>
    obtain ⟨d, h', ω, p, p', hc', hcd, hp, hp', hω⟩ := hhead c h hc
    obtain ⟨vl, hvl, m1, e1⟩ := step_form cfg inv hc hcur hp f
    obtain ⟨wl, hwl, m2, e2⟩ := step_form cfg inv' hc' hcur' hp' f'
    have hvw : wl.Perm (vl.map (vlab ρ)) := by
      rcases hvirt with ⟨a, b⟩ | ⟨vs, ws, a, b, hv⟩
      · rw [hvl, hwl, a, b]
        exact .refl _
      · rw [hvl, hwl, a, b]
        exact hv
    obtain ⟨κ, hκ⟩ := perm_moved hvw.symm
    have hκo : Moved κ (vl.map (·.obs)) (wl.map (·.obs)) := by
      have := hκ.map (fun v : VObs α δ => v.obs)
      rw [List.map_map] at this
      exact this
    have hmv := moved_append hσ hκo
    have hcm : c ∈ s.corrs := by rw [hc]; exact List.mem_cons_self
    obtain ⟨n1, _, n3⟩ := inv.wf.nodup c hcm
    have hperm := (hfree _ _ m1 rfl).2 _ f' _ τ hmv hτ
    obtain ⟨t', et, invt⟩ := inv_step_at cfg inv' (f := f') (fun u q h1 h2 => by
      rw [m2] at h1
      obtain rfl := Option.some.inj h1
      obtain rfl := Option.some.inj h2
      exact one_moved hmv hτ hperm (hfree _ _ m1 rfl).1)
    have hnp : (real' ++ wl.map (·.obs)).length = (real ++ vl.map (·.obs)).length := hmv.len
    have hvirtF : cfg.virtual = false → vl = [] := by
      intro hv
      rw [hvl, inv.vnone (by rw [inv.flg, hv]; rfl)]
      rfl
    have hpl : ∀ m, preLink cfg.virtual real.length (real ++ vl.map (·.obs)).length d t.virtualObs
        (glue real.length σ κ m.1, τ m.2.1, m.2.2) = (preLink cfg.virtual real.length (real ++ vl.map (·.obs)).length c s.virtualObs m).map
          (prelab ρ (glue real.length σ κ) τ) := by
      refine pre_relab hσ.inj (fun i => (hσ.lt i).symm) (fun i => hmv.lt i) (fun hv => by simp [hvirtF hv]) n3 hcd (fun j => ?_)
      rcases hvirt with ⟨a, b⟩ | ⟨vs, ws, a, b, hv⟩
      · rw [a, b]
        rfl
      · have k1 : vl = vs := by rw [hvl, a]; rfl
        have k2 : wl = ws := by rw [hwl, b]; rfl
        rw [a, b, ← k1, ← k2, Option.bind_some, Option.bind_some, hκ.get, List.getElem?_map]
    rw [es] at e1
    rw [et] at e2
    have e1 := e1.symm
    rw [Option.bind_eq_some_iff] at e1
    obtain ⟨pre, hpre, e1⟩ := e1
    have hpids := pre_ids inv hc hpre
    obtain ⟨pre', hpre', hpp⟩ := mapM_perm hperm.symm (mapM_map_eq (fun m _ => hpl m) hpre)
    rw [hσ.len, hnp, hpre', Option.bind_some] at e2
    obtain ⟨ρ', r1, r2, r3, r4, r5, r6⟩ := new_numbers hinj hlow hhigh hpids hpp
    rw [hcid, r5] at e2
    have hused : ∀ k i, UsedAt s.corrs k i → ρ' i = ρ i := fun k i hu => r4 i (inv.idlt k i hu)
    have hcd' := relab_congr hcd (fun l hl => hused h.length l.id (by rw [hc]; exact usedAt_cons_last.2 (List.mem_map.2 ⟨l, hl, rfl⟩)))
    have hvin : ∀ l ∈ fillNew s.currentId pre, s'.corrs = fillNew s.currentId pre :: s.corrs → l.virt = false → l.inp < real.length := by
      intro l hl hsc hv
      obtain ⟨_, g, hg, hiff⟩ := invs.sized s.corrs.length l (by rw [hsc]; exact linkAt_cons_last.2 hl)
      rw [List.getElem?_append_left (by omega), hreal] at hg
      obtain rfl := Option.some.inj hg
      exact hiff.1 hv
    have htabs : s'.corrs = fillNew s.currentId pre :: s.corrs →
        SameTables ρ' (files ++ [f]) (files' ++ [f']) (fillNew s.currentId pre :: c :: h) (fillNew s.currentId pre' :: d :: h') := by
      intro hsc
      rw [← hc, ← hc']
      refine same_snoc htab hlen hlen' hused (new_table hlen hlen' hreal hreal' hτ r6 (fun l hl hv => ?_))
      have := hvin l hl hsc hv
      unfold glue
      rw [if_pos this, hσ.get]
    cases hv : cfg.virtual with
    | false =>
      rw [hv] at e1 e2
      simp only [Bool.false_eq_true, if_false] at e1 e2
      obtain rfl := Option.some.inj e1
      obtain rfl := Option.some.inj e2
      have hn1 : s.virtualObs = none := inv.vnone (by rw [inv.flg, hv]; rfl)
      have hn2 : t.virtualObs = none := inv'.vnone (by rw [inv'.flg, hv]; rfl)
      refine ⟨_, _, ρ', es, et, invs, invt, ⟨rfl, r1, r2, r3, htabs (by rw [hc]), ⟨f, f', τ, rfl, rfl, hτ, fun l hh hl => ?_⟩, .inl ⟨hn1, hn2⟩⟩⟩
      simp only [List.cons.injEq] at hl
      obtain ⟨rfl, rfl⟩ := hl
      exact ⟨_, _, _, _, _, rfl, r6, rfl, rfl, hmv⟩
    | true =>
      rw [hv] at e1 e2
      simp only [if_true] at e1 e2
      rw [Option.map_eq_some_iff] at e1
      obtain ⟨dead, hdead, e1⟩ := e1
      subst e1
      obtain ⟨dead', hdead', hdp⟩ := dead_relab r1 hω n1 hcd' (p' := real' ++ wl.map (·.obs)) (fun l hl => by
        obtain ⟨⟨g, hg, hlt⟩, _⟩ := inv.sized h.length l (by rw [hc]; exact linkAt_cons_last.2 hl)
        rw [show h.length + 1 = s.corrs.length by rw [hc]; rfl, hreal] at hg
        obtain rfl := Option.some.inj hg
        have := hmv.get l.out
        unfold glue at this
        rw [if_pos hlt] at this
        exact this) (setdiff_relab r1 (ids_relab hcd') (ids_relab r6)) hdead
      rw [hdead', Option.map_some] at e2
      obtain rfl := Option.some.inj e2
      have hvs : (vl.map (·.track)).Nodup ∧ ∀ v ∈ vl, ρ' v.track = ρ v.track := by
        cases hfl : s.flg with
        | false =>
          rw [hvl, inv.vnone hfl]
          exact ⟨List.nodup_nil, fun v hv => by cases hv⟩
        | true =>
          obtain ⟨vs, e, ok⟩ := inv.vsome hfl
          rw [hvl, e]
          exact ⟨ok.nodup, fun v hv => hused _ _ ((ok.iff v.track v.seg).1 ⟨v, hv, rfl, rfl⟩).2.2.2.1⟩
      have hvw' : wl.Perm (vl.map (vlab ρ')) :=
        hvw.trans (List.Perm.of_eq (List.map_congr_left (fun v hv => by simp [vlab, hvs.2 v hv])))
      refine ⟨_, _, ρ', es, et, invs, invt, ⟨rfl, r1, r2, r3, htabs (by rw [hc]), ⟨f, f', τ, rfl, rfl, hτ, fun l hh hl => ?_⟩, .inr ⟨_, _, rfl, rfl, ?_⟩⟩⟩
      · simp only [List.cons.injEq] at hl
        obtain ⟨rfl, rfl⟩ := hl
        exact ⟨_, _, _, _, _, rfl, r6, rfl, rfl, hmv⟩
      · rw [List.map_append]
        exact hdp.append (prolonged_relab r1 hvs.1 hvw' (ids_relab r6))

theorem fold_order (cfg : Cfg α δ) : ∀ {fs fs' : List (List α)}, List.Forall₂ List.Perm fs fs' →
    ∀ {files files' : List (List α)} {s t : St α δ} {ρ : Nat → Nat}, Inv cfg files s → Inv cfg files' t → Sim files files' ρ s t → OrderRun cfg s fs →
    ∃ s' t' ρ', fs.foldlM (step cfg) s = some s' ∧ fs'.foldlM (step cfg) t = some t' ∧ Sim (files ++ fs) (files' ++ fs') ρ' s' t' ∧
      Inv cfg (files ++ fs) s' ∧ Inv cfg (files' ++ fs') t' := by
  intro fs fs' hf
  induction hf with
  | nil =>
    intro files files' s t ρ i i' h _
    exact ⟨s, t, ρ, rfl, rfl, by simpa using h, by simpa using i, by simpa using i'⟩
  | cons h1 _ ih =>
    intro files files' s t ρ inv inv' h hr
    obtain ⟨s1, t1, ρ1, e1, e2, i1, i2, h2⟩ := step_order cfg inv inv' h h1 hr.1
    obtain ⟨s', t', ρ', g1, g2, g3, g4, g5⟩ := ih i1 i2 h2 (hr.2 _ e1)
    refine ⟨s', t', ρ', ?_, ?_, ?_, ?_, ?_⟩
    · rw [List.foldlM_cons, e1]; exact g1
    · rw [List.foldlM_cons, e2]; exact g2
    · simpa using g3
    · simpa using g4
    · simpa using g5

theorem track_sim (cfg : Cfg α δ) {f f' : List α} {fs fs' : List (List α)} (h0 : f.Perm f')
    (hf : List.Forall₂ List.Perm fs fs') (hr : OrderRun cfg (swap init f) fs) :
    ∃ s t ρ, track cfg (f :: fs) = some s ∧ track cfg (f' :: fs') = some t ∧ Sim (f :: fs) (f' :: fs') ρ s t ∧ Inv cfg (f :: fs) s ∧
      Inv cfg (f' :: fs') t := by
  obtain ⟨σ, hσ⟩ := perm_moved h0
  have hs : Sim [f] [f'] id (swap (init : St α δ) f) (swap init f') :=
    ⟨rfl, Function.injective_id, fun _ h => h, fun _ _ => rfl, ⟨rfl, fun k c d h => by simp [swap, init] at h⟩,
      ⟨f, f', σ, rfl, rfl, hσ, fun l h e => by simp [swap, init] at e⟩, .inl ⟨rfl, rfl⟩⟩
  exact fold_order cfg hf (inv_init cfg f) (inv_init cfg f') hs hr

/-! ### C216 -/

/-- **C216** (order of the rows): the files hold the same observations in another order. With a tracker which gives the same links whatever the order of the
rows, the run on the other files gives the same tables: the same couples of observations, with the same costs, the same virtual links, gathered in the same
tracks (the numbers of the tracks are renamed by an injective function), and the same number of tracks. -/
theorem track_order (cfg : Cfg α δ) {f f' : List α} {fs fs' : List (List α)} (h0 : f.Perm f')
    (hf : List.Forall₂ List.Perm fs fs') (hr : OrderRun cfg (swap init f) fs) :
    ∃ s t ρ, track cfg (f :: fs) = some s ∧ track cfg (f' :: fs') = some t ∧ Function.Injective ρ ∧ (∀ i, i < s.currentId → ρ i < s.currentId) ∧
      t.currentId = s.currentId ∧ SameTables ρ (f :: fs) (f' :: fs') s.corrs t.corrs := by
  obtain ⟨s, t, ρ, e1, e2, h, _, _⟩ := track_sim cfg h0 hf hr
  exact ⟨s, t, ρ, e1, e2, h.inj, h.low, h.cid, h.tables⟩

end Verif.Tracking.Order
