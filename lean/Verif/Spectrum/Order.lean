import Verif.Spectrum.Units
import Mathlib.Data.List.Perm.Subperm
import Mathlib.Algebra.BigOperators.Group.List.Basic

/-!
# C221: the spectra of a grid and the order of its lines and columns

The lines or the columns of the area are in another order (latitudes from north to south, longitudes which begin elsewhere): `spectrum_lonlat`
(src/py_eddy_tracker/dataset/grid.py:1606-1671).
-/

namespace Verif.Spectrum

/-! ### Specification -/

/-- `σ` puts the first `n` indices in another order. -/
def Reorders (σ : Nat → Nat) (n : Nat) : Prop := (∀ j, j < n → σ j < n) ∧ ∀ j j', j < n → j' < n → σ j = σ j' → j = j'

/-- The same area, its lines in another order. -/
def Area.lines {V : Type} (g : Area V) (σ : Nat → Nat) : Area V := { g with value := fun i j => g.value i (σ j), stepX := fun j => g.stepX (σ j) }

/-- The same area, its columns in another order. -/
def Area.columns {V : Type} (g : Area V) (σ : Nat → Nat) : Area V := { g with value := fun i => g.value (σ i) }

/-- What scipy gives: as many powers as frequencies, whose number depends on the number of samples, and which depend on the frequency of the samples. -/
structure Sampled {V : Type} (welch : Welch V) : Prop where
  len : ∀ d fs s, (welch d fs s).2.length = (welch d fs s).1.length
  size : ∀ d d' fs fs' s, d.length = d'.length → (welch d fs s).1.length = (welch d' fs' s).1.length
  freq : ∀ d d' fs s, d.length = d'.length → (welch d fs s).1 = (welch d' fs s).1

/-! ### Proofs -/

theorem Reorders.perm {σ : Nat → Nat} {n : Nat} (h : Reorders σ n) : ((List.range n).map σ).Perm (List.range n) := by
  have hn : ((List.range n).map σ).Nodup := by
    refine List.Nodup.map_on (fun a ha b hb e => ?_) List.nodup_range
    exact h.2 a b (List.mem_range.1 ha) (List.mem_range.1 hb) e
  refine List.Subperm.perm_of_length_le (hn.subperm ?_) (by simp)
  intro x hx
  obtain ⟨j, hj, rfl⟩ := List.mem_map.1 hx
  exact List.mem_range.2 (h.1 j (List.mem_range.1 hj))

theorem max_perm {l l' : List Rat} (h : l.Perm l') : l.max? = l'.max? := by
  cases hl : l'.max? with
  | none =>
    rw [List.max?_eq_none_iff] at hl ⊢
    subst hl
    exact h.eq_nil
  | some a =>
    rw [List.max?_eq_some_iff] at hl ⊢
    exact ⟨h.mem_iff.2 hl.1, fun b hb => hl.2 b (h.mem_iff.1 hb)⟩

theorem min_perm {l l' : List Rat} (h : l.Perm l') : l.min? = l'.min? := by
  cases hl : l'.min? with
  | none =>
    rw [List.min?_eq_none_iff] at hl ⊢
    subst hl
    exact h.eq_nil
  | some a =>
    rw [List.min?_eq_some_iff] at hl ⊢
    exact ⟨h.mem_iff.2 hl.1, fun b hb => hl.2 b (h.mem_iff.1 hb)⟩

theorem mapM_perm {α : Type} (f : α → Option Rat) {l l' : List α} (h : l.Perm l') :
    (l.mapM f = none ∧ l'.mapM f = none) ∨ ∃ a b, l.mapM f = some a ∧ l'.mapM f = some b ∧ a.Perm b := by
  induction h with
  | nil => exact Or.inr ⟨[], [], rfl, rfl, List.Perm.nil⟩
  | cons x _ ih =>
    simp only [List.mapM_cons]
    cases f x with
    | none => exact Or.inl ⟨rfl, rfl⟩
    | some y =>
      rcases ih with ⟨h1, h2⟩ | ⟨a, b, h1, h2, h3⟩
      · exact Or.inl ⟨by rw [h1]; rfl, by rw [h2]; rfl⟩
      · exact Or.inr ⟨y :: a, y :: b, by rw [h1]; rfl, by rw [h2]; rfl, h3.cons y⟩
  | swap x y l =>
    simp only [List.mapM_cons]
    cases f x with
    | none =>
      refine Or.inl ⟨?_, rfl⟩
      cases f y <;> rfl
    | some a =>
      cases f y with
      | none => exact Or.inl ⟨rfl, rfl⟩
      | some b =>
        cases l.mapM f with
        | none => exact Or.inl ⟨rfl, rfl⟩
        | some c => exact Or.inr ⟨b :: a :: c, a :: b :: c, rfl, rfl, List.Perm.swap a b c⟩
  | trans _ _ ih1 ih2 =>
    rcases ih1 with ⟨h1, h2⟩ | ⟨a, b, h1, h2, h3⟩
    · rcases ih2 with ⟨h4, h5⟩ | ⟨c, d, h4, h5, h6⟩
      · exact Or.inl ⟨h1, h5⟩
      · rw [h2] at h4; cases h4
    · rcases ih2 with ⟨h4, h5⟩ | ⟨c, d, h4, h5, h6⟩
      · rw [h2] at h4; cases h4
      · rw [h2] at h4
        cases h4
        exact Or.inr ⟨a, d, h1, h5, h3.trans h6⟩

theorem meanRows_perm {ls ls' : List (List Rat)} (h : ls.Perm ls') {k : Nat} (hk : ∀ l ∈ ls, l.length = k) : meanRows ls = meanRows ls' := by
  have hk' : ∀ l ∈ ls', l.length = k := fun l hl => hk l (h.mem_iff.2 hl)
  cases ls with
  | nil => rw [h.symm.eq_nil]
  | cons p l =>
    cases ls' with
    | nil => exact absurd h.eq_nil (by simp)
    | cons p' l' =>
      simp only [meanRows, hk p List.mem_cons_self, hk' p' List.mem_cons_self, h.length_eq, Option.some.injEq]
      refine List.map_congr_left (fun j _ => ?_)
      rw [(h.map (fun q : List Rat => q.getD j 0)).sum_eq]

theorem lon_lines {V : Type} {welch : Welch V} (hw : Sampled welch) (s : Scaling) (g : Area V) {σ : Nat → Nat} (hσ : Reorders σ g.ny) :
    lonContent welch s (g.lines σ) = lonContent welch s g := by
  have hp : ((List.range g.ny).map (line welch s (g.lines σ))).Perm ((List.range g.ny).map (line welch s g)) := by
    have := hσ.perm.map (line welch s g)
    rw [List.map_map] at this
    exact this
  have hlen : ∃ K, ∀ r ∈ (List.range g.ny).map (line welch s g), r.1.length = K := by
    refine ⟨(line welch s g 0).1.length, fun r hr => ?_⟩
    obtain ⟨j, _, rfl⟩ := List.mem_map.1 hr
    exact hw.size _ _ _ _ _ (by simp)
  obtain ⟨K, hK⟩ := hlen
  have form : ∀ h : Area V, lonContent welch s h = (((List.range h.ny).map (line welch s h)).getLast?).bind (fun last =>
      (((((List.range h.ny).map (line welch s h)).filterMap valid).mapM (fun (r : List Rat × List Rat) => r.1.min?)).bind (·.max?)).bind (fun fmin =>
      (((((List.range h.ny).map (line welch s h)).filterMap valid).mapM (fun (r : List Rat × List Rat) => r.1.max?)).bind (·.min?)).bind (fun fmax =>
      some ⟨linspace fmin fmax last.1.length, meanRows ((((List.range h.ny).map (line welch s h)).filterMap valid).map (fun r =>
        (linspace fmin fmax last.1.length).map (interpAt (r.1.zip r.2))))⟩))) := by
    intro h
    simp only [lonContent, Option.bind_eq_bind, Option.bind_assoc]
    rfl
  rw [form, form]
  show (((List.range g.ny).map (line welch s (g.lines σ))).getLast?).bind _ = _
  have hv := hp.filterMap valid
  revert hp hK hv
  change _ → _ → _ → _ = (((List.range g.ny).map (line welch s g)).getLast?).bind _
  generalize (List.range g.ny).map (line welch s g) = rs
  change _ → _ → _ → (((List.range g.ny).map (line welch s (g.lines σ))).getLast?).bind (fun last =>
      (((((List.range g.ny).map (line welch s (g.lines σ))).filterMap valid).mapM (fun (r : List Rat × List Rat) => r.1.min?)).bind (·.max?)).bind (fun fmin =>
      (((((List.range g.ny).map (line welch s (g.lines σ))).filterMap valid).mapM (fun (r : List Rat × List Rat) => r.1.max?)).bind (·.min?)).bind (fun fmax =>
      some (⟨linspace fmin fmax last.1.length, meanRows ((((List.range g.ny).map (line welch s (g.lines σ))).filterMap valid).map (fun r =>
        (linspace fmin fmax last.1.length).map (interpAt (r.1.zip r.2))))⟩ : Content)))) = _
  generalize (List.range g.ny).map (line welch s (g.lines σ)) = rs'
  intro hp hK hv
  have e1 : (((rs'.filterMap valid).mapM (fun (r : List Rat × List Rat) => r.1.min?)).bind (·.max?)) =
      (((rs.filterMap valid).mapM (fun (r : List Rat × List Rat) => r.1.min?)).bind (·.max?)) := by
    rcases mapM_perm (fun (r : List Rat × List Rat) => r.1.min?) hv with ⟨h1, h2⟩ | ⟨a, b, h1, h2, h3⟩
    · rw [h1, h2]
    · rw [h1, h2]
      exact max_perm h3
  have e2 : (((rs'.filterMap valid).mapM (fun (r : List Rat × List Rat) => r.1.max?)).bind (·.min?)) =
      (((rs.filterMap valid).mapM (fun (r : List Rat × List Rat) => r.1.max?)).bind (·.min?)) := by
    rcases mapM_perm (fun (r : List Rat × List Rat) => r.1.max?) hv with ⟨h1, h2⟩ | ⟨a, b, h1, h2, h3⟩
    · rw [h1, h2]
    · rw [h1, h2]
      exact min_perm h3
  rw [e1, e2]
  have e3 : ∀ f : List Rat, meanRows ((rs'.filterMap valid).map (fun r => f.map (interpAt (r.1.zip r.2)))) =
      meanRows ((rs.filterMap valid).map (fun r => f.map (interpAt (r.1.zip r.2)))) := by
    intro f
    refine meanRows_perm (hv.map _) (k := f.length) (fun l hl => ?_)
    obtain ⟨r, _, rfl⟩ := List.mem_map.1 hl
    rw [List.length_map]
  simp only [e3]
  cases h' : rs'.getLast? with
  | none =>
    rw [List.getLast?_eq_none_iff] at h'
    subst h'
    rw [hp.symm.eq_nil]
    rfl
  | some last' =>
    cases h : rs.getLast? with
    | none =>
      rw [List.getLast?_eq_none_iff] at h
      subst h
      rw [hp.eq_nil] at h'
      cases h'
    | some last =>
      simp only [Option.bind_some]
      rw [hK last (List.mem_of_getLast? h), hK last' (hp.mem_iff.1 (List.mem_of_getLast? h'))]

theorem lat_columns {V : Type} {welch : Welch V} (hw : Sampled welch) (s : Scaling) (g : Area V) {σ : Nat → Nat}
    (hσ : Reorders σ g.nx) : latContent welch s (g.columns σ) = latContent welch s g := by
  have hp : ((List.range g.nx).map (column welch s (g.columns σ))).Perm ((List.range g.nx).map (column welch s g)) := by
    have := hσ.perm.map (column welch s g)
    rw [List.map_map] at this
    exact this
  obtain ⟨F, hF⟩ : ∃ F, ∀ r ∈ (List.range g.nx).map (column welch s g), r.1 = F ∧ r.2.length = F.length := by
    refine ⟨(column welch s g 0).1, fun r hr => ?_⟩
    obtain ⟨j, _, rfl⟩ := List.mem_map.1 hr
    have h1 : (column welch s g j).1 = (column welch s g 0).1 := hw.freq _ _ _ _ (by simp)
    exact ⟨h1, by rw [← h1]; exact hw.len _ _ _⟩
  have hv := hp.filterMap valid
  show (((List.range g.nx).map (column welch s (g.columns σ))).getLast?).bind (fun last =>
      some (⟨last.1, meanRows ((((List.range g.nx).map (column welch s (g.columns σ))).filterMap valid).map (·.2))⟩ : Content)) =
    (((List.range g.nx).map (column welch s g)).getLast?).bind (fun last =>
      some (⟨last.1, meanRows ((((List.range g.nx).map (column welch s g)).filterMap valid).map (·.2))⟩ : Content))
  revert hp hF hv
  generalize (List.range g.nx).map (column welch s g) = rs
  generalize (List.range g.nx).map (column welch s (g.columns σ)) = rs'
  intro hp hF hv
  have e3 : meanRows ((rs'.filterMap valid).map (·.2)) = meanRows ((rs.filterMap valid).map (·.2)) := by
    refine meanRows_perm (hv.map _) (k := F.length) (fun l hl => ?_)
    obtain ⟨q, hq, rfl⟩ := List.mem_map.1 hl
    obtain ⟨r, hr, hrq⟩ := List.mem_filterMap.1 hq
    have := (hF r (hp.mem_iff.1 hr)).2
    rw [(valid_iff.1 hrq).2, List.length_map] at this
    exact this
  rw [e3]
  cases h' : rs'.getLast? with
  | none =>
    rw [List.getLast?_eq_none_iff] at h'
    subst h'
    rw [hp.symm.eq_nil]
    rfl
  | some last' =>
    cases h : rs.getLast? with
    | none =>
      rw [List.getLast?_eq_none_iff] at h
      subst h
      rw [hp.eq_nil] at h'
      cases h'
    | some last =>
      simp only [Option.bind_some]
      rw [(hF last (List.mem_of_getLast? h)).1, (hF last' (hp.mem_iff.1 (List.mem_of_getLast? h'))).1]

/-- **C221** (lines): the spectrum along the lines does not depend on the order of the lines. -/
theorem spectrum_lines {V : Type} {welch : Welch V} (hw : Sampled welch) (s : Scaling) (g : Area V) {σ : Nat → Nat} (hσ : Reorders σ g.ny) :
    (spectrum welch s (g.lines σ)).map (·.1) = (spectrum welch s g).map (·.1) := by
  have hlat : ∀ h : Area V, latContent welch s h = none ↔ h.nx = 0 := by
    intro h
    show (((List.range h.nx).map (column welch s h)).getLast?).bind (fun last =>
      some (⟨last.1, meanRows ((((List.range h.nx).map (column welch s h)).filterMap valid).map (·.2))⟩ : Content)) = none ↔ _
    rw [Option.bind_eq_none_iff]
    simp only [reduceCtorEq, imp_false, ← Option.eq_none_iff_forall_ne_some]
    rw [List.getLast?_eq_none_iff, List.map_eq_nil_iff, List.range_eq_nil]
  have hn : latContent welch s (g.lines σ) = none ↔ latContent welch s g = none := (hlat _).trans (hlat g).symm
  unfold spectrum
  rw [lon_lines hw s g hσ]
  cases h : latContent welch s g with
  | none => rw [hn.2 h]
  | some c =>
    cases h' : latContent welch s (g.lines σ) with
    | none => rw [hn.1 h'] at h; cases h
    | some c' => cases lonContent welch s g <;> rfl

/-- **C221** (columns): the spectrum along the columns does not depend on the order of the columns. -/
theorem spectrum_columns {V : Type} {welch : Welch V} (hw : Sampled welch) (s : Scaling) (g : Area V) {σ : Nat → Nat} (hσ : Reorders σ g.nx)
    {c c' : Content × Content} (h : spectrum welch s g = some c) (h' : spectrum welch s (g.columns σ) = some c') : c'.2 = c.2 := by
  have key : ∀ (k : Area V) (d : Content × Content), spectrum welch s k = some d → latContent welch s k = some d.2 := by
    intro k d hd
    unfold spectrum at hd
    cases h1 : latContent welch s k with
    | none => rw [h1] at hd; cases hd
    | some a =>
      cases h2 : lonContent welch s k with
      | none => rw [h1, h2] at hd; cases hd
      | some b =>
        rw [h1, h2] at hd
        cases hd
        rfl
  have e := key _ _ h'
  rw [lat_columns hw s g hσ, key _ _ h] at e
  exact (Option.some.inj e).symm

/-- **C221** (relative spectrum): the same for the spectrum relative to a reference, whose lines may be in still another order. -/
theorem reference_lines {V : Type} {welch : Welch V} (hw : Sampled welch) (s : Scaling) (g ref : Area V) {σ τ : Nat → Nat} (hσ : Reorders σ g.ny)
    (hτ : Reorders τ ref.ny) : (spectrumRef welch s (g.lines σ) (ref.lines τ)).map (·.1) = (spectrumRef welch s g ref).map (·.1) := by
  have h1 := spectrum_lines hw s g hσ
  have h2 := spectrum_lines hw .density ref hτ
  unfold spectrumRef
  revert h1 h2
  cases spectrum welch s (g.lines σ) <;> cases spectrum welch s g <;> cases spectrum welch .density (ref.lines τ) <;> cases spectrum welch .density ref <;>
    simp +contextual

theorem powerWelch_sampled : Sampled powerWelch :=
  ⟨fun _ _ s => by cases s <;> rfl, fun _ _ _ _ s _ => by cases s <;> rfl, fun _ _ _ s _ => by cases s <;> rfl⟩

/-- From north to south, from east to west: the spectrum in the other direction is another one. -/
example : Reorders (fun j => 1 - j) exUnits.ny ∧ Sampled powerWelch ∧
    spectrum powerWelch .density (exUnits.lines (fun j => 1 - j)) = some (⟨[1 / 4, 1 / 4], some [27 / 2, 27 / 2]⟩, ⟨[1 / 8, 1 / 4], some [30, 25]⟩) ∧
    spectrum powerWelch .density (exUnits.columns (fun j => 1 - j)) = some (⟨[1 / 4, 1 / 4], some [33 / 2, 33 / 2]⟩, ⟨[1 / 8, 1 / 4], some [30, 5]⟩) := by
  refine ⟨⟨fun j hj => ?_, fun j j' hj hj' e => ?_⟩, powerWelch_sampled, by decide +kernel⟩
  · show 1 - j < 2
    omega
  · change j < 2 at hj
    change j' < 2 at hj'
    change 1 - j = 1 - j' at e
    omega

end Verif.Spectrum
