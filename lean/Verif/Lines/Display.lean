import Verif.Lines.Paths

/-!
# C192: contours drawn on a map

Model of `EddiesObservations.display` (src/py_eddy_tracker/observations/observation.py:2118-2152): the arrays, the labels and the styles of lines
given to matplotlib. The text of labels is abstract. Longitudes and latitudes are exact numbers. `flatten_line_matrix` writes one cell
after the end of its array (C41, `flatten_writes_outside`): what this write does to the memory of the process is not modelled, the
content of the array is.
-/

namespace Verif.Lines

/-! ### Model -/

/-- The options of a line: `label` and `ls` or `linestyle`. -/
structure LineOpts where
  label : Option String
  ls : Option String
deriving DecidableEq

/-- The array of `flatten_line_matrix` (generic.py:331-355): the writes which are in the array. -/
def flattenInside {α : Type} (nan : α) (rows : List (List α)) (sampling : Nat) : Option (List α) :=
  if finalSize rows.length sampling < 1 then some [nan]
  else store (finalSize rows.length sampling).toNat
    ((flattenWrites nan rows 0).filter (fun w => decide (w.1 < (finalSize rows.length sampling).toNat)))

/-- `flatten_line_matrix` of the longitudes and of the latitudes (observation.py:2130-2134), which have the same shape. -/
def flatContours (sampling : Nat) (contours : List (List (Rat × Rat))) : Option (List VPt) :=
  flattenInside (none, none) (contours.map (fun c => c.map pt)) sampling

/-- `kwargs_e` (observation.py:2137-2141). -/
def effectiveOpts (externOnly : Bool) (o : LineOpts) : LineOpts :=
  ⟨if externOnly then o.label else none, match o.ls with
    | some s => some s
    | none => some "-."⟩

/-- One line (observation.py:2144-2151). -/
def contourLine (ref : Option Rat) (sampling : Nat) (o : LineOpts) (contours : List (List (Rat × Rat))) : Option (List VPt × LineOpts) :=
  ((flatContours sampling contours).bind (cutAt ref)).map (fun l => (l, o))

/-- A line which is drawn or not. -/
def lineIf (b : Bool) (l : Option (List VPt × LineOpts)) : Option (List (List VPt × LineOpts)) :=
  if b then l.map (fun x => [x]) else some []

/-- `display` (observation.py:2118-2152) for the speed contours and the effective contours. -/
def display (ref : Option Rat) (externOnly internOnly : Bool) (sampling : Nat) (o : LineOpts) (speed effective : List (List (Rat × Rat))) :
    Option (List (List VPt × LineOpts)) := do
  let s ← lineIf (!externOnly) (contourLine ref sampling o speed)
  let e ← lineIf (!internOnly) (contourLine ref sampling (effectiveOpts externOnly o) effective)
  some (s ++ e)

/-! ### Specification -/

/-- `a` and `b` are consecutive vertices of a contour. -/
def Edge (contours : List (List (Rat × Rat))) (a b : Rat × Rat) : Prop := ∃ c ∈ contours, ∃ k : Nat, c[k]? = some a ∧ c[k + 1]? = some b

/-- Contours of the same number of vertices, whose consecutive vertices are at most 180 degrees apart. -/
structure Sound (sampling : Nat) (contours : List (List (Rat × Rat))) : Prop where
  size : ∀ c ∈ contours, c.length = sampling
  short : ∀ a b, Edge contours a b → |b.1 - a.1| ≤ 180

/-- The line shows the edges of the contours and nothing else, each vertex being in the map. -/
def ContoursShown (ref : Option Rat) (contours : List (List (Rat × Rat))) (l : List VPt) : Prop :=
  Shown (Edge contours) l ∧ ∀ c ∈ contours, ∀ a ∈ c, PointShown ref a l

/-! ### Proofs -/

theorem one_pairs (r : List (Rat × Rat)) (t : VPt × VPt) :
    (t ∈ pairs (r.map pt) ∧ t.1.1 ≠ none ∧ t.2.1 ≠ none) ↔ ∃ a b, Edge [r] a b ∧ t = (pt a, pt b) := by
  rw [pairs_map]
  constructor
  · rintro ⟨ht, _, _⟩
    obtain ⟨s, hs, rfl⟩ := List.mem_map.1 ht
    obtain ⟨k, h1, h2⟩ := mem_pairs.1 hs
    exact ⟨s.1, s.2, ⟨r, by simp, k, h1, h2⟩, rfl⟩
  · rintro ⟨a, b, ⟨c, hc, k, h1, h2⟩, rfl⟩
    obtain rfl := List.mem_singleton.1 hc
    exact ⟨List.mem_map.2 ⟨(a, b), mem_pairs.2 ⟨k, h1, h2⟩, rfl⟩, by simp [pt], by simp [pt]⟩

theorem inter_pairs : ∀ (rows : List (List (Rat × Rat))), ∀ t : VPt × VPt,
    (t ∈ pairs ([((none, none) : VPt)].intercalate (rows.map (fun c => c.map pt))) ∧ t.1.1 ≠ none ∧ t.2.1 ≠ none) ↔
      ∃ a b, Edge rows a b ∧ t = (pt a, pt b)
  | [], t => by simp [List.intercalate, pairs, Edge]
  | [r], t => by
    simp only [List.map_cons, List.map_nil, List.intercalate_singleton]
    exact one_pairs r t
  | r :: r' :: rows, t => by
    have ih := inter_pairs (r' :: rows) t
    have hr := one_pairs r t
    have e : [((none, none) : VPt)].intercalate ((r :: r' :: rows).map (fun c => c.map pt)) =
        r.map pt ++ (none, none) :: [((none, none) : VPt)].intercalate ((r' :: rows).map (fun c => c.map pt)) := by
      simp only [List.map_cons]
      rw [List.intercalate_cons_cons]
      simp
    rw [e]
    generalize hi : [((none, none) : VPt)].intercalate ((r' :: rows).map (fun c => c.map pt)) = m at ih
    have key : ∀ l : List VPt, (t ∈ pairs (l ++ (none, none) :: m) ∧ t.1.1 ≠ none ∧ t.2.1 ≠ none) ↔
        ((t ∈ pairs l ∧ t.1.1 ≠ none ∧ t.2.1 ≠ none) ∨ (t ∈ pairs m ∧ t.1.1 ≠ none ∧ t.2.1 ≠ none)) := by
      have h0 : (t ∈ pairs ((none, none) :: m) ∧ t.1.1 ≠ none ∧ t.2.1 ≠ none) ↔ (t ∈ pairs m ∧ t.1.1 ≠ none ∧ t.2.1 ≠ none) := by
        cases m with
        | nil => simp [pairs]
        | cons x m =>
          rw [pairs_cons, List.mem_cons]
          constructor
          · rintro ⟨rfl | h, h1, h2⟩
            · exact absurd rfl h1
            · exact ⟨h, h1, h2⟩
          · rintro ⟨h, h1⟩
            exact ⟨Or.inr h, h1⟩
      intro l
      induction l with
      | nil => rw [List.nil_append, h0]; simp [pairs]
      | cons x l ih =>
        cases l with
        | nil =>
          rw [List.cons_append, List.nil_append, pairs_cons, List.mem_cons]
          constructor
          · rintro ⟨rfl | h, h1, h2⟩
            · exact absurd rfl h2
            · exact Or.inr (h0.1 ⟨h, h1, h2⟩)
          · rintro (⟨h, _⟩ | h)
            · simp [pairs] at h
            · exact ⟨Or.inr (h0.2 h).1, (h0.2 h).2⟩
        | cons y l =>
          rw [List.cons_append, List.cons_append, pairs_cons, List.mem_cons, pairs_cons, List.mem_cons]
          rw [List.cons_append] at ih
          constructor
          · rintro ⟨h | h, h1⟩
            · exact Or.inl ⟨Or.inl h, h1⟩
            · rcases ih.1 ⟨h, h1⟩ with h | h
              · exact Or.inl ⟨Or.inr h.1, h.2⟩
              · exact Or.inr h
          · rintro (⟨h | h, h1⟩ | h)
            · exact ⟨Or.inl h, h1⟩
            · have := ih.2 (Or.inl ⟨h, h1⟩)
              exact ⟨Or.inr this.1, this.2⟩
            · have := ih.2 (Or.inr h)
              exact ⟨Or.inr this.1, this.2⟩
    rw [key, hr, ih]
    constructor
    · rintro (⟨a, b, ⟨c, hc, h⟩, rfl⟩ | ⟨a, b, ⟨c, hc, h⟩, rfl⟩)
      · exact ⟨a, b, ⟨c, by simp at hc; simp [hc], h⟩, rfl⟩
      · exact ⟨a, b, ⟨c, List.mem_cons_of_mem _ hc, h⟩, rfl⟩
    · rintro ⟨a, b, ⟨c, hc, h⟩, rfl⟩
      rcases List.mem_cons.1 hc with rfl | hc
      · exact Or.inl ⟨a, b, ⟨c, by simp, h⟩, rfl⟩
      · exact Or.inr ⟨a, b, ⟨c, hc, h⟩, rfl⟩

theorem inter_mem : ∀ (rows : List (List VPt)), ∀ r ∈ rows, ∀ p ∈ r, p ∈ [((none, none) : VPt)].intercalate rows
  | [], r, h, _, _ => by simp at h
  | [r], r', h, p, hp => by
    obtain rfl := List.mem_singleton.1 h
    simpa using hp
  | r :: r' :: rows, x, h, p, hp => by
    rw [List.intercalate_cons_cons]
    rcases List.mem_cons.1 h with rfl | h
    · simp [hp]
    · have := inter_mem (r' :: rows) x h p hp
      simp [this]

theorem inside_eq {α : Type} (nan : α) {s : Nat} {rows : List (List α)} (hne : rows ≠ []) (h1 : 1 ≤ s) (hs : ∀ r ∈ rows, r.length = s) :
    flattenInside nan rows s = some ([nan].intercalate rows) := by
  obtain ⟨e1, e2⟩ := flatten_partial nan hne hs
  have hpos : 0 < rows.length := List.length_pos_iff.2 hne
  have : (rows.length : Int) ≤ (rows.length : Int) * (s : Int) := by
    have : rows.length ≤ rows.length * s := Nat.le_mul_of_pos_right _ (by omega)
    exact_mod_cast this
  unfold flattenInside
  rw [if_neg (by unfold finalSize; omega), e1, List.filter_append, List.filter_eq_self.2, List.filter_eq_nil_iff.2, List.append_nil, ← e2,
    store_enum]
  · intro w hw
    rw [List.mem_singleton.1 hw]
    simp
  · intro w hw
    have := (enum_mem hw).2
    simp only [decide_eq_true_eq]
    omega

/-- **C192** (lines): a line shows the edges of the contours and nothing else. -/
theorem contour_line_spec (ref : Option Rat) {sampling : Nat} (hs : 0 < sampling) (o : LineOpts) {contours : List (List (Rat × Rat))}
    (h : Sound sampling contours) : ∃ l, contourLine ref sampling o contours = some (l, o) ∧ ContoursShown ref contours l := by
  have hflat : ∃ l, flatContours sampling contours = some l ∧ l ≠ [] ∧
      (∀ t : VPt × VPt, (t ∈ pairs l ∧ t.1.1 ≠ none ∧ t.2.1 ≠ none) ↔ ∃ a b, Edge contours a b ∧ t = (pt a, pt b)) ∧
      ∀ c ∈ contours, ∀ a ∈ c, pt a ∈ l := by
    cases contours with
    | nil =>
      refine ⟨[(none, none)], by simp [flatContours, flattenInside, finalSize], by simp, fun t => ?_, by simp⟩
      simp [pairs, Edge]
    | cons c cs =>
      have hne : ∀ r ∈ c :: cs, r ≠ [] := by
        rintro r hr rfl
        have := h.size _ hr
        simp at this
        omega
      have hf := inside_eq ((none, none) : VPt) (s := sampling) (rows := (c :: cs).map (fun c => c.map pt)) (by simp) hs (by
        intro r hr
        obtain ⟨c', hc', rfl⟩ := List.mem_map.1 hr
        rw [List.length_map]
        exact h.size c' hc')
      refine ⟨[((none, none) : VPt)].intercalate ((c :: cs).map (fun c => c.map pt)), by unfold flatContours; exact hf, ?_, inter_pairs (c :: cs), fun c' hc' a ha => ?_⟩
      · obtain ⟨a, m, rfl⟩ := List.exists_cons_of_ne_nil (hne c (by simp))
        intro h0
        have := inter_mem (((a :: m) :: cs).map (fun c => c.map pt)) ((a :: m).map pt) (by simp) (pt a) (by simp)
        rw [h0] at this
        simp at this
      · exact inter_mem _ (c'.map pt) (List.mem_map.2 ⟨c', hc', rfl⟩) _ (List.mem_map.2 ⟨a, ha, rfl⟩)
  obtain ⟨l, e1, h1, h2, h3⟩ := hflat
  obtain ⟨out, e2, h4, h5⟩ := cut_shown ref h1 h.short h2
  refine ⟨out, ?_, h4, fun c hc a ha => h5 a (h3 c hc a ha)⟩
  unfold contourLine
  rw [e1, Option.bind_some, e2]
  rfl

/-- **C192**: without option the speed contours are drawn then the effective contours, `extern_only` leaves the effective contours,
`intern_only` the speed contours; each line shows the edges of its contours and nothing else; the speed line has the options of the
user, the effective line is dashed unless a style is given and has the label only when it is alone. Missing for the whole property:
the write after the end of the array, see `display_writes_outside`. -/
theorem display_partial (ref : Option Rat) {sampling : Nat} (hs : 0 < sampling) (o : LineOpts) {speed effective : List (List (Rat × Rat))}
    (h1 : Sound sampling speed) (h2 : Sound sampling effective) :
    ∃ s e : List VPt, ContoursShown ref speed s ∧ ContoursShown ref effective e ∧
      display ref false false sampling o speed effective = some [(s, o), (e, ⟨none, some (o.ls.getD "-.")⟩)] ∧
      display ref false true sampling o speed effective = some [(s, o)] ∧
      display ref true false sampling o speed effective = some [(e, ⟨o.label, some (o.ls.getD "-.")⟩)] ∧
      display ref true true sampling o speed effective = some [] := by
  obtain ⟨s, e1, c1⟩ := contour_line_spec ref hs o h1
  have he : ∀ b, effectiveOpts b o = ⟨if b then o.label else none, some (o.ls.getD "-.")⟩ := by
    intro b
    unfold effectiveOpts
    cases o.ls <;> rfl
  obtain ⟨e, e2, c2⟩ := contour_line_spec ref hs (effectiveOpts false o) h2
  have e3 : contourLine ref sampling (effectiveOpts true o) effective = some (e, effectiveOpts true o) := by
    unfold contourLine at e2 ⊢
    obtain ⟨x, hx, ex⟩ := Option.map_eq_some_iff.1 e2
    rw [hx]
    simp only [Prod.mk.injEq] at ex
    simp [ex.1]
  have r1 : display ref false false sampling o speed effective = some [(s, o), (e, effectiveOpts false o)] := by
    unfold display lineIf
    simp [e1, e2]
  have r2 : display ref false true sampling o speed effective = some [(s, o)] := by
    unfold display lineIf
    simp [e1]
  have r3 : display ref true false sampling o speed effective = some [(e, effectiveOpts true o)] := by
    unfold display lineIf
    simp [e3]
  have r4 : display ref true true sampling o speed effective = some [] := by
    unfold display lineIf
    simp
  rw [he] at r1 r3
  exact ⟨s, e, c1, c2, by simpa using r1, r2, by simpa using r3, r4⟩

/-- **Disagreement with C192**: as soon as there is an eddy, the flattening of its contours writes outside of its array. -/
theorem display_writes_outside {sampling : Nat} (hs : 0 < sampling) {contours : List (List (Rat × Rat))} (h : Sound sampling contours)
    (hne : contours ≠ []) : flattenLines ((none, none) : VPt) (contours.map (fun c => c.map pt)) sampling = none := by
  refine flatten_writes_outside _ (by simpa using hne) hs fun r hr => ?_
  obtain ⟨c, hc, rfl⟩ := List.mem_map.1 hr
  rw [List.length_map]
  exact h.size c hc

/-- Two contours, the second through the border of the map. -/
def twoContours : List (List (Rat × Rat)) := [[(10, 0), (11, 1), (10, 0)], [(-1, 5), (1, 6), (-1, 5)]]

example : Sound 3 twoContours := by
  refine ⟨by decide, ?_⟩
  rintro a b ⟨c, hc, k, h1, h2⟩
  simp only [twoContours, List.mem_cons, List.not_mem_nil, or_false] at hc
  rcases hc with rfl | rfl
  all_goals
    match k, h1, h2 with
    | 0, h1, h2 => simp at h1 h2; subst h1 h2; norm_num [abs_le]
    | 1, h1, h2 => simp at h1 h2; subst h1 h2; norm_num [abs_le]
    | k + 2, h1, h2 => simp at h2

example : (display none false true 3 ⟨some "A", none⟩ twoContours []) =
    some [([pt (10, 0), pt (11, 1), pt (10, 0), (none, none), pt (-1, 5), pt (1, 6), pt (-1, 5)], ⟨some "A", none⟩)] := by decide +kernel

example : ((display (some 0) false false 3 ⟨some "A", none⟩ twoContours twoContours).map (fun l => l.map (fun x => (x.1.length, x.2)))) =
    some [(13, ⟨some "A", none⟩), (13, ⟨none, some "-."⟩)] := by decide +kernel

end Verif.Lines
