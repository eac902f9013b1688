import Verif.Segmentation.Props
import Verif.Links.Props

/-!
# From the segments to a network (C20)
-/

namespace Verif.Segmentation

/-! ### Model -/

/-- A row of `split_network` as a row of a network. -/
def toLink (r : Row) : Links.Row Row := ⟨r, r.prev, r.next⟩

/-- `from_split_network`, network.py:306-333; `le` is the order of records of numpy: fields `group`, `track`, `time` (then the
others). `translate` has `index_order.max() + 2` cells, one more than the number of observations as in `sort`. -/
def fromSplit (le : Links.Row Row → Links.Row Row → Bool) (rows : List Row) : Option (List (Links.Row Row)) :=
  Links.sort le (rows.map toLink)

/-- Order of the fields `group`, `track`, `time`. -/
def Lex (a b : Row) : Prop :=
  a.group < b.group ∨ (a.group = b.group ∧ (a.track < b.track ∨ (a.track = b.track ∧ a.time ≤ b.time)))

instance (a b : Row) : Decidable (Lex a b) := by unfold Lex; infer_instance

/-! ### Properties -/

theorem cols_get {rows : List Row} {k : Nat} {r : Row} (h : rows[k]? = some r) :
    (cols rows).track k = r.track ∧ (cols rows).prev k = r.prev ∧ (cols rows).next k = r.next := by
  simp [cols, h]

/-- The links of a correct segmentation designate observations. -/
theorem links_valid {groups : List Nat} {steps : List Int} {ov : Nat → Nat → Rat} {window : Int} {rows : List Row}
    (hlen : rows.length = steps.length) (h : Segmented (fun k => groups.getD k 0) steps ov window (cols rows)) :
    Links.Valid (rows.map toLink) := by
  intro r hr
  obtain ⟨r0, hr0, rfl⟩ := List.mem_map.1 hr
  obtain ⟨k, hk⟩ := List.getElem?_of_mem hr0
  have hkl : k < steps.length := by rw [← hlen]; exact (List.getElem?_eq_some_iff.1 hk).1
  obtain ⟨_, e2, e3⟩ := cols_get hk
  rw [List.length_map, hlen]
  simp only [toLink]
  rw [← e2, ← e3]
  by_cases h0 : groups.getD k 0 = 0
  · obtain ⟨_, o2, o3⟩ := h.outside k hkl h0
    rw [o2, o3]; omega
  · constructor
    · rcases h.backward k hkl h0 with ⟨g1, _⟩ | ⟨p, g1, g2 | g2⟩
      · rw [g1]; omega
      · rw [g1]; omega
      · obtain ⟨_, _, _, g3, _⟩ := g2
        have := (List.getElem?_eq_some_iff.1 g3).1
        rw [g1]; omega
    · obtain ⟨r, h1, h2⟩ := h.forward k hkl h0
      rcases r with _ | ⟨t, c⟩
      · rw [h2]; omega
      · obtain ⟨_, _, _, g3, _⟩ := h1
        have := (List.getElem?_eq_some_iff.1 g3).1
        rw [h2.1]; omega

/-- C20: the network built from the segments of a dataset. It contains every observation once, in the order of networks,
segments and time; links are valid; the rows of a segment follow each other, are linked in both directions and have
increasing time steps. -/
theorem from_split_network_spec (le : Links.Row Row → Links.Row Row → Bool) (hle : ∀ a b, le a b = true → Lex a.data b.data)
    (htot : ∀ a b, le a b = true ∨ le b a = true) (htr : ∀ a b c, le a b = true → le b c = true → le a c = true)
    (groups : List Nat) (hne : groups ≠ []) (hs : groups.Pairwise (· ≤ ·)) (steps : List Int)
    (hlen : steps.length = groups.length) (ov : Nat → Nat → Rat) (hov : ∀ i j, 0 ≤ ov i j) (window : Int)
    (ht : ∀ i j : Nat, i < j → j < groups.length → groups[i]? = groups[j]? → steps.getD i 0 ≤ steps.getD j 0) :
    ∃ rows out, splitNetwork groups ov steps window = some rows ∧ fromSplit le rows = some out ∧
      (out.map (·.data)).Perm rows ∧ (out.map (·.data)).Pairwise Lex ∧ Links.Valid out ∧
      ∀ (k : Nat) (a b : Links.Row Row), out[k]? = some a → out[k + 1]? = some b → a.data.group = b.data.group →
        a.data.group ≠ 0 → a.data.track = b.data.track →
        a.next = ((k + 1 : Nat) : Int) ∧ b.prev = (k : Int) ∧ a.data.time < b.data.time := by
  obtain ⟨rows, hrows, hg, hst, hS⟩ := split_network_spec groups hne hs steps hlen ov hov window ht
  have hrl : rows.length = steps.length := by rw [← hst, List.length_map]
  have hv := links_valid hrl hS
  obtain ⟨out, idx, h1, hperm, htake, hvo, -⟩ := Links.sort_links le (rows.map toLink) hv
  have hsorted := Links.sort_sorted le Lex hle htot htr (rows.map toLink) out hv h1
  rw [List.length_map] at hperm
  have hnd : idx.Nodup := hperm.nodup_iff.2 List.nodup_range
  -- what a row of the result is
  have hrow : ∀ (k : Nat) (r : Links.Row Row), out[k]? = some r → ∃ i : Nat, idx[k]? = some i ∧ rows[i]? = some r.data ∧
      Links.Image idx r.data.prev r.prev ∧ Links.Image idx r.data.next r.next := by
    intro k r hk
    obtain ⟨i, r0, g1, g2, g3, g4, g5⟩ := htake.2 k r hk
    rw [List.getElem?_map] at g2
    obtain ⟨r1, g6, rfl⟩ := Option.map_eq_some_iff.1 g2
    have e : r.data = r1 := g3
    rw [e]
    exact ⟨i, g1, g6, g4, g5⟩
  have hdata : out.map (·.data) = idx.map (fun i => (rows[i]?).getD ⟨0, 0, 0, 0, 0, 0, 0⟩) := by
    apply List.ext_getElem?
    intro k
    rw [List.getElem?_map, List.getElem?_map]
    by_cases hk : k < out.length
    · obtain ⟨i, g1, g2, _⟩ := hrow k _ (List.getElem?_eq_getElem hk)
      rw [List.getElem?_eq_getElem hk, g1, Option.map_some, Option.map_some, g2]
      rfl
    · have := htake.1
      rw [List.getElem?_eq_none (by omega), List.getElem?_eq_none (by omega)]; rfl
  have hpermd : (out.map (·.data)).Perm rows := by
    rw [hdata]
    refine (hperm.map _).trans ?_
    have : (List.range rows.length).map (fun i => (rows[i]?).getD ⟨0, 0, 0, 0, 0, 0, 0⟩) = rows := by
      apply List.ext_getElem?
      intro k
      rw [List.getElem?_map]
      by_cases hk : k < rows.length
      · rw [List.getElem?_range hk, List.getElem?_eq_getElem hk]
        simp [List.getElem?_eq_getElem hk]
      · rw [List.getElem?_eq_none (by simpa using hk), List.getElem?_eq_none (by omega)]; rfl
    rw [this]
  refine ⟨rows, out, hrows, h1, hpermd, hsorted, hvo, fun k a b ha hb hab h0 hseg => ?_⟩
  obtain ⟨i, i1, i2, _, i4⟩ := hrow k a ha
  obtain ⟨j, j1, j2, j3, _⟩ := hrow (k + 1) b hb
  have hgr : ∀ {x : Nat} {r : Row}, rows[x]? = some r → groups.getD x 0 = r.group ∧ steps[x]? = some r.time ∧ x < steps.length := by
    intro x r hx
    have hxl := (List.getElem?_eq_some_iff.1 hx).1
    refine ⟨?_, ?_, by omega⟩
    · rw [List.getD_eq_getElem?_getD, ← hg, List.getElem?_map, hx]; rfl
    · rw [← hst, List.getElem?_map, hx]; rfl
  obtain ⟨gi, ti, il⟩ := hgr i2
  obtain ⟨gj, tj, jl⟩ := hgr j2
  obtain ⟨ci1, ci2, ci3⟩ := cols_get i2
  obtain ⟨cj1, cj2, cj3⟩ := cols_get j2
  have hord : ∀ (x y : Nat) (rx ry : Links.Row Row), x < y → out[x]? = some rx → out[y]? = some ry → Lex rx.data ry.data := by
    intro x y rx ry hxy hx hy
    rw [List.pairwise_map, List.pairwise_iff_getElem] at hsorted
    obtain ⟨hx1, hx2⟩ := List.getElem?_eq_some_iff.1 hx
    obtain ⟨hy1, hy2⟩ := List.getElem?_eq_some_iff.1 hy
    have := hsorted x y hx1 hy1 hxy
    rw [hx2, hy2] at this
    exact this
  have hne' : i ≠ j := by
    rintro rfl
    have := (List.nodup_iff_getElem?_ne_getElem?.1 hnd) k (k + 1) (by omega) (List.getElem?_eq_some_iff.1 j1).1
    rw [i1, j1] at this
    exact this rfl
  -- strict order of time in a segment
  have huniq : ∀ {x y : Nat} {rx ry : Row}, rows[x]? = some rx → rows[y]? = some ry → rx.group = ry.group → rx.group ≠ 0 →
      rx.track = ry.track → rx.time = ry.time → x = y := by
    intro x y rx ry hx hy h1 h2 h3 h4
    obtain ⟨gx, tx, xl⟩ := hgr hx
    obtain ⟨gy, ty, yl⟩ := hgr hy
    refine hS.unique x y xl yl (by rw [gx, gy, h1]) (by rw [gx]; exact h2) ?_ (by rw [tx, ty, h4])
    rw [(cols_get hx).1, (cols_get hy).1, h3]
  have htimes : ∀ {x y : Nat} {rx ry : Row}, rows[x]? = some rx → rows[y]? = some ry → rx.group = ry.group → x < y →
      rx.time ≤ ry.time := by
    intro x y rx ry hx hy h1 hxy
    obtain ⟨gx, tx, xl⟩ := hgr hx
    obtain ⟨gy, ty, yl⟩ := hgr hy
    have := ht x y hxy (by omega) (by
      rw [← hg, List.getElem?_map, List.getElem?_map, hx, hy]
      simp [h1])
    rw [List.getD_eq_getElem?_getD, List.getD_eq_getElem?_getD, tx, ty] at this
    exact this
  have hlt : a.data.time < b.data.time := by
    have h3 := hord k (k + 1) a b (by omega) ha hb
    have h4 : a.data.time ≠ b.data.time := fun h => hne' (huniq i2 j2 hab h0 hseg h)
    unfold Lex at h3
    omega
  have hij : i < j := by
    by_contra hc
    have := htimes j2 i2 hab.symm (by omega)
    omega
  obtain ⟨e1, e2⟩ := hS.consecutive i j hij jl (by rw [gi, gj, hab]) (by rw [gi]; exact h0)
    (by rw [ci1, cj1, hseg]) (by
      intro l l1 l2 l3 l4
      have hll : l < rows.length := by omega
      obtain ⟨m, hm⟩ := List.getElem?_of_mem (hperm.mem_iff.2 (List.mem_range.2 hll))
      have hml : m < out.length := by rw [htake.1]; exact (List.getElem?_eq_some_iff.1 hm).1
      have hrm := List.getElem?_eq_getElem hml
      obtain ⟨l', m1, m2, _⟩ := hrow m _ hrm
      rw [hm] at m1
      obtain rfl := Option.some.inj m1
      generalize out[m] = c at *
      obtain ⟨gl, tl, _⟩ := hgr m2
      obtain ⟨cl1, _⟩ := cols_get m2
      rw [gl, gi] at l3
      rw [cl1, ci1] at l4
      have t1 := htimes i2 m2 l3.symm l1
      have t2 := htimes m2 j2 (by rw [l3, hab]) l2
      have t3 : a.data.time ≠ c.data.time := fun h => absurd (huniq i2 m2 l3.symm h0 l4.symm h) (by omega)
      have t4 : c.data.time ≠ b.data.time := fun h => absurd (huniq m2 j2 (by rw [l3, hab]) (by rw [l3]; exact h0)
        (by rw [l4, hseg]) h) (by omega)
      rcases Nat.lt_trichotomy m k with hmk | hmk | hmk
      · have := hord m k c a hmk hrm ha
        unfold Lex at this
        omega
      · rw [hmk] at hm
        rw [i1] at hm
        have := Option.some.inj hm
        omega
      · rcases Nat.lt_or_eq_of_le (show k + 1 ≤ m by omega) with h | h
        · have := hord (k + 1) m b c h hb hrm
          unfold Lex at this
          omega
        · rw [← h, j1] at hm
          have := Option.some.inj hm
          omega)
  rw [ci3] at e1
  rw [cj2] at e2
  have himg : ∀ (x y : Nat) (q : Int), idx[y]? = some x → Links.Image idx (x : Int) q → q = y := by
    intro x y q hy hq
    rcases hq with ⟨k', t, q1, q2, q3⟩ | ⟨_, q2⟩
    · obtain rfl : x = t := by exact_mod_cast q1
      rw [q3]
      have hyl := (List.getElem?_eq_some_iff.1 hy).1
      have hkl := (List.getElem?_eq_some_iff.1 q2).1
      have hinj := (List.nodup_iff_getElem?_ne_getElem?.1 hnd)
      rcases Nat.lt_trichotomy k' y with h | h | h
      · exact absurd (by rw [q2, hy]) (hinj k' y h hyl)
      · rw [h]
      · exact absurd (by rw [q2, hy]) (hinj y k' h hkl)
    · exact absurd rfl (q2 x (List.mem_of_getElem? hy))
  rw [e1] at i4
  rw [e2] at j3
  exact ⟨himg j (k + 1) _ j1 i4, himg i k _ i1 j3, hlt⟩

/-! ### Examples -/

/-- Two groups and observations without group. In group 3, observations 2 (step 0) and 3 (step 0) both lead to 4 (step 1),
3 overlaps it more; 5 (step 2) follows 4. -/
def exGroups : List Nat := [0, 0, 3, 3, 3, 3, 5]
def exSteps : List Int := [2, 4, 0, 0, 1, 2, 2]
def exOv (i j : Nat) : Rat :=
  if (i, j) ∈ [(2, 4), (4, 2)] then 1/2 else if (i, j) ∈ [(3, 4), (4, 3), (4, 5), (5, 4), (5, 6), (0, 1)] then 3/4 else 0

example : exGroups.Pairwise (· ≤ ·) := by decide
example : ∀ i j : Nat, i < j → j < exGroups.length → exGroups[i]? = exGroups[j]? → exSteps.getD i 0 ≤ exSteps.getD j 0 := by
  have h : ∀ j, j < 7 → ∀ i, i < j → exGroups[i]? = exGroups[j]? → exSteps.getD i 0 ≤ exSteps.getD j 0 := by decide
  exact fun i j h1 h2 => h j h2 i h1
example : ∀ i j, 0 ≤ exOv i j := by
  intro i j
  unfold exOv
  split
  · norm_num
  · split <;> norm_num

/-- Segment 2 (observation 3) takes the observations 4 and 5 from segment 1. -/
example : (splitNetwork exGroups exOv exSteps 5).map (·.map (fun r => (r.track, r.prev, r.next))) =
    some [(0, -1, -1), (0, -1, -1), (1, -1, 4), (2, -1, 4), (2, 3, 5), (2, 4, -1), (1, -1, -1)] := by decide +kernel

example : ((splitNetwork exGroups exOv exSteps 5).bind (fromSplit (fun a b => decide (Lex a.data b.data)))).map
    (·.map (fun r => (r.data.time, r.prev, r.next))) =
    some [(2, -1, -1), (4, -1, -1), (0, -1, 4), (0, -1, 4), (1, 3, 5), (2, 4, -1), (2, -1, -1)] := by decide +kernel

end Verif.Segmentation
