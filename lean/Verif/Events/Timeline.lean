import Verif.Events.Marks

/-!
# C187: timelines of networks

Model of what `display_timeline` and `scatter_timeline` draw (src/py_eddy_tracker/observations/network.py), on the model of the marks of
C151 and of the means of C148. Values are exact; the times of the points are their rows.
-/

namespace Verif.Events

open Verif.Segments (Obs First Last)
open Verif.Bins (groupsOf positions Group pick mean members meanBySegment)

/-! ### Model -/

/-- The option `field`: `None`, the name of a variable of the dataset or an array. -/
inductive YField where
  | segments
  | name (v : List Rat)
  | array (v : List Rat)

/-- The options `field`, `method == "all"` and `factor`. -/
structure Style where
  field : YField
  all : Bool
  factor : Rat

/-- `only_one_network` (network.py:725-732): `index_network` raises without observation. -/
def onlyOneNetwork : List Obs → Bool
  | [] => false
  | o :: l => l.all (fun p => p.track == o.track)

/-- The height of a row of a segment drawn by `display_timeline` (network.py:811-818) and, for the first and last rows of the segment,
by `event_timeline` (network.py:863-869). -/
def heightIn (s : Style) (g : Group) (k : Nat) : Option Rat :=
  match s.field with
  | .segments => some g.lo
  | .name v => if s.all then v[k]?.map (fun x => x * s.factor) else some (mean (pick v g.obs) * s.factor)
  | .array v => if s.all then v[k]?.map (fun x => x * s.factor) else some (mean (pick v g.obs) * s.factor)

/-- `y_seg[seg]` (network.py:841-845). -/
def ySeg (s : Style) (gs : List Group) (v : List Rat) (seg : Nat) : Option Rat :=
  (gs.find? (fun g => decide (g.lo = (seg : Rat)))).map (fun g => mean (pick v g.obs) * s.factor)

/-- The height of the other end of a line of event (network.py:871-880, 885-895). -/
def heightTo (s : Style) (obs : List Obs) (gs : List Group) (t : Nat) : Option Rat := do
  let o ← obs[t]?
  match s.field with
  | .segments => some (o.seg : Rat)
  | .name v => if s.all then v[t]?.map (fun x => x * s.factor) else ySeg s gs v o.seg
  | .array v => if s.all then v[t]?.map (fun x => x * s.factor) else ySeg s gs v o.seg

/-- A line of event: its first end, where the mark is, and its other end. -/
structure Link where
  row : Nat
  y : Rat
  dest : Nat
  yTo : Rat
deriving DecidableEq

/-- The line of a mark. -/
def linkOf (s : Style) (obs : List Obs) (gs : List Group) (g : Group) (m : Mark) : Option Link := do
  let y ← heightIn s g m.row
  let t ← heightTo s obs gs m.link.toNat
  some ⟨m.row, y, m.link.toNat, t⟩

/-- The line of merging of a segment (network.py:870-883). -/
def mergeLink (s : Style) (obs : List Obs) (gs : List Group) (g : Group) : Option (List Link) :=
  match mergeMark obs g with
  | none => some []
  | some m => (linkOf s obs gs g m).map (fun l => [l])

/-- `self[field]` (network.py:888) is refused for an array. -/
def refused (s : Style) : Bool :=
  match s.field with
  | .array _ => s.all
  | _ => false

/-- The line of splitting of a segment (network.py:884-899). -/
def splitLink (s : Style) (obs : List Obs) (gs : List Group) (g : Group) : Option (List Link) :=
  match splitMark obs g with
  | none => some []
  | some m => if refused s then none else (linkOf s obs gs g m).map (fun l => [l])

/-- `event_timeline` (network.py:833-920): the lines of mergings and of splittings. -/
def eventTimeline (argsort : List Int → List Nat) (s : Style) (obs : List Obs) : Option (List Link × List Link) := do
  let gs ← groupsOf argsort (obs.map (·.seg))
  let ms ← gs.mapM (mergeLink s obs gs)
  let ss ← gs.mapM (splitLink s obs gs)
  some (ms.flatten, ss.flatten)

/-- The line of a segment (network.py:806-828). -/
def segmentLine (s : Style) (g : Group) : Option (List (Nat × Rat)) := g.obs.mapM (fun k => (heightIn s g k).map (fun y => (k, y)))

/-- `display_timeline` (network.py:760-831): the lines of the segments and the lines of events. -/
def displayTimeline (argsort : List Int → List Nat) (s : Style) (obs : List Obs) :
    Option (List (List (Nat × Rat)) × List Link × List Link) :=
  if onlyOneNetwork obs then do
    let e ← eventTimeline argsort s obs
    let gs ← groupsOf argsort (obs.map (·.seg))
    let ls ← (gs.filter (fun g => !g.obs.isEmpty)).mapM (segmentLine s)
    some (ls, e)
  else none

/-- The values of `yfield` times `yfactor` (network.py:1007). -/
def scatterValues (s : Style) (obs : List Obs) : List Rat :=
  match s.field with
  | .segments => obs.map (fun o => (o.seg : Rat) * s.factor)
  | .name v => v.map (fun x => x * s.factor)
  | .array v => v.map (fun x => x * s.factor)

/-- The heights of the points (network.py:1008-1011). -/
def scatterHeights (argsort : List Int → List Nat) (s : Style) (integer : Bool) (obs : List Obs) (junk : Nat → Rat) : Option (List Rat) :=
  if s.all then some (scatterValues s obs) else meanBySegment argsort integer obs (scatterValues s obs) junk

/-- `scatter_timeline` (network.py:992-1021): the heights of the points and the lines of events. `integer`: these values are integers. -/
def scatterTimeline (argsort : List Int → List Nat) (s : Style) (integer : Bool) (obs : List Obs) (junk : Nat → Rat) :
    Option (List Rat × List Link × List Link) :=
  if onlyOneNetwork obs then do
    let ys ← scatterHeights argsort s integer obs junk
    let e ← eventTimeline argsort s obs
    some (ys, e)
  else none

/-! ### Specification -/

/-- The values asked have one value by observation. -/
def Fits (s : Style) (obs : List Obs) : Prop :=
  match s.field with
  | .segments => True
  | .name v => v.length = obs.length
  | .array v => v.length = obs.length

/-- Links lead to observations of the dataset. -/
def Closed (obs : List Obs) : Prop := ∀ o ∈ obs, (o.next = -1 ∨ ∃ t : Nat, o.next = t ∧ t < obs.length) ∧
  (o.prev = -1 ∨ ∃ t : Nat, o.prev = t ∧ t < obs.length)

/-- The height at which row `k` must be: the number of its segment, its value times the factor, or the mean of the values of its segment
times the factor. -/
def Height (s : Style) (obs : List Obs) (k : Nat) (y : Rat) : Prop := ∃ o, obs[k]? = some o ∧
  match s.field with
  | .segments => y = o.seg
  | .name v => if s.all then ∃ x, v[k]? = some x ∧ y = x * s.factor else y = mean (members (obs.map (·.seg)) v o.seg) * s.factor
  | .array v => if s.all then ∃ x, v[k]? = some x ∧ y = x * s.factor else y = mean (members (obs.map (·.seg)) v o.seg) * s.factor

/-- The lines of events: from the last rows of segments to the next observation, from the first rows to the previous one, both ends at
their heights. -/
def EventLines (s : Style) (obs : List Obs) (ms ss : List Link) : Prop :=
  (∀ l, l ∈ ms ↔ Last obs l.row ∧ (∃ o, obs[l.row]? = some o ∧ o.next = l.dest) ∧ Height s obs l.row l.y ∧ Height s obs l.dest l.yTo) ∧
  (∀ l, l ∈ ss ↔ First obs l.row ∧ (∃ o, obs[l.row]? = some o ∧ o.prev = l.dest) ∧ Height s obs l.row l.y ∧ Height s obs l.dest l.yTo)

/-- Full statement for `display_timeline`. -/
def TimelineDrawn : Prop := ∀ (s : Style) (obs : List Obs), obs ≠ [] → OneNetwork obs → Fits s obs → Closed obs →
  ∃ ls ms ss, displayTimeline Bins.stableArgsort s obs = some (ls, ms, ss) ∧ (∀ k y, (∃ l ∈ ls, (k, y) ∈ l) ↔ Height s obs k y) ∧
    EventLines s obs ms ss

/-- Full statement for `scatter_timeline`: the ends of the lines of events are points. -/
def ScatterDrawn : Prop := ∀ (s : Style) (obs : List Obs) (junk : Nat → Rat), obs ≠ [] → OneNetwork obs → Fits s obs → Closed obs →
  ∃ ys ms ss, scatterTimeline Bins.stableArgsort s false obs junk = some (ys, ms, ss) ∧
    (∀ l ∈ ms, ys[l.row]? = some l.y ∧ ys[l.dest]? = some l.yTo) ∧ (∀ l ∈ ss, ys[l.row]? = some l.y ∧ ys[l.dest]? = some l.yTo)

/-! ### Proofs -/

theorem height_unique {s : Style} {obs : List Obs} {k : Nat} {y z : Rat} (h : Height s obs k y) (h' : Height s obs k z) : y = z := by
  obtain ⟨o, ho, h⟩ := h
  obtain ⟨o', ho', h'⟩ := h'
  rw [ho] at ho'; cases ho'
  cases hf : s.field with
  | segments => simp only [hf] at h h'; rw [h, h']
  | name v =>
    simp only [hf] at h h'
    split at h
    · rename_i ha; rw [if_pos ha] at h'; obtain ⟨x, hx, rfl⟩ := h; obtain ⟨x', hx', rfl⟩ := h'; rw [hx] at hx'; cases hx'; rfl
    · rename_i ha; rw [if_neg ha] at h'; rw [h, h']
  | array v =>
    simp only [hf] at h h'
    split at h
    · rename_i ha; rw [if_pos ha] at h'; obtain ⟨x, hx, rfl⟩ := h; obtain ⟨x', hx', rfl⟩ := h'; rw [hx] at hx'; cases hx'; rfl
    · rename_i ha; rw [if_neg ha] at h'; rw [h, h']

/-- A group of the rows of one segment. -/
def GroupOf (obs : List Obs) (g : Group) (v : Nat) : Prop := g.lo = (v : Rat) ∧ g.obs = positions (obs.map (·.seg)) v

theorem values_height {s : Style} {obs : List Obs} {v : List Rat} (hl : v.length = obs.length) {k : Nat} {o : Obs} (ho : obs[k]? = some o)
    {m : Rat} (hm : m = mean (members (obs.map (·.seg)) v o.seg) * s.factor) :
    ∃ y, (if s.all then v[k]?.map (fun x => x * s.factor) else some m) = some y ∧
      (if s.all then ∃ x, v[k]? = some x ∧ y = x * s.factor else y = mean (members (obs.map (·.seg)) v o.seg) * s.factor) := by
  have hk : k < v.length := by rw [hl]; exact (List.getElem?_eq_some_iff.1 ho).1
  by_cases ha : s.all = true
  · refine ⟨v[k] * s.factor, ?_, ?_⟩
    · rw [if_pos ha, List.getElem?_eq_getElem hk]; rfl
    · rw [if_pos ha]; exact ⟨v[k], List.getElem?_eq_getElem hk, rfl⟩
  · exact ⟨m, by rw [if_neg ha], by rw [if_neg ha]; exact hm⟩

theorem heightIn_spec {s : Style} {obs : List Obs} (hf : Fits s obs) {g : Group} {k : Nat} {o : Obs} (ho : obs[k]? = some o)
    (hg : GroupOf obs g o.seg) : ∃ y, heightIn s g k = some y ∧ Height s obs k y := by
  unfold heightIn Height
  cases hs : s.field with
  | segments => exact ⟨g.lo, rfl, o, ho, hg.1⟩
  | name v =>
    have hl : v.length = obs.length := by simpa [Fits, hs] using hf
    obtain ⟨y, h1, h2⟩ := values_height (s := s) hl ho (m := mean (pick v g.obs) * s.factor)
      (by rw [hg.2, Bins.pick_positions _ _ (by simpa using hl)])
    exact ⟨y, h1, o, ho, h2⟩
  | array v =>
    have hl : v.length = obs.length := by simpa [Fits, hs] using hf
    obtain ⟨y, h1, h2⟩ := values_height (s := s) hl ho (m := mean (pick v g.obs) * s.factor)
      (by rw [hg.2, Bins.pick_positions _ _ (by simpa using hl)])
    exact ⟨y, h1, o, ho, h2⟩

theorem ySeg_spec {s : Style} {obs : List Obs} {gs : List Group} (hg : ∀ g ∈ gs, ∃ w, GroupOf obs g w) {v : List Rat} (hl : v.length = obs.length)
    {seg : Nat} (hc : ∃ g ∈ gs, g.lo = (seg : Rat)) : ySeg s gs v seg = some (mean (members (obs.map (·.seg)) v seg) * s.factor) := by
  unfold ySeg
  cases h : gs.find? (fun g => decide (g.lo = (seg : Rat))) with
  | none =>
    obtain ⟨g, hgm, e⟩ := hc
    simpa [e] using List.find?_eq_none.1 h g hgm
  | some g =>
    obtain ⟨w, e1, e2⟩ := hg g (List.mem_of_find?_eq_some h)
    have e3 : g.lo = (seg : Rat) := by simpa using List.find?_some h
    have : w = seg := by rw [e1] at e3; exact_mod_cast e3
    subst this
    simp only [Option.map_some]
    rw [e2, Bins.pick_positions _ _ (by simpa using hl)]

theorem heightTo_spec {s : Style} {obs : List Obs} (hf : Fits s obs) {gs : List Group} (hg : ∀ g ∈ gs, ∃ w, GroupOf obs g w)
    (hc : ∀ v : Nat, v ∈ obs.map (·.seg) → ∃ g ∈ gs, g.lo = (v : Rat)) {t : Nat} {o : Obs} (ho : obs[t]? = some o) :
    ∃ y, heightTo s obs gs t = some y ∧ Height s obs t y := by
  have hv := hc o.seg (List.mem_map.2 ⟨o, List.mem_of_getElem? ho, rfl⟩)
  unfold heightTo Height
  rw [ho]
  simp only [Option.bind_eq_bind, Option.bind_some]
  cases hs : s.field with
  | segments => exact ⟨o.seg, rfl, o, rfl, rfl⟩
  | name v =>
    have hl : v.length = obs.length := by simpa [Fits, hs] using hf
    obtain ⟨y, h1, h2⟩ := values_height (s := s) hl ho rfl
    refine ⟨y, ?_, o, rfl, h2⟩
    show (if s.all then _ else ySeg s gs v o.seg) = _
    rw [ySeg_spec hg hl hv, h1]
  | array v =>
    have hl : v.length = obs.length := by simpa [Fits, hs] using hf
    obtain ⟨y, h1, h2⟩ := values_height (s := s) hl ho rfl
    refine ⟨y, ?_, o, rfl, h2⟩
    show (if s.all then _ else ySeg s gs v o.seg) = _
    rw [ySeg_spec hg hl hv, h1]

theorem mapM_all {β γ : Type} {f : β → Option γ} {P : β → γ → Prop} : ∀ {l : List β}, (∀ x ∈ l, ∃ y, f x = some y ∧ P x y) →
    ∃ r, l.mapM f = some r ∧ List.Forall₂ P l r
  | [], _ => ⟨[], rfl, .nil⟩
  | x :: l, h => by
    obtain ⟨y, hy, py⟩ := h x (by simp)
    obtain ⟨r, hr, pr⟩ := mapM_all (l := l) (fun z hz => h z (by simp [hz]))
    exact ⟨y :: r, by rw [List.mapM_cons, hy, hr]; rfl, .cons py pr⟩

theorem forall₂_flatten {β γ : Type} {P : β → List γ → Prop} {l : List β} {r : List (List γ)} (h : List.Forall₂ P l r) (z : γ) :
    z ∈ r.flatten ↔ ∃ x ∈ l, ∃ y, y ∈ r ∧ P x y ∧ z ∈ y := by
  constructor
  · intro hz
    obtain ⟨y, hy, hzy⟩ := List.mem_flatten.1 hz
    obtain ⟨i, hi, rfl⟩ := List.getElem_of_mem hy
    have hi' : i < l.length := by rw [h.length_eq]; exact hi
    exact ⟨l[i], List.getElem_mem hi', r[i], hy, by simpa using h.get hi' hi, hzy⟩
  · rintro ⟨x, _, y, hy, _, hzy⟩
    exact List.mem_flatten.2 ⟨y, hy, hzy⟩

theorem forall₂_left {β γ : Type} {P : β → γ → Prop} {l : List β} {r : List γ} (h : List.Forall₂ P l r) {x : β} (hx : x ∈ l) :
    ∃ y ∈ r, P x y := by
  induction h with
  | nil => simp at hx
  | cons h1 _ ih =>
    rcases List.mem_cons.1 hx with rfl | hx
    · exact ⟨_, by simp, h1⟩
    · obtain ⟨y, hy, hp⟩ := ih hx
      exact ⟨y, by simp [hy], hp⟩

theorem forall₂_right {β γ : Type} {P : β → γ → Prop} {l : List β} {r : List γ} (h : List.Forall₂ P l r) {y : γ} (hy : y ∈ r) :
    ∃ x ∈ l, P x y := by
  induction h with
  | nil => simp at hy
  | cons h1 _ ih =>
    rcases List.mem_cons.1 hy with rfl | hy
    · exact ⟨_, by simp, h1⟩
    · obtain ⟨x, hx, hp⟩ := ih hy
      exact ⟨x, by simp [hx], hp⟩

/-- What the lines of a group must be. -/
def MergeOf (s : Style) (obs : List Obs) (g : Group) (r : List Link) : Prop := ∀ l, l ∈ r ↔ g.obs.getLast? = some l.row ∧
  (∃ o, obs[l.row]? = some o ∧ o.next = l.dest) ∧ Height s obs l.row l.y ∧ Height s obs l.dest l.yTo

/-- What the lines of a group must be. -/
def SplitOf (s : Style) (obs : List Obs) (g : Group) (r : List Link) : Prop := ∀ l, l ∈ r ↔ g.obs.head? = some l.row ∧
  (∃ o, obs[l.row]? = some o ∧ o.prev = l.dest) ∧ Height s obs l.row l.y ∧ Height s obs l.dest l.yTo

theorem linkOf_spec {s : Style} {obs : List Obs} (hf : Fits s obs) {gs : List Group} (hg : ∀ g ∈ gs, ∃ w, GroupOf obs g w)
    (hc : ∀ v : Nat, v ∈ obs.map (·.seg) → ∃ g ∈ gs, g.lo = (v : Rat)) {g : Group} {k t : Nat} {o : Obs} (ho : obs[k]? = some o)
    (hgo : GroupOf obs g o.seg) (ht : t < obs.length) (q : Rat) :
    ∃ l, linkOf s obs gs g ⟨k, (t : Int), q⟩ = some l ∧ l.row = k ∧ l.dest = t ∧ Height s obs k l.y ∧ Height s obs t l.yTo := by
  obtain ⟨y, hy, h1⟩ := heightIn_spec hf ho hgo
  obtain ⟨z, hz, h2⟩ := heightTo_spec hf hg hc (List.getElem?_eq_getElem ht)
  refine ⟨⟨k, y, t, z⟩, ?_, rfl, rfl, h1, h2⟩
  unfold linkOf
  simp only [Int.toNat_natCast, hy, hz]
  rfl

theorem link_ext {s : Style} {obs : List Obs} {a b : Link} (h1 : a.row = b.row) (h2 : a.dest = b.dest) (h3 : Height s obs a.row a.y)
    (h4 : Height s obs b.row b.y) (h5 : Height s obs a.dest a.yTo) (h6 : Height s obs b.dest b.yTo) : a = b := by
  have e1 : a.y = b.y := height_unique (k := a.row) h3 (by rw [h1]; exact h4)
  have e2 : a.yTo = b.yTo := height_unique (k := a.dest) h5 (by rw [h2]; exact h6)
  cases a; cases b
  simp_all

theorem mergeLink_spec {s : Style} {obs : List Obs} (hf : Fits s obs) (hcl : Closed obs) {gs : List Group}
    (hg : ∀ g ∈ gs, ∃ w, GroupOf obs g w) (hc : ∀ v : Nat, v ∈ obs.map (·.seg) → ∃ g ∈ gs, g.lo = (v : Rat)) {g : Group} (hgm : g ∈ gs) :
    ∃ r, mergeLink s obs gs g = some r ∧ MergeOf s obs g r := by
  obtain ⟨w, hw⟩ := hg g hgm
  unfold mergeLink mergeMark
  cases hl : g.obs.getLast? with
  | none => exact ⟨[], rfl, fun l => by simp [hl]⟩
  | some e =>
    obtain ⟨o, ho, hseg⟩ := seg_at.1 (mem_positions.1 (by rw [← hw.2]; exact List.mem_of_getLast? hl))
    simp only [Option.bind_eq_bind, Option.bind_some, ho]
    rcases (hcl o (List.mem_of_getElem? ho)).1 with hn | ⟨t, hn, ht⟩
    · rw [if_neg (by simp [hn])]
      refine ⟨[], rfl, fun l => ?_⟩
      simp only [List.not_mem_nil, false_iff, hl, Option.some.injEq]
      rintro ⟨rfl, ⟨o', ho', hn'⟩, -⟩
      rw [ho] at ho'; cases ho'
      omega
    · rw [if_pos (by omega)]
      simp only [hn]
      obtain ⟨l, h1, h2, h3, h4, h5⟩ := linkOf_spec hf hg hc ho (by rw [hseg]; exact hw) ht g.lo
      refine ⟨[l], by rw [h1]; rfl, fun l' => ?_⟩
      rw [List.mem_singleton, hl]
      constructor
      · rintro rfl
        exact ⟨by rw [h2], ⟨o, by rw [h2]; exact ho, by rw [h3]; exact hn⟩, by rw [h2]; exact h4, by rw [h3]; exact h5⟩
      · rintro ⟨e1, ⟨o', ho', e2⟩, e3, e4⟩
        rw [← Option.some.inj e1, ho] at ho'; cases ho'
        refine link_ext (s := s) (obs := obs) ?_ ?_ e3 (by rw [h2]; exact h4) e4 (by rw [h3]; exact h5)
        · rw [h2, Option.some.inj e1]
        · rw [h3]; omega

theorem splitLink_spec {s : Style} {obs : List Obs} (hf : Fits s obs) (hr : refused s = false) (hcl : Closed obs) {gs : List Group}
    (hg : ∀ g ∈ gs, ∃ w, GroupOf obs g w) (hc : ∀ v : Nat, v ∈ obs.map (·.seg) → ∃ g ∈ gs, g.lo = (v : Rat)) {g : Group} (hgm : g ∈ gs) :
    ∃ r, splitLink s obs gs g = some r ∧ SplitOf s obs g r := by
  obtain ⟨w, hw⟩ := hg g hgm
  unfold splitLink splitMark
  rw [hr]
  cases hl : g.obs.head? with
  | none => exact ⟨[], rfl, fun l => by simp [hl]⟩
  | some e =>
    obtain ⟨o, ho, hseg⟩ := seg_at.1 (mem_positions.1 (by rw [← hw.2]; exact List.mem_of_head? hl))
    simp only [Option.bind_eq_bind, Option.bind_some, ho]
    rcases (hcl o (List.mem_of_getElem? ho)).2 with hn | ⟨t, hn, ht⟩
    · rw [if_neg (by simp [hn])]
      refine ⟨[], rfl, fun l => ?_⟩
      simp only [List.not_mem_nil, false_iff, hl, Option.some.injEq]
      rintro ⟨rfl, ⟨o', ho', hn'⟩, -⟩
      rw [ho] at ho'; cases ho'
      omega
    · rw [if_pos (by omega)]
      simp only [hn]
      obtain ⟨l, h1, h2, h3, h4, h5⟩ := linkOf_spec hf hg hc ho (by rw [hseg]; exact hw) ht g.lo
      refine ⟨[l], by rw [h1]; rfl, fun l' => ?_⟩
      rw [List.mem_singleton, hl]
      constructor
      · rintro rfl
        exact ⟨by rw [h2], ⟨o, by rw [h2]; exact ho, by rw [h3]; exact hn⟩, by rw [h2]; exact h4, by rw [h3]; exact h5⟩
      · rintro ⟨e1, ⟨o', ho', e2⟩, e3, e4⟩
        rw [← Option.some.inj e1, ho] at ho'; cases ho'
        refine link_ext (s := s) (obs := obs) ?_ ?_ e3 (by rw [h2]; exact h4) e4 (by rw [h3]; exact h5)
        · rw [h2, Option.some.inj e1]
        · rw [h3]; omega

theorem groups_of (argsort : List Int → List Nat) {obs : List Obs} (hne : obs ≠ []) (h : OneNetwork obs) :
    ∃ gs, groupsOf argsort (obs.map (·.seg)) = some gs ∧ (∀ g ∈ gs, ∃ w, GroupOf obs g w) ∧
      (∀ v : Nat, v ∈ obs.map (·.seg) → ∃ g ∈ gs, g.lo = (v : Rat)) ∧ ∀ (k : Nat) o, obs[k]? = some o → ∃ g ∈ gs, GroupOf obs g o.seg := by
  obtain ⟨gs, hgs, -, hg, hcov⟩ := Bins.groups_spec argsort (ids := obs.map (·.seg)) (by simpa using hne) h.sorted
  refine ⟨gs, hgs, fun g hgm => ?_, hcov, fun k o ho => ?_⟩
  · obtain ⟨v, _, e1, e2⟩ := hg g hgm
    exact ⟨v, e1, e2⟩
  · obtain ⟨g, hgm, e⟩ := hcov o.seg (List.mem_of_getElem? (seg_at.2 ⟨o, ho, rfl⟩))
    obtain ⟨v, _, e1, e2⟩ := hg g hgm
    have : v = o.seg := by
      rw [e] at e1
      exact_mod_cast e1.symm
    exact ⟨g, hgm, e, by rw [e2, this]⟩

theorem event_lines (argsort : List Int → List Nat) {s : Style} {obs : List Obs} (hne : obs ≠ []) (h : OneNetwork obs) (hf : Fits s obs)
    (hr : refused s = false) (hcl : Closed obs) :
    ∃ ms ss, eventTimeline argsort s obs = some (ms, ss) ∧ EventLines s obs ms ss := by
  obtain ⟨gs, hgs, hg, hc, hof⟩ := groups_of argsort hne h
  obtain ⟨ms, hms, pm⟩ := mapM_all (f := mergeLink s obs gs) (l := gs) (fun g hgm => mergeLink_spec hf hcl hg hc hgm)
  obtain ⟨ss, hss, ps⟩ := mapM_all (f := splitLink s obs gs) (l := gs) (fun g hgm => splitLink_spec hf hr hcl hg hc hgm)
  refine ⟨ms.flatten, ss.flatten, ?_, fun l => ?_, fun l => ?_⟩
  · unfold eventTimeline
    rw [hgs]
    simp only [Option.bind_eq_bind, Option.bind_some, hms, hss]
  · rw [forall₂_flatten pm]
    constructor
    · rintro ⟨g, hgm, r, _, hp, hl⟩
      obtain ⟨e1, ⟨o, ho, e2⟩, e3⟩ := (hp l).1 hl
      obtain ⟨w, hw⟩ := hg g hgm
      obtain ⟨o', ho', hseg⟩ := seg_at.1 (mem_positions.1 (by rw [← hw.2]; exact List.mem_of_getLast? e1))
      refine ⟨(last_iff h ho').1 ?_, ⟨o, ho, e2⟩, e3⟩
      rw [hseg, ← hw.2]
      exact e1
    · rintro ⟨hl, ⟨o, ho, e2⟩, e3⟩
      obtain ⟨g, hgm, hgo⟩ := hof _ o ho
      obtain ⟨r, hr, hp⟩ := forall₂_left pm hgm
      exact ⟨g, hgm, r, hr, hp, (hp l).2 ⟨by rw [hgo.2]; exact (last_iff h ho).2 hl, ⟨o, ho, e2⟩, e3⟩⟩
  · rw [forall₂_flatten ps]
    constructor
    · rintro ⟨g, hgm, r, _, hp, hl⟩
      obtain ⟨e1, ⟨o, ho, e2⟩, e3⟩ := (hp l).1 hl
      obtain ⟨w, hw⟩ := hg g hgm
      obtain ⟨o', ho', hseg⟩ := seg_at.1 (mem_positions.1 (by rw [← hw.2]; exact List.mem_of_head? e1))
      refine ⟨(first_iff h ho').1 ?_, ⟨o, ho, e2⟩, e3⟩
      rw [hseg, ← hw.2]
      exact e1
    · rintro ⟨hl, ⟨o, ho, e2⟩, e3⟩
      obtain ⟨g, hgm, hgo⟩ := hof _ o ho
      obtain ⟨r, hr, hp⟩ := forall₂_left ps hgm
      exact ⟨g, hgm, r, hr, hp, (hp l).2 ⟨by rw [hgo.2]; exact (first_iff h ho).2 hl, ⟨o, ho, e2⟩, e3⟩⟩

theorem onlyOne {obs : List Obs} (hne : obs ≠ []) (h : OneNetwork obs) : onlyOneNetwork obs = true := by
  cases obs with
  | nil => exact absurd rfl hne
  | cons o l =>
    unfold onlyOneNetwork
    rw [List.all_eq_true]
    intro p hp
    simpa using h.same p (by simp [hp]) o (by simp)

/-- **C187** (`display_timeline`): each observation is drawn at its height, in the line of its segment; the events are lines between points
which are drawn, from the last observations of the segments to their next observations and from the first ones to their previous
observations. Missing: an array of values with the method `all` (`timeline_wrong`). -/
theorem timeline_partial (argsort : List Int → List Nat) {s : Style} {obs : List Obs} (hne : obs ≠ []) (h : OneNetwork obs) (hf : Fits s obs)
    (hr : ¬(s.all = true ∧ ∃ v, s.field = .array v)) (hcl : Closed obs) :
    ∃ ls ms ss, displayTimeline argsort s obs = some (ls, ms, ss) ∧ (∀ k y, (∃ l ∈ ls, (k, y) ∈ l) ↔ Height s obs k y) ∧
      (∀ l ∈ ls, ∃ o ∈ obs, l.map Prod.fst = positions (obs.map (·.seg)) o.seg) ∧ EventLines s obs ms ss := by
  have hr' : refused s = false := by
    unfold refused
    cases hs : s.field with
    | array v => exact Bool.eq_false_iff.2 (fun ha => hr ⟨ha, v, hs⟩)
    | _ => rfl
  obtain ⟨ms, ss, he, hel⟩ := event_lines argsort hne h hf hr' hcl
  obtain ⟨gs, hgs, hg, hc, hof⟩ := groups_of argsort hne h
  have hrow : ∀ g w, GroupOf obs g w → ∀ k ∈ g.obs, ∃ o, obs[k]? = some o ∧ o.seg = w := by
    intro g w hw k hk
    rw [hw.2] at hk
    exact seg_at.1 (mem_positions.1 hk)
  have hline : ∀ g ∈ gs.filter (fun g => !g.obs.isEmpty), ∃ r, segmentLine s g = some r ∧
      List.Forall₂ (fun k (p : Nat × Rat) => p.1 = k ∧ Height s obs k p.2) g.obs r := by
    intro g hgm
    obtain ⟨w, hw⟩ := hg g (List.mem_filter.1 hgm).1
    refine mapM_all (fun k hk => ?_)
    obtain ⟨o, ho, rfl⟩ := hrow g w hw k hk
    obtain ⟨y, hy, h1⟩ := heightIn_spec hf ho hw
    exact ⟨(k, y), by rw [hy]; rfl, rfl, h1⟩
  obtain ⟨ls, hls, pl⟩ := mapM_all hline
  refine ⟨ls, ms, ss, ?_, fun k y => ?_, fun l hl => ?_, hel⟩
  · unfold displayTimeline
    rw [if_pos (onlyOne hne h), he, hgs]
    simp only [Option.bind_eq_bind, Option.bind_some, hls]
  · constructor
    · rintro ⟨l, hl, hk⟩
      obtain ⟨g, _, hp⟩ := forall₂_right pl hl
      obtain ⟨k', _, e, hh⟩ := forall₂_right hp hk
      simp only at e hh
      rw [e]
      exact hh
    · intro hh
      obtain ⟨o, ho, _⟩ := id hh
      obtain ⟨g, hgm, hgo⟩ := hof k o ho
      have hk : k ∈ g.obs := by rw [hgo.2]; exact mem_positions.2 (seg_at.2 ⟨o, ho, rfl⟩)
      obtain ⟨l, hl, hp⟩ := forall₂_left pl (List.mem_filter.2 ⟨hgm, by cases hgl : g.obs <;> simp_all⟩)
      obtain ⟨⟨k', y'⟩, hm, e, hh'⟩ := forall₂_left hp hk
      simp only at e hh'
      subst e
      exact ⟨l, hl, by rw [height_unique hh hh']; exact hm⟩
  · obtain ⟨g, hgm, hp⟩ := forall₂_right pl hl
    obtain ⟨w, hw⟩ := hg g (List.mem_filter.1 hgm).1
    have hne' : g.obs ≠ [] := by
      have := (List.mem_filter.1 hgm).2
      intro e
      simp [e] at this
    obtain ⟨k, hk⟩ := List.exists_mem_of_ne_nil _ hne'
    obtain ⟨o, ho, rfl⟩ := hrow g w hw k hk
    refine ⟨o, List.mem_of_getElem? ho, ?_⟩
    rw [← hw.2]
    clear hl hgm hne' hk
    generalize g.obs = ks at hp
    induction hp with
    | nil => rfl
    | cons h1 _ ih => rw [List.map_cons, ih, h1.1]

/-! ### The scatter -/

theorem members_map (ids : List Nat) (y : List Rat) (f : Rat → Rat) (v : Nat) : members ids (y.map f) v = (members ids y v).map f := by
  unfold members
  rw [List.zip_map_right, List.filter_map, List.map_map, List.map_map]
  rfl

theorem mean_map_mul (l : List Rat) (c : Rat) : mean (l.map (fun x => x * c)) = mean l * c := by
  have h : ∀ l : List Rat, (l.map (fun x => x * c)).sum = l.sum * c := by
    intro l
    induction l with
    | nil => simp
    | cons a l ih => rw [List.map_cons, List.sum_cons, List.sum_cons, ih]; ring
  unfold mean
  rw [h, List.length_map]
  ring

theorem mean_const {l : List Rat} {c : Rat} (hne : l ≠ []) (h : ∀ x ∈ l, x = c) : mean l = c := by
  have e : l = List.replicate l.length c := List.eq_replicate_iff.2 ⟨rfl, h⟩
  have hl : (l.length : Rat) ≠ 0 := by
    have := List.length_pos_iff.2 hne
    positivity
  unfold mean
  rw [e, List.sum_replicate, List.length_replicate, nsmul_eq_mul]
  field_simp

theorem numbering_iff {obs : List Obs} {sta : List Nat} (hn : Segments.IsNumbering obs sta) (h : OneNetwork obs) (d i a : Nat) (o o' : Obs)
    (ha : sta[i]? = some a) (ho : obs[i]? = some o) (ho' : obs[i + d]? = some o') : sta[i + d]? = some a ↔ o'.seg = o.seg := by
  induction d generalizing o' with
  | zero =>
    rw [Nat.add_zero, ho] at ho'
    cases ho'
    simpa using ha
  | succ d ih =>
    have hlen := (List.getElem?_eq_some_iff.1 ho').1
    have hm := List.getElem?_eq_getElem (show i + d < obs.length by omega)
    have hs := List.getElem?_eq_getElem (show i + d < sta.length by rw [hn.len]; omega)
    have hi := ih _ hm
    have hk := fun b (hb : sta[i + d]? = some b) => hn.same_iff (i + d) b _ o' hb hm ho'
    constructor
    · intro e
      have h1 := hn.mono i (i + d) _ _ (by omega) ha hs
      have h2 := hn.mono (i + d) (i + d + 1) _ _ (by omega) hs e
      have e1 : sta[i + d]? = some a := by rw [hs]; congr 1; omega
      rw [← hi.1 e1]
      exact ((key_eq h ho' hm).1 ((hk a e1).1 e))
    · intro e
      have h1 := seg_mono h (by omega : i ≤ i + d) ho hm
      have h2 := seg_mono h (by omega : i + d ≤ i + (d + 1)) hm ho'
      have e1 := hi.2 (by omega)
      exact (hk a e1).2 ((key_eq h ho' hm).2 (by omega))

theorem members_sta {obs : List Obs} {sta : List Nat} (hn : Segments.IsNumbering obs sta) (h : OneNetwork obs) {y : List Rat}
    (hl : y.length = obs.length) {k a : Nat} {o : Obs} (ha : sta[k]? = some a) (ho : obs[k]? = some o) :
    members sta y a = members (obs.map (·.seg)) y o.seg := by
  rw [← Bins.pick_positions sta y (by rw [hl, hn.len]), ← Bins.pick_positions (obs.map (·.seg)) y (by rw [hl, List.length_map])]
  congr 1
  unfold positions
  rw [List.length_map, hn.len]
  apply List.filter_congr
  intro j hj
  have hj' := List.getElem?_eq_getElem (List.mem_range.1 hj)
  have hjs := List.getElem?_eq_getElem (show j < sta.length by rw [hn.len]; exact List.mem_range.1 hj)
  congr 1
  rw [eq_iff_iff, seg_at]
  have key : sta[j]? = some a ↔ (obs[j]'(List.mem_range.1 hj)).seg = o.seg := by
    rcases Nat.le_total k j with hkj | hkj
    · obtain ⟨d, rfl⟩ := Nat.exists_eq_add_of_le hkj
      exact numbering_iff hn h d k a o _ ha ho hj'
    · obtain ⟨d, rfl⟩ := Nat.exists_eq_add_of_le hkj
      have := numbering_iff hn h d j _ _ o hjs hj' ho
      rw [hjs, ha] at *
      simp only [Option.some.injEq] at this ⊢
      exact ⟨fun e => (this.1 e.symm).symm, fun e => (this.2 e.symm).symm⟩
  rw [key]
  constructor
  · intro e; exact ⟨_, hj', e⟩
  · rintro ⟨o', ho', e⟩
    rw [hj'] at ho'; cases ho'
    exact e

/-- **C187** (`scatter_timeline`): each observation is a point at its height, so the lines of events begin and end at points. Missing: a
factor without `yfield` (`scatter_wrong`), integers with means which are not integers (`scatter_integer_wrong`) and the case of
`timeline_partial`. -/
theorem scatter_partial (argsort : List Int → List Nat) {s : Style} {integer : Bool} {obs : List Obs} (junk : Nat → Rat) (hne : obs ≠ [])
    (h : OneNetwork obs) (hf : Fits s obs) (hr : ¬(s.all = true ∧ ∃ v, s.field = .array v)) (hcl : Closed obs)
    (hfac : s.field = .segments → s.factor = 1) (hint : integer = true → s.field = .segments) :
    ∃ ys ms ss, scatterTimeline argsort s integer obs junk = some (ys, ms, ss) ∧ ys.length = obs.length ∧
      (∀ k y, ys[k]? = some y ↔ Height s obs k y) ∧ EventLines s obs ms ss := by
  have hr' : refused s = false := by
    unfold refused
    cases hs : s.field with
    | array v => exact Bool.eq_false_iff.2 (fun ha => hr ⟨ha, v, hs⟩)
    | _ => rfl
  obtain ⟨ms, ss, he, hel⟩ := event_lines argsort hne h hf hr' hcl
  suffices hy : ∃ ys, scatterHeights argsort s integer obs junk = some ys ∧
      ys.length = obs.length ∧ ∀ (k : Nat) y, ys[k]? = some y → Height s obs k y by
    obtain ⟨ys, h1, h2, h3⟩ := hy
    refine ⟨ys, ms, ss, ?_, h2, fun k y => ⟨h3 k y, fun hh => ?_⟩, hel⟩
    · unfold scatterTimeline
      rw [if_pos (onlyOne hne h), h1, he]
      rfl
    · obtain ⟨o, ho, _⟩ := id hh
      have hk := List.getElem?_eq_getElem (show k < ys.length by rw [h2]; exact (List.getElem?_eq_some_iff.1 ho).1)
      rw [hk, height_unique hh (h3 k _ hk)]
  have hlen : (scatterValues s obs).length = obs.length := by
    unfold scatterValues
    unfold Fits at hf
    cases hs : s.field with
    | segments => simp
    | name v => rw [hs] at hf; simpa using hf
    | array v => rw [hs] at hf; simpa using hf
  unfold scatterHeights
  by_cases ha : s.all = true
  · rw [if_pos ha]
    refine ⟨_, rfl, hlen, fun k y hy => ?_⟩
    have hk : k < obs.length := by rw [← hlen]; exact (List.getElem?_eq_some_iff.1 hy).1
    refine ⟨obs[k], List.getElem?_eq_getElem hk, ?_⟩
    unfold scatterValues at hy
    cases hs : s.field with
    | segments =>
      simp only [hs, hfac hs, List.getElem?_map, List.getElem?_eq_getElem hk, Option.map_some, Option.some.injEq] at hy ⊢
      rw [← hy, mul_one]
    | name v =>
      simp only [hs, List.getElem?_map, Option.map_eq_some_iff] at hy
      obtain ⟨x, hx, e⟩ := hy
      simp only [if_pos ha]
      exact ⟨x, hx, e.symm⟩
    | array v =>
      simp only [hs, List.getElem?_map, Option.map_eq_some_iff] at hy
      obtain ⟨x, hx, e⟩ := hy
      simp only [if_pos ha]
      exact ⟨x, hx, e.symm⟩
  · rw [if_neg ha]
    obtain ⟨sta, hsta, hnum⟩ := Segments.segTrackArray_spec obs hne
    have hrun : meanBySegment argsort integer obs (scatterValues s obs) junk = some (sta.map (fun v =>
        if integer then (Bins.cut (mean (members sta (scatterValues s obs) v)) : Rat) else mean (members sta (scatterValues s obs) v))) := by
      unfold meanBySegment
      rw [hsta]
      simp only [Option.bind_eq_bind, Option.bind_some]
      rw [Bins.map_same_partial argsort _ (by intro e; rw [e] at hnum; exact hne (List.length_eq_zero_iff.1 hnum.len.symm)) ?_
        (by rw [hlen, hnum.len])]
      rw [List.pairwise_iff_getElem]
      intro i j hi hj hij
      exact hnum.mono i j _ _ (by omega) (List.getElem?_eq_getElem hi) (List.getElem?_eq_getElem hj)
    refine ⟨_, hrun, by rw [List.length_map, hnum.len], fun k y hy => ?_⟩
    rw [List.getElem?_map, Option.map_eq_some_iff] at hy
    obtain ⟨a, hak, hy⟩ := hy
    have hk : k < obs.length := by rw [← hnum.len]; exact (List.getElem?_eq_some_iff.1 hak).1
    have ho := List.getElem?_eq_getElem hk
    rw [members_sta hnum h hlen hak ho] at hy
    refine ⟨obs[k], ho, ?_⟩
    unfold scatterValues at hy
    cases hs : s.field with
    | segments =>
      simp only [hs, hfac hs, mul_one] at hy ⊢
      have hm : mean (members (obs.map (·.seg)) (obs.map (fun o => (o.seg : Rat))) obs[k].seg) = obs[k].seg := by
        refine mean_const ?_ ?_
        · apply List.ne_nil_of_mem (a := ((obs[k].seg : Nat) : Rat))
          unfold members
          rw [List.zip_map']
          exact List.mem_map.2 ⟨(obs[k].seg, (obs[k].seg : Rat)), List.mem_filter.2
            ⟨List.mem_map.2 ⟨obs[k], List.getElem_mem hk, rfl⟩, by simp⟩, rfl⟩
        · intro x hx
          unfold members at hx
          rw [List.zip_map'] at hx
          obtain ⟨p, hp, rfl⟩ := List.mem_map.1 hx
          obtain ⟨hp1, hp2⟩ := List.mem_filter.1 hp
          obtain ⟨o, _, rfl⟩ := List.mem_map.1 hp1
          simp only [beq_iff_eq] at hp2
          simp [hp2]
      rw [hm] at hy
      rw [← hy]
      have hcut : ((Bins.cut ((obs[k].seg : Nat) : Rat) : Int) : Rat) = obs[k].seg := by
        unfold Bins.cut
        rw [if_pos (by positivity), Int.floor_natCast]
        simp
      cases integer
      · rfl
      · exact hcut
    | name v =>
      have hi : integer = false := by
        cases integer
        · rfl
        · rw [hs] at hint; exact absurd (hint rfl) (by simp)
      simp only [hs, hi, members_map, mean_map_mul, Bool.false_eq_true, if_false] at hy
      simp only [if_neg ha]
      exact hy.symm
    | array v =>
      have hi : integer = false := by
        cases integer
        · rfl
        · rw [hs] at hint; exact absurd (hint rfl) (by simp)
      simp only [hs, hi, members_map, mean_map_mul, Bool.false_eq_true, if_false] at hy
      simp only [if_neg ha]
      exact hy.symm

/-! ### Where the code disagrees -/

/-- A network of two segments: the second one comes from the observation 0. -/
def split : List Obs := [⟨1, 1, -1, 1⟩, ⟨1, 1, 0, -1⟩, ⟨1, 2, 0, 3⟩, ⟨1, 2, 2, -1⟩]

theorem split_ok : OneNetwork split ∧ Closed split := by
  refine ⟨⟨by decide, by decide⟩, ?_⟩
  intro o ho
  simp only [split, List.mem_cons, List.not_mem_nil, or_false] at ho
  rcases ho with rfl | rfl | rfl | rfl
  · exact ⟨.inr ⟨1, rfl, by decide⟩, .inl rfl⟩
  · exact ⟨.inl rfl, .inr ⟨0, rfl, by decide⟩⟩
  · exact ⟨.inr ⟨3, rfl, by decide⟩, .inr ⟨0, rfl, by decide⟩⟩
  · exact ⟨.inl rfl, .inr ⟨2, rfl, by decide⟩⟩

/-- With the array of the values of a variable in place of its name, `display_timeline(method="all")` raises at the first splitting. -/
theorem timeline_array_raises : displayTimeline Bins.stableArgsort ⟨.array [1, 2, 3, 4], true, 1⟩ split = none ∧
    (displayTimeline Bins.stableArgsort ⟨.name [1, 2, 3, 4], true, 1⟩ split).map (fun r => r.2.2) = some [⟨2, 3, 0, 1⟩] := by decide +kernel

/-- The full statement is false. -/
theorem timeline_wrong : ¬TimelineDrawn := by
  intro h
  obtain ⟨ls, ms, ss, h1, _⟩ := h ⟨.array [1, 2, 3, 4], true, 1⟩ split (by decide) split_ok.1 rfl split_ok.2
  rw [timeline_array_raises.1] at h1
  cases h1

/-- Without `yfield` the points are at the numbers of segments times `yfactor` and the events at the numbers of segments. -/
theorem scatter_factor : (scatterTimeline Bins.stableArgsort ⟨.segments, false, 2⟩ false split (fun _ => 0)).map (fun r => (r.1, r.2.2)) =
    some ([2, 2, 4, 4], [⟨2, 2, 0, 1⟩]) := by decide +kernel

/-- The full statement is false. -/
theorem scatter_wrong : ¬ScatterDrawn := by
  intro h
  obtain ⟨ys, ms, ss, h1, _, h3⟩ := h ⟨.segments, false, 2⟩ split (fun _ => 0) (by decide) split_ok.1 trivial split_ok.2
  have h2 := scatter_factor
  rw [h1] at h2
  simp only [Option.map_some, Option.some.injEq, Prod.mk.injEq] at h2
  obtain ⟨rfl, rfl⟩ := h2
  have := (h3 ⟨2, 2, 0, 1⟩ (by simp)).1
  revert this
  decide +kernel

/-- The points of a variable of integers are at the means cut to integers and the events at the means. -/
theorem scatter_integer_wrong : (scatterTimeline Bins.stableArgsort ⟨.name [1, 2, 3, 6], false, 1⟩ true split (fun _ => 0)).map
    (fun r => (r.1, r.2.2)) = some ([1, 1, 4, 4], [⟨2, 9 / 2, 0, 3 / 2⟩]) := by decide +kernel

/-- Lines and events of the means. -/
example : displayTimeline Bins.stableArgsort ⟨.name [1, 2, 3, 6], false, 2⟩ split =
    some ([[(0, 3), (1, 3)], [(2, 9), (3, 9)]], [], [⟨2, 9, 0, 3⟩]) := by decide +kernel

end Verif.Events
