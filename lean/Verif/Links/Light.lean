import Verif.Links.Props

/-!
# C174: the light extraction of a network

`extract_light_with_mask` (/repo/src/py_eddy_tracker/observations/network.py:1555-1601), which copies the time, the contours and the fields of
`track_extra_variables`.
-/

namespace Verif.Links

/-- The fields which `track_extra_variables` can name: the six fields which `elements` (network.py:255-268) adds to each network, and the others. -/
inductive Extra where
  | track | segment | nextObs | previousObs | nextCost | previousCost
  | other (name : String)
deriving DecidableEq

/-- The fields of an observation besides its links: `light` is the time and the contours (`variables`, network.py:1570). -/
structure Light (α : Type) where
  light : α
  track : Nat
  segment : Nat
  nextCost : Rat
  previousCost : Rat
deriving DecidableEq

variable {α : Type}

/-- The fields which are copied, network.py:1588-1590; the six fields of a network exist even when they are not copied (`zeros`,
observation.py:241). -/
def copyData (extra : List Extra) (d : Light α) : Light α :=
  ⟨d.light, if Extra.track ∈ extra then d.track else 0, if Extra.segment ∈ extra then d.segment else 0,
    if Extra.nextCost ∈ extra then d.nextCost else 0, if Extra.previousCost ∈ extra then d.previousCost else 0⟩

/-- network.py:1588-1590 for one observation, links included. -/
def copyRow (extra : List Extra) (r : Row (Light α)) : Row (Light α) :=
  ⟨copyData extra r.data, if Extra.previousObs ∈ extra then r.prev else 0, if Extra.nextObs ∈ extra then r.next else 0⟩

/-- `extract_light_with_mask` with a mask, network.py:1555-1601. A field which is not in the new dataset raises: `only_variables` (network.py:1576, used
in observation.py:518-519) removes it. -/
def extractLight (rows : List (Row (Light α))) (mask : List Bool) (extra : List Extra) : Option (List (Row (Light α))) :=
  if mask.length ≠ rows.length then none
  else if extra.any (fun e => match e with | .other _ => true | _ => false) then none
  else do
    let sel ← (maskIdx mask).mapM (fun k => rows[k]?)
    if Extra.previousObs ∈ extra ∧ Extra.nextObs ∈ extra then
      sel.mapM (fun r => (relink (translate rows.length (maskIdx mask)) r).map (copyRow extra))
    else some (sel.map (copyRow extra))

/-! ### Specification -/

/-- The observation with the fields which are asked, its links unchanged. -/
def asked (extra : List Extra) (r : Row (Light α)) : Row (Light α) := { r with data := copyData extra r.data }

/-- Only fields of networks are asked. -/
def Known (extra : List Extra) : Prop := ∀ n, Extra.other n ∉ extra

/-! ### Proofs -/

theorem known_any {extra : List Extra} (h : Known extra) : ¬ (extra.any (fun e => match e with | .other _ => true | _ => false)) = true := by
  rw [List.any_eq_true]
  rintro ⟨e, he, h1⟩
  cases e <;> simp at h1
  exact h _ he

theorem mapM_map_option {β γ δ : Type} (f : β → Option γ) (g : γ → δ) (l : List β) : l.mapM (fun b => (f b).map g) = (l.mapM f).map (List.map g) := by
  induction l with
  | nil => rfl
  | cons b l ih =>
    rw [List.mapM_cons, List.mapM_cons, ih]
    cases f b with
    | none => rfl
    | some c =>
      cases l.mapM f with
      | none => rfl
      | some cs => rfl

theorem extractLight_links {rows : List (Row (Light α))} {mask : List Bool} {extra : List Extra} (hk : Known extra)
    (hp : Extra.previousObs ∈ extra) (hn : Extra.nextObs ∈ extra) :
    extractLight rows mask extra = (extractMask rows mask).map (List.map (asked extra)) := by
  unfold extractLight extractMask take
  by_cases hl : mask.length ≠ rows.length
  · rw [if_pos hl, if_pos hl]; rfl
  · rw [if_neg hl, if_neg hl, if_neg (known_any hk)]
    cases h : (maskIdx mask).mapM (fun k => rows[k]?) with
    | none => rfl
    | some sel =>
      show (if Extra.previousObs ∈ extra ∧ Extra.nextObs ∈ extra then _ else _) = _
      rw [if_pos ⟨hp, hn⟩, mapM_map_option]
      show _ = Option.map _ (sel.mapM (relink (translate rows.length (maskIdx mask))))
      congr 1
      funext l
      congr 1
      funext r
      unfold copyRow asked
      rw [if_pos hp, if_pos hn]

/-- C174 (partial). When both links are asked, the light extraction keeps the observations of the mask in their order with the fields which are asked,
and the links between them; the other links are removed.
Missing: when one of the links is not asked, see `light_links_wrong` and `light_one_link_wrong`. -/
theorem extract_light_partial {rows : List (Row (Light α))} {mask : List Bool} {extra : List Extra} (hk : Known extra)
    (hp : Extra.previousObs ∈ extra) (hn : Extra.nextObs ∈ extra) (hl : mask.length = rows.length) (hv : Valid rows) :
    ∃ out idx, extractLight rows mask extra = some out ∧ idx.Pairwise (· < ·) ∧ (∀ i : Nat, i ∈ idx ↔ mask[i]? = some true) ∧ out.length = idx.length ∧
      ∀ (k : Nat) r, out[k]? = some r → ∃ i r0, idx[k]? = some i ∧ rows[i]? = some r0 ∧ r.data.light = r0.data.light ∧
        (Extra.track ∈ extra → r.data.track = r0.data.track) ∧ (Extra.segment ∈ extra → r.data.segment = r0.data.segment) ∧
        (Extra.nextCost ∈ extra → r.data.nextCost = r0.data.nextCost) ∧ (Extra.previousCost ∈ extra → r.data.previousCost = r0.data.previousCost) ∧
        Image idx r0.prev r.prev ∧ Image idx r0.next r.next := by
  obtain ⟨out, idx, h1, h2, h3, h4, h5⟩ := extract_with_mask_links rows mask hl hv
  refine ⟨out.map (asked extra), idx, by rw [extractLight_links hk hp hn, h1]; rfl, h2, h3, by rw [List.length_map, h4], ?_⟩
  intro k r hr
  rw [List.getElem?_map] at hr
  obtain ⟨r', hr', rfl⟩ := Option.map_eq_some_iff.1 hr
  obtain ⟨i, r0, h6, h7, h8, h9, h10⟩ := h5 k r' hr'
  refine ⟨i, r0, h6, h7, ?_, ?_, ?_, ?_, ?_, h9, h10⟩
  · show r'.data.light = _
    rw [h8]
  · intro h
    show (if _ then _ else _) = _
    rw [if_pos h, h8]
  · intro h
    show (if _ then _ else _) = _
    rw [if_pos h, h8]
  · intro h
    show (if _ then _ else _) = _
    rw [if_pos h, h8]
  · intro h
    show (if _ then _ else _) = _
    rw [if_pos h, h8]

theorem mapM_getElem_length {β : Type} {rows : List β} : ∀ (idx : List Nat) {sel : List β}, idx.mapM (fun k => rows[k]?) = some sel →
    ∀ (k : Nat) r, sel[k]? = some r → ∃ i, idx[k]? = some i ∧ rows[i]? = some r := by
  intro idx
  induction idx with
  | nil => intro sel h k r hr; cases h; simp at hr
  | cons i idx ih =>
    intro sel h k r hr
    rw [List.mapM_cons] at h
    cases h1 : rows[i]? with
    | none => rw [h1] at h; cases h
    | some x =>
      cases h2 : idx.mapM (fun k => rows[k]?) with
      | none => rw [h1, h2] at h; cases h
      | some xs =>
        rw [h1, h2] at h
        cases h
        cases k with
        | zero => cases hr; exact ⟨i, rfl, h1⟩
        | succ k => exact ih h2 k r hr

/-- C174, full statement refuted, whatever the network and the mask: when no link is asked (the default), each observation of the result has the
first one as next and as previous observation. -/
theorem light_links_wrong {rows out : List (Row (Light α))} {mask : List Bool} {extra : List Extra} (hp : Extra.previousObs ∉ extra)
    (hn : Extra.nextObs ∉ extra) (h : extractLight rows mask extra = some out) : ∀ r ∈ out, r.prev = 0 ∧ r.next = 0 := by
  unfold extractLight at h
  split at h
  · cases h
  · split at h
    · cases h
    · cases h1 : (maskIdx mask).mapM (fun k => rows[k]?) with
      | none => rw [h1] at h; cases h
      | some sel =>
        rw [h1] at h
        have h : (if Extra.previousObs ∈ extra ∧ Extra.nextObs ∈ extra then _ else some (sel.map (copyRow extra))) = some out := h
        rw [if_neg (by rintro ⟨h2, _⟩; exact hp h2)] at h
        cases h
        intro r hr
        rw [List.mem_map] at hr
        obtain ⟨r', _, rfl⟩ := hr
        unfold copyRow
        rw [if_neg hp, if_neg hn]
        exact ⟨rfl, rfl⟩

/-- When only the next observation is asked, its number is the one of the whole network, not of the extraction. -/
theorem light_one_link_wrong {rows out : List (Row (Light α))} {mask : List Bool} {extra : List Extra} (hp : Extra.previousObs ∉ extra)
    (hn : Extra.nextObs ∈ extra) (h : extractLight rows mask extra = some out) :
    ∀ (k : Nat) r, out[k]? = some r → ∃ i r0, (maskIdx mask)[k]? = some i ∧ rows[i]? = some r0 ∧ r.next = r0.next ∧ r.prev = 0 := by
  unfold extractLight at h
  split at h
  · cases h
  · split at h
    · cases h
    · cases h1 : (maskIdx mask).mapM (fun k => rows[k]?) with
      | none => rw [h1] at h; cases h
      | some sel =>
        rw [h1] at h
        have h : (if Extra.previousObs ∈ extra ∧ Extra.nextObs ∈ extra then _ else some (sel.map (copyRow extra))) = some out := h
        rw [if_neg (by rintro ⟨h2, _⟩; exact hp h2)] at h
        cases h
        intro k r hr
        rw [List.getElem?_map] at hr
        obtain ⟨r', hr', rfl⟩ := Option.map_eq_some_iff.1 hr
        obtain ⟨i, h3, h4⟩ := mapM_getElem_length _ h1 k r' hr'
        refine ⟨i, r', h3, h4, ?_, ?_⟩
        · unfold copyRow; rw [if_pos hn]
        · unfold copyRow; rw [if_neg hp]

/-- C174 (other fields): the fields of networks which are not asked are zero. -/
theorem light_not_asked {rows out : List (Row (Light α))} {mask : List Bool} {extra : List Extra} (h : extractLight rows mask extra = some out) :
    ∀ r ∈ out, (Extra.track ∉ extra → r.data.track = 0) ∧ (Extra.segment ∉ extra → r.data.segment = 0) ∧
      (Extra.nextCost ∉ extra → r.data.nextCost = 0) ∧ (Extra.previousCost ∉ extra → r.data.previousCost = 0) := by
  have hc : ∀ r ∈ out, ∃ r0, r = copyRow extra r0 := by
    unfold extractLight at h
    split at h
    · cases h
    split at h
    · cases h
    cases hs : (maskIdx mask).mapM (fun k => rows[k]?) with
    | none => rw [hs] at h; cases h
    | some sel =>
      rw [hs] at h
      change (if Extra.previousObs ∈ extra ∧ Extra.nextObs ∈ extra then _ else _) = _ at h
      split at h
      · rw [mapM_map_option] at h
        obtain ⟨l, _, rfl⟩ := Option.map_eq_some_iff.1 h
        intro r hr
        obtain ⟨r0, _, rfl⟩ := List.mem_map.1 hr
        exact ⟨r0, rfl⟩
      · cases h
        intro r hr
        obtain ⟨r0, _, rfl⟩ := List.mem_map.1 hr
        exact ⟨r0, rfl⟩
  intro r hr
  obtain ⟨r0, rfl⟩ := hc r hr
  exact ⟨fun h => if_neg h, fun h => if_neg h, fun h => if_neg h, fun h => if_neg h⟩

/-- A variable which is not one of the six fields of networks raises, whatever the dataset. -/
theorem light_unknown_raises (rows : List (Row (Light α))) (mask : List Bool) {extra : List Extra} {n : String} (h : Extra.other n ∈ extra) :
    extractLight rows mask extra = none := by
  unfold extractLight
  split
  · rfl
  · rw [if_pos]
    rw [List.any_eq_true]
    exact ⟨_, h, rfl⟩

/-! ### Examples -/

/-- Three observations of a segment, the two last ones are extracted. -/
example : extractLight [⟨⟨"a", 1, 2, 0, 0⟩, -1, 1⟩, ⟨⟨"b", 1, 2, 0, 0⟩, 0, 2⟩, ⟨⟨"c", 1, 2, 0, 0⟩, 1, -1⟩] [false, true, true]
      [.previousObs, .nextObs, .segment] = some [⟨⟨"b", 0, 2, 0, 0⟩, -1, 1⟩, ⟨⟨"c", 0, 2, 0, 0⟩, 0, -1⟩] ∧
    extractLight [⟨⟨"a", 1, 2, 0, 0⟩, -1, 1⟩, ⟨⟨"b", 1, 2, 0, 0⟩, 0, 2⟩, ⟨⟨"c", 1, 2, 0, 0⟩, 1, -1⟩] [false, true, true] [] =
      some [⟨⟨"b", 0, 0, 0, 0⟩, 0, 0⟩, ⟨⟨"c", 0, 0, 0, 0⟩, 0, 0⟩] ∧
    extractLight [⟨⟨"a", 1, 2, 0, 0⟩, -1, 1⟩, ⟨⟨"b", 1, 2, 0, 0⟩, 0, 2⟩, ⟨⟨"c", 1, 2, 0, 0⟩, 1, -1⟩] [false, true, true] [.nextObs] =
      some [⟨⟨"b", 0, 0, 0, 0⟩, 0, 2⟩, ⟨⟨"c", 0, 0, 0, 0⟩, 0, -1⟩] := by decide +kernel

example : Known [.previousObs, .nextObs] ∧ Valid ([⟨⟨"a", 1, 2, 0, 0⟩, -1, 1⟩, ⟨⟨"b", 1, 2, 0, 0⟩, 0, -1⟩] : List (Row (Light String))) := by
  refine ⟨by intro n h; simp at h, ?_⟩
  intro r hr
  simp at hr
  rcases hr with rfl | rfl <;> simp

end Verif.Links
