import Verif.Fields.Model

/-!
# C89: fields keep their values
-/

namespace Verif.Fields

variable {V : Type}

theorem mem_elements {c : Class} (hc : c.Ordered) (k : Config) (s : String) : s ∈ elements c k ↔
    s ∈ c.always ∨ ((s ∈ c.base ∨ (0 < k.nArr ∧ s ∈ k.arrays.names) ∨ s ∈ k.extra.names) ∧ ∀ o, k.only = some o → s ∈ o) := by
  unfold elements
  simp only
  rw [(hc _).2, List.mem_append, (hc _).2]
  have hmem : s ∈ c.base ++ (if k.nArr > 0 then k.arrays.names else []) ++ k.extra.names ↔
      (s ∈ c.base ∨ (0 < k.nArr ∧ s ∈ k.arrays.names) ∨ s ∈ k.extra.names) := by
    rw [List.mem_append, List.mem_append, or_assoc]
    split
    · rename_i h
      simp [h]
    · rename_i h
      simp [h]
  cases ho : k.only with
  | none =>
    simp only [reduceCtorEq, false_implies, implies_true, and_true]
    rw [hmem]
    tauto
  | some o =>
    simp only [List.mem_filter, decide_eq_true_eq, Option.some.injEq]
    rw [hmem]
    constructor
    · rintro (⟨h1, h2⟩ | h)
      · exact Or.inr ⟨h1, fun o' ho' => ho' ▸ h2⟩
      · exact Or.inl h
    · rintro (h | ⟨h1, h2⟩)
      · exact Or.inr h
      · exact Or.inl ⟨h1, h2 o rfl⟩

theorem elements_nodup {c : Class} (hc : c.Ordered) (k : Config) : (elements c k).Nodup := (hc _).1

theorem field_map {names : List String} (g : String → V) {s : String} (hs : s ∈ names) : field names (names.map g) s = some (g s) := by
  unfold field
  have h := List.idxOf_lt_length_of_mem hs
  rw [List.getElem?_map, List.getElem?_eq_getElem h, List.getElem_idxOf]
  rfl

/-- A field copied by its name has the value of the old row; the other fields are 0. -/
theorem remap_spec {zero : V} {old names : List String} {row : List V} (hr : row.length = old.length) {s : String} (hs : s ∈ names) :
    (s ∈ old → field names (remap zero old names row) s = field old row s) ∧ (s ∉ old → field names (remap zero old names row) s = some zero) := by
  unfold remap
  rw [field_map _ hs]
  constructor
  · intro h
    rw [if_pos h]
    have hl : old.idxOf s < row.length := by rw [hr]; exact List.idxOf_lt_length_of_mem h
    unfold field
    rw [List.getElem?_eq_getElem hl]
    rfl
  · intro h
    rw [if_neg h]

theorem col_map {c : Class} {zero : V} {d : Data V} (hd : d.Wf c) (k : Config) {s : String} (hs : s ∈ elements c k) :
    (s ∈ d.fields c → Data.col c ⟨k, d.rows.map (remap zero (d.fields c) (elements c k))⟩ s = d.col c s) ∧
    (s ∉ d.fields c → Data.col c ⟨k, d.rows.map (remap zero (d.fields c) (elements c k))⟩ s = d.rows.map (fun _ => some zero)) := by
  unfold Data.col
  constructor
  · intro h
    simp only [List.map_map]
    apply List.map_congr_left
    intro r hr
    exact (remap_spec (hd r hr) hs).1 h
  · intro h
    simp only [List.map_map]
    apply List.map_congr_left
    intro r hr
    exact (remap_spec (hd r hr) hs).2 h

/-- **C89** (`add_fields`): the fields are the old ones and the new ones, the old ones keep their values, the new ones are 0. Missing: datasets which come from
`remove_fields` (`add_after_remove_wrong`), arrays when the dataset has no array (`add_array_wrong`). -/
theorem add_fields_partial {c : Class} (hc : c.Ordered) (zero : V) {d : Data V} (hd : d.Wf c) {e a : List String} (he : d.config.extra = .list e)
    (ha : d.config.arrays = .list a) (fields arrayFields : List String) (harr : 0 < d.config.nArr ∨ arrayFields = []) :
    ∃ d', addFields c zero d fields arrayFields = some d' ∧ d'.Wf c ∧ (d'.fields c).Nodup ∧ d'.rows.length = d.rows.length ∧
      (∀ s, s ∈ d'.fields c ↔ s ∈ d.fields c ∨ s ∈ fields ∨ s ∈ arrayFields) ∧ (∀ s ∈ d.fields c, d'.col c s = d.col c s) ∧
      ∀ s ∈ d'.fields c, s ∉ d.fields c → d'.col c s = d.rows.map (fun _ => some zero) := by
  have hrun : addFields c zero d fields arrayFields = some ⟨⟨.list (e ++ fields), .list (a ++ arrayFields), d.config.nArr, some (d.fields c ++ fields ++ arrayFields)⟩,
      d.rows.map (remap zero (d.fields c) (elements c ⟨.list (e ++ fields), .list (a ++ arrayFields), d.config.nArr, some (d.fields c ++ fields ++ arrayFields)⟩))⟩ := by
    unfold addFields
    rw [he, ha]
  have hmem : ∀ s, s ∈ elements c ⟨.list (e ++ fields), .list (a ++ arrayFields), d.config.nArr, some (d.fields c ++ fields ++ arrayFields)⟩ ↔
      s ∈ d.fields c ∨ s ∈ fields ∨ s ∈ arrayFields := by
    intro s
    rw [mem_elements hc]
    simp only [Names.names, List.mem_append, Option.some.injEq]
    have hold : s ∈ d.fields c ↔ _ := mem_elements hc d.config s
    rw [he, ha] at hold
    simp only [Names.names] at hold
    constructor
    · rintro (h | ⟨_, h2⟩)
      · exact Or.inl (hold.2 (Or.inl h))
      · have h3 := h2 _ rfl
        simp only [List.mem_append] at h3
        tauto
    · intro h
      by_cases hal : s ∈ c.always
      · exact Or.inl hal
      · refine Or.inr ⟨?_, fun o ho => by rw [← ho]; simp only [List.mem_append]; tauto⟩
        rcases h with h | h | h
        · rcases hold.1 h with h | ⟨h, _⟩
          · exact absurd h hal
          · tauto
        · tauto
        · rcases harr with h0 | h0
          · tauto
          · rw [h0] at h
            simp at h
  refine ⟨_, hrun, ?_, elements_nodup hc _, by simp, hmem, ?_, ?_⟩
  · intro r hr
    obtain ⟨r', _, rfl⟩ := List.mem_map.1 hr
    simp [remap, Data.fields]
  · intro s hs
    exact (col_map hd _ ((hmem s).2 (Or.inl hs))).1 hs
  · intro s hs hns
    exact (col_map hd _ hs).2 hns

/-- **C89** (`remove_fields`): the fields are the ones which are not removed (and the ones of the class); they keep their values. -/
theorem remove_fields_spec {c : Class} (hc : c.Ordered) (zero : V) {d : Data V} (hd : d.Wf c) (fields : List String) :
    (removeFields c zero d fields).Wf c ∧ (removeFields c zero d fields).rows.length = d.rows.length ∧
    (∀ s, s ∈ (removeFields c zero d fields).fields c ↔ s ∈ d.fields c ∧ (s ∉ fields ∨ s ∈ c.always)) ∧
    ∀ s ∈ (removeFields c zero d fields).fields c, (removeFields c zero d fields).col c s = d.col c s := by
  have hmem : ∀ s, s ∈ (removeFields c zero d fields).fields c ↔ s ∈ d.fields c ∧ (s ∉ fields ∨ s ∈ c.always) := by
    intro s
    have h1 : s ∈ (removeFields c zero d fields).fields c ↔ _ := mem_elements hc (removeFields c zero d fields).config s
    have h2 : s ∈ d.fields c ↔ _ := mem_elements hc d.config s
    rw [h1]
    unfold removeFields
    simp only [Names.names, List.mem_filter, decide_eq_true_eq, Option.some.injEq]
    constructor
    · rintro (h | ⟨_, h⟩)
      · exact ⟨h2.2 (Or.inl h), Or.inr h⟩
      · have := h _ rfl
        rw [List.mem_filter, decide_eq_true_eq] at this
        exact ⟨this.1, Or.inl this.2⟩
    · rintro ⟨h3, h4⟩
      by_cases hal : s ∈ c.always
      · exact Or.inl hal
      · have h5 : s ∉ fields := by tauto
        refine Or.inr ⟨?_, fun o ho => by rw [← ho, List.mem_filter]; exact ⟨h3, by simpa using h5⟩⟩
        rcases h2.1 h3 with h | ⟨h, _⟩
        · exact absurd h hal
        · tauto
  refine ⟨?_, by simp [removeFields], hmem, ?_⟩
  · intro r hr
    unfold removeFields at hr ⊢
    simp only at hr
    obtain ⟨r', _, rfl⟩ := List.mem_map.1 hr
    simp [remap, Data.fields]
  · intro s hs
    exact (col_map hd _ hs).1 ((hmem s).1 hs).1

/-- **C89** (`copy`): same fields, same values. -/
theorem copy_spec {c : Class} (hc : c.Ordered) (zero : V) {d : Data V} (hd : d.Wf c) : copy c zero d = d := by
  unfold copy
  have : d.rows.map (remap zero (d.fields c) (d.fields c)) = d.rows := by
    conv_rhs => rw [← List.map_id d.rows]
    apply List.map_congr_left
    intro r hr
    unfold remap
    apply List.ext_getElem?
    intro i
    rw [List.getElem?_map]
    by_cases hi : i < (d.fields c).length
    · have hir : i < r.length := by rw [hd r hr]; exact hi
      rw [List.getElem?_eq_getElem hi, Option.map_some, if_pos (List.getElem_mem _)]
      unfold field
      rw [List.Nodup.idxOf_getElem (xs := d.fields c) (elements_nodup hc d.config) i hi, id, List.getElem?_eq_getElem hir]
      rfl
    · rw [List.getElem?_eq_none (by omega), id, List.getElem?_eq_none (by rw [hd r hr]; omega)]
      rfl
  rw [this]

/-- Names are equal to themselves. -/
theorem eqv_refl (n : Names) : n.eqv n = true := by
  cases n with
  | list l => simp [Names.eqv]
  | set l => simp [Names.eqv]

/-- **C89** (`concatenate`): for datasets with the same parameters, each field of the result is the fields of the datasets one after another.
Missing: datasets loaded with different `include_vars`, see `concatenate_wrong`. -/
theorem concatenate_partial {c : Class} {a : Data V} {l : List (Data V)} (h : ∀ b ∈ l, b.config = a.config) :
    ∃ r, concatenate c (a :: l) = some r ∧ r.fields c = a.fields c ∧ ∀ s, r.col c s = (a :: l).flatMap (fun b => b.col c s) := by
  have hall : ∀ b ∈ a :: l, b.config = a.config := by
    intro b hb
    rcases List.mem_cons.1 hb with rfl | hb
    · rfl
    · exact h b hb
  have hrun : concatenate c (a :: l) = some ⟨a.config, (a :: l).flatMap (·.rows)⟩ := by
    show (if _ then _ else _) = _
    rw [if_pos]
    rw [List.all_eq_true]
    intro b hb
    unfold coherence Data.fields
    rw [hall b hb, eqv_refl, eqv_refl]
    simp
  refine ⟨_, hrun, rfl, fun s => ?_⟩
  unfold Data.col
  simp only
  rw [List.map_flatMap]
  have hrow : ∀ rows : List (List V), Data.fields c ⟨a.config, rows⟩ = a.fields c := fun _ => rfl
  rw [hrow]
  have : ∀ m : List (Data V), (∀ b ∈ m, b.config = a.config) → m.flatMap (fun b => b.rows.map (fun r => field (a.fields c) r s)) =
      m.flatMap (fun b => b.rows.map (fun r => field (b.fields c) r s)) := by
    intro m hm
    induction m with
    | nil => rfl
    | cons b m ih =>
      rw [List.flatMap_cons, List.flatMap_cons, ih (fun x hx => hm x (by simp [hx]))]
      congr 1
      unfold Data.fields
      rw [hm b (by simp)]
  exact this _ hall

/-! ### Witnesses -/

/-- A class with two elements; `list(set(l))` keeps the last occurrence of each name. -/
def small : Class := ⟨["lon", "lat"], [], List.dedup⟩

theorem small_ordered : small.Ordered := fun l => ⟨List.nodup_dedup l, fun _ => List.mem_dedup⟩

/-- Parameters of a file loaded with `include_vars`. -/
def loaded (o : List String) : Config := ⟨.list [], .list [], 0, some o⟩

/-- Two datasets loaded with one field each, the longitude and the latitude: they are said coherent and the latitude goes in the longitudes. -/
theorem concatenate_wrong : (concatenate small [⟨loaded ["lon"], [[10]]⟩, ⟨loaded ["lat"], [[-45]]⟩]).map (fun d => d.col small "lon") =
    some [some 10, some (-45 : Int)] := by decide

/-- Same fields, but one dataset comes from `remove_fields`: they are not coherent. -/
theorem coherence_wrong : concatenate small [removeFields small 0 ⟨loaded ["lon", "lat"], [[10, 20]]⟩ ["lat"], (⟨loaded ["lon"], [[30]]⟩ : Data Int)] = none := by decide

/-- `add_fields` raises on a dataset which comes from `remove_fields`. -/
theorem add_after_remove_wrong (c : Class) (zero : V) (d : Data V) (f g h : List String) : addFields c zero (removeFields c zero d f) g h = none := rfl

/-- Without array in the dataset, an array field is not added and nothing is said. -/
theorem add_array_wrong : (addFields small 0 (⟨loaded ["lon"], [[10]]⟩ : Data Int) [] ["uavg_profile"]).map (fun d => d.fields small) = some ["lon"] := by
  decide

example : (addFields small 0 (⟨loaded ["lon"], [[10]]⟩ : Data Int) ["score"] []).map (fun d => (d.fields small, d.col small "lon", d.col small "score")) =
    some (["lon", "score"], [some 10], [some 0]) := by decide

end Verif.Fields
