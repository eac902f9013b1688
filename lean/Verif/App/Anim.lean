import Mathlib.Tactic.Linarith
import Mathlib.Tactic.Ring
import Mathlib.Tactic.FieldSimp
import Mathlib.Tactic.Positivity
import Mathlib.Algebra.Order.Field.Rat
import Mathlib.Data.Rat.Cast.Order

/-!
# C175: the animation of an atlas

Class `Anim` and command `EddyAnim` (/repo/src/py_eddy_tracker/appli/gui.py:24-342): the day which is drawn, the contours which stay on the figure,
their widths, and the keys left and right.
-/

namespace Verif.Anim

variable {α : Type}

/-- One observation: its day `t`, its contour (`x`, `y`) and its value of `field_color`, appli/gui.py:30-31 and 60-62. -/
structure Obs (α : Type) where
  time : Int
  path : α
  color : Rat
deriving DecidableEq

/-- `now`, `segs`, `t_segs` and `c_segs`, appli/gui.py:98-100 and 133. -/
structure State (α : Type) where
  now : Int
  segs : List (List α)
  tSegs : List (List Int)
  cSegs : List (List Rat)
deriving DecidableEq

/-- What the `LineCollection` receives: the contours, the widths, the values of color, appli/gui.py:184-203. -/
structure Drawing (α : Type) where
  paths : List α
  widths : List Rat
  colors : List Rat
deriving DecidableEq

/-- appli/gui.py:169-183: the observations of the day are added to the lists, if there is one at least. -/
def push (color : Bool) (obs : List (Obs α)) (s : State α) : State α :=
  let m := obs.filter (fun o => decide (o.time = s.now))
  if m.isEmpty then s
  else { s with
    segs := s.segs ++ [m.map (·.path)]
    tSegs := s.tSegs ++ [m.map (fun _ => s.now)]
    cSegs := if color then s.cSegs ++ [m.map (·.color)] else s.cSegs }

/-- appli/gui.py:197-202. -/
def width (nb : Nat) (now i : Int) : Rat := if i ≤ now then (1 - ((now - i : Int) : Rat) / nb) * (5 / 2) else 0

/-- appli/gui.py:184-203: `set_paths`, `set_lw` and the values given to the color map. -/
def draw (nb : Nat) (s : State α) : Drawing α := ⟨s.segs.flatten, s.tSegs.flatten.map (width nb s.now), s.cSegs.flatten⟩

/-- appli/gui.py:222-227: the oldest contours are removed. -/
def trim (nb : Nat) (color : Bool) (s : State α) : State α :=
  if nb < s.segs.length then { s with segs := s.segs.drop 1, tSegs := s.tSegs.drop 1, cSegs := if color then s.cSegs.drop 1 else s.cSegs } else s

/-- `update`, appli/gui.py:169-227. -/
def update (nb : Nat) (color : Bool) (obs : List (Obs α)) (s : State α) : State α × Drawing α :=
  (trim nb color (push color obs s), draw nb (push color obs s))

/-- `func_animation(frame)`, appli/gui.py:160-167. -/
def atFrame (nb : Nat) (color : Bool) (obs : List (Obs α)) (s : State α) (d : Int) : State α × Drawing α := update nb color obs { s with now := d }

/-- `next`, appli/gui.py:152-154 (the right key). -/
def next (nb : Nat) (color : Bool) (obs : List (Obs α)) (s : State α) : State α × Drawing α := update nb color obs { s with now := s.now + 1 }

/-- The left key, appli/gui.py:249-257 then 156-158: two steps are removed, then the day before is drawn. `pop` on an empty list raises. -/
def left (nb : Nat) (color : Bool) (obs : List (Obs α)) (s : State α) : Option (State α × Drawing α) :=
  if 2 ≤ s.segs.length ∧ 2 ≤ s.tSegs.length ∧ 2 ≤ s.cSegs.length then
    some (update nb color obs ⟨s.now - 1, s.segs.dropLast.dropLast, s.tSegs.dropLast.dropLast, s.cSegs.dropLast.dropLast⟩)
  else none

/-- The inner loop of `show`, appli/gui.py:131-147, without key: `fuel` bounds the number of turns, one more than the days of the period is enough. -/
def showLoop (nb : Nat) (color : Bool) (obs : List (Obs α)) (t1 : Int) : Nat → State α → List (Drawing α)
  | 0, _ => []
  | fuel + 1, s =>
    let r := next nb color obs s
    r.2 :: (if t1 < r.1.now then [] else showLoop nb color obs t1 fuel r.1)

/-- `setup` then `show` for the period `(t0, t1)`, appli/gui.py:98-100 and 123-150: the figures in their order. -/
def showAll (nb : Nat) (color : Bool) (obs : List (Obs α)) (t0 t1 : Int) : List (Drawing α) :=
  showLoop nb color obs t1 ((t1 - t0).toNat + 1) ⟨t0, [], [], []⟩

/-- Frames given one after the other to `func_animation`. -/
def play (nb : Nat) (color : Bool) (obs : List (Obs α)) : List Int → State α → State α × List (Drawing α)
  | [], s => (s, [])
  | d :: F, s =>
    let r := atFrame nb color obs s d
    let q := play nb color obs F r.1
    (q.1, r.2 :: q.2)

/-- `arange(*a.period)`, appli/gui.py:340. -/
def arange (a b : Int) : List Int := (List.range (b - a).toNat).map (fun (k : Nat) => a + k)

/-- `EddyAnim --mp4`, appli/gui.py:340-342: the figures of the frames `arange(*period)` (not modelled: the first drawing that matplotlib makes before the
first frame, which repeats it). -/
def mp4 (nb : Nat) (color : Bool) (obs : List (Obs α)) (t0 t1 : Int) : List (Drawing α) := (play nb color obs (arange t0 t1) ⟨t0, [], [], []⟩).2

/-! ### Specification -/

/-- The observations of a day. -/
def day (obs : List (Obs α)) (d : Int) : List (Obs α) := obs.filter (fun o => decide (o.time = d))

/-- The `n` last elements. -/
def last {β : Type} (n : Nat) (l : List β) : List β := l.drop (l.length - n)

/-- The days with observations among `F`, each with its observations. -/
def frames (obs : List (Obs α)) (F : List Int) : List (List (Obs α)) := (F.map (day obs)).filter (fun m => !m.isEmpty)

/-- The state holds exactly the observations of `fr`. -/
def Holds (color : Bool) (s : State α) (fr : List (List (Obs α))) : Prop :=
  s.segs = fr.map (·.map (·.path)) ∧ s.tSegs = fr.map (·.map (·.time)) ∧ s.cSegs = if color then fr.map (·.map (·.color)) else []

/-- The figure shows exactly the observations `L` on the day `now`. -/
def Shows (nb : Nat) (color : Bool) (now : Int) (d : Drawing α) (L : List (Obs α)) : Prop :=
  d.paths = L.map (·.path) ∧ d.widths = L.map (fun o => width nb now o.time) ∧ d.colors = if color then L.map (·.color) else []

/-! ### Proofs -/

theorem last_append {β : Type} (n : Nat) (l : List β) (x : β) : last (n + 1) (l ++ [x]) = last n l ++ [x] := by
  unfold last
  rw [List.length_append, List.length_singleton, show l.length + 1 - (n + 1) = l.length - n by omega, List.drop_append_of_le_length (by omega)]

theorem last_of_le {β : Type} (n : Nat) (l : List β) (h : l.length ≤ n) : last n l = l := by
  unfold last; rw [Nat.sub_eq_zero_of_le h, List.drop_zero]

theorem last_length {β : Type} (n : Nat) (l : List β) : (last n l).length = min n l.length := by
  unfold last; rw [List.length_drop]; omega

theorem last_last {β : Type} (n : Nat) (l : List β) (h : n < l.length) : (last (n + 1) l).drop 1 = last n l := by
  unfold last; rw [List.drop_drop]; congr 1; omega

theorem mem_last {β : Type} {n : Nat} {l : List β} {x : β} (h : x ∈ last n l) : x ∈ l := List.mem_of_mem_drop h

theorem time_of_day {obs : List (Obs α)} {d : Int} {o : Obs α} (h : o ∈ day obs d) : o ∈ obs ∧ o.time = d := by
  unfold day at h
  rw [List.mem_filter, decide_eq_true_eq] at h
  exact h

theorem frames_append (obs : List (Obs α)) (F : List Int) (d : Int) :
    frames obs (F ++ [d]) = if (day obs d).isEmpty then frames obs F else frames obs F ++ [day obs d] := by
  unfold frames
  rw [List.map_append, List.filter_append]
  by_cases h : (day obs d).isEmpty <;> simp [h]

theorem push_holds {nb : Nat} {color : Bool} {obs : List (Obs α)} {s : State α} {F : List Int} (h : Holds color s (last nb (frames obs F))) (d : Int) :
    Holds color (push color obs { s with now := d }) (if (day obs d).isEmpty then last nb (frames obs F) else last nb (frames obs F) ++ [day obs d]) ∧
      (push color obs { s with now := d }).now = d := by
  obtain ⟨h1, h2, h3⟩ := h
  unfold push
  change Holds color (if (day obs d).isEmpty then _ else _) _ ∧ _
  by_cases hd : (day obs d).isEmpty
  · rw [if_pos hd, if_pos hd]
    refine ⟨⟨h1, h2, h3⟩, ?_⟩
    show (if (day obs d).isEmpty then _ else _ : State α).now = d
    rw [if_pos hd]
  · rw [if_neg hd, if_neg hd]
    refine ⟨⟨?_, ?_, ?_⟩, ?_⟩
    · show s.segs ++ [(day obs d).map (·.path)] = _
      rw [h1, List.map_append]; rfl
    · show s.tSegs ++ [(day obs d).map (fun _ => d)] = _
      rw [h2, List.map_append]
      congr 1
      show [_] = [_]
      congr 1
      apply List.map_congr_left
      intro o ho
      exact (time_of_day ho).2.symm
    · show (if color then s.cSegs ++ [(day obs d).map (·.color)] else s.cSegs) = _
      rw [h3]
      by_cases hc : color
      · rw [if_pos hc, if_pos hc, if_pos hc, List.map_append]; rfl
      · rw [if_neg hc, if_neg hc, if_neg hc]
    · show (if (day obs d).isEmpty then _ else _ : State α).now = d
      rw [if_neg hd]

theorem draw_shows {nb : Nat} {color : Bool} {s : State α} {fr : List (List (Obs α))} (h : Holds color s fr) : Shows nb color s.now (draw nb s) fr.flatten := by
  obtain ⟨h1, h2, h3⟩ := h
  unfold draw
  refine ⟨?_, ?_, ?_⟩
  · show s.segs.flatten = _
    rw [h1, List.map_flatten]
  · show s.tSegs.flatten.map (width nb s.now) = _
    rw [h2, ← List.map_flatten, List.map_map]; rfl
  · show s.cSegs.flatten = _
    rw [h3]
    by_cases hc : color
    · rw [if_pos hc, if_pos hc, List.map_flatten]
    · rw [if_neg hc, if_neg hc]; rfl

theorem trim_holds {nb : Nat} {color : Bool} {s : State α} {fr : List (List (Obs α))} (h : Holds color s fr) :
    Holds color (trim nb color s) (if nb < fr.length then fr.drop 1 else fr) ∧ (trim nb color s).now = s.now := by
  obtain ⟨h1, h2, h3⟩ := h
  unfold trim
  have hl : s.segs.length = fr.length := by rw [h1, List.length_map]
  rw [hl]
  by_cases hc : nb < fr.length
  · rw [if_pos hc, if_pos hc]
    refine ⟨⟨?_, ?_, ?_⟩, rfl⟩
    · show s.segs.drop 1 = _
      rw [h1, List.map_drop]
    · show s.tSegs.drop 1 = _
      rw [h2, List.map_drop]
    · show (if color then s.cSegs.drop 1 else s.cSegs) = _
      rw [h3]
      by_cases hk : color
      · rw [if_pos hk, if_pos hk, if_pos hk, List.map_drop]
      · rw [if_neg hk, if_neg hk, if_neg hk]
  · rw [if_neg hc, if_neg hc]
    exact ⟨⟨h1, h2, h3⟩, rfl⟩

/-- One frame: the figure shows the observations held and those of the day, the state keeps the last `nb` days which have observations. -/
theorem frame_step {nb : Nat} {color : Bool} {obs : List (Obs α)} {s : State α} {F : List Int} (h : Holds color s (last nb (frames obs F))) (d : Int) :
    Holds color (atFrame nb color obs s d).1 (last nb (frames obs (F ++ [d]))) ∧ (atFrame nb color obs s d).1.now = d ∧
      Shows nb color d (atFrame nb color obs s d).2
        (if (day obs d).isEmpty then last nb (frames obs F) else last (nb + 1) (frames obs (F ++ [d]))).flatten := by
  obtain ⟨hp, hn⟩ := push_holds h d
  have hs := draw_shows (nb := nb) hp
  obtain ⟨ht, htn⟩ := trim_holds (nb := nb) hp
  unfold atFrame update
  rw [hn] at hs htn
  refine ⟨?_, htn, ?_⟩
  · have key : (if nb < (if (day obs d).isEmpty then last nb (frames obs F) else last nb (frames obs F) ++ [day obs d]).length then
        (if (day obs d).isEmpty then last nb (frames obs F) else last nb (frames obs F) ++ [day obs d]).drop 1
        else (if (day obs d).isEmpty then last nb (frames obs F) else last nb (frames obs F) ++ [day obs d])) = last nb (frames obs (F ++ [d])) := by
      rw [frames_append]
      by_cases hd : (day obs d).isEmpty
      · simp only [if_pos hd]
        rw [if_neg (by rw [last_length]; omega)]
      · simp only [if_neg hd]
        rw [← last_append]
        by_cases hc : nb < (last (nb + 1) (frames obs F ++ [day obs d])).length
        · rw [if_pos hc]
          rw [last_length, List.length_append, List.length_singleton] at hc
          exact last_last _ _ (by rw [List.length_append, List.length_singleton]; omega)
        · rw [if_neg hc]
          rw [last_length, List.length_append, List.length_singleton] at hc
          rw [last_of_le _ _ (by rw [List.length_append, List.length_singleton]; omega),
            last_of_le _ _ (by rw [List.length_append, List.length_singleton]; omega)]
    rw [key] at ht
    exact ht
  · have key : (if (day obs d).isEmpty then last nb (frames obs F) else last nb (frames obs F) ++ [day obs d]) =
        (if (day obs d).isEmpty then last nb (frames obs F) else last (nb + 1) (frames obs (F ++ [d]))) := by
      rw [frames_append]
      by_cases hd : (day obs d).isEmpty
      · simp only [if_pos hd]
      · simp only [if_neg hd]; rw [last_append]
    rw [key] at hs
    exact hs

theorem play_holds {nb : Nat} {color : Bool} {obs : List (Obs α)} : ∀ (G : List Int) {s : State α} {F : List Int},
    Holds color s (last nb (frames obs F)) → Holds color (play nb color obs G s).1 (last nb (frames obs (F ++ G))) := by
  intro G
  induction G with
  | nil => intro s F h; simpa [play] using h
  | cons d G ih =>
    intro s F h
    have := ih (frame_step h d).1
    rw [List.append_assoc] at this
    exact this

theorem play_drawing {nb : Nat} {color : Bool} {obs : List (Obs α)} : ∀ (G : List Int) {s : State α} {F : List Int},
    Holds color s (last nb (frames obs F)) → ∀ (i : Nat) D, (play nb color obs G s).2[i]? = some D → ∃ d, G[i]? = some d ∧
      Shows nb color d D (if (day obs d).isEmpty then last nb (frames obs (F ++ G.take i)) else last (nb + 1) (frames obs (F ++ G.take (i + 1)))).flatten := by
  intro G
  induction G with
  | nil => intro s F h i D hD; simp [play] at hD
  | cons d G ih =>
    intro s F h i D hD
    obtain ⟨hs1, hs2, hs3⟩ := frame_step h d
    cases i with
    | zero =>
      have hD : some (atFrame nb color obs s d).2 = some D := hD
      cases hD
      refine ⟨d, rfl, ?_⟩
      simpa using hs3
    | succ i =>
      have hD : (play nb color obs G (atFrame nb color obs s d).1).2[i]? = some D := hD
      obtain ⟨d', h1, h2⟩ := ih hs1 i D hD
      refine ⟨d', h1, ?_⟩
      rw [List.append_assoc, List.append_assoc] at h2
      exact h2

theorem holds_init (nb : Nat) (color : Bool) (obs : List (Obs α)) (t0 : Int) : Holds color ⟨t0, [], [], []⟩ (last nb (frames obs [])) := by
  unfold Holds last frames
  simp

theorem play_length (nb : Nat) (color : Bool) (obs : List (Obs α)) : ∀ (G : List Int) (s : State α), (play nb color obs G s).2.length = G.length := by
  intro G
  induction G with
  | nil => intro s; rfl
  | cons d G ih => intro s; simp [play, ih]

theorem next_eq (nb : Nat) (color : Bool) (obs : List (Obs α)) (s : State α) : next nb color obs s = atFrame nb color obs s (s.now + 1) := rfl

theorem atFrame_now (nb : Nat) (color : Bool) (obs : List (Obs α)) (s : State α) (d : Int) : (atFrame nb color obs s d).1.now = d := by
  have h1 : (push color obs { s with now := d }).now = d := by
    unfold push
    simp only
    split <;> rfl
  unfold atFrame update trim
  split
  · exact h1
  · exact h1

/-- `show` draws the days after the first one, until the day after the last one. -/
theorem showLoop_eq (nb : Nat) (color : Bool) (obs : List (Obs α)) (t1 : Int) : ∀ (fuel : Nat) (s : State α), s.now + fuel = t1 + 1 → 0 < fuel →
    showLoop nb color obs t1 fuel s = (play nb color obs (arange (s.now + 1) (t1 + 2)) s).2 := by
  intro fuel
  induction fuel with
  | zero => intro s _ h; omega
  | succ fuel ih =>
    intro s h _
    have ha : arange (s.now + 1) (t1 + 2) = (s.now + 1) :: arange (s.now + 1 + 1) (t1 + 2) := by
      unfold arange
      rw [show (t1 + 2 - (s.now + 1)).toNat = (t1 + 2 - (s.now + 1 + 1)).toNat + 1 by omega, List.range_succ_eq_map, List.map_cons, List.map_map]
      congr 1
      · simp
      · apply List.map_congr_left
        intro k _
        simp only [Function.comp]
        push_cast
        ring
    rw [ha]
    show (next nb color obs s).2 :: _ = (atFrame nb color obs s (s.now + 1)).2 :: (play nb color obs _ (atFrame nb color obs s (s.now + 1)).1).2
    rw [next_eq]
    congr 1
    have hn := atFrame_now nb color obs s (s.now + 1)
    rw [hn]
    by_cases hc : t1 < s.now + 1
    · rw [if_pos hc]
      have : arange (s.now + 1 + 1) (t1 + 2) = [] := by
        unfold arange
        rw [show (t1 + 2 - (s.now + 1 + 1)).toNat = 0 by omega]; rfl
      rw [this]; rfl
    · rw [if_neg hc]
      have := ih (atFrame nb color obs s (s.now + 1)).1 (by rw [hn]; push_cast at h; omega) (by omega)
      rw [hn] at this
      exact this

theorem showAll_eq (nb : Nat) (color : Bool) (obs : List (Obs α)) {t0 t1 : Int} (h : t0 ≤ t1) :
    showAll nb color obs t0 t1 = (play nb color obs (arange (t0 + 1) (t1 + 2)) ⟨t0, [], [], []⟩).2 := by
  unfold showAll
  rw [showLoop_eq nb color obs t1 _ _ (by show t0 + _ = _; omega) (by omega)]

theorem arange_get {a b : Int} (i : Nat) {d : Int} (h : (arange a b)[i]? = some d) : d = a + i ∧ d < b := by
  unfold arange at h
  rw [List.getElem?_map] at h
  obtain ⟨k, hk, rfl⟩ := Option.map_eq_some_iff.1 h
  rw [List.getElem?_eq_some_iff] at hk
  obtain ⟨hi, hk⟩ := hk
  rw [List.getElem_range] at hk
  rw [List.length_range] at hi
  subst hk
  exact ⟨rfl, by omega⟩

theorem mem_arange {a b d : Int} : d ∈ arange a b ↔ a ≤ d ∧ d < b := by
  unfold arange
  rw [List.mem_map]
  constructor
  · rintro ⟨k, hk, rfl⟩
    rw [List.mem_range] at hk
    omega
  · intro h
    exact ⟨(d - a).toNat, by rw [List.mem_range]; omega, by omega⟩

theorem mem_frames {obs : List (Obs α)} {F : List Int} {o : Obs α} (h : o ∈ (frames obs F).flatten) : o ∈ obs ∧ o.time ∈ F := by
  rw [List.mem_flatten] at h
  obtain ⟨m, hm, ho⟩ := h
  unfold frames at hm
  rw [List.mem_filter, List.mem_map] at hm
  obtain ⟨⟨d, hd, rfl⟩, _⟩ := hm
  obtain ⟨h1, h2⟩ := time_of_day ho
  exact ⟨h1, h2 ▸ hd⟩

theorem mem_last_frames {n : Nat} {obs : List (Obs α)} {F : List Int} {o : Obs α} (h : o ∈ (last n (frames obs F)).flatten) : o ∈ obs ∧ o.time ∈ F := by
  apply mem_frames
  rw [List.mem_flatten] at h ⊢
  obtain ⟨m, hm, ho⟩ := h
  exact ⟨m, mem_last hm, ho⟩

/-- Every observation of a figure is an observation of a day already drawn. -/
theorem play_mem {nb : Nat} {color : Bool} {obs : List (Obs α)} {G : List Int} {t0 : Int} {D : Drawing α}
    (h : D ∈ (play nb color obs G ⟨t0, [], [], []⟩).2) : ∃ d ∈ G, ∃ L, Shows nb color d D L ∧ ∀ o ∈ L, o ∈ obs ∧ o.time ∈ G := by
  obtain ⟨i, hi⟩ := List.getElem?_of_mem h
  obtain ⟨d, h1, h2⟩ := play_drawing G (holds_init nb color obs t0) i D hi
  refine ⟨d, List.mem_of_getElem? h1, _, h2, ?_⟩
  intro o ho
  by_cases hd : (day obs d).isEmpty
  · rw [if_pos hd, List.nil_append] at ho
    obtain ⟨h3, h4⟩ := mem_last_frames ho
    exact ⟨h3, List.mem_of_mem_take h4⟩
  · rw [if_neg hd, List.nil_append] at ho
    obtain ⟨h3, h4⟩ := mem_last_frames ho
    exact ⟨h3, List.mem_of_mem_take h4⟩

theorem last_map {β γ : Type} (f : β → γ) (n : Nat) (l : List β) : last n (l.map f) = (last n l).map f := by
  unfold last; rw [List.length_map, List.map_drop]

theorem take_arange (a b : Int) (i : Nat) (hi : a + i ≤ b) : (arange a b).take i = arange a (a + i) := by
  unfold arange
  rw [← List.map_take, List.take_range, show min i (b - a).toNat = (a + i - a).toNat by omega]

theorem last_arange (a b : Int) (n : Nat) : last n (arange a b) = arange (max a (b - n)) b := by
  unfold last arange
  rw [List.length_map, List.length_range]
  apply List.ext_getElem
  · simp only [List.length_drop, List.length_map, List.length_range]; omega
  · intro i h1 h2
    rw [List.getElem_drop, List.getElem_map, List.getElem_map, List.getElem_range, List.getElem_range]
    rw [List.length_drop, List.length_map, List.length_range] at h1
    omega

/-- C175 (partial). When every day of the period after the first one has an observation, the figure of rank `i` of `show` is the one of the day
`t0 + 1 + i` and shows exactly the observations of this day and of the `nb_step` days before it (of the days already drawn), each once, with widths which
decrease from `5 / 2` to `0`.
Missing: the first day (`show_first_day_wrong`), the days without observation (`gap_width_wrong`). -/
theorem show_partial {nb : Nat} (hnb : 0 < nb) (color : Bool) (obs : List (Obs α)) {t0 t1 : Int} (ht : t0 ≤ t1)
    (hne : ∀ d, t0 < d → d ≤ t1 → ∃ o ∈ obs, o.time = d) (i : Nat) (hi : t0 + 1 + i ≤ t1) :
    ∃ D, (showAll nb color obs t0 t1)[i]? = some D ∧
      Shows nb color (t0 + 1 + i) D ((arange (max (t0 + 1) (t0 + 1 + i - nb)) (t0 + 1 + i + 1)).flatMap (day obs)) ∧
      ∀ o ∈ (arange (max (t0 + 1) (t0 + 1 + i - nb)) (t0 + 1 + i + 1)).flatMap (day obs),
        width nb (t0 + 1 + i) o.time = (1 - ((t0 + 1 + i - o.time : Int) : Rat) / nb) * (5 / 2) ∧
        0 ≤ width nb (t0 + 1 + i) o.time ∧ width nb (t0 + 1 + i) o.time ≤ 5 / 2 := by
  rw [showAll_eq nb color obs ht]
  have hlen : i < (play nb color obs (arange (t0 + 1) (t1 + 2)) ⟨t0, [], [], []⟩).2.length := by
    rw [play_length]; unfold arange; rw [List.length_map, List.length_range]; omega
  refine ⟨_, List.getElem?_eq_getElem hlen, ?_, ?_⟩
  · obtain ⟨d, h1, h2⟩ := play_drawing _ (holds_init nb color obs t0) i _ (List.getElem?_eq_getElem hlen)
    obtain ⟨rfl, h3⟩ := arange_get i h1
    have hd : ∀ d, t0 < d → d ≤ t1 → (day obs d).isEmpty = false := by
      intro d h4 h5
      obtain ⟨o, ho, hot⟩ := hne d h4 h5
      rw [Bool.eq_false_iff]
      intro hh
      rw [List.isEmpty_iff] at hh
      have : o ∈ day obs d := by unfold day; rw [List.mem_filter, decide_eq_true_eq]; exact ⟨ho, hot⟩
      rw [hh] at this
      cases this
    rw [if_neg (by rw [hd _ (by omega) (by omega)]; simp), List.nil_append] at h2
    have hf : frames obs ((arange (t0 + 1) (t1 + 2)).take (i + 1)) = ((arange (t0 + 1) (t1 + 2)).take (i + 1)).map (day obs) := by
      unfold frames
      rw [List.filter_eq_self]
      intro m hm
      rw [List.mem_map] at hm
      obtain ⟨d, hd1, rfl⟩ := hm
      rw [take_arange _ _ _ (by push_cast; omega), mem_arange] at hd1
      rw [hd d (by omega) (by push_cast at hd1; omega)]; rfl
    rw [hf, last_map, take_arange _ _ _ (by push_cast; omega), last_arange, ← List.flatMap_def] at h2
    rw [show t0 + 1 + ((i + 1 : Nat) : Int) = t0 + 1 + i + 1 by push_cast; ring,
      show t0 + 1 + (i : Int) + 1 - ((nb + 1 : Nat) : Int) = t0 + 1 + i - nb by push_cast; ring] at h2
    exact h2
  · intro o ho
    rw [List.mem_flatMap] at ho
    obtain ⟨d, hd, hod⟩ := ho
    rw [mem_arange] at hd
    rw [(time_of_day hod).2]
    unfold width
    rw [if_pos (by omega)]
    have hnb' : (0 : Rat) < nb := by exact_mod_cast hnb
    have h1 : (0 : Rat) ≤ ((t0 + 1 + i - d : Int) : Rat) := by exact_mod_cast (show (0 : Int) ≤ t0 + 1 + i - d by omega)
    have h2 : ((t0 + 1 + i - d : Int) : Rat) ≤ nb := by exact_mod_cast (show t0 + 1 + (i : Int) - d ≤ nb by omega)
    have h3 : ((t0 + 1 + i - d : Int) : Rat) / nb ≤ 1 := by rw [div_le_one hnb']; exact h2
    have h4 : 0 ≤ ((t0 + 1 + i - d : Int) : Rat) / nb := by positivity
    refine ⟨rfl, by linarith, by linarith⟩

/-- C175, full statement refuted, whatever the atlas: no figure of `show` contains an observation of the first day. -/
theorem show_first_day_wrong (nb : Nat) (color : Bool) (obs : List (Obs α)) {t0 t1 : Int} (ht : t0 ≤ t1) :
    ∀ D ∈ showAll nb color obs t0 t1, ∃ d L, Shows nb color d D L ∧ ∀ o ∈ L, o ∈ obs ∧ t0 < o.time := by
  intro D hD
  rw [showAll_eq nb color obs ht] at hD
  obtain ⟨d, _, L, h1, h2⟩ := play_mem hD
  refine ⟨d, L, h1, ?_⟩
  intro o ho
  have := (h2 o ho).2
  rw [mem_arange] at this
  exact ⟨(h2 o ho).1, by omega⟩

/-- Neither does a film contain an observation of the last day. -/
theorem mp4_last_day_wrong (nb : Nat) (color : Bool) (obs : List (Obs α)) (t0 t1 : Int) :
    ∀ D ∈ mp4 nb color obs t0 t1, ∃ d L, Shows nb color d D L ∧ ∀ o ∈ L, o ∈ obs ∧ o.time < t1 := by
  intro D hD
  obtain ⟨d, _, L, h1, h2⟩ := play_mem hD
  refine ⟨d, L, h1, ?_⟩
  intro o ho
  have := (h2 o ho).2
  rw [mem_arange] at this
  exact ⟨(h2 o ho).1, by omega⟩

/-- After days without observation, a contour older than `nb_step` days is still drawn, with a negative width. -/
theorem gap_width_wrong : showAll 2 false [⟨1, "a", 0⟩, ⟨2, "b", 0⟩, ⟨6, "c", 0⟩] 1 6 =
    [⟨["b"], [5/2], []⟩, ⟨["b"], [5/4], []⟩, ⟨["b"], [0], []⟩, ⟨["b"], [-5/4], []⟩, ⟨["b", "c"], [-5/2, 5/2], []⟩, ⟨["b", "c"], [-15/4, 5/4], []⟩] := by
  decide +kernel

theorem dropLast_append_two {β : Type} (l : List β) (x y : β) : (l ++ [x, y]).dropLast.dropLast = l := by
  rw [show l ++ [x, y] = (l ++ [x]) ++ [y] by simp, List.dropLast_concat, List.dropLast_concat]

/-- C175 (partial), the left key with `field_color`: when the last two days `d - 1` and `d` have observations and `nb_step ≥ 2`, the figure goes back to the
day `d - 1`: it shows what was held without the day `d`. Missing: see `left_gap_wrong` and `left_no_color_raises`. -/
theorem left_partial {nb : Nat} (hnb : 2 ≤ nb) {obs : List (Obs α)} {s : State α} {F : List Int} {d : Int} (hnow : s.now = d)
    (h : Holds true s (last nb (frames obs (F ++ [d - 1, d])))) (h1 : ¬ (day obs (d - 1)).isEmpty) (h2 : ¬ (day obs d).isEmpty) :
    ∃ s' D, left nb true obs s = some (s', D) ∧ s'.now = d - 1 ∧ Holds true s' (last (nb - 1) (frames obs (F ++ [d - 1]))) ∧
      Shows nb true (d - 1) D (last (nb - 1) (frames obs (F ++ [d - 1]))).flatten := by
  obtain ⟨n, rfl⟩ : ∃ n, nb = n + 2 := ⟨nb - 2, by omega⟩
  have e1 : frames obs (F ++ [d - 1]) = frames obs F ++ [day obs (d - 1)] := by rw [frames_append, if_neg h1]
  have e2 : last (n + 2) (frames obs (F ++ [d - 1, d])) = last n (frames obs F) ++ [day obs (d - 1), day obs d] := by
    rw [show F ++ [d - 1, d] = (F ++ [d - 1]) ++ [d] by simp, frames_append, if_neg h2, e1, last_append, last_append]; simp
  rw [e2] at h
  obtain ⟨g1, g2, g3⟩ := h
  rw [if_pos rfl] at g3
  rw [List.map_append] at g1 g2 g3
  have l1 : 2 ≤ s.segs.length := by rw [g1, List.length_append]; simp
  have l2 : 2 ≤ s.tSegs.length := by rw [g2, List.length_append]; simp
  have l3 : 2 ≤ s.cSegs.length := by rw [g3, List.length_append]; simp
  have e3 : last (n + 1) (frames obs (F ++ [d - 1])) = last n (frames obs F) ++ [day obs (d - 1)] := by rw [e1, last_append]
  have hbase : Holds true (⟨s.now - 1, s.segs.dropLast.dropLast, s.tSegs.dropLast.dropLast, s.cSegs.dropLast.dropLast⟩ : State α) (last n (frames obs F)) := by
    refine ⟨?_, ?_, ?_⟩
    · show s.segs.dropLast.dropLast = _
      rw [g1]; exact dropLast_append_two _ _ _
    · show s.tSegs.dropLast.dropLast = _
      rw [g2]; exact dropLast_append_two _ _ _
    · show s.cSegs.dropLast.dropLast = _
      rw [g3, if_pos rfl]; exact dropLast_append_two _ _ _
  have hp := push_holds hbase (d - 1)
  rw [if_neg h1, ← e3] at hp
  unfold left
  rw [if_pos ⟨l1, l2, l3⟩]
  have hs : (⟨s.now - 1, s.segs.dropLast.dropLast, s.tSegs.dropLast.dropLast, s.cSegs.dropLast.dropLast⟩ : State α) =
      { (⟨s.now - 1, s.segs.dropLast.dropLast, s.tSegs.dropLast.dropLast, s.cSegs.dropLast.dropLast⟩ : State α) with now := d - 1 } := by rw [hnow]
  rw [hs]
  obtain ⟨ht, htn⟩ := trim_holds (nb := n + 2) hp.1
  rw [if_neg (by rw [last_length]; omega)] at ht
  have hd := draw_shows (nb := n + 2) hp.1
  rw [hp.2] at hd
  exact ⟨_, _, rfl, by rw [htn, hp.2], ht, hd⟩

/-- Without `field_color`, the left key raises, whatever has been drawn. -/
theorem left_no_color_raises (nb : Nat) (obs : List (Obs α)) (G : List Int) (t0 : Int) :
    left nb false obs (play nb false obs G ⟨t0, [], [], []⟩).1 = none := by
  have h := play_holds (nb := nb) (color := false) (obs := obs) G (holds_init nb false obs t0)
  obtain ⟨_, _, h3⟩ := h
  unfold left
  rw [if_neg]
  rintro ⟨_, _, h4⟩
  rw [h3] at h4
  simp at h4

/-- On a day without observation, the left key also removes the contours of an earlier day, though it is less than `nb_step` days old. -/
theorem left_gap_wrong : (play 25 true [⟨1, "a", 0⟩, ⟨2, "b", 1⟩, ⟨3, "c", 2⟩] [1, 2, 3, 4] ⟨0, [], [], []⟩).1.segs = [["a"], ["b"], ["c"]] ∧
    (left 25 true [⟨1, "a", 0⟩, ⟨2, "b", 1⟩, ⟨3, "c", 2⟩] (play 25 true [⟨1, "a", 0⟩, ⟨2, "b", 1⟩, ⟨3, "c", 2⟩] [1, 2, 3, 4] ⟨0, [], [], []⟩).1).map
      (fun r => (r.1.now, r.2.paths)) = some (3, ["a", "c"]) := by decide +kernel

/-- Two observations on one day; the first day is missing and the oldest contours leave the figure. -/
example : showAll 1 true [⟨10, "z", 7⟩, ⟨11, "a", 1⟩, ⟨11, "b", 2⟩, ⟨12, "c", 3⟩, ⟨13, "d", 4⟩] 10 13 =
    [⟨["a", "b"], [5/2, 5/2], [1, 2]⟩, ⟨["a", "b", "c"], [0, 0, 5/2], [1, 2, 3]⟩, ⟨["c", "d"], [0, 5/2], [3, 4]⟩, ⟨["d"], [0], [4]⟩] := by decide +kernel

example : ∀ d : Int, 10 < d → d ≤ 12 → ∃ o ∈ ([⟨10, "z", 7⟩, ⟨11, "a", 1⟩, ⟨12, "c", 3⟩] : List (Obs String)), o.time = d := by
  intro d h1 h2
  obtain rfl | rfl : d = 11 ∨ d = 12 := by omega
  · exact ⟨⟨11, "a", 1⟩, by simp, rfl⟩
  · exact ⟨⟨12, "c", 3⟩, by simp, rfl⟩

/-- The left key after three days with observations. -/
example : (left 25 true [⟨1, "a", 0⟩, ⟨2, "b", 1⟩, ⟨3, "c", 2⟩] (play 25 true [⟨1, "a", 0⟩, ⟨2, "b", 1⟩, ⟨3, "c", 2⟩] [1, 2, 3] ⟨0, [], [], []⟩).1).map
      (fun r => (r.1.now, r.2.paths)) = some (2, ["a", "b"]) := by decide +kernel

end Verif.Anim
