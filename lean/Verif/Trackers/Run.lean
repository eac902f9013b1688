import Verif.Tracking.Relate
import Verif.Trackers.Turn

/-!
# C208: the whole tracking does not depend on the convention of longitudes

The three trackers of the library (default, of Chelton, by area) put in the loop of `Verif.Tracking.Model`
(src/py_eddy_tracker/tracking.py:365-403), with `propagate` (src/py_eddy_tracker/observations/observation.py:1128-1178 and
featured_tracking/area_tracker.py:51-65). Each observation of each file can be in its own turn of longitude.
-/

namespace Verif.Trackers

open Verif.Poly Verif.Match Verif.Tracking Sphere

/-! ### The trackers in the loop -/

/-- The default class (observation.py:1524-1546 and 1128-1178): amplitude and radius of a virtual observation are those of the last observation, the drift is
the last displacement in longitude and latitude. `round` is the storage of a cost in 32 bits. Simplification: an exception of `tracking` is an empty list of
links (C195 tells that it is raised by the same steps). -/
noncomputable def defaultCfg (round : ℝ → Rat) (nbVirtual : Nat) : Cfg RObs (ℝ × ℝ) where
  tracking p c := match defaultTracking p c with
    | .ok links => links.map (fun l => (l.1, l.2, ((defaultCosts p c l.1 l.2).map round).getD 0))
    | .error _ => []
  extend a b := ({ b with lon := b.lon + (b.lon - a.lon), lat := b.lat + (b.lat - a.lat) }, (b.lon - a.lon, b.lat - a.lat))
  prolong p d := { p with lon := p.lon + d.1, lat := p.lat + d.2 }
  nbVirtual := nbVirtual

/-- The class of Chelton (old_tracker_reference.py:17-76, `propagate` is the inherited one): the cost is the distance. Same simplifications. -/
noncomputable def cheltonCfg (g : Ground) (round : ℝ → Rat) (nbVirtual : Nat) : Cfg Obs Position where
  tracking p c := match cheltonTracking g p c with
    | some links => links.map (fun l => (l.1, l.2,
        (((p[l.1]?).bind (fun a => (c[l.2]?).bind (fun b => gridCell a.lon a.lat b.lon b.lat))).map round).getD 0))
    | none => []
  extend a b := ({ b with lon := b.lon + (b.lon - a.lon), lat := b.lat + (b.lat - a.lat) }, (b.lon - a.lon, b.lat - a.lat))
  prolong p d := { p with lon := p.lon + d.1, lat := p.lat + d.2 }
  nbVirtual := nbVirtual

/-- The tracker by area (area_tracker.py:37-65): an observation is a position with its contour, see `areaCfg`. Same simplifications. -/
def areaRunCfg (g : Areas) (cmin : Rat) (nbVirtual : Nat) : Cfg (Position × List Pt) Position :=
  areaCfg (fun p c => match areaTracking g cmin (p.map (·.2)) (c.map (·.2)) with
    | .ok links => links.map (fun l => (l.1, l.2.1, l.2.2.getD 0))
    | .error _ => []) nbVirtual

/-! ### Specification -/

/-- The same observation with its contour; the position and the contour can be in different turns. -/
def SameRow (a b : Position × List Pt) : Prop := (∃ k : Int, b.1 = (a.1.1 + 360 * k, a.1.2)) ∧ SameContour a.2 b.2

/-! ### The default tracker -/

theorem default_costs_turn {self_ self' other other' : List RObs} (h0 : List.Forall₂ SameRObs self_ self') (h1 : List.Forall₂ SameRObs other other') :
    defaultCosts self' other' = defaultCosts self_ other := by
  funext i j
  unfold defaultCosts
  rcases forall_get h0 i with ⟨e, e'⟩ | ⟨p, p', e, e', hp⟩
  · rw [e, e']; rfl
  · rcases forall_get h1 j with ⟨x, x'⟩ | ⟨q, q', x, x', hq⟩
    · rw [e, e', x, x']; rfl
    · rw [e, e', x, x']
      obtain ⟨a, rfl⟩ := hp
      obtain ⟨b, rfl⟩ := hq
      simp only [Option.bind_some]
      rw [grid_cell_turn]
      rfl

theorem default_alike (round : ℝ → Rat) (n : Nat) : Alike SameRObs (fun d e : ℝ × ℝ => ∃ k : Int, e = (d.1 + 360 * k, d.2))
    (defaultCfg round n) (defaultCfg round n) where
  tracking p p' c c' hp hc := by
    simp only [defaultCfg]
    rw [default_turn hp hc, default_costs_turn hp hc]
  extend := by
    rintro a _ b _ ⟨j, rfl⟩ ⟨k, rfl⟩
    refine ⟨⟨2 * k - j, ?_⟩, k - j, ?_⟩
    · simp only [defaultCfg, RObs.mk.injEq, and_true]
      push_cast
      ring
    · simp only [defaultCfg, Prod.mk.injEq, and_true]
      push_cast
      ring
  prolong := by
    rintro p _ d _ ⟨j, rfl⟩ ⟨k, rfl⟩
    refine ⟨j + k, ?_⟩
    simp only [defaultCfg, RObs.mk.injEq, and_true]
    push_cast
    ring
  nb := rfl

/-- **C208** default tracker: the tracks are the same rows of the same files. -/
theorem default_run_turn (round : ℝ → Rat) (n : Nat) {files files' : List (List RObs)} (hf : List.Forall₂ (List.Forall₂ SameRObs) files files')
    {s : St RObs (ℝ × ℝ)} (hs : track (defaultCfg round n) files = some s) : ∃ t, track (defaultCfg round n) files' = some t ∧
      t.corrs = s.corrs ∧ t.currentId = s.currentId ∧ merged (defaultCfg round n) t = merged (defaultCfg round n) s ∧
      Option.Rel (List.Forall₂ (RelV SameRObs (fun d e : ℝ × ℝ => ∃ k : Int, e = (d.1 + 360 * k, d.2)))) s.virtualObs t.virtualObs := by
  have h := track_rel (default_alike round n) hf
  obtain ⟨t, ht, _, _, hm, _⟩ := tracks_rel (default_alike round n) hf hs
  rw [hs, ht] at h
  cases h with
  | some k => exact ⟨t, ht, k.corrs, k.currentId, hm, k.virtualObs⟩

/-! ### The tracker of Chelton -/

theorem chelton_alike (g : Ground) (round : ℝ → Rat) (n : Nat) : Alike SameObs (fun d e : Position => ∃ k : Int, e = (d.1 + 360 * k, d.2))
    (cheltonCfg g round n) (cheltonCfg g round n) where
  tracking p p' c c' hp hc := by
    simp only [cheltonCfg]
    rw [chelton_turn g hp hc]
    have hd : ∀ i j : Nat, ((p'[i]?).bind (fun a => (c'[j]?).bind (fun b => gridCell a.lon a.lat b.lon b.lat))) =
        ((p[i]?).bind (fun a => (c[j]?).bind (fun b => gridCell a.lon a.lat b.lon b.lat))) := by
      intro i j
      rcases forall_get hp i with ⟨e, e'⟩ | ⟨u, u', e, e', hu⟩
      · rw [e, e']; rfl
      · rcases forall_get hc j with ⟨x, x'⟩ | ⟨w, w', x, x', hw⟩
        · rw [e, e', x, x']; rfl
        · rw [e, e', x, x']
          obtain ⟨a, rfl⟩ := hu
          obtain ⟨b, rfl⟩ := hw
          simp only [Option.bind_some]
          push_cast
          exact grid_cell_turn _ _ _ _ a b
    simp only [hd]
  extend := by
    rintro a _ b _ ⟨j, rfl⟩ ⟨k, rfl⟩
    refine ⟨⟨2 * k - j, ?_⟩, k - j, ?_⟩
    · simp only [cheltonCfg, Obs.mk.injEq, and_true]
      push_cast
      ring
    · simp only [cheltonCfg, Prod.mk.injEq, and_true]
      push_cast
      ring
  prolong := by
    rintro p _ d _ ⟨j, rfl⟩ ⟨k, rfl⟩
    refine ⟨j + k, ?_⟩
    simp only [cheltonCfg, Obs.mk.injEq, and_true]
    push_cast
    ring
  nb := rfl

/-- **C208** tracker of Chelton. -/
theorem chelton_run_turn (g : Ground) (round : ℝ → Rat) (n : Nat) {files files' : List (List Obs)} (hf : List.Forall₂ (List.Forall₂ SameObs) files files')
    {s : St Obs Position} (hs : track (cheltonCfg g round n) files = some s) : ∃ t, track (cheltonCfg g round n) files' = some t ∧
      t.corrs = s.corrs ∧ t.currentId = s.currentId ∧ merged (cheltonCfg g round n) t = merged (cheltonCfg g round n) s ∧
      Option.Rel (List.Forall₂ (RelV SameObs (fun d e : Position => ∃ k : Int, e = (d.1 + 360 * k, d.2)))) s.virtualObs t.virtualObs := by
  have h := track_rel (chelton_alike g round n) hf
  obtain ⟨t, ht, _, _, hm, _⟩ := tracks_rel (chelton_alike g round n) hf hs
  rw [hs, ht] at h
  cases h with
  | some k => exact ⟨t, ht, k.corrs, k.currentId, hm, k.virtualObs⟩

/-! ### The tracker by area -/

theorem forall_with {γ η : Type} {S : γ → η → Prop} {P : γ → Prop} : ∀ {l : List γ} {l' : List η}, List.Forall₂ S l l' → (∀ a ∈ l, P a) →
    List.Forall₂ (fun a b => S a b ∧ P a) l l'
  | _, _, .nil, _ => .nil
  | _, _, .cons h t, hp => .cons ⟨h, hp _ List.mem_cons_self⟩ (forall_with t (fun a ha => hp a (List.mem_cons_of_mem _ ha)))

theorem contours_same {P : Position × List Pt → Prop} : ∀ {l l' : List (Position × List Pt)}, List.Forall₂ (fun a b => SameRow a b ∧ P a) l l' →
    List.Forall₂ SameContour (l.map (·.2)) (l'.map (·.2))
  | _, _, .nil => .nil
  | _, _, .cons h t => .cons h.1.2 (contours_same t)

theorem contours_from {P : Position × List Pt → Prop} {l l' : List (Position × List Pt)} (h : List.Forall₂ (fun a b => SameRow a b ∧ P a) l l')
    {c : List Pt} (hc : c ∈ l.map (·.2)) : ∃ a, P a ∧ a.2 = c := by
  obtain ⟨a, ha, rfl⟩ := List.mem_map.1 hc
  obtain ⟨i, hi⟩ := List.getElem?_of_mem ha
  have := rel_get h i
  rw [hi] at this
  cases e : l'[i]? with
  | none => rw [e] at this; cases this
  | some b =>
    rw [e] at this
    cases this with
    | some k => exact ⟨a, k.2, rfl⟩

theorem area_alike {g : Areas} (hg : Coherent g) (ht : TurnFree g) {cmin : Rat} (hc : 0 ≤ cmin) (n : Nat) (pool : List (List Pt)) (h0 : [] ∉ pool)
    (hw : ∀ c ∈ pool, ∀ d ∈ pool, Narrow c d) : Alike (fun a b => SameRow a b ∧ a.2 ∈ pool) (fun d e : Position => ∃ k : Int, e = (d.1 + 360 * k, d.2))
    (areaRunCfg g cmin n) (areaRunCfg g cmin n) where
  tracking p p' c c' hp hq := by
    have m0 : ∀ {l l' : List (Position × List Pt)}, List.Forall₂ (fun a b => SameRow a b ∧ a.2 ∈ pool) l l' → ∀ x ∈ l.map (·.2), x ∈ pool := by
      intro l l' hl x hx
      obtain ⟨a, ha, rfl⟩ := contours_from (P := fun a => a.2 ∈ pool) hl hx
      exact ha
    simp only [areaRunCfg, areaCfg]
    rw [area_turn hg ht hc (fun h => h0 (m0 hp _ h)) (fun h => h0 (m0 hq _ h)) (fun x hx y hy => hw x (m0 hp x hx) y (m0 hq y hy))
      (contours_same (P := fun a => a.2 ∈ pool) hp) (contours_same (P := fun a => a.2 ∈ pool) hq)]
  extend := by
    rintro a a' b b' ⟨⟨⟨j, hj⟩, _⟩, _⟩ ⟨⟨⟨k, hk⟩, hs⟩, hb⟩
    refine ⟨⟨⟨⟨2 * k - j, ?_⟩, hs⟩, hb⟩, k - j, ?_⟩
    · simp only [areaRunCfg, areaCfg, extendPos, hj, hk, Prod.mk.injEq, and_true]
      push_cast
      ring
    · simp only [areaRunCfg, areaCfg, extendPos, hj, hk, Prod.mk.injEq, and_true]
      push_cast
      ring
  prolong := by
    rintro p p' d _ ⟨⟨⟨j, hj⟩, hs⟩, hp⟩ ⟨k, rfl⟩
    refine ⟨⟨⟨j + k, ?_⟩, hs⟩, hp⟩
    simp only [areaRunCfg, areaCfg, prolongPos, hj, Prod.mk.injEq, and_true]
    push_cast
    ring
  nb := rfl

/-- **C208** tracker by area, when the contours of the files are together narrower than 180 degrees, two by two. -/
theorem area_run_turn {g : Areas} (hg : Coherent g) (ht : TurnFree g) {cmin : Rat} (hc : 0 ≤ cmin) (n : Nat) {files files' : List (List (Position × List Pt))}
    (h0 : ∀ f ∈ files, ∀ a ∈ f, a.2 ≠ []) (hw : ∀ f ∈ files, ∀ a ∈ f, ∀ f' ∈ files, ∀ b ∈ f', Narrow a.2 b.2)
    (hf : List.Forall₂ (List.Forall₂ SameRow) files files') {s : St (Position × List Pt) Position} (hs : track (areaRunCfg g cmin n) files = some s) :
    ∃ t, track (areaRunCfg g cmin n) files' = some t ∧ t.corrs = s.corrs ∧ t.currentId = s.currentId ∧
      merged (areaRunCfg g cmin n) t = merged (areaRunCfg g cmin n) s := by
  have hal := area_alike hg ht hc n (files.flatten.map (·.2))
    (by
      intro hm
      obtain ⟨a, ha, e⟩ := List.mem_map.1 hm
      obtain ⟨f, hf, haf⟩ := List.mem_flatten.1 ha
      exact h0 f hf a haf e)
    (by
      intro c hc d hd
      obtain ⟨a, ha, rfl⟩ := List.mem_map.1 hc
      obtain ⟨b, hb, rfl⟩ := List.mem_map.1 hd
      obtain ⟨f, hf, haf⟩ := List.mem_flatten.1 ha
      obtain ⟨f', hf', hbf⟩ := List.mem_flatten.1 hb
      exact hw f hf a haf f' hf' b hbf)
  have hf2 : List.Forall₂ (List.Forall₂ (fun a b => SameRow a b ∧ a.2 ∈ files.flatten.map (·.2))) files files' := by
    have := forall_with (P := fun f => f ∈ files) hf (fun f hf => hf)
    refine List.Forall₂.imp (fun f f' h => ?_) this
    exact forall_with (P := fun a => a.2 ∈ files.flatten.map (·.2)) h.1
      (fun a ha => List.mem_map_of_mem (List.mem_flatten.2 ⟨f, h.2, ha⟩))
  have h := track_rel hal hf2
  obtain ⟨t, e, _, _, hm, _⟩ := tracks_rel hal hf2 hs
  rw [hs, e] at h
  cases h with
  | some k => exact ⟨t, e, k.corrs, k.currentId, hm⟩

/-! ### Examples -/

/-- Three files of an eddy which goes through the border, the second file in the convention -180..180: the default tracker. -/
example : List.Forall₂ (List.Forall₂ SameRObs) [[⟨358, 10, 1, 1⟩], [⟨359, 10, 1, 1⟩], [⟨0, 10, 1, 1⟩]] [[⟨358, 10, 1, 1⟩], [⟨-1, 10, 1, 1⟩], [⟨360, 10, 1, 1⟩]] := by
  refine .cons (.cons ⟨0, ?_⟩ .nil) (.cons (.cons ⟨-1, ?_⟩ .nil) (.cons (.cons ⟨1, ?_⟩ .nil) .nil)) <;> norm_num

/-- A square of two degrees. -/
def square (x y : Rat) : List Pt := [(x - 1, y - 1), (x + 1, y - 1), (x + 1, y + 1), (x - 1, y + 1)]

/-- The files of the example of the tracker by area: an eddy seen twice, lost, seen again on the other side of the border. -/
def exFiles (k : Rat) : List (List (Position × List Pt)) :=
  [[((358, 10), square 358 10)], [((359, 10), square 359 10)], [((100, 10), square 100 10)], [((360 + 360 * k, 10), square (360 + 360 * k) 10)]]

/-- Areas of the example: boxes which meet have a half in common. -/
def exAreas : Areas where
  area _ := 1
  inter c d := if maxR (c.map (·.1)) < minR (d.map (·.1)) ∨ maxR (d.map (·.1)) < minR (c.map (·.1)) then 0 else 1 / 2

/-- With these areas the run links the last file to the lost track, in one convention as in the other. -/
example : ((track (areaRunCfg exAreas (1 / 5) 2) (exFiles 0)).map (fun s => s.corrs.map (fun c => c.map (fun l => (l.inp, l.out, l.id, l.virt))))) =
    some [[(1, 0, 0, true)], [], [(0, 0, 0, false)]] := by decide +kernel

example : ((track (areaRunCfg exAreas (1 / 5) 2) (exFiles (-1))).map (fun s => s.corrs.map (fun c => c.map (fun l => (l.inp, l.out, l.id, l.virt))))) =
    some [[(1, 0, 0, true)], [], [(0, 0, 0, false)]] := by decide +kernel

end Verif.Trackers
