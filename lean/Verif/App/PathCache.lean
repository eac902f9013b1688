import Verif.Basic

/-!
# Values kept by a contour (`src/py_eddy_tracker/dataset/grid.py:138-147` and `204-236`, C178)

A contour (`matplotlib.path.Path`) receives methods which keep their result in the object: `pixels_in`, `bbox_slice`,
`pixels_index`, `nb_pixel`, `fit_circle`. Grids, boxes, pixels and circles are arbitrary types; the functions which compute them
are parameters (modelled in `Verif.Pixels`, `Verif.Unregular` and `Verif.Circle`), and may raise (`none`).
-/

namespace Verif.PathCache

/-- What the grids and the fits compute: `grid.bbox_indice(vertices)`, `grid.get_pixels_in(contour)` (which reads the box kept by
the contour, grid.py:1117-1120 and 1271-1283), `_fit_circle_path` and `_circle_from_equal_area`. -/
structure Calc (V G S P C : Type) where
  box : G → V → S
  pixels : G → V → S → Option (List P)
  fit : V → C
  equalArea : V → C

/-- Name of a method of `fit_circle`. -/
inductive Method
  | fit | equalArea | other
deriving DecidableEq

/-- The contour: vertices, and the attributes `_slice`, `_pixels_in` and `_circle_params`. -/
structure Path (V S P C : Type) where
  vertices : V
  slice : Option S
  pixels : Option (List P)
  fit : Option C
  equalArea : Option C

/-- A call. -/
inductive Call (G : Type)
  | pixelsIn (g : G)
  | bboxSlice
  | pixelsIndex
  | nbPixel
  | circle (m : Method)

/-- The answer of a call. -/
inductive Answer (S P C : Type)
  | pixels (l : List P)
  | slice (s : S)
  | count (n : Nat)
  | circle (c : C)
  | raised
deriving DecidableEq

variable {V G S P C : Type}

/-- A new contour keeps nothing. -/
def new (v : V) : Path V S P C := ⟨v, none, none, none, none⟩

/-- An optional answer. -/
def answer {α : Type} (f : α → Answer S P C) : Option α → Answer S P C
  | some a => f a
  | none => .raised

/-- `pixels_in`, grid.py:204-209. -/
def pixelsIn (k : Calc V G S P C) (p : Path V S P C) (g : G) : Path V S P C × Answer S P C :=
  let s := p.slice.getD (k.box g p.vertices)
  let px := p.pixels.or (k.pixels g p.vertices s)
  ({ p with slice := some s, pixels := px }, answer .pixels px)

/-- `fit_circle_path`, grid.py:138-146: an unknown method is a `KeyError`. -/
def fitCircle (k : Calc V G S P C) (p : Path V S P C) : Method → Path V S P C × Answer S P C
  | .fit => let c := p.fit.getD (k.fit p.vertices); ({ p with fit := some c }, .circle c)
  | .equalArea => let c := p.equalArea.getD (k.equalArea p.vertices); ({ p with equalArea := some c }, .circle c)
  | .other => (p, .raised)

/-- One call; `bbox_slice`, `pixels_index` and `nb_pixel` are grid.py:212-230 (`pixels_index` tests `_slice` and reads
`_pixels_in`: both exceptions are `raised`). -/
def call (k : Calc V G S P C) (p : Path V S P C) : Call G → Path V S P C × Answer S P C
  | .pixelsIn g => pixelsIn k p g
  | .bboxSlice => (p, answer .slice p.slice)
  | .pixelsIndex => (p, answer .pixels p.pixels)
  | .nbPixel => (p, answer (fun l => .count l.length) p.pixels)
  | .circle m => fitCircle k p m

/-- A sequence of calls: the last state and the answers. -/
def run (k : Calc V G S P C) (p : Path V S P C) : List (Call G) → Path V S P C × List (Answer S P C)
  | [] => (p, [])
  | c :: cs => let r := call k p c; let t := run k r.1 cs; (t.1, r.2 :: t.2)

/-! ### Specification -/

/-- The value of a call computed without memory, for the vertices `v`; `asked` is the grid of the last call of `pixels_in`. -/
def direct (k : Calc V G S P C) (v : V) (asked : Option G) : Call G → Answer S P C
  | .pixelsIn g => answer .pixels (k.pixels g v (k.box g v))
  | .bboxSlice => answer .slice (asked.map (fun g => k.box g v))
  | .pixelsIndex => answer .pixels (asked.bind (fun g => k.pixels g v (k.box g v)))
  | .nbPixel => answer (fun l => .count l.length) (asked.bind (fun g => k.pixels g v (k.box g v)))
  | .circle .fit => .circle (k.fit v)
  | .circle .equalArea => .circle (k.equalArea v)
  | .circle .other => .raised

/-- The grid of the last call of `pixels_in`. -/
def lastGrid : List (Call G) → Option G
  | [] => none
  | .pixelsIn g :: cs => (lastGrid cs).or (some g)
  | _ :: cs => lastGrid cs

/-- The calls are made with one grid. -/
def OneGrid (g : G) (cs : List (Call G)) : Prop := ∀ g', Call.pixelsIn g' ∈ cs → g' = g

/-! ### Proofs -/

/-- The memory is right for the grid `g`, which was asked or not. -/
structure Good (k : Calc V G S P C) (g : G) (v : V) (asked : Option G) (p : Path V S P C) : Prop where
  vertices : p.vertices = v
  slice : p.slice = asked.map (fun g => k.box g v)
  pixels : p.pixels = asked.bind (fun g => k.pixels g v (k.box g v))
  fit : ∀ c, p.fit = some c → c = k.fit v
  equalArea : ∀ c, p.equalArea = some c → c = k.equalArea v
  asked : ∀ g', asked = some g' → g' = g

/-- The grid asked after a call. -/
def after (asked : Option G) : Call G → Option G
  | .pixelsIn g => some g
  | _ => asked

theorem call_good {k : Calc V G S P C} {g : G} {v : V} {asked : Option G} {p : Path V S P C} (h : Good k g v asked p)
    (c : Call G) (hc : ∀ g', c = .pixelsIn g' → g' = g) :
    Good k g v (after asked c) (call k p c).1 ∧ (call k p c).2 = direct k v asked c := by
  obtain ⟨h1, h2, h3, h4, h5, h6⟩ := h
  cases c with
  | pixelsIn g' =>
    obtain rfl := hc g' rfl
    have es : p.slice.getD (k.box g' p.vertices) = k.box g' v := by
      rw [h2, h1]
      cases ha : asked with
      | none => rfl
      | some a => rw [h6 a ha]; rfl
    have ep : p.pixels.or (k.pixels g' p.vertices (k.box g' v)) = k.pixels g' v (k.box g' v) := by
      rw [h3, h1]
      cases ha : asked with
      | none => rfl
      | some a => rw [h6 a ha, Option.bind_some, Option.or_self]
    refine ⟨⟨h1, ?_, ?_, h4, h5, fun a ha => (Option.some.inj ha).symm⟩, ?_⟩
    · show some (p.slice.getD (k.box g' p.vertices)) = some (k.box g' v)
      rw [es]
    · show p.pixels.or (k.pixels g' p.vertices (p.slice.getD (k.box g' p.vertices))) = k.pixels g' v (k.box g' v)
      rw [es, ep]
    · show answer .pixels (p.pixels.or (k.pixels g' p.vertices (p.slice.getD (k.box g' p.vertices)))) = _
      rw [es, ep]; rfl
  | bboxSlice => exact ⟨⟨h1, h2, h3, h4, h5, h6⟩, by show answer _ p.slice = _; rw [h2]; rfl⟩
  | pixelsIndex => exact ⟨⟨h1, h2, h3, h4, h5, h6⟩, by show answer _ p.pixels = _; rw [h3]; rfl⟩
  | nbPixel => exact ⟨⟨h1, h2, h3, h4, h5, h6⟩, by show answer _ p.pixels = _; rw [h3]; rfl⟩
  | circle m =>
    cases m with
    | fit =>
      have e : p.fit.getD (k.fit p.vertices) = k.fit v := by
        cases hf : p.fit with
        | none => rw [h1]; rfl
        | some c => exact h4 c hf
      refine ⟨⟨h1, h2, h3, fun c hc => ?_, h5, h6⟩, ?_⟩
      · rw [← e]; exact (Option.some.inj hc).symm
      · show Answer.circle (p.fit.getD (k.fit p.vertices)) = _
        rw [e]; rfl
    | equalArea =>
      have e : p.equalArea.getD (k.equalArea p.vertices) = k.equalArea v := by
        cases hf : p.equalArea with
        | none => rw [h1]; rfl
        | some c => exact h5 c hf
      refine ⟨⟨h1, h2, h3, h4, fun c hc => ?_, h6⟩, ?_⟩
      · rw [← e]; exact (Option.some.inj hc).symm
      · show Answer.circle (p.equalArea.getD (k.equalArea p.vertices)) = _
        rw [e]; rfl
    | other => exact ⟨⟨h1, h2, h3, h4, h5, h6⟩, rfl⟩

theorem lastGrid_after (asked : Option G) (c : Call G) (cs : List (Call G)) :
    (lastGrid cs).or (after asked c) = (lastGrid (c :: cs)).or asked := by
  cases c with
  | pixelsIn g =>
    show _ = ((lastGrid cs).or (some g)).or asked
    rw [Option.or_assoc]; rfl
  | bboxSlice => rfl
  | pixelsIndex => rfl
  | nbPixel => rfl
  | circle m => rfl

theorem run_good {k : Calc V G S P C} {g : G} {v : V} (cs : List (Call G)) : ∀ {asked : Option G} {p : Path V S P C},
    Good k g v asked p → OneGrid g cs →
      ∀ (i : Nat) c, cs[i]? = some c → (run k p cs).2[i]? = some (direct k v ((lastGrid (cs.take i)).or asked) c) := by
  induction cs with
  | nil => intro asked p _ _ i c hc; simp at hc
  | cons d cs ih =>
    intro asked p hp ho i c hc
    obtain ⟨h1, h2⟩ := call_good hp d (fun g' e => ho g' (by rw [e]; exact List.mem_cons_self))
    cases i with
    | zero =>
      obtain rfl : d = c := by simpa using hc
      show some (call k p d).2 = _
      rw [h2]; rfl
    | succ i =>
      rw [List.getElem?_cons_succ] at hc
      have := ih h1 (fun g' hg => ho g' (List.mem_cons_of_mem _ hg)) i c hc
      show (run k (call k p d).1 cs).2[i]? = _
      rw [this, List.take_succ_cons, lastGrid_after]

/-- C178 when a contour is used with one grid: whatever the calls before it and their order, each call gives what it would compute
without memory; the box, the pixels and their number raise before the first call of `pixels_in`. -/
theorem cache_partial (k : Calc V G S P C) (g : G) (v : V) (cs : List (Call G)) (ho : OneGrid g cs) :
    (run k (new v) cs).2.length = cs.length ∧
    ∀ (i : Nat) c, cs[i]? = some c → (run k (new v) cs).2[i]? = some (direct k v (lastGrid (cs.take i)) c) := by
  constructor
  · generalize (new v : Path V S P C) = p
    clear ho
    induction cs generalizing p with
    | nil => rfl
    | cons d cs ih => show (_ :: _).length = _; rw [List.length_cons, ih, List.length_cons]
  · intro i c hc
    have h : Good k g v none (new v : Path V S P C) :=
      ⟨rfl, rfl, rfl, fun c h => (by cases h), fun c h => (by cases h), fun g' h => (by cases h)⟩
    rw [run_good cs h ho i c hc, Option.or_none]

/-! ### Refutations -/

/-- Grids are numbers of pixels; the pixels of a contour are all those of the grid. -/
def ex : Calc Nat Nat Nat Nat Nat where
  box g _ := g
  pixels g v s := if v = 0 then none else some (List.range (min g s))
  fit v := v
  equalArea v := 2 * v

/-- With a second grid, the pixels are those of the first one. -/
theorem two_grids_wrong : ∃ (k : Calc Nat Nat Nat Nat Nat) (v g g' : Nat),
    (run k (new v) [.pixelsIn g, .pixelsIn g']).2[1]? ≠ some (direct k v (some g) (.pixelsIn g')) ∧
    (run k (new v) [.pixelsIn g, .pixelsIn g']).2[1]? = some (direct k v none (.pixelsIn g)) :=
  ⟨ex, 1, 2, 3, by decide, by decide⟩

/-- When the vertices are replaced, as the class `Contours` does before (eddy_feature.py:324-330), the circle is the one of the
former vertices. -/
theorem vertices_changed_wrong : ∃ (k : Calc Nat Nat Nat Nat Nat) (v v' : Nat),
    (call k { (call k (new v) (.circle .fit)).1 with vertices := v' } (.circle .fit)).2 = .circle (k.fit v) ∧
    k.fit v ≠ k.fit v' :=
  ⟨ex, 1, 2, rfl, by decide⟩

/-- An unknown method always raises, and changes nothing. -/
theorem unknown_method (k : Calc V G S P C) (p : Path V S P C) : call k p (.circle .other) = (p, .raised) := rfl

/-- A sequence of calls with one grid. -/
example : (OneGrid 3 [Call.nbPixel, .circle .fit, .pixelsIn 3, .nbPixel, .pixelsIn 3, .circle .equalArea]) ∧
    (run ex (new 1) [.nbPixel, .circle .fit, .pixelsIn 3, .nbPixel, .pixelsIn 3, .circle .equalArea]).2 =
      [.raised, .circle 1, .pixels [0, 1, 2], .count 3, .pixels [0, 1, 2], .circle 2] := by
  refine ⟨?_, by decide⟩
  intro g' h
  simpa using h

end Verif.PathCache
