import Verif.Poly.Indexs

/-!
Model of the contours given by matplotlib: paths cut by the limit of longitudes, selection of the closed contours, label of the contours
which contain several eddies (class `Contours`, /repo/src/py_eddy_tracker/eddy_feature.py). A path is the list of its vertices,
coordinates are exact rationals.
-/

namespace Verif.Seam

open Verif.Poly (Pt minR maxR winding)

/-- Vertices of a path. -/
abbrev Path := List Pt

/-- `DELTA_PREC` (eddy_feature.py:319). -/
def prec : Rat := 1 / 10000000000

/-- `vertices[0]`. -/
def first (p : Path) : Pt := p.headD (0, 0)

/-- `vertices[-1]`. -/
def last (p : Path) : Pt := p.getLastD (0, 0)

/-- `vertices[-1] = v`. -/
def setLast (p : Path) (v : Pt) : Path := p.dropLast ++ [v]

/-- `vertices[:, 0] -= 360`. -/
def west (p : Path) : Path := p.map (fun q => (q.1 - 360, q.2))

/-- Both ends on the meridian `x` (eddy_feature.py:350-361). -/
def onSide (x : Rat) (p : Path) : Bool := decide (|(first p).1 - x| < prec) && decide (|(last p).1 - x| < prec)

/-- Two paths which make a closed contour (eddy_feature.py:369-377). -/
def closes (l r : Path) : Bool := decide (|(first l).2 - (last r).2| < prec) && decide (|(last l).2 - (first r).2| < prec)

/-- The contour made of two paths (eddy_feature.py:379-383). -/
def join2 (l r : Path) : Path :=
  let v := l ++ (west r).tail
  setLast v (first v)

/-- The contours of two segments (eddy_feature.py:364-389): solved contours, paths left, paths right. -/
def simple : List Path → List Path → List Path × List Path × List Path
  | [], r => ([], [], r)
  | l :: ls, r =>
    match r.findIdx? (closes l) with
    | none => let s := simple ls r; (s.1, l :: s.2.1, s.2.2)
    | some i => let s := simple ls (r.eraseIdx i); (join2 l (r.getD i []) :: s.1, s.2.1, s.2.2)

/-- `check_closing` (eddy_feature.py:335-336). -/
def checkClosing (p : Path) : Bool := decide (|(first p).2 - (last p).2| < prec)

/-- `get_next` (eddy_feature.py:322-333): the path, the paths of each side, and the answer. The sides are exchanged at each turn. -/
def getNext (origin : Path) (left right : List Path) : Path × List Path × List Path × Bool :=
  match h : right.findIdx? (fun p => decide (|(last origin).2 - (first p).2| < prec)) with
  | none => (origin, left, right, false)
  | some i =>
    let p := right.getD i []
    let p := if (first p).1 - (last origin).1 > 1 then west p else p
    let origin := origin ++ p
    if checkClosing origin then (setLast origin (first origin), left, right.eraseIdx i, true)
    else
      let r := getNext origin (right.eraseIdx i) left
      (r.1, r.2.2.1, r.2.1, r.2.2.2)
termination_by left.length + right.length
decreasing_by
  have hi := (List.findIdx?_eq_some_iff_findIdx_eq.1 h).1
  rw [List.length_eraseIdx_of_lt hi]
  omega

theorem getNext_length (origin : Path) (left right : List Path) : (getNext origin left right).2.1.length ≤ left.length ∧
    (getNext origin left right).2.2.1.length ≤ right.length := by
  fun_induction getNext origin left right with
  | case1 => exact ⟨le_rfl, le_rfl⟩
  | case2 o l r i h p p' o' hc => exact ⟨le_rfl, by simpa using List.length_eraseIdx_le _ _⟩
  | case3 o l r i h p p' o' hc res ih =>
    refine ⟨ih.2, ih.1.trans (List.length_eraseIdx_le _ _)⟩

/-- The contours of more than two segments (eddy_feature.py:392-396): the contours solved and the paths right. A path whose search
fails is not kept. -/
def multi (left right : List Path) : List Path × List Path :=
  match left with
  | [] => ([], right)
  | origin :: ls =>
    let r := getNext origin ls right
    let s := multi r.2.1 r.2.2.1
    (if r.2.2.2 then r.1 :: s.1 else s.1, s.2)
termination_by left.length
decreasing_by
  have := (getNext_length origin ls right).1
  simp only [List.length_cons]
  omega

/-- `find_wrapcut_path_and_join` for one collection (eddy_feature.py:338-405). -/
def joinSeam (x0 x1 : Rat) (paths : List Path) : List Path :=
  let left := paths.filter (onSide x0)
  let right := paths.filter (fun p => !onSide x0 p && onSide x1 p)
  let out := paths.filter (fun p => !onSide x0 p && !onSide x1 p)
  if left.isEmpty || right.isEmpty then paths
  else
    let s := simple left right
    if !s.2.1.isEmpty && !s.2.2.isEmpty then
      let t := multi s.2.1 s.2.2
      out ++ (s.1 ++ t.1) ++ t.2
    else out ++ s.1 ++ s.2.1 ++ s.2.2

/-! ### Closed contours -/

/-- Square of the distance of the ends (eddy_feature.py:449-452). -/
def gap2 (p : Path) : Rat := ((first p).1 - (last p).1) ^ 2 + ((first p).2 - (last p).2) ^ 2

/-- A path after the selection of `__init__` (eddy_feature.py:444-470); `none` when it is removed. The distance is compared by its square
to `DELTA_SUP = 0.01`. -/
def keep (keepUnclose : Bool) (p : Path) : Option Path :=
  if p.length < 4 then none
  else if gap2 p > (1 / 100) ^ 2 ∧ !keepUnclose then none
  else
    let p := if gap2 p ≠ 0 ∧ gap2 p ≤ (1 / 100) ^ 2 then setLast p (first p) else p
    let ptp := prec * 100
    if |minR (p.map (·.1)) - maxR (p.map (·.1))| < ptp ∨ |minR (p.map (·.2)) - maxR (p.map (·.2))| < ptp then none else some p

/-! ### Labels -/

/-- What is read of an eddy: `height_external_contour` and the position of the extremum. -/
structure Eddy where
  height : Rat
  centre : Pt

/-- A contour: `used` and its vertices. -/
structure Contour where
  used : Bool
  vertices : Path

/-- The number of eddies at a height in a contour (eddy_feature.py:711-721). -/
def count (height : Rat) (c : Contour) (eddies : List Eddy) : Nat :=
  (eddies.filter (fun e => !decide (|e.height - height| > 1 / 100000000) && decide (winding e.centre c.vertices ≠ 0))).length

/-- `contour_height` of the level `k` (eddy_feature.py:692-704): outside `none` when the level is not visited, inside `none` for an
`IndexError`. `cvalues[j + cor]` follows the rule of negative indices. -/
def heightAt (anticyclonic : Bool) (cvalues : List Rat) (n k : Nat) : Option (Option Rat) :=
  if anticyclonic then (if k + 1 < n then some (Py.get cvalues ((k : Int) + 1)) else none)
  else (if 1 ≤ k ∧ k < n then some (Py.get cvalues ((k : Int) - 1 + -1)) else none)

/-- `contain_eddies` of a contour of the level `k` after `label_contour_unused_which_contain_eddies` (eddy_feature.py:690-724); `old` is its
content before. The exception is not reached: one value for each level. -/
def label (anticyclonic : Bool) (cvalues : List Rat) (n k : Nat) (c : Contour) (eddies : List Eddy) (old : Option Bool) : Option Bool :=
  match heightAt anticyclonic cvalues n k with
  | none => old
  | some h => some (!c.used && decide (count (h.getD 0) c eddies > 1))

end Verif.Seam
