import Verif.Basic
import Mathlib.Data.List.Sort

/-!
# Grouping of observations: model

Model of `Network.group_translator`, `apply_replace` and `Network.get_group_array`
(`/repo/src/py_eddy_tracker/observations/network.py`).
-/

namespace Verif.Group

/-- network.py:2203-2208 `apply_replace`: replace every `x0` by `x1`. -/
def applyReplace (x : List Nat) (x0 x1 : Nat) : List Nat :=
  x.map fun v => if v = x0 then x1 else v

/-- One iteration of network.py:2019-2022. `none` is the `IndexError` raised by numpy when an element of the pair is
outside the translator. -/
def translateStep (t : List Nat) (d : Nat × Nat) : Option (List Nat) :=
  match t[d.1]?, t[d.2]? with
  | some gi, some gj => some (if gi ≠ gj then applyReplace t gi gj else t)
  | _, _ => none

/-- The loop of network.py:2019-2022 over an already ordered list of pairs. -/
def translateLoop : List Nat → List (Nat × Nat) → Option (List Nat)
  | t, [] => some t
  | t, d :: ds => (translateStep t d).bind fun t' => translateLoop t' ds

/-- Python tuple order used by `sorted` (network.py:2019). -/
def duoLe (a b : Nat × Nat) : Prop := a.1 < b.1 ∨ (a.1 = b.1 ∧ a.2 ≤ b.2)

instance : DecidableRel duoLe := fun a b => by unfold duoLe; infer_instance

/-- network.py:2006-2023 `group_translator`. `sorted` is modelled by insertion sort (stable, as Python's sort). -/
def groupTranslator (nb : Nat) (duos : List (Nat × Nat)) : Option (List Nat) :=
  translateLoop (List.range nb) (duos.insertionSort duoLe)

/-- State of the loop of network.py:1978-2001: labels (flat array of all observations), recorded merges, next free id. -/
structure GState where
  gr : Nat → Nat
  merges : List (Nat × Nat)
  idFree : Nat

/-- One element of `results`, with positions already shifted into the flat array: network.py:1981-1982 builds views
`gr[day_start[i] : day_start[i] + nb_obs[i]]`, so position `k` of the view is flat position `day_start[i] + k`. -/
abbrev Batch := List (Nat × Nat)

/-- network.py:1984-1987: pairs without group get consecutive new ids.  `gr_i[..] = gr_j[..] = arange(..)` is executed
left to right: first the `i` side, then the `j` side. -/
def stepNew (s : GState) (b : Batch) : GState :=
  let m := b.filter fun p => s.gr p.1 = 0 ∧ s.gr p.2 = 0
  let gi := scatter s.gr ((m.map Prod.fst).zip (List.range' s.idFree m.length))
  let gj := scatter gi ((m.map Prod.snd).zip (List.range' s.idFree m.length))
  { s with gr := gj, idFree := s.idFree + m.length }

/-- network.py:1989-1990: a labelled `i` gives its label to an unlabelled `j`. -/
def stepRight (s : GState) (b : Batch) : GState :=
  let m := b.filter fun p => s.gr p.1 ≠ 0 ∧ s.gr p.2 = 0
  { s with gr := scatter s.gr (m.map fun p => (p.2, s.gr p.1)) }

/-- network.py:1991-1992: a labelled `j` gives its label to an unlabelled `i`. -/
def stepLeft (s : GState) (b : Batch) : GState :=
  let m := b.filter fun p => s.gr p.1 = 0 ∧ s.gr p.2 ≠ 0
  { s with gr := scatter s.gr (m.map fun p => (p.1, s.gr p.2)) }

/-- network.py:1994-2001: remember the pairs of different labels, smaller label first. -/
def stepMerge (s : GState) (b : Batch) : GState :=
  let m := b.filter fun p => s.gr p.1 ≠ s.gr p.2
  { s with merges := s.merges ++ m.map fun p =>
      let g0 := s.gr p.1
      let g1 := s.gr p.2
      if g0 > g1 then (g1, g0) else (g0, g1) }

/-- One iteration of the loop network.py:1980-2001. -/
def step (s : GState) (b : Batch) : GState := stepMerge (stepLeft (stepRight (stepNew s b) b) b) b

/-- network.py:1976-1979: every label is `NOGROUP = 0`, first free id is 1. -/
def init : GState := { gr := fun _ => 0, merges := [], idFree := 1 }

/-- One entry of `results`: file numbers and the index pairs in these files. -/
structure Result where
  i : Nat
  j : Nat
  pairs : List (Nat × Nat)

/-- network.py:1974 `day_start = nb_obs.cumsum() - nb_obs`: first flat position of file `k`. -/
def dayStart (nbObs : List Nat) (k : Nat) : Nat := (nbObs.take k).sum

/-- The views of network.py:1981-1982 as flat positions; `none` is the `IndexError` for a position outside the view or a
file number outside `nb_obs`. -/
def flatten (nbObs : List Nat) (r : Result) : Option Batch :=
  match nbObs[r.i]?, nbObs[r.j]? with
  | some ni, some nj =>
    if r.pairs.all fun p => p.1 < ni && p.2 < nj then
      some (r.pairs.map fun p => (dayStart nbObs r.i + p.1, dayStart nbObs r.j + p.2))
    else none
  | _, _ => none

/-- network.py:1969-2003 `get_group_array`. `set(merge_id)` is `dedup`. -/
def getGroupArray (results : List Result) (nbObs : List Nat) : Option (List Nat) :=
  (results.mapM (flatten nbObs)).bind fun bs =>
    let s := bs.foldl step init
    (groupTranslator s.idFree s.merges.dedup).bind fun t =>
      (List.range nbObs.sum).mapM fun a => t[s.gr a]?

end Verif.Group
