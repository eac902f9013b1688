/-!
# C152: the whole analysis of coherence

Model of `analysis_coherence` (src/py_eddy_tracker/observations/network.py:1639-1720). The methods called are parameters; those which change
the network in place are functions from networks to networks, those which compute may raise (`none`).
-/

namespace Verif.Particles

/-- The methods called by `analysis_coherence`: `correct` has the number of days, `forward` and `backward` give targets and percentages. -/
structure Methods (N R : Type) where
  dissociate : N → N
  correct : Int → N → N
  deadEnd : Int → N → N
  numbering : N → N
  forward : N → Option R
  backward : N → Option R

/-- What a call gives: the network, the results in their order, what is written when there is an output. -/
structure Analysis (N R : Type) where
  net : N
  results : List R
  written : Option (N × List R)

/-- A method of the class called on the result of another; `None` has no method. -/
def onResult {N : Type} (f : N → N) : Option N → Option N
  | none => none
  | some n => some (f n)

/-- `remove_dead_end` (network.py:1455-1497) changes the network in place and returns nothing: the value of the call is `None`. -/
def deadEndValue {N R : Type} (_ : Methods N R) (_ : Int) (_ : N) : Option N := none

/-- `analysis_coherence` (network.py:1639-1720); `none` is an exception. -/
def analysis {N R : Type} (s : Methods N R) (mode : String) (dissociate : Bool) (close dead : Int) (output : Bool) (net : N) : Option (Analysis N R) := do
  let net := if dissociate then s.dissociate net else net
  let net := if close > 0 then s.correct close net else net
  let clean := if dead > 0 then deadEndValue s dead net else some net
  let net ← onResult s.numbering clean
  let f ← if mode = "both" ∨ mode = "forward" then (s.forward net).map (fun r => [r]) else some []
  let b ← if mode = "both" ∨ mode = "backward" then (s.backward net).map (fun r => [r]) else some []
  some ⟨net, f ++ b, if output ∧ mode = "both" then some (net, f ++ b) else none⟩

/-! ### Specification -/

/-- The directions asked by a mode, `true` for forward. -/
def asked (mode : String) : Option (List Bool) :=
  if mode = "both" then some [true, false] else if mode = "forward" then some [true] else if mode = "backward" then some [false] else none

/-- The network after the steps asked. -/
def prepared {N R : Type} (s : Methods N R) (dissociate : Bool) (close dead : Int) (net : N) : N :=
  let net := if dissociate then s.dissociate net else net
  let net := if 0 < close then s.correct close net else net
  s.numbering (if 0 < dead then s.deadEnd dead net else net)

/-- The computation of one direction. -/
def direction {N R : Type} (s : Methods N R) (forward : Bool) (net : N) : Option R := if forward then s.forward net else s.backward net

/-- What the documentation says: the steps asked, then the directions asked, written when there is an output; an unknown mode is refused. -/
def Documented : Prop := ∀ (N R : Type) (s : Methods N R) (mode : String) (dissociate : Bool) (close dead : Int) (output : Bool) (net : N),
  (analysis s mode dissociate close dead output net).map (fun a => (a.net, a.results)) =
    (asked mode).bind (fun l => (l.mapM (fun d => direction s d (prepared s dissociate close dead net))).map
      (fun r => (prepared s dissociate close dead net, r)))

/-- **C152** without removal of dead ends and with a known mode: the network is the one prepared by the steps asked in order, the results are those of
the methods of the directions asked on this network, an exception of one of them is an exception of the whole; the files are written only with both
directions. Missing: `dead_end_wrong`, `mode_wrong`. -/
theorem analysis_partial {N R : Type} (s : Methods N R) {mode : String} {l : List Bool} (hm : asked mode = some l) (dissociate : Bool) (close : Int) {dead : Int}
    (hd : dead ≤ 0) (output : Bool) (net : N) :
    analysis s mode dissociate close dead output net =
      (l.mapM (fun d => direction s d (prepared s dissociate close dead net))).map (fun r => ⟨prepared s dissociate close dead net, r,
        if output = true ∧ l = [true, false] then some (prepared s dissociate close dead net, r) else none⟩) := by
  have hd' : ¬ dead > 0 := by omega
  have hp : prepared s dissociate close dead net =
      s.numbering (if close > 0 then s.correct close (if dissociate then s.dissociate net else net) else (if dissociate then s.dissociate net else net)) := by
    simp only [prepared, if_neg (show ¬ 0 < dead by omega)]
  simp only [analysis, if_neg hd', onResult, Option.bind_eq_bind, Option.bind_some]
  rw [← hp]
  generalize prepared s dissociate close dead net = p
  unfold asked at hm
  by_cases h1 : mode = "both"
  · subst h1
    simp only [if_true, Option.some.injEq] at hm
    subst hm
    simp [direction]
    cases s.forward p <;> cases s.backward p <;> simp
  · rw [if_neg h1] at hm
    by_cases h2 : mode = "forward"
    · subst h2
      simp only [if_true, Option.some.injEq] at hm
      subst hm
      simp [direction]
      cases s.forward p <;> simp
    · rw [if_neg h2] at hm
      by_cases h3 : mode = "backward"
      · subst h3
        simp only [if_true, Option.some.injEq] at hm
        subst hm
        simp [direction]
        cases s.backward p <;> simp
      · rw [if_neg h3] at hm
        cases hm

/-- With a removal of dead ends the analysis always raises: `remove_dead_end` returns nothing. -/
theorem dead_end_wrong {N R : Type} (s : Methods N R) (mode : String) (dissociate : Bool) (close : Int) {dead : Int} (hd : 0 < dead) (output : Bool) (net : N) :
    analysis s mode dissociate close dead output net = none := by
  simp only [analysis, deadEndValue, if_pos (show dead > 0 from hd)]
  rfl

/-- An unknown mode gives an empty result without any exception, and writes nothing. -/
theorem mode_wrong {N R : Type} (s : Methods N R) {mode : String} (hm : asked mode = none) (dissociate : Bool) (close : Int) {dead : Int} (hd : dead ≤ 0)
    (output : Bool) (net : N) :
    analysis s mode dissociate close dead output net = some ⟨prepared s dissociate close dead net, [], none⟩ := by
  have hd' : ¬ dead > 0 := by omega
  unfold asked at hm
  have h1 : mode ≠ "both" := fun e => by rw [if_pos e] at hm; cases hm
  rw [if_neg h1] at hm
  have h2 : mode ≠ "forward" := fun e => by rw [if_pos e] at hm; cases hm
  rw [if_neg h2] at hm
  have h3 : mode ≠ "backward" := fun e => by rw [if_pos e] at hm; cases hm
  simp only [analysis, prepared, if_neg hd']
  simp [onResult, h1, h2, h3]

theorem documented_wrong : ¬ Documented := by
  intro h
  have h1 := h Nat Nat ⟨id, fun _ => id, fun _ => id, id, some, some⟩ "both" false 0 1 false 0
  rw [dead_end_wrong _ _ _ _ (by decide)] at h1
  simp [asked, direction] at h1

example : asked "both" = some [true, false] ∧ asked "forward" = some [true] ∧ asked "all" = none := by decide

example : (analysis (⟨(· + 1), fun _ => (· * 2), fun _ => id, (· + 3), fun n => some (n + 10), fun n => some (n + 20)⟩ : Methods Nat Nat) "both" true 4 0 true 5).map
    (fun a => (a.net, a.results, a.written)) = some (15, [25, 35], some (15, [25, 35])) := by decide

end Verif.Particles
