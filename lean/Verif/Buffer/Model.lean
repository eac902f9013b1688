import Verif.Basic
import Mathlib.Data.List.Nodup
import Mathlib.Logic.Function.Basic

/-!
# Model of the buffer of contours (`src/py_eddy_tracker/observations/network.py:40-82`)

`F` is the type of file names, `D` the type of the arrays read. `disk f intern` is what a file gives for the chosen contour
(`none`: reading raises). Files do not change during the execution. The branch of `load_contour` for an object which is already
in memory (line 67) does not use the buffer.
-/

namespace Verif.Buffer

variable {F D : Type} [DecidableEq F]

/-- The instance: its parameters, and the two class attributes. -/
structure Buf (F D : Type) where
  size : Int
  intern : Bool
  data : F → Option D
  flist : List F

/-- `__init__` of the first instance, network.py:60-64; `DATA` and `FLIST` are empty. -/
def fresh (size : Int) (intern : Bool) : Buf F D := ⟨size, intern, fun _ => none, []⟩

/-- `Singleton.__call__`, network.py:43-46: the parameters are ignored when an instance exists. -/
def construct (inst : Option (Buf F D)) (size : Int) (intern : Bool) : Buf F D :=
  inst.getD (fresh size intern)

/-- Eviction, network.py:70-71. `none`: `IndexError` of `pop(0)` or `KeyError` of `DATA.pop`. -/
def evict (b : Buf F D) : Option (Buf F D) :=
  if (b.flist.length : Int) > b.size then do
    let f ← b.flist.head?
    let _ ← b.data f
    some { b with flist := b.flist.tail, data := Function.update b.data f none }
  else some b

/-- Storage of what has been read, network.py:80-81. -/
def store (b : Buf F D) (f : F) (d : D) : Buf F D :=
  { b with flist := b.flist ++ [f], data := Function.update b.data f (some d) }

/-- Reading after the eviction, network.py:72-82. -/
def readFile (disk : F → Bool → Option D) (b : Buf F D) (f : F) : Buf F D × Option D :=
  (disk f b.intern).elim (b, none) (fun d => (store b f d, some d))

/-- `load_contour`, network.py:66-82: new state and result (`none`: exception). -/
def loadContour (disk : F → Bool → Option D) (b : Buf F D) (f : F) : Buf F D × Option D :=
  (b.data f).elim ((evict b).elim (b, none) (fun b' => readFile disk b' f)) (fun d => (b, some d))

/-- A sequence of requests. -/
def requests (disk : F → Bool → Option D) : Buf F D → List F → Buf F D × List (Option D)
  | b, [] => (b, [])
  | b, f :: l => ((requests disk (loadContour disk b f).1 l).1,
      (loadContour disk b f).2 :: (requests disk (loadContour disk b f).1 l).2)

end Verif.Buffer
