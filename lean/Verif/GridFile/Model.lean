import Mathlib.Data.Rat.Defs

/-!
Model of the variables of a grid (/repo/src/py_eddy_tracker/dataset/grid.py): reading in the file, cache, copy, filters and writing. The
coordinates have one dimension; attributes, types and compression are not modelled, no more than the coordinates as variables. Values are
exact rationals, masked cells or nan.
-/

namespace Verif.GridFile

/-- A cell of a masked array. -/
inductive Cell
  | masked
  | nan
  | val (q : Rat)
deriving DecidableEq, Repr

/-- An array: its shape and its cells (the position is a list with one index by dimension). -/
structure Arr where
  shape : List Nat
  data : List Nat → Cell

/-- `a.T`. -/
def Arr.T (a : Arr) : Arr := ⟨a.shape.reverse, fun p => a.data p.reverse⟩

/-- A variable of a file: the names of its dimensions and its cells. -/
structure FVar where
  dims : List String
  data : List Nat → Cell

/-- A file: size of each dimension and variables. -/
structure File where
  size : String → Nat
  vars : String → Option FVar

/-- An index of one dimension: an integer, or a slice given by its start and its number of elements (inside of the dimension). -/
inductive Sl
  | one (n : Nat)
  | range (start nb : Nat)
deriving DecidableEq, Repr

/-- Indexes by names of dimensions (`indexs`). -/
abbrev Indexs := String → Option Sl

/-- What the handler knows of a variable (`variables_description`, grid.py:342-366): its dimensions and `infos["transpose"]`. -/
structure Descr where
  dims : List String
  transpose : Bool

/-- `GridDataset`: file, dimensions of the coordinates, `indexs`, `nan_mask`, `vars` and `variables_description`. -/
structure Handler where
  file : File
  xDim : String
  yDim : String
  indexs : Indexs
  nanMask : Bool
  vars : String → Option Arr
  descr : String → Option Descr

/-- `GridDataset(filename, …)` (grid.py:269-309, 311-314, 342-366). -/
def openFile (f : File) (xDim yDim : String) (indexs : Indexs) (nanMask : Bool) : Handler :=
  ⟨f, xDim, yDim, indexs, nanMask, fun _ => none, fun v => (f.vars v).map (fun w => ⟨w.dims, false⟩)⟩

/-- The index of one dimension (grid.py:541-549). -/
def pick (h : Handler) (ix : Indexs) (d : String) : Sl :=
  (ix d).getD ((h.indexs d).getD (if d = h.xDim ∨ d = h.yDim then .range 0 (h.file.size d) else .one 0))

/-- The position in the file of a position of the indexed array. -/
def place : List Sl → List Nat → List Nat
  | [], _ => []
  | .one n :: sl, p => n :: place sl p
  | .range s _ :: sl, p => (s + p.headD 0) :: place sl p.tail

/-- The shape of the indexed array. -/
def shapeOf (sl : List Sl) : List Nat := sl.filterMap (fun s => match s with
  | .one _ => none
  | .range _ nb => some nb)

/-- `h.variables[varname][sl]` (grid.py:550). -/
def indexed (w : FVar) (sl : List Sl) : Arr := ⟨shapeOf sl, fun p => w.data (place sl p)⟩

/-- `ma.array(…, mask=isnan(…))` (grid.py:557-561). -/
def maskNan (c : Cell) : Cell := if c = .nan then .masked else c

/-- `grid` (grid.py:519-566): the array and the handler after the call. `none` is an exception: no variable of this name, a variable
without one of the dimensions of the coordinates. -/
def grid (h : Handler) (v : String) (ix : Indexs) : Option (Arr × Handler) :=
  match h.vars v with
  | some a => some (a, h)
  | none =>
    match h.file.vars v with
    | none => none
    | some w =>
      if h.xDim ∈ w.dims ∧ h.yDim ∈ w.dims then
        let a := indexed w (w.dims.map (pick h ix))
        let t := decide (w.dims.idxOf h.yDim < w.dims.idxOf h.xDim)
        let a := if t then a.T else a
        let a := if h.nanMask then { a with data := fun p => maskNan (a.data p) } else a
        some (a, { h with
          vars := fun u => if u = v then some a else h.vars u
          descr := if t then fun u => if u = v then (h.descr v).map (fun d => { d with transpose := true }) else h.descr u else h.descr })
      else none

/-- `copy` (grid.py:493-508); an unknown `grid_in` raises. -/
def copy (h : Handler) (vin vout : String) : Option Handler :=
  match h.descr vin with
  | none => none
  | some d =>
    let h := { h with descr := fun u => if u = vout then some d else h.descr u }
    match grid h vin (fun _ => none) with
    | none => none
    | some (a, h) => some { h with vars := fun u => if u = vout then some a else h.vars u }

/-- `add_grid` (grid.py:510-517). -/
def addGrid (h : Handler) (v : String) (a : Arr) : Handler := { h with vars := fun u => if u = v then some a else h.vars u }

/-! ### Filters -/

/-- A difference of cells of masked arrays. -/
def Cell.sub : Cell → Cell → Cell
  | .masked, _ => .masked
  | _, .masked => .masked
  | .nan, _ => .nan
  | _, .nan => .nan
  | .val p, .val q => .val (p - q)

/-- A difference of arrays of the same shape. -/
def Arr.sub (a b : Arr) : Arr := ⟨a.shape, fun p => (a.data p).sub (b.data p)⟩

/-- `high_filter` (grid.py:599-606) and `bessel_high_filter`, `lanczos_high_filter` (grid.py:1534-1546, 1570-1593); `low` is `_low_filter`
or the convolution. -/
def highFilter (low : Arr → Arr) (h : Handler) (v : String) : Option Handler :=
  (grid h v (fun _ => none)).map (fun p => addGrid p.2 v (p.1.sub (low p.1)))

/-- `low_filter` (grid.py:608-615). -/
def lowFilter (low : Arr → Arr) (h : Handler) (v : String) : Option Handler :=
  (grid h v (fun _ => none)).map (fun p => addGrid p.2 v (p.1.sub (p.1.sub (low p.1))))

/-- `bessel_low_filter`, `lanczos_low_filter` (grid.py:1548-1558, 1595-1604). -/
def besselLow (low : Arr → Arr) (h : Handler) (v : String) : Option Handler :=
  (grid h v (fun _ => none)).map (fun p => addGrid p.2 v (low p.1))

/-- `bessel_band_filter` (grid.py:1560-1568). -/
def bandFilter (lowInf lowSup : Arr → Arr) (h : Handler) (v : String) : Option Handler :=
  (besselLow lowInf h v).bind (fun h => highFilter lowSup h v)

/-! ### Writing -/

/-- The array which is put in the variable (grid.py:394-398). -/
def stored (d : Descr) (a : Arr) : Arr := if d.transpose then a.T else a

/-- `var[:] = …`: the array is put in all the positions of the first dimensions when its shape is the one of the last dimensions; netCDF4
raises when it is not. -/
def fits (f : File) (d : Descr) (a : Arr) : Bool :=
  decide (a.shape = (d.dims.map f.size).drop (d.dims.length - a.shape.length) ∧ a.shape.length ≤ d.dims.length)

/-- One variable of the output (grid.py:387-398); the outer `none` is an exception. -/
def writeVar (h : Handler) (v : String) : Option (Option FVar) :=
  match h.descr v, h.vars v with
  | some d, some a =>
    if fits h.file d (stored d a) then
      some (some ⟨d.dims, fun p => (stored d a).data (p.drop (p.length - (stored d a).shape.length))⟩)
    else none
  | _, _ => some none

/-- `write` (grid.py:368-402) on the variables of the handler `names`: the file, with the same dimensions. -/
def write (h : Handler) (names : List String) : Option File :=
  if names.all (fun v => (writeVar h v).isSome) then
    some ⟨h.file.size, fun v => if v ∈ names then (writeVar h v).join else none⟩
  else none

end Verif.GridFile
