import Verif.Tracking.Final
import Verif.Store.Props

/-!
# Values of the virtual observations in the files (C181)

EddyTracking and EddyFinalTracking work with the packed integers (`raw_data`, the default) or with the values; virtual observations are filled
by interpolation in both cases (`src/py_eddy_tracker/appli/eddies.py:350-372`, `src/scripts/EddyFinalTracking:75-83`,
`src/py_eddy_tracker/observations/groups.py:280-303`), then the file is written.
-/

namespace Verif.Tracking

/-- The packed integers of a field in the file. With `raw_data` the interpolation of the integers is stored in the same integer type, toward zero,
and written as it is (observation.py:1651-1666); otherwise the values are interpolated and packed when they are written. -/
def packedColumn (raw : Bool) (cast : Int → Int) (v : Store.Code) (time : Nat × Nat → Rat) (code : Nat × Nat → Int) (t : Table) : List Int :=
  if raw then (filledColumn time (fun x => (code x : Rat)) t).map Store.trunc
  else (filledColumn time (fun x => Store.decode v (code x)) t).map (Store.encode cast v)

/-- A vertex of a contour in the file, for a row: arrays are not filled (groups.py:295-300), the rows without observation keep the zeros of a new
dataset: packed zeros with `raw_data`, values zero otherwise. -/
def packedVertex (raw : Bool) (cast : Int → Int) (v : Store.Code) (code : Nat × Nat → Int) : Option (Nat × Nat) → Int
  | some x => if raw then code x else Store.encode cast v (Store.decode v (code x))
  | none => if raw then 0 else Store.encode cast v 0

/-! ### Specification -/

/-- The rows with an observation have its value, and the other ones have a value at less than a step of the packing from the line between the
observations before and after in the track. -/
def FilledFile (v : Store.Code) (code : Nat × Nat → Int) (t : Table) (col : List Int) : Prop :=
  (∀ (r : Nat) x, t.rows[r]? = some (some x) → col[r]? = some (code x)) ∧
  ∀ r : Nat, t.rows[r]? = some none → ∃ n a b x y, col[r]? = some n ∧ v.lo ≤ n ∧ n ≤ v.hi ∧ a < r ∧ r < b ∧
    t.rows[a]? = some (some x) ∧ t.rows[b]? = some (some y) ∧ (∀ k, a < k → k < b → t.rows[k]? = some none) ∧
    (∀ k, a ≤ k → k ≤ b → t.track[k]? = t.track[r]?) ∧
    |Store.decode v n - (Store.decode v (code x) + (Store.decode v (code y) - Store.decode v (code x)) / ((b : Rat) - a) * ((r : Rat) - a))| < v.scale

/-! ### Proofs -/

theorem trunc_int (n : Int) : Store.trunc (n : Rat) = n := by
  unfold Store.trunc
  split
  · exact Int.floor_intCast (R := Rat) n
  · have : -(n : Rat) = ((-n : Int) : Rat) := by push_cast; ring
    rw [this]
    show -⌊((-n : Int) : Rat)⌋ = n
    rw [Int.floor_intCast]; omega

/-- The conversion moves by less than one, and stays between integers. -/
theorem trunc_near (x : Rat) : |(Store.trunc x : Rat) - x| < 1 ∧ ∀ lo hi : Int, (lo : Rat) ≤ x → x ≤ hi → lo ≤ Store.trunc x ∧ Store.trunc x ≤ hi := by
  unfold Store.trunc
  show |((if 0 ≤ x then ⌊x⌋ else -⌊-x⌋ : Int) : Rat) - x| < 1 ∧ ∀ lo hi : Int, (lo : Rat) ≤ x → x ≤ hi →
    lo ≤ (if 0 ≤ x then ⌊x⌋ else -⌊-x⌋) ∧ (if 0 ≤ x then ⌊x⌋ else -⌊-x⌋) ≤ hi
  split
  · have h1 := Int.floor_le x
    have h2 := Int.lt_floor_add_one x
    refine ⟨by rw [abs_lt]; constructor <;> linarith, fun lo hi h3 h4 => ⟨Int.le_floor.2 h3, ?_⟩⟩
    have : ((⌊x⌋ : Int) : Rat) ≤ hi := le_trans h1 h4
    exact_mod_cast this
  · have h1 := Int.floor_le (-x)
    have h2 := Int.lt_floor_add_one (-x)
    refine ⟨by push_cast; rw [abs_lt]; constructor <;> linarith, fun lo hi h3 h4 => ⟨?_, ?_⟩⟩
    · have : ((⌊-x⌋ : Int) : Rat) ≤ ((-lo : Int) : Rat) := by push_cast; linarith
      have : ⌊-x⌋ ≤ -lo := by exact_mod_cast this
      omega
    · have : -hi ≤ ⌊-x⌋ := Int.le_floor.2 (by push_cast; linarith)
      omega

/-- A point of a segment is between its ends. -/
theorem line_between {p q s : Rat} {a r b : Nat} (h1 : a < r) (h2 : r < b) (hs : s = p + (q - p) / ((b : Rat) - a) * ((r : Rat) - a))
    {lo hi : Rat} (hp : lo ≤ p ∧ p ≤ hi) (hq : lo ≤ q ∧ q ≤ hi) : lo ≤ s ∧ s ≤ hi := by
  have ha : (a : Rat) < r := by exact_mod_cast h1
  have hb : (r : Rat) < b := by exact_mod_cast h2
  have hd : 0 < (b : Rat) - a := by linarith
  have e : s = (1 - ((r : Rat) - a) / (b - a)) * p + ((r : Rat) - a) / (b - a) * q := by rw [hs]; field_simp; ring
  have w0 : 0 ≤ ((r : Rat) - a) / (b - a) := div_nonneg (by linarith) hd.le
  have w1 : ((r : Rat) - a) / (b - a) ≤ 1 := by rw [div_le_one hd]; linarith
  rw [e]
  constructor
  · nlinarith [mul_nonneg w0 (sub_nonneg.2 hq.1), mul_nonneg (sub_nonneg.2 w1) (sub_nonneg.2 hp.1)]
  · nlinarith [mul_nonneg w0 (sub_nonneg.2 hq.2), mul_nonneg (sub_nonneg.2 w1) (sub_nonneg.2 hp.2)]

theorem packed_of_filled {raw : Bool} {cast : Int → Int} {v : Store.Code} (hv : 0 < v.scale) (hc : Store.Casts v cast) {time : Nat × Nat → Rat}
    {code : Nat × Nat → Int} (hcode : ∀ x, v.lo ≤ code x ∧ code x ≤ v.hi) {t : Table} (h : ∀ value : Nat × Nat → Rat, Filled time value t) :
    FilledFile v code t (packedColumn raw cast v time code t) := by
  unfold packedColumn
  cases raw with
  | true =>
    obtain ⟨h1, h2⟩ := h (fun x => (code x : Rat))
    simp only [if_true]
    refine ⟨fun r x hx => ?_, fun r hr => ?_⟩
    · rw [List.getElem?_map, (h1 r x hx).2]
      show some (Store.trunc (code x : Rat)) = _
      rw [trunc_int]
    · obtain ⟨-, a, b, x, y, g1, g2, g3, g4, g5, g6, g7⟩ := h2 r hr
      generalize hs : (code x : Rat) + ((code y : Rat) - code x) / ((b : Rat) - a) * ((r : Rat) - a) = s at g7
      obtain ⟨k1, k2⟩ := trunc_near s
      have bx : (v.lo : Rat) ≤ code x ∧ (code x : Rat) ≤ v.hi := by
        constructor
        · exact_mod_cast (hcode x).1
        · exact_mod_cast (hcode x).2
      have hby : (v.lo : Rat) ≤ code y ∧ (code y : Rat) ≤ v.hi := by
        constructor
        · exact_mod_cast (hcode y).1
        · exact_mod_cast (hcode y).2
      obtain ⟨l1, l2⟩ := line_between g1 g2 hs.symm bx hby
      obtain ⟨m1, m2⟩ := k2 v.lo v.hi l1 l2
      refine ⟨Store.trunc s, a, b, x, y, by rw [List.getElem?_map, g7]; rfl, m1, m2, g1, g2, g3, g4, g5, g6, ?_⟩
      have e : Store.decode v (Store.trunc s) - (Store.decode v (code x) +
          (Store.decode v (code y) - Store.decode v (code x)) / ((b : Rat) - a) * ((r : Rat) - a)) = ((Store.trunc s : Rat) - s) * v.scale := by
        unfold Store.decode
        rw [← hs]; ring
      rw [e, abs_mul, abs_of_pos hv]
      nlinarith
  | false =>
    obtain ⟨h1, h2⟩ := h (fun x => Store.decode v (code x))
    simp only [Bool.false_eq_true, if_false]
    have range : ∀ x, Store.decode v v.lo ≤ Store.decode v (code x) ∧ Store.decode v (code x) ≤ Store.decode v v.hi := by
      intro x
      unfold Store.decode
      have k1 : (v.lo : Rat) ≤ code x := by exact_mod_cast (hcode x).1
      have k2 : (code x : Rat) ≤ v.hi := by exact_mod_cast (hcode x).2
      constructor <;> nlinarith
    refine ⟨fun r x hx => ?_, fun r hr => ?_⟩
    · rw [List.getElem?_map, (h1 r x hx).2]
      show some (Store.encode cast v (Store.decode v (code x))) = _
      rw [Store.code_stable hv hc (hcode x).1 (hcode x).2]
    · obtain ⟨-, a, b, x, y, g1, g2, g3, g4, g5, g6, g7⟩ := h2 r hr
      generalize hs : Store.decode v (code x) + (Store.decode v (code y) - Store.decode v (code x)) / ((b : Rat) - a) * ((r : Rat) - a) = s at g7
      obtain ⟨l1, l2⟩ := line_between g1 g2 hs.symm (range x) (range y)
      have hin : Store.InRange v s := ⟨by linarith, by linarith⟩
      have e := Store.store_partial hv hc hin
      refine ⟨Store.encode cast v s, a, b, x, y, by rw [List.getElem?_map, g7]; rfl, (hc.2 _).1, (hc.2 _).2, g1, g2, g3, g4, g5, g6, ?_⟩
      rw [hs]
      linarith

/-- C181 (values). In the files of long and short tracks, with `raw_data` or not, when no observation has the time 0: the packed value of each
observation is the one of its dataset, and the virtual observations are at less than one step of the packing from the line between the
observations before and after in their track. Missing: contours, see `virtual_contour_wrong`; dates of 1950-01-01, see C168. -/
theorem packed_final_partial {α δ : Type} (cfg : Cfg α δ) (ht : OneToOne cfg.tracking) (files : List (List α)) (s : St α δ)
    (hs : track cfg files = some s) (sizeMin : Nat) (o : Output)
    (ho : finalTracking cfg.virtual (files.map List.length) s.corrs s.currentId sizeMin = some o) (time : Nat × Nat → Rat)
    (htime : ∀ x, time x ≠ 0) (raw : Bool) (cast : Int → Int) (v : Store.Code) (hv : 0 < v.scale) (hc : Store.Casts v cast)
    (code : Nat × Nat → Int) (hcode : ∀ x, v.lo ≤ code x ∧ code x ≤ v.hi) :
    FilledFile v code o.long (packedColumn raw cast v time code o.long) ∧ FilledFile v code o.short (packedColumn raw cast v time code o.short) :=
  ⟨packed_of_filled hv hc hcode (fun value => (final_filled_partial cfg ht files s hs sizeMin o ho time value htime).1),
    packed_of_filled hv hc hcode (fun value => (final_filled_partial cfg ht files s hs sizeMin o ho time value htime).2)⟩

/-- C181, negation for contours: with `raw_data` each vertex of the contour of a virtual observation is read at 180°E on the equator, wherever the
observation is; without it, at 0°E on the equator. -/
theorem virtual_contour_wrong {castLon castLat : Int → Int} (h1 : Store.Casts Store.contourLon castLon) (h2 : Store.Casts Store.contourLat castLat)
    (lon lat : Nat × Nat → Int) :
    Store.decode Store.contourLon (packedVertex true castLon Store.contourLon lon none) = 180 ∧
    Store.decode Store.contourLat (packedVertex true castLat Store.contourLat lat none) = 0 ∧
    Store.decode Store.contourLon (packedVertex false castLon Store.contourLon lon none) = 0 ∧
    Store.decode Store.contourLat (packedVertex false castLat Store.contourLat lat none) = 0 := by
  refine ⟨?_, ?_, ?_, ?_⟩
  · show Store.decode Store.contourLon 0 = 180
    decide +kernel
  · show Store.decode Store.contourLat 0 = 0
    decide +kernel
  · have e : (0 : Rat) = Store.decode Store.contourLon (-18000) := by decide +kernel
    show Store.decode Store.contourLon (Store.encode castLon Store.contourLon 0) = 0
    conv_lhs => rw [e]
    rw [Store.code_stable (by decide +kernel) h1 (by decide) (by decide)]
    exact e.symm
  · have e : (0 : Rat) = Store.decode Store.contourLat 0 := by decide +kernel
    show Store.decode Store.contourLat (Store.encode castLat Store.contourLat 0) = 0
    conv_lhs => rw [e]
    rw [Store.code_stable (by decide +kernel) h2 (by decide) (by decide)]
    exact e.symm

/-- The vertices of the other rows are those of the datasets. -/
theorem contour_kept {raw : Bool} {cast : Int → Int} {v : Store.Code} (hv : 0 < v.scale) (hc : Store.Casts v cast) {code : Nat × Nat → Int}
    (hcode : ∀ x, v.lo ≤ code x ∧ code x ≤ v.hi) (x : Nat × Nat) : packedVertex raw cast v code (some x) = code x := by
  cases raw
  · exact Store.code_stable hv hc (hcode x).1 (hcode x).2
  · rfl

/-- With `raw_data` the value is not the nearest one: here two thirds of a step away (the radius of a virtual observation is 0 m instead
of 33 m, between 0 m and 50 m). -/
theorem raw_not_nearest : packedColumn true id Store.radius (fun _ => 1) (fun x => if x.1 = 0 then 0 else 1)
    ⟨[0, 0, 0, 0], [0, 1, 2, 3], [some (0, 0), none, none, some (3, 0)]⟩ = [0, 0, 0, 1] := by
  decide +kernel

/-- A track with two virtual observations, packed both ways. -/
example : (∀ x : Nat × Nat, Store.radius.lo ≤ (100 + 10 * x.1 : Int)) ∧
    packedColumn true id Store.radius (fun x => 20000 + x.1) (fun x => 100 + 10 * x.1)
      ⟨[0, 0, 0, 0, 0], [0, 1, 2, 3, 4], [some (0, 0), some (1, 0), none, none, some (4, 2)]⟩ = [100, 110, 120, 130, 140] ∧
    packedColumn false id Store.radius (fun x => 20000 + x.1) (fun x => 100 + 10 * x.1)
      ⟨[0, 0, 0, 0, 0], [0, 1, 2, 3, 4], [some (0, 0), some (1, 0), none, none, some (4, 2)]⟩ = [100, 110, 120, 130, 140] := by
  refine ⟨fun x => ?_, by decide +kernel, by decide +kernel⟩
  show (0 : Int) ≤ _
  positivity

end Verif.Tracking
