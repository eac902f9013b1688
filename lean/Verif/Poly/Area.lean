import Verif.Poly.Winding

/-!
# C76: area of a polygon

Model of `poly_area` (src/py_eddy_tracker/poly.py) and its properties. Coordinates are exact rationals.
-/

namespace Verif.Poly

/-! ### Model -/

/-- The loop of `poly_area` (poly.py:96-98): three consecutive vertices. -/
def areaLoop : Pt → Pt → List Pt → Rat
  | _, _, [] => 0
  | a, b, c :: l => b.1 * (c.2 - a.2) + areaLoop b c l

/-- `poly_area` (poly.py:86-99); `none` is a read outside of the array (less than two vertices). -/
def polyArea : List Pt → Option Rat
  | a :: b :: l => (Py.get (a :: b :: l) (-2)).map (fun z => |a.1 * (b.2 - z.2) + areaLoop a b l| * (1 / 2))
  | _ => none

/-! ### Specification -/

/-- Twice the signed area of the closed polygon of these vertices, seen from a point: sum of the triangles. -/
def fan (o : Pt) (v : List Pt) : Rat := ((edges v).map (fun e => product o e.1 e.2)).sum

/-- The contour closed: the first vertex is repeated at the end. -/
def closed (v : List Pt) : List Pt := v ++ v.head?.toList

/-! ### Lemmas -/

/-- Sum of the vector products on consecutive vertices. -/
def path : List Pt → Rat
  | a :: b :: l => (a.1 * b.2 - b.1 * a.2) + path (b :: l)
  | _ => 0

theorem areaLoop_eq (z w : Pt) : ∀ (l : List Pt) (a b : Pt), (∃ r, a :: b :: l = r ++ [z, w]) →
    areaLoop a b l = path (a :: b :: l) - a.1 * b.2 + w.1 * z.2
  | [], a, b, ⟨r, hr⟩ => by
    have hlen := congrArg List.length hr
    simp only [List.length_cons, List.length_nil, List.length_append] at hlen
    obtain rfl : r = [] := List.length_eq_zero_iff.1 (by omega)
    simp at hr
    obtain ⟨rfl, rfl⟩ := hr
    simp [areaLoop, path]
  | c :: l, a, b, ⟨r, hr⟩ => by
    cases r with
    | nil =>
      have := congrArg List.length hr
      simp at this
    | cons x r =>
      simp only [List.cons_append, List.cons.injEq] at hr
      rw [areaLoop, areaLoop_eq z w l b c ⟨r, hr.2⟩]
      simp only [path]
      ring

theorem path_append (x : Pt) : ∀ (l : List Pt) (a : Pt), path (a :: l ++ [x]) = ((((a :: l).zip (l ++ [x])).map (fun e => e.1.1 * e.2.2 - e.2.1 * e.1.2)).sum)
  | [], a => by simp [path]
  | b :: l, a => by
    have := path_append x l b
    simp only [List.cons_append, path, List.zip_cons_cons, List.map_cons, List.sum_cons] at this ⊢
    rw [this]

theorem path_closed (v : List Pt) : path (closed v) = ((edges v).map (fun e => e.1.1 * e.2.2 - e.2.1 * e.1.2)).sum := by
  cases v with
  | nil => rfl
  | cons a l => exact path_append a l a

theorem telescopeR (f : Pt → Rat) (v : List Pt) : ((edges v).map (fun e => f e.1 - f e.2)).sum = 0 := by
  cases v with
  | nil => rfl
  | cons a l =>
    have key : ∀ (l : List Pt) (x z : Pt), ((((x :: l).zip (l ++ [z])).map (fun e => f e.1 - f e.2)).sum) = f x - f z := by
      intro l
      induction l with
      | nil => intro x z; simp
      | cons b l ih =>
        intro x z
        simp only [List.cons_append, List.zip_cons_cons, List.map_cons, List.sum_cons]
        rw [ih b z]
        ring
    have := key l a a
    unfold edges
    simp only [List.tail_cons, List.head?_cons, Option.toList_some]
    rw [this, sub_self]

theorem sum_add {α : Type} (f g : α → Rat) : ∀ l : List α, (l.map (fun e => f e + g e)).sum = (l.map f).sum + (l.map g).sum
  | [] => by simp
  | a :: l => by
    simp only [List.map_cons, List.sum_cons, sum_add f g l]
    ring

theorem sum_mul {α : Type} (c : Rat) (f : α → Rat) : ∀ l : List α, (l.map (fun e => c * f e)).sum = c * (l.map f).sum
  | [] => by simp
  | a :: l => by
    simp only [List.map_cons, List.sum_cons, sum_mul c f l]
    ring

theorem sum_map_nonneg {α : Type} (f : α → Rat) : ∀ l : List α, (∀ e ∈ l, 0 ≤ f e) → 0 ≤ (l.map f).sum
  | [], _ => by simp
  | a :: l, h => by
    have h1 := h a (by simp)
    have h2 := sum_map_nonneg f l (fun e he => h e (by simp [he]))
    simp only [List.map_cons, List.sum_cons]
    linarith

theorem path_snoc (u w : Pt) : ∀ l : List Pt, path (l ++ [u, w]) = path (l ++ [u]) + (u.1 * w.2 - w.1 * u.2)
  | [] => by simp [path]
  | [a] => by
    simp only [List.cons_append, List.nil_append, path]
    ring
  | a :: b :: l => by
    have := path_snoc u w (b :: l)
    simp only [List.cons_append, path] at this ⊢
    rw [this]
    ring

theorem path_reverse : ∀ l : List Pt, path l.reverse = - path l
  | [] => by simp [path]
  | [a] => by simp [path]
  | a :: b :: l => by
    have ih := path_reverse (b :: l)
    have e : (a :: b :: l).reverse = l.reverse ++ [b, a] := by simp
    have e' : (b :: l).reverse = l.reverse ++ [b] := by simp
    rw [e, path_snoc, ← e', ih]
    simp only [path]
    ring

/-- The sum of triangles is the same from every point. -/
theorem fan_eq (o : Pt) (v : List Pt) : fan o v = ((edges v).map (fun e => e.1.1 * e.2.2 - e.2.1 * e.1.2)).sum := by
  unfold fan
  have h : ∀ e : Pt × Pt, product o e.1 e.2 = (e.1.1 * e.2.2 - e.2.1 * e.1.2) + ((fun p : Pt => o.2 * p.1 * (-1) + o.1 * p.2) e.1 - (fun p : Pt => o.2 * p.1 * (-1) + o.1 * p.2) e.2) := by
    intro e
    unfold product
    simp only
    ring
  simp only [h]
  rw [sum_add, telescopeR (fun p : Pt => o.2 * p.1 * (-1) + o.1 * p.2) v, add_zero]

/-! ### C76 -/

/-- **C76**: for a closed contour, `poly_area` is half the absolute value of the sum of the triangles of its edges seen from any point.
Missing: contours which are not closed, see `area_open_wrong`. -/
theorem poly_area_partial (v : List Pt) (hne : v ≠ []) (o : Pt) : polyArea (closed v) = some (|fan o v| / 2) := by
  rw [fan_eq, ← path_closed]
  obtain ⟨a, l, rfl⟩ := List.exists_cons_of_ne_nil hne
  have hc : closed (a :: l) = a :: (l ++ [a]) := rfl
  obtain ⟨b, m, hm⟩ : ∃ b m, l ++ [a] = b :: m := List.exists_cons_of_ne_nil (by simp)
  -- the vertex before the last one
  obtain ⟨r, z, hz⟩ : ∃ r z, a :: l = r ++ [z] := ⟨_, _, (List.dropLast_append_getLast (by simp : a :: l ≠ [])).symm⟩
  have hend : a :: b :: m = r ++ [z, a] := by
    rw [← hm, ← List.cons_append, hz, List.append_assoc]
    rfl
  have hget : Py.get (a :: b :: m) (-2) = some z := by
    rw [hend]
    unfold Py.get Py.idx
    have hl : (r ++ [z, a]).length = r.length + 2 := by simp
    rw [hl]
    rw [if_neg (by omega), if_pos (by omega)]
    simp only [Option.bind_some]
    have : (-2 + ((r.length + 2 : Nat) : Int)).toNat = r.length := by omega
    rw [this]
    simp
  rw [hc, hm, polyArea, hget, Option.map_some, areaLoop_eq z a m a b ⟨r, hend⟩]
  congr 1
  rw [show a.1 * (b.2 - z.2) + (path (a :: b :: m) - a.1 * b.2 + a.1 * z.2) = path (a :: b :: m) by ring]
  ring

theorem edges_map (f : Pt → Pt) (v : List Pt) : edges (v.map f) = (edges v).map (fun e => (f e.1, f e.2)) := by
  cases v with
  | nil => rfl
  | cons a l =>
    unfold edges
    simp only [List.map_cons, List.tail_cons, List.head?_cons, Option.toList_some]
    rw [← List.map_cons (f := f), show (l.map f ++ [f a]) = (l ++ [a]).map f by simp, List.zip_map]
    rfl

/-- The area does not change when the contour is moved. -/
theorem area_translate (v : List Pt) (hne : v ≠ []) (t : Pt) : polyArea (closed (v.map (shift t))) = polyArea (closed v) := by
  rw [poly_area_partial v hne (0, 0), poly_area_partial (v.map (shift t)) (by simpa using hne) t]
  congr 3
  unfold fan
  rw [edges_map, List.map_map]
  congr 1
  apply List.map_congr_left
  intro e _
  simp only [Function.comp, shift, product]
  ring

/-- The area of a contour dilated by `s` is multiplied by the square of `s`. -/
theorem area_scale (v : List Pt) (hne : v ≠ []) (s A : Rat) (h : polyArea (closed v) = some A) :
    polyArea (closed (v.map (fun p => (s * p.1, s * p.2)))) = some (s ^ 2 * A) := by
  rw [poly_area_partial v hne (0, 0)] at h
  rw [poly_area_partial _ (by simpa using hne) (0, 0), ← Option.some.inj h]
  congr 1
  have : fan (0, 0) (v.map (fun p => (s * p.1, s * p.2))) = s ^ 2 * fan (0, 0) v := by
    unfold fan
    rw [edges_map, List.map_map, ← sum_mul]
    congr 1
    apply List.map_congr_left
    intro e _
    simp only [Function.comp, product]
    ring
  rw [this, abs_mul, abs_of_nonneg (sq_nonneg s)]
  ring

/-- For a convex contour seen from a point on the left of all its edges, the area is the sum of the areas of the triangles: they do not
overlap. -/
theorem area_convex (v : List Pt) (hne : v ≠ []) (o : Pt) (h : ∀ e ∈ edges v, 0 ≤ product e.1 e.2 o) :
    polyArea (closed v) = some ((((edges v).map (fun e => |product o e.1 e.2| / 2)).sum)) := by
  have hp : ∀ e ∈ edges v, 0 ≤ product o e.1 e.2 := by
    intro e he
    have := h e he
    have e1 : product o e.1 e.2 = product e.1 e.2 o := by unfold product; ring
    rw [e1]; exact this
  rw [poly_area_partial v hne o]
  congr 1
  have hs : ((edges v).map (fun e => |product o e.1 e.2| / 2)).sum = (1 / 2) * fan o v := by
    unfold fan
    rw [← sum_mul]
    congr 1
    apply List.map_congr_left
    intro e he
    rw [abs_of_nonneg (hp e he)]
    ring
  have h0 : 0 ≤ fan o v := by
    unfold fan
    exact sum_map_nonneg _ (edges v) hp
  rw [hs, abs_of_nonneg h0]
  ring

/-- The area does not depend on the first vertex. -/
theorem area_rotate (a : Pt) (l : List Pt) (hl : l ≠ []) : polyArea (closed (l ++ [a])) = polyArea (closed (a :: l)) := by
  rw [poly_area_partial _ (by simp) (0, 0), poly_area_partial _ (by simp) (0, 0)]
  congr 3
  obtain ⟨b, m, rfl⟩ := List.exists_cons_of_ne_nil hl
  rw [fan_eq, fan_eq, ← path_closed, ← path_closed]
  have e1 : closed (b :: m ++ [a]) = b :: m ++ [a, b] := by simp [closed]
  have e2 : closed (a :: b :: m) = a :: b :: (m ++ [a]) := rfl
  rw [e1, path_snoc, e2, path]
  simp only [List.cons_append]
  ring

theorem closed_reverse (a : Pt) (l : List Pt) : (closed (a :: l)).reverse = closed (a :: l.reverse) := by
  simp [closed]

/-- The area does not depend on the direction. -/
theorem area_reverse (v : List Pt) : polyArea (closed v).reverse = polyArea (closed v) := by
  cases v with
  | nil => rfl
  | cons a l =>
    rw [closed_reverse, poly_area_partial _ (by simp) (0, 0), poly_area_partial _ (by simp) (0, 0), fan_eq, fan_eq, ← path_closed,
      ← path_closed, ← closed_reverse, path_reverse, abs_neg]

/-- A contour which is not closed: the square of side 2 without its last vertex has an area of 2. -/
theorem area_open_wrong : polyArea [(2, 0), (2, 2), (0, 2), (0, 0)] = some 2 ∧ polyArea (closed [(2, 0), (2, 2), (0, 2), (0, 0)]) = some 4 := by
  have h1 : Py.get [((2 : Rat), (0 : Rat)), (2, 2), (0, 2), (0, 0)] (-2) = some (0, 2) := rfl
  have h2 : Py.get [((2 : Rat), (0 : Rat)), (2, 2), (0, 2), (0, 0), (2, 0)] (-2) = some (0, 0) := rfl
  constructor
  · rw [polyArea, h1]
    norm_num [areaLoop]
  · show polyArea [(2, 0), (2, 2), (0, 2), (0, 0), (2, 0)] = some 4
    rw [polyArea, h2]
    norm_num [areaLoop]

end Verif.Poly
