import Mathlib.Algebra.Order.Floor.Ring
import Mathlib.Algebra.Order.Field.Basic

/-!
# Pixel maps

Model of `calc_pixmap` (resample/utils.py:27-217).  The transform from the pixels of one WCS to those of the other is a parameter which
depends on the bounding boxes in effect and may raise; non-finite coordinates are `none`.  Limits of bounding boxes are finite numbers, shapes
have two axes, and the two WCS are different objects.  Order of axes: x, y in boxes and maps, rows first in shapes.
-/

namespace Verif.Pixmap

variable {α : Type} [Field α] [LinearOrder α] [FloorRing α]

/-- A bounding box: one interval per axis (utils.py:109-111). -/
abbrev Box (α : Type) := List (α × α)

/-- A map: the shape, and the coordinates for row and column (utils.py:216). -/
abbrev Map (α : Type) := (Int × Int) × (Nat → Nat → Option α × Option α)

/-- Which bounding boxes are disabled, of the first and of the second WCS (utils.py:137, 139). -/
def disables (s : String) : Bool × Bool := (s == "from" || s == "both", s == "to" || s == "both")

/-- The shape of the map (utils.py:125-131) from the argument, the `array_shape` and the bounding box; `none` is the ValueError of
lines 133-134.  A box with more than two axes gives a shape, which is not used (lines 146-147). -/
def shapeOf (shape arr : Option (Nat × Nat)) (box : Option (Box α)) : Option (Int × Int) :=
  match shape, arr, box with
  | some s, _, _ => some (s.1, s.2)
  | none, some s, _ => some (s.1, s.2)
  | none, none, some (x :: y :: _) => some (⌈y.2 + 1 / 2⌉, ⌈x.2 + 1 / 2⌉)
  | none, none, _ => none

/-- First and last pixel of the grid along one axis with `n` pixels (utils.py:143-151). -/
def bounds (n : Int) (box : Option (α × α)) : Int × Int :=
  match box with
  | none => (0, n - 1)
  | some b => (max 0 ⌈b.1⌉, min (n - 1) ⌊b.2⌋)

/-- Number of points along an axis of the coarse grid (utils.py:175-176). -/
def npts (width : Int) (step : α) : Int := max ⌈(width : α) / step⌉ (min 10 width)

/-- `np.linspace(lo, hi, n)` (utils.py:178-179). -/
def grid (lo hi : Int) (n : Nat) : List α := (List.range n).map fun (i : Nat) => (lo : α) + (i : α) * (((hi : α) - lo) / ((n : α) - 1))

/-- The transform at all pixels (utils.py:158-159, 207-208); negative sizes are a ValueError of `np.indices`. -/
def evalFull (sh : Int × Int) (t : α × α → Option α × Option α) : Option (Map α) :=
  if sh.1 < 0 ∨ sh.2 < 0 then none else some (sh, fun r c => t ((c : α), (r : α)))

/-- The body of the `try` statement (utils.py:153-208); `none` is an exception.  `spline k ys xs v y x` is the interpolating spline of degree `k`
in both directions (`scipy.interpolate.RectBivariateSpline`, lines 188-193) through the values `v` (rows); it needs ascending coordinates
and more than `k` of them. -/
def compute (spline : Nat → List α → List α → List (List α) → α → α → α) (t : Option (α × α → Option α × Option α)) (sh : Int × Int)
    (bx by' : Int × Int) (step : α) (order : Nat) : Option (Map α) :=
  let w := bx.2 - bx.1 + 1
  let h := by'.2 - by'.1 + 1
  if step = 1 ∨ max w h ≤ 10 then t.bind (evalFull sh)
  else if order ≠ 1 ∧ order ≠ 3 then none
  else if step = 0 then none
  else if npts w step < 0 ∨ npts h step < 0 then none
  else t.bind fun t =>
    let xs : List α := grid bx.1 bx.2 (npts w step).toNat
    let ys : List α := grid by'.1 by'.2 (npts h step).toNat
    let v := ys.map fun y => xs.map fun x => t (x, y)
    if v.all fun row => row.all fun p => p.1.isSome && p.2.isSome then
      if npts w step ≤ order ∨ npts h step ≤ order ∨ bx.2 ≤ bx.1 ∨ by'.2 ≤ by'.1 then none
      else some (sh, fun r c =>
        if bx.1 ≤ (c : Int) ∧ (c : Int) ≤ bx.2 ∧ by'.1 ≤ (r : Int) ∧ (r : Int) ≤ by'.2 then
          (some (spline order ys xs (v.map fun row => row.map fun p => p.1.getD 0) r c),
            some (spline order ys xs (v.map fun row => row.map fun p => p.2.getD 0) r c))
        else (none, none))
    else evalFull sh t

/-- Result of a call: the map (`none`: an exception) and the bounding boxes of both WCS afterwards. -/
structure Res (α : Type) where
  map : Option (Map α)
  boxFrom : Option (Box α)
  boxTo : Option (Box α)

/-- `calc_pixmap` (utils.py:101-217).  `T` gives the transform for the bounding boxes in effect, `none` if it raises.  A first box without exactly
two axes raises in line 147, after boxes have been disabled (lines 137-140) and before the `try` statement (156, 210-214) that
restores them. -/
def calcPixmap (spline : Nat → List α → List α → List (List α) → α → α → α)
    (T : Option (Box α) → Option (Box α) → Option (α × α → Option α × Option α)) (boxFrom boxTo : Option (Box α))
    (arr shape : Option (Nat × Nat)) (disable : String) (step : α) (order : Nat) : Res α :=
  match shapeOf shape arr boxFrom with
  | none => ⟨none, boxFrom, boxTo⟩
  | some sh =>
    let bf := if (disables disable).1 then none else boxFrom
    let bt := if (disables disable).2 then none else boxTo
    match boxFrom with
    | none => ⟨compute spline (T bf bt) sh (bounds (α := α) sh.2 none) (bounds (α := α) sh.1 none) step order, boxFrom, boxTo⟩
    | some [x, y] => ⟨compute spline (T bf bt) sh (bounds sh.2 (some x)) (bounds sh.1 (some y)) step order, boxFrom, boxTo⟩
    | some _ => ⟨none, bf, bt⟩

/-! ## Bilinear interpolation -/

/-- The line through two points. -/
def line (a u b v x : α) : α := u + (v - u) * ((x - a) / (b - a))

/-- The interpolating spline of degree one through the points of a list (utils.py:188-189 with `order=1`); beyond the ends the first and last
piece are used. -/
def lerp (x : α) : List (α × α) → α
  | [] => 0
  | [p] => p.2
  | [p, q] => line p.1 p.2 q.1 q.2 x
  | p :: q :: r :: l => if x < q.1 then line p.1 p.2 q.1 q.2 x else lerp x (q :: r :: l)

/-- The interpolating spline of degree one in both directions (utils.py:188-193 with `order=1`). -/
def bilinear (ys xs : List α) (v : List (List α)) (y x : α) : α := lerp y (ys.zip (v.map fun row => lerp x (xs.zip row)))

end Verif.Pixmap
