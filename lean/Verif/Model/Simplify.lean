import Mathlib.Algebra.Order.Field.Basic
import Mathlib.Algebra.Order.Group.Abs

/-!
# Simplification of combined outlines

Model of `_simplify_by_angle` in `src/stcal/alignment/resample_utils.py`.
-/

namespace Verif.Simplify
variable {α : Type} [Field α] [LinearOrder α]

/-- The closeness test (resample_utils.py:208, 214). -/
def close (thresh : α) (p0 p1 : α × α) : Bool := decide (|p1.1 - p0.1| < thresh) && decide (|p1.2 - p0.2| < thresh)

/-- Slope of an edge (resample_utils.py:217-218), with `eps` the constant `1e-12`; `none` is the infinity or NaN of a division
by zero. -/
def slope (eps : α) (p q : α × α) : Option α := if q.1 - p.1 + eps = 0 then none else some ((q.2 - p.2) / (q.1 - p.1 + eps))

/-- `np.abs(delta_theta) < angle_thresh` (resample_utils.py:219-221).  `t` is the tangent of the threshold: since the arc tangent is
odd and increasing, the test is that of the tangent against `t`; a vanishing denominator with a non-zero numerator gives a right angle,
which is not below the threshold (both cannot vanish).  When a slope is not finite the difference is NaN and the test false. -/
def straight (t : α) (m1 m2 : Option α) : Bool :=
  match m1, m2 with
  | some m1, some m2 => if 1 + m1 * m2 = 0 then false else decide (|(m2 - m1) / (1 + m1 * m2)| < t)
  | _, _ => false

/-- `collinear` for a point with its neighbours (resample_utils.py:207-221). -/
def collinear (thresh t eps : α) (p0 p1 p2 : α × α) : Bool :=
  close thresh p0 p1 || straight t (slope eps p0 p1) (slope eps p1 p2)

/-- `_simplify_by_angle` (resample_utils.py:173-224): neighbours wrap around (lines 198-205). -/
def simplify (thresh t eps : α) (coords : List (α × α)) : List (α × α) :=
  ((List.range coords.length).filter fun i =>
      !collinear thresh t eps (coords.getD ((i + coords.length - 1) % coords.length) (0, 0)) (coords.getD i (0, 0))
        (coords.getD ((i + 1) % coords.length) (0, 0))).map
    fun i => coords.getD i (0, 0)

end Verif.Simplify
