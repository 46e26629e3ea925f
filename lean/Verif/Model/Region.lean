import Verif.Model.Snowball
import Mathlib.Analysis.SpecialFunctions.Complex.Arg
import Mathlib.Analysis.Real.Sqrt

/-!
# Regions of flagged pixels and their ellipses (`src/stcal/jump/jump.py`)

`find_ellipses` and `_sk_filter_areas` (jump.py:596-620, 1294-1330).  The labelling of the connected regions
(`skimage.measure.label`) and the filling of their holes are not modelled: a region is any list of pixels together
with its filled area.  The properties of a region (centroid, axis lengths, orientation) are modelled from
the documentation of `skimage.measure.regionprops`, over the real numbers.
-/

namespace Verif.Region

open Verif.Snowball

/-- A region of `skimage.measure.regionprops` (jump.py:1319): its pixels as (row, column) and the number of pixels after its holes
have been filled. -/
structure Reg where
  pixels : List (Nat × Nat)
  filled : Nat

/-- Mean of a function over the pixels of a region (library behaviour, used at jump.py:1325-1328). -/
noncomputable def mean (g : Reg) (f : Nat × Nat → ℝ) : ℝ := (g.pixels.map f).sum / g.pixels.length

/-- `region.centroid` as (row, column) (library behaviour, used at jump.py:1328). -/
noncomputable def centroid (g : Reg) : ℝ × ℝ := (mean g fun p => p.1, mean g fun p => p.2)

/-- The inertia tensor `[[a, b], [b, c]]` of a region (library behaviour, used at jump.py:1325-1328): `a` is the second central moment along
the columns, `c` along the rows and `b` minus the mixed one. -/
noncomputable def inertia (g : Reg) : ℝ × ℝ × ℝ :=
  let m := centroid g
  (mean g fun p => (p.2 - m.2) ^ 2, -mean g fun p => (p.1 - m.1) * (p.2 - m.2), mean g fun p => (p.1 - m.1) ^ 2)

/-- The eigenvalues of the inertia tensor, the larger one first (library behaviour, used at jump.py:1325-1326). -/
noncomputable def eigvals (t : ℝ × ℝ × ℝ) : ℝ × ℝ :=
  let d := Real.sqrt ((t.1 - t.2.2) ^ 2 + 4 * t.2.1 ^ 2)
  ((t.1 + t.2.2 + d) / 2, (t.1 + t.2.2 - d) / 2)

/-- `region.orientation`, in radians (library behaviour, used at jump.py:1328); `atan2 y x` is the argument of `x + i y`. -/
noncomputable def orientation (t : ℝ × ℝ × ℝ) : ℝ :=
  if t.1 - t.2.2 = 0 then (if t.2.1 < 0 then Real.pi / 4 else -(Real.pi / 4))
  else Complex.arg ⟨t.2.2 - t.1, -2 * t.2.1⟩ / 2

/-- The tuple appended for a region (jump.py:1325-1329): axis lengths are four times the roots of the eigenvalues (negative
eigenvalues, which rounding produces, count as zero), less one. -/
noncomputable def ellipseOf (g : Reg) : Ellipse ℝ :=
  let t := inertia g
  let w := 4 * Real.sqrt (max (eigvals t).1 0) - 1
  let h := 4 * Real.sqrt (max (eigvals t).2 0) - 1
  ⟨(centroid g).2, (centroid g).1, h, w, orientation t * (180 / Real.pi)⟩

/-- `_sk_filter_areas` (jump.py:1317-1330), given the regions found. -/
noncomputable def filterAreas (regions : List Reg) (threshold : ℝ) : List (Ellipse ℝ) :=
  regions.filterMap fun g => if (g.filled : ℝ) < threshold then none else some (ellipseOf g)

/-- `find_ellipses` (jump.py:619-620): the regions are looked for in the plane reduced to the mask, if there is one. -/
noncomputable def findEllipses (label : Verif.Jump.Img Nat → List Reg) (plane : Verif.Jump.Img Nat) (mask : Option Nat)
    (minArea : ℝ) : List (Ellipse ℝ) :=
  filterAreas (label (match mask with
    | some m => fun r c => plane r c &&& m
    | none => plane)) minArea

end Verif.Region
