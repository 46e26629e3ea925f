import Mathlib.Analysis.SpecialFunctions.Trigonometric.Basic
import Verif.Model.Resample

/-!
# Alignment: rotation matrix and bounding box of the output image

Model of parts of `src/stcal/alignment/util.py`.  Not modelled: the projections and transforms themselves (packages
`astropy.modeling` and `gwcs`); the inverse of the transform is an arbitrary function here.
-/

namespace Verif.Align

/-- `calc_rotation_matrix` (util.py:278-319): `[pc1_1, pc1_2, pc2_1, pc2_2]`; `none` is the `ValueError`. -/
noncomputable def rotMatrix (roll v3 : ℝ) (vparity : Int) : Option (ℝ × ℝ × ℝ × ℝ) :=
  if vparity ≠ 1 ∧ vparity ≠ -1 then none
  else
    let rel := roll - vparity * v3
    some (vparity * Real.cos rel, Real.sin rel, vparity * -Real.sin rel, Real.cos rel)

/-- The matrix of the output WCS (util.py:500-506), angles in radians. -/
noncomputable def outputMatrix (rollRef v3 : ℝ) (vparity : Int) (rotation : Option ℝ) : Option (ℝ × ℝ × ℝ × ℝ) :=
  match rotation with
  | none => rotMatrix rollRef v3 vparity
  | some r => rotMatrix (r + vparity * v3) v3 vparity

section Box
variable {α : Type} [Field α] [LinearOrder α] [FloorRing α]

/-- One axis of `_compute_bounding_box_with_offsets` (util.py:379-408): the coordinates of the vertices and of the fiducial
point, the wanted `crpix` and size; the result is the bounding box, the size and the offset.  `none`: no vertices. -/
def axisBox (vs : List α) (native : α) (crpix : Option α) (size : Option Int) : Option ((α × α) × Int × α) :=
  match vs.min?, vs.max? with
  | some lo, some hi =>
    let offset := match crpix with
      | none => native - lo
      | some c => c - native
    let dmin := lo + offset
    let dmax := hi + offset
    match size with
    | none =>
      let s := Verif.Resample.trunc (dmax + 1 / 2)
      some ((-(1 / 2), (s : α) - 1 / 2), s, offset)
    | some s =>
      some ((((max 0 (Verif.Resample.trunc (dmin + 1 / 2)) : Int) : α) - 1 / 2,
        ((min (Verif.Resample.trunc (dmax + 1 / 2)) s : Int) : α) - 1 / 2), s, offset)
  | _, _ => none

/-- Bounding box (x first), shape (y first) and offsets (x first) (alignment/util.py:340-408). -/
structure Box (α : Type) where
  bx : α × α
  by_ : α × α
  ny : Int
  nx : Int
  ox : α
  oy : α

/-- `_compute_bounding_box_with_offsets` (util.py:340-408); `inv` is the inverse transform, `shape` is `(ny, nx)`. -/
def boundingBox (inv : α × α → α × α) (footprints : List (List (α × α))) (fiducial : α × α) (crpix : Option (α × α))
    (shape : Option (Int × Int)) : Option (Box α) :=
  let pts := (footprints.map fun f => f.map inv).flatten
  let native := inv fiducial
  match axisBox (pts.map Prod.fst) native.1 (crpix.map Prod.fst) (shape.map Prod.snd),
      axisBox (pts.map Prod.snd) native.2 (crpix.map Prod.snd) (shape.map Prod.fst) with
  | some (bx, nx, ox), some (by_, ny, oy) => some { bx, by_, ny, nx, ox, oy }
  | _, _ => none

end Box

end Verif.Align
