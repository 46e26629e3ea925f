import Verif.Model.Align
import Verif.Model.Angles
import Verif.Model.Combine

/-!
# World coordinate system of the output image

Model of `wcs_from_sregions` (alignment/util.py:411-540) over the real numbers.  The gnomonic projection and the rotation to the
celestial sphere (`Pix2Sky_TAN`, `RotateNative2Celestial(.., .., 180)` of astropy) and `FITSImagingWCSTransform` (gwcs) are written
with vectors: plane coordinates in radians are components towards east and north of the tangent point.
-/

namespace Verif.OutputWcs
open Verif.Aberration (Vec dot)
open Verif.Angles Verif.Align

/-- Unit vector towards the east of a position in degrees (`RotateNative2Celestial`, util.py:520). -/
noncomputable def east (p : ℝ × ℝ) : Vec := ⟨-Real.sin (rad p.1), Real.cos (rad p.1), 0⟩

/-- Unit vector towards the north of a position in degrees (`RotateNative2Celestial`, util.py:520). -/
noncomputable def north (p : ℝ × ℝ) : Vec :=
  ⟨-(Real.sin (rad p.2) * Real.cos (rad p.1)), -(Real.sin (rad p.2) * Real.sin (rad p.1)), Real.cos (rad p.2)⟩

/-- Matrix, scales, projection and rotation (util.py:516-521, 533): from coordinates relative to the reference pixel to a direction, not
normalised. -/
noncomputable def skyVec (crval : ℝ × ℝ) (pc : ℝ × ℝ × ℝ × ℝ) (s : ℝ) (q : ℝ × ℝ) : Vec :=
  let u := rad (s * (pc.1 * q.1 + pc.2.1 * q.2))
  let v := rad (s * (pc.2.2.1 * q.1 + pc.2.2.2 * q.2))
  let c := toVec crval
  let e := east crval
  let n := north crval
  ⟨c.x + u * e.x + v * n.x, c.y + u * e.y + v * n.y, c.z + u * e.z + v * n.z⟩

/-- The inverse of that transform (`transform.inverse`, util.py:379, 383): `none` stands for NaN, for directions on or behind the
horizon of the tangent point. -/
noncomputable def toPlane (crval : ℝ × ℝ) (pc : ℝ × ℝ × ℝ × ℝ) (s : ℝ) (p : ℝ × ℝ) : Option (ℝ × ℝ) :=
  let w := toVec p
  let h := dot w (toVec crval)
  if 0 < h then
    let u := deg (dot w (east crval) / h) / s
    let v := deg (dot w (north crval) / h) / s
    let det := pc.1 * pc.2.2.2 - pc.2.1 * pc.2.2.1
    some ((pc.2.2.2 * u - pc.2.1 * v) / det, (pc.1 * v - pc.2.2.1 * u) / det)
  else none

/-- Arguments of `wcs_from_sregions` (util.py:411-422).  Vertices are numbers: with a NaN the bounding box is NaN and `int` raises.
`auto` is the result of `compute_scale` (see `Verif.Angles.computeScale`); `transform` is the inverse of a given transform. -/
structure Ask where
  footprints : List (List Char ⊕ List (ℝ × ℝ))
  rollRef : ℝ
  v3yangle : ℝ
  vparity : Int
  auto : Option ℝ
  transform : Option (ℝ × ℝ → Option (ℝ × ℝ))
  pscale : Option ℝ
  rotation : Option ℝ
  shape : Option (Int × Int)
  crpix : Option (ℝ × ℝ)
  crval : Option (ℝ × ℝ)

/-- The WCS returned (util.py:533-539): `crpix`, bounding box and shape are in `box`. -/
structure Out where
  box : Box ℝ
  crval : ℝ × ℝ
  scale : ℝ
  pc : ℝ × ℝ × ℝ × ℝ

/-- The pixel scale (util.py:507-510). -/
noncomputable def scaleOf (pscale auto : Option ℝ) : Option ℝ :=
  match pscale with
  | none => auto
  | some p => if p = 0 then auto else some p

/-- `wcs_from_sregions` (util.py:411-540); `none` is an exception. -/
noncomputable def wcsFromSregions (a : Ask) : Option Out :=
  (a.footprints.mapM Verif.Combine.footprintOf).bind fun fps =>
  (calculateFiducial (fps.map fun f => f.map fun p => (some p.1, some p.2)) a.crval).join.bind fun crval =>
  (outputMatrix (rad a.rollRef) (rad a.v3yangle) a.vparity (a.rotation.map rad)).bind fun pc =>
  (scaleOf a.pscale a.auto).bind fun s =>
  let inv := match a.transform with
    | some t => t
    | none => toPlane crval pc s
  if (fps.flatten.all fun p => (inv p).isSome) && (inv crval).isSome then
    (boundingBox (fun p => (inv p).getD (0, 0)) fps crval a.crpix a.shape).bind fun b =>
      if b.ny < 2 ∨ b.nx < 2 then none else some ⟨b, crval, s, pc⟩
  else none

/-- The sky position of a pixel according to the WCS returned (util.py:533). -/
noncomputable def world (r : Out) (p : ℝ × ℝ) : ℝ × ℝ :=
  toAngles (skyVec r.crval r.pc r.scale (p.1 - r.box.ox, p.2 - r.box.oy))

end Verif.OutputWcs
