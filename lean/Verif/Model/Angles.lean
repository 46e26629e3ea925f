import Mathlib.Analysis.SpecialFunctions.Complex.Arg
import Verif.Model.Aberration

/-!
# Angles on the sky: fiducial point, pixel scale, velocity aberration

Model of `_calculate_fiducial_from_spatial_footprint`, `compute_fiducial`, `compute_scale` in `alignment/util.py` and of
`compute_va_effects` in `velocity_aberration.py`, over the real numbers.  World coordinate systems are functions.
-/

namespace Verif.Angles

open Verif.Aberration (Vec vaEffects)

/-- `np.deg2rad` (util.py:53). -/
noncomputable def rad (d : ℝ) : ℝ := d * (Real.pi / 180)

/-- `np.rad2deg` (util.py:61-62). -/
noncomputable def deg (r : ℝ) : ℝ := r * (180 / Real.pi)

/-- `% 360.0` (util.py:61, 588). -/
noncomputable def mod360 (t : ℝ) : ℝ := t - 360 * ⌊t / 360⌋

/-- The unit vector of a position in degrees (util.py:52-56; gwcs `SphericalToCartesian` in velocity_aberration.py:99). -/
noncomputable def toVec (p : ℝ × ℝ) : Vec :=
  ⟨Real.cos (rad p.2) * Real.cos (rad p.1), Real.cos (rad p.2) * Real.sin (rad p.1), Real.sin (rad p.2)⟩

/-- Longitude and latitude of a vector in degrees (util.py:61-62; gwcs `CartesianToSpherical` in velocity_aberration.py:101, which
wraps longitudes at 360 degrees).  `np.arctan2(y, x)` is the argument of `x + iy`, and zero if both are zero (the sign of zeros is
not modelled). -/
noncomputable def toAngles (v : Vec) : ℝ × ℝ :=
  (mod360 (deg (Complex.arg ⟨v.x, v.y⟩)), deg (Complex.arg ⟨Real.sqrt (v.x ^ 2 + v.y ^ 2), v.z⟩))

/-- `(np.max(x) + np.min(x)) / 2.0` (util.py:58-60); `none`: no values. -/
noncomputable def mid (l : List ℝ) : Option ℝ :=
  match l.max?, l.min? with
  | some a, some b => some ((a + b) / 2)
  | _, _ => none

/-- `_calculate_fiducial_from_spatial_footprint` (util.py:35-63) without NaN; `none` is the ValueError for no vertices. -/
noncomputable def fiducialNum (pts : List (ℝ × ℝ)) : Option (ℝ × ℝ) :=
  let vs := pts.map toVec
  match mid (vs.map Vec.x), mid (vs.map Vec.y), mid (vs.map Vec.z) with
  | some x, some y, some z => some (toAngles ⟨x, y, z⟩)
  | _, _, _ => none

/-- The vertices if none has a NaN coordinate (util.py:52). -/
def numbers : List (Option ℝ × Option ℝ) → Option (List (ℝ × ℝ))
  | [] => some []
  | (some a, some b) :: l => (numbers l).map fun t => (a, b) :: t
  | _ :: _ => none

/-- `_calculate_fiducial_from_spatial_footprint` (util.py:35-63): the outer `none` is the ValueError for no vertices, the inner
`none` is the pair of NaN that results if any coordinate is NaN (`np.max` and `np.min` hand NaN on; a NaN longitude makes both
`x_mid` and `y_mid` NaN). -/
noncomputable def fiducial (pts : List (Option ℝ × Option ℝ)) : Option (Option (ℝ × ℝ)) :=
  match numbers pts with
  | some l => (fiducialNum l).map some
  | none => some none

/-- `_calculate_fiducial` (util.py:66-91) of several footprints (vertically stacked, util.py:274). -/
noncomputable def calculateFiducial (footprints : List (List (Option ℝ × Option ℝ))) (crval : Option (ℝ × ℝ)) :
    Option (Option (ℝ × ℝ)) :=
  match crval with
  | some c => some (some c)
  | none => fiducial footprints.flatten

/-- `compute_fiducial` (util.py:198-240): positions and wavelengths of all footprints, without NaN; `junk` is what `np.empty` leaves.
Simplification: one spectral axis at most; without one there are no wavelengths and the last component is not there. -/
noncomputable def computeFiducial (junk : (ℝ × ℝ) × ℝ) (spatial : List (ℝ × ℝ)) (waves : List ℝ) : Option ((ℝ × ℝ) × ℝ) :=
  let wave := if waves.any (fun w => decide (w ≠ 0)) then waves.min?.getD 0 else junk.2
  if spatial.any (fun p => decide (p.1 ≠ 0) || decide (p.2 ≠ 0)) then (fiducialNum spatial).map fun f => (f, wave)
  else some (junk.1, wave)

/-- `compute_scale` (util.py:131-195) after the inversion: `naxes` pixel axes, `first` is the index of the first spatial world axis,
`f` the transform from pixels to the sky, `sep` the separation of two positions.  `none` is an exception: a spectral WCS
without `disp_axis`, or an index outside the pixel axes. -/
noncomputable def computeScale {P : Type} (spectral : Bool) (naxes first : Nat) (f : (Nat → ℝ) → P) (sep : P → P → ℝ)
    (crpix : Nat → ℝ) (disp : Option Int) (ratio : Option ℝ) : Option ℝ :=
  if spectral = true ∧ disp = none then none
  else if naxes ≤ first then none
  else
    let delta : Nat → ℝ := fun i => if i = first then 1 else 0
    let roll : Nat → ℝ := fun i => delta ((i + naxes - 1) % naxes)
    let xs := |sep (f crpix) (f fun i => crpix i + delta i)|
    let ys := |sep (f crpix) (f fun i => crpix i + roll i)|
    let xs := match ratio with
      | none => xs
      | some q => xs * q
    let ys := match ratio with
      | none => ys
      | some q => ys * q
    if spectral then (if disp = some 1 then some ys else some xs) else some (Real.sqrt (xs * ys))

/-- `compute_va_effects` (velocity_aberration.py:65-102): scale factor and apparent position in degrees. -/
noncomputable def vaAngles (c : ℝ) (v : Vec) (p : ℝ × ℝ) : ℝ × (ℝ × ℝ) :=
  let r := vaEffects c v (toVec p)
  (r.1, toAngles r.2)

end Verif.Angles
