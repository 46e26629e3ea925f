import Mathlib.Analysis.SpecialFunctions.Trigonometric.Basic
import Mathlib.Algebra.Order.Floor.Ring

/-!
# Pixel scales, required keys and errors in `Resample`

Model of the parts of `resample/resample.py` that choose the output shape and the pixel scale ratio, scale intensities, check
input models and make the error array.  The world coordinate systems enter through their axis types, shape, bounding box and
mean pixel area.
-/

namespace Verif.ResampleScale

/-! ## Pixel areas and the pixel scale ratio -/

/-- What is read of an input model: is its WCS all spatial (utils.py:362-365), has it a spectral axis (resample.py:596, 728),
`pixelarea_steradians`, the result of `compute_mean_pixel_area`, and `is_flux_density` of its unit (utils.py:594-612). -/
structure InModel where
  imaging : Bool
  spectral : Bool
  nominal : Option ℝ
  mean : Option ℝ
  fluxDensity : Bool

/-- `pixel_area is None or pixel_area <= 0` (resample.py:374, 382, 387, 615). -/
noncomputable def unknown (a : Option ℝ) : Bool :=
  match a with
  | none => true
  | some x => decide (x ≤ 0)

/-- `get_input_model_pixel_area` (resample.py:337-389); messages are left out. -/
noncomputable def inputArea (m : InModel) (preferMean : Bool) : Option ℝ :=
  if preferMean then m.mean
  else if unknown m.nominal then m.mean else m.nominal

/-- `3600.0 * np.rad2deg(math.sqrt(area))` (resample.py:309-311, 619). -/
noncomputable def arcsec (area : ℝ) : ℝ := 3600 * (Real.sqrt area * (180 / Real.pi))

/-- The part of a `Resample` object used here: `_pixel_scale_ratio`, `_output_pixel_scale`, the value of `pixel_scale_ratio` in
the output model, `_finalized` (resample.py:269, 280-281, 303-315, 497). -/
structure St where
  ratio : Option ℝ
  scale : ℝ
  reported : Option ℝ
  finalized : Bool

/-- The constructor (resample.py:280-281, 303-315, 335, 497): the scale is given, or computed from the mean pixel area of the
output WCS.  `none` if that is not known (`math.sqrt(None)`) or the scale is zero (resample.py:475). -/
noncomputable def init (ratio scale area : Option ℝ) : Option St :=
  match scale, area with
  | some s, _ => if s = 0 then none else some ⟨ratio, s, ratio, false⟩
  | none, some a => if a ≤ 0 then none else some ⟨ratio, arcsec a, ratio, false⟩
  | none, none => none

/-- `_compute_pixel_scale_ratio` (resample.py:608-626). -/
noncomputable def computeRatio (s : St) (m : InModel) : St :=
  if s.ratio = none ∧ m.imaging = true then
    match inputArea m false with
    | none => s
    | some a =>
      if a ≤ 0 then s
      else
        let q := s.scale / arcsec a
        { s with ratio := some q, reported := match s.reported with
          | none => some q
          | some y => some y }
  else s

/-- `_get_intensity_scale` (resample.py:568-606); `none` is the TypeError of `1.0 / None` or the ZeroDivisionError. -/
noncomputable def intensity (s : St) (m : InModel) : Option ℝ :=
  if (m.nominal ≠ none ∧ m.nominal ≠ some 0) ∧ m.spectral = true ∧ m.fluxDensity = true then
    match s.ratio with
    | none => none
    | some q => if q = 0 then none else some (1 / q)
  else some 1

/-- `add_model` (resample.py:773-796): new state and intensity scale. -/
noncomputable def add (s : St) (m : InModel) : Option (St × ℝ) :=
  if s.finalized then none
  else
    let s' := computeRatio s m
    (intensity s' m).map fun i => (s', i)

/-- Calls. -/
inductive Op where
  | add (m : InModel)
  | finalize
  | reset

/-- One call (resample.py:608-626, 647-648, 685, 773-796, 982-986, 497).  A call that raises leaves the object as it is, but for
the ratio, which `add_model` has set before the intensity scale is computed. -/
noncomputable def step (s : St) : Op → St
  | .add m => if s.finalized then s else computeRatio s m
  | .finalize => { s with finalized := true }
  | .reset => { s with finalized := false, reported := if s.finalized then s.ratio else s.reported }

/-! ## Output shape -/

/-- `int(x)`. -/
noncomputable def truncate (x : ℝ) : Int := if 0 ≤ x then ⌊x⌋ else ⌈x⌉

/-- Outcome of `check_output_wcs`. -/
inductive Check where
  | unsupported
  | noShape
  | shape (s : Option (Int × Int))

/-- `sys.float_info.epsilon`. -/
noncomputable def eps : ℝ := 1 / 2 ^ 52

open Classical in
/-- `check_output_wcs` (resample.py:435-462) for the number of axes, presence of a spectral axis, `array_shape` and the upper
ends of the bounding box (x, y), with `estimate_output_shape` true.  Simplification: exact arithmetic in place of floats. -/
noncomputable def checkOutput (naxes : Nat) (spectral : Bool) (shape : Option (Int × Int)) (box : Option (ℝ × ℝ)) : Check :=
  if spectral then (if naxes ≠ 3 then .unsupported else .shape shape)
  else if naxes ≠ 2 then .unsupported
  else match shape with
    | some s => .shape (some s)
    | none => match box with
      | none => .noShape
      | some b => .shape (some (truncate (b.2 + (1 / 2 + eps)), truncate (b.1 + (1 / 2 + eps))))

/-! ## Keys of input models -/

/-- Options of a `Resample` object that say which keys are needed (resample.py:266-290). -/
structure Opts where
  enableVar : Bool
  drizErr : Bool
  weight : String
  names : List String

/-- The constructor accepts the weight type (resample.py:287-290). -/
def acceptsWeight (w : String) : Bool := w.startsWith "ivm" || w == "exptime"

/-- `build_driz_weight` accepts the weight type (utils.py:311-339). -/
def buildsWeight (w : String) : Bool := w == "ivm" || w == "ivm-sky" || w == "exptime"

/-- `min_attributes` (resample.py:709-743). -/
def required (o : Opts) (spectral : Bool) : List String :=
  let l := ["data", "dq", "filename", "group_id", "wcs", "exposure_time", "start_time", "end_time", "duration",
    "measurement_time", "pixelarea_steradians", "level", "subtracted"]
  let l := if spectral then l ++ ["bunit_data"] else l
  let l := if o.enableVar then l ++ o.names else l
  let l := if o.drizErr then l ++ ["err"] else l
  if !o.enableVar && o.weight.startsWith "ivm" && !l.contains "var_rnoise" then l ++ ["var_rnoise"] else l

/-- `validate_input_model` (resample.py:687-747): does it return?  Keys are looked up in order, and `wcs` before all others
(resample.py:728). -/
def validates (o : Opts) (spectral : Bool) (keys : List String) : Bool :=
  keys.contains "wcs" && (required o spectral).all keys.contains

/-- Keys that `add_model` reads with `model[...]` (resample.py:591-597, 609, 783-784, 816-817, 823, 838, 854, 860, 1314-1328, 1263,
1349, 381-386; utils.py:300-321, 353-357).  `nominal`: is `pixelarea_steradians` set and not zero? -/
def accessed (o : Opts) (spectral nominal propagateDq : Bool) (keys : List String) : List String :=
  ["data", "wcs", "pixelarea_steradians", "dq", "level", "subtracted", "exposure_time", "group_id", "start_time", "end_time",
    "duration"]
  ++ (if spectral && nominal then ["bunit_data"] else [])
  ++ (if propagateDq then ["dq"] else [])
  ++ (if o.weight == "ivm" && keys.contains "var_rnoise" then ["var_rnoise"] else [])
  ++ (if o.weight == "ivm-sky" && keys.contains "var_sky" then ["var_sky"] else [])
  ++ (if keys.contains "measurement_time" then ["measurement_time"] else [])
  ++ (if o.drizErr then ["err"] else [])

/-! ## Errors -/

/-- `compute_err`. -/
inductive ErrMode where
  | off
  | fromVar
  | drizErr
  deriving DecidableEq

/-- The value of `err` in the output model: no such key, `None`, or an array (here one pixel; `none` is NaN). -/
inductive ErrOut where
  | absent
  | null
  | value (x : Option ℝ)

/-- Scaling of errors (resample.py:1011-1017). -/
noncomputable def errScale (ratio : Option ℝ) (imaging : Bool) : ℝ :=
  match ratio with
  | none => 1
  | some q => if imaging then q else 1 / Real.sqrt q

/-- `np.nansum`. -/
noncomputable def nansum (l : List (Option ℝ)) : ℝ := (l.map fun x => x.getD 0).sum

/-- `err` after `finalize` (resample.py:513-514, 1019-1038), one pixel; `vars` are the resampled variances that are included and
`drizzled` the resampled error.  A negative sum has a NaN root. -/
noncomputable def finalErr (mode : ErrMode) (enableVar : Bool) (ratio : Option ℝ) (imaging : Bool) (vars : List (Option ℝ))
    (drizzled : Option ℝ) : ErrOut :=
  match mode with
  | .off => .absent
  | .drizErr => .value (drizzled.map fun x => x / errScale ratio imaging)
  | .fromVar =>
    if enableVar then
      let s := nansum vars
      .value (if vars.all Option.isNone then none else if s < 0 then none else some (Real.sqrt s))
    else .null

end Verif.ResampleScale
