import Mathlib.Algebra.Order.Field.Basic
import Mathlib.Algebra.Order.Floor.Ring
import Mathlib.Data.List.Basic
import Mathlib.Data.Rat.Floor
import Verif.Model.Dq

/-!
# Resampling

Model of the bookkeeping, variance combination and weights of `src/stcal/resample/resample.py` and of
`src/stcal/resample/utils.py`.

Not modelled: drizzling itself (package `drizzle`), pixel maps, pixel areas on the sky, logging, memory.
-/

namespace Verif.Resample

/-! ### Groups and times -/

section Time
variable {α : Type} [Field α] [LinearOrder α] {γ : Type} [DecidableEq γ]

/-- The meta data of an input model that `Resample` keeps account of (`update_time`, resample.py:1314-1329); exposure
time, duration and measurement time can be `None`, start and end are taken to be present. -/
structure Meta (γ α : Type) where
  gid : γ
  start : α
  stop : α
  exposure : Option α
  duration : Option α
  measurement : Option α

/-- `get_tmeasure` (utils.py:343-359); a missing key is treated as `None`. -/
def tmeasure (m : Meta γ α) : Option α × Bool :=
  match m.measurement with
  | none => (m.exposure, false)
  | some t => (some t, true)

/-- The time entries of the output model (resample.py:497-504, 1335-1344); `elapsed_exposure_time` is always a copy of `duration`. -/
structure Out (α : Type) where
  pointings : Nat := 0
  exposure : α
  start : Option α := none
  stop : Option α := none
  duration : α
  measurement : Option α := none
deriving DecidableEq

/-- The state of a `Resample` object, as far as times and groups are concerned (resample.py:1279-1297, 628-685). -/
structure State (γ α : Type) where
  finalized : Bool
  nModels : Nat
  groups : List γ
  exposure : α
  duration : α
  measurement : α
  starts : List α
  stops : List α
  success : List Bool
  out : Out α

/-- `create_output_model` (resample.py:464-516), times and pointings only. -/
def freshOut : Out α := { exposure := 0, duration := 0 }

/-- `reset_arrays` (resample.py:628-685) with `init_time_counters` (resample.py:1279-1297).  The output model is created
anew only if the object was finalized. -/
def State.reset (s : State γ α) : State γ α :=
  let out := if s.finalized then freshOut else s.out
  { s with
    out
    exposure := 0
    duration := 0
    measurement := 0
    starts := out.start.toList
    stops := out.stop.toList
    success := []
    finalized := false }

/-- `__init__` (resample.py:250-335): there is no output model yet, so that `reset_arrays` creates one, as it does for a
finalized object. -/
def init : State γ α :=
  State.reset { finalized := true, nModels := 0, groups := [], exposure := 0, duration := 0, measurement := 0, starts := [],
                stops := [], success := [], out := freshOut }

/-- `update_time` (resample.py:1299-1329). -/
def State.updateTime (s : State γ α) (m : Meta γ α) : State γ α :=
  if m.gid ∈ s.groups then s
  else
    { s with
      starts := s.starts ++ [m.start]
      stops := s.stops ++ [m.stop]
      exposure := s.exposure + m.exposure.getD 0
      success := s.success ++ [(tmeasure m).2]
      measurement := s.measurement + (tmeasure m).1.getD 0
      duration := s.duration + m.duration.getD 0 }

/-- `add_model` (resample.py:749-886): groups and times only; `none` is the `RuntimeError` after finalizing.  The model
passes the validation and is two-dimensional. -/
def State.add (s : State γ α) (m : Meta γ α) : Option (State γ α) :=
  if s.finalized then none
  else
    let s := { s with nModels := s.nModels + 1 }
    if m.gid ∈ s.groups then some s
    else
      let s := s.updateTime m
      some { s with groups := s.groups ++ [m.gid], out := { s.out with pointings := s.out.pointings + 1 } }

/-- `finalize` (resample.py:966-1041) with `finalize_time_info` (resample.py:1331-1344); `none` is an exception: the
assertion that a model was added, or the minimum of an empty list.  (The object is marked as finalized before such an
exception; histories are not continued after an exception here.) -/
def State.finalize (s : State γ α) : Option (State γ α) :=
  if s.finalized then some s
  else if s.nModels = 0 then none
  else
    match s.starts.min?, s.stops.max? with
    | some a, some b =>
      some { s with
        finalized := true
        out := { pointings := s.groups.length, exposure := s.exposure, start := some a, stop := some b, duration := s.duration,
                 measurement := if s.success.all id then some s.measurement else s.out.measurement } }
    | _, _ => none

/-- A call of a method (resample.py:628, 749, 966). -/
inductive Op (γ α : Type) where
  | add (m : Meta γ α)
  | finalize
  | reset

/-- One call (resample.py:628, 749, 966). -/
def step (s : State γ α) : Op γ α → Option (State γ α)
  | .add m => s.add m
  | .finalize => s.finalize
  | .reset => some s.reset

/-- A sequence of calls; `none` if one of them raises an exception (resample.py:628, 749, 966). -/
def run (s : State γ α) (ops : List (Op γ α)) : Option (State γ α) :=
  ops.foldl (fun acc op => acc.bind fun s => step s op) (some s)

end Time

/-! ### Variances, at one output pixel -/

section Variance
variable {α : Type} [Field α] [LinearOrder α] {ν : Type} [DecidableEq ν]

/-- What a model contributes at an output pixel: for every variance name the resampled variance, `none` if the array is
missing or has the wrong shape, `some none` for NaN (`_check_var_array`, `_resample_one_variance_array`,
resample.py:1221-1277, 1346-1360); and its measurement time. -/
structure PixModel (ν α : Type) where
  var : ν → Option (Option α)
  time : α

/-- `_variance_info` at an output pixel (resample.py:1043-1055): `wsum` (NaN at first), `wt` and the last resampled variance
`var`. -/
structure Info (α : Type) where
  wsum : Option α
  wt : α
  var : Option (Option α)

/-- Weight types (resample.py:287-290). -/
inductive WeightType where
  | ivm
  | exptime
deriving DecidableEq

/-- The weight at an output pixel (resample.py:1145-1156); `none`: the variable was never assigned. -/
def pixWeight (wt : WeightType) (rn : Option (Option α)) (time : α) : Option α :=
  match wt with
  | .exptime => some time
  | .ivm =>
    match rn with
    | none => none
    | some none => some 0
    | some (some v) => if 0 < v then some v⁻¹ else some 0

/-- One round of the last loop (resample.py:1161-1172) for one variance. -/
def accum (i : Info α) (w : α) : Info α :=
  match i.var with
  | some (some v) =>
    if 0 ≤ v ∧ 0 < w then { i with wsum := some (i.wsum.getD 0 + v * w * w), wt := i.wt + w } else i
  | _ => i

/-- `resample_variance_arrays` (resample.py:1057-1172) at one output pixel.  `rn` is the name of the read-noise variance,
`names` the list of variance names; `none` is the exception for an unassigned weight.  `get("var_rnoise", {})` gives no
weight if the read noise is not among the names. -/
def addVar (names : List ν) (rn : ν) (wtype : WeightType) (info : ν → Info α) (m : PixModel ν α) : Option (ν → Info α) :=
  let info1 := fun n => if n ∈ names ∧ (m.var n).isSome then { info n with var := m.var n } else info n
  match pixWeight wtype (if rn ∈ names then (info1 rn).var else none) m.time with
  | none => if names.any fun n => (m.var n).isSome then none else some info1
  | some w => some fun n => if n ∈ names ∧ (m.var n).isSome then accum (info1 n) w else info1 n

/-- `init_variance_arrays` (resample.py:1043-1055). -/
def initVar : ν → Info α := fun _ => { wsum := none, wt := 0, var := none }

/-- All models one after the other (resample.py:1057-1172). -/
def addVars (names : List ν) (rn : ν) (wtype : WeightType) (ms : List (PixModel ν α)) : Option (ν → Info α) :=
  ms.foldl (fun acc m => acc.bind fun i => addVar names rn wtype i m) (some initVar)

/-- `finalize_resample_variance` (resample.py:1174-1219) at one output pixel, `scaling` being the factor from the pixel
scale ratio. -/
def finalVar (scaling : α) (i : Info α) : Option α := i.wsum.map fun s => s * scaling / i.wt / i.wt

end Variance

/-! ### Weights -/

section Weight
variable {α : Type} [Field α] [LinearOrder α]

/-- `bitfield_to_boolean_mask` (astropy) as used here (utils.py:303-309): with `good_bits` `None` every pixel is good, else
those whose flags are all among the good bits. -/
def dqMask (dq : Nat) (good : Option Nat) : Bool :=
  match good with
  | none => true
  | some g => decide (Verif.Dq.clear dq g = 0)

/-- A floating-point number; signed zeros, rounding and overflow are not modelled (utils.py:615-643). -/
inductive Fl (α : Type) where
  | num (x : α)
  | nan
  | posInf
  | negInf

/-- `np.isfinite` (utils.py:636). -/
def Fl.isFinite : Fl α → Bool
  | .num _ => true
  | _ => false

/-- `1.0 / x` (utils.py:635). -/
def Fl.recip : Fl α → Fl α
  | .num x => if x = 0 then .posInf else .num x⁻¹
  | .nan => .nan
  | .posInf => .num 0
  | .negInf => .num 0

/-- Product with the mask, which is 0 or 1: zero times something not finite is NaN (utils.py:311-333). -/
def Fl.mulMask (x : Fl α) (mask : Bool) : Fl α :=
  match x, mask with
  | x, true => x
  | .num _, false => .num 0
  | _, false => .nan

/-- `_get_inverse_variance` (utils.py:615-643) at one pixel; `arr` is `none` for a missing or misshaped array. -/
def invVariance (arr : Option (Fl α)) : Fl α :=
  match arr with
  | none => .num 1
  | some v => if v.recip.isFinite then v.recip else .num 0

/-- Weighting type of `build_driz_weight`: "ivm", "ivm-sky", "exptime" or `None` (the others raise `ValueError`)
(utils.py:311-339). -/
inductive DrizType where
  | ivm
  | ivmSky
  | exptime
  | unit

/-- `build_driz_weight` (utils.py:259-340) at one pixel. -/
def drizWeight (t : DrizType) (dq : Nat) (good : Option Nat) (rnoise sky : Option (Fl α)) (time : Fl α) : Fl α :=
  match t with
  | .ivm => (invVariance rnoise).mulMask (dqMask dq good)
  | .ivmSky => (invVariance sky).mulMask (dqMask dq good)
  | .exptime => time.mulMask (dqMask dq good)
  | .unit => (Fl.num 1).mulMask (dqMask dq good)

end Weight

/-! ### Range of pixels and outline of the image -/

section Range
variable {α : Type} [Field α] [LinearOrder α] [FloorRing α]

/-- `int(x)`: truncation towards zero (utils.py:234-237). -/
def trunc (x : α) : Int := if 0 ≤ x then ⌊x⌋ else ⌈x⌉

/-- One axis of `resample_range` (utils.py:220-239) for `n` pixels. -/
def range1 (n : Nat) (box : Option (α × α)) : Int × Int :=
  match box with
  | none => (0, max ((n : Int) - 1) 0)
  | some (x1, x2) =>
    let lo := max 0 (trunc (x1 + 1 / 2))
    (lo, max lo (min ((n : Int) - 1) (trunc (x2 + 1 / 2))))

/-- `resample_range` (utils.py:220-239): `xmin, xmax, ymin, ymax` for an image with `ny` rows and `nx` columns. -/
def resampleRange (ny nx : Nat) (box : Option ((α × α) × (α × α))) : (Int × Int) × (Int × Int) :=
  (range1 nx (box.map fun b => b.1), range1 ny (box.map fun b => b.2))

/-- `np.linspace(a, b, n, endpoint=False)` (utils.py:579-586). -/
def linspace (a b : α) (n : Nat) : List α := (List.range n).map fun (i : Nat) => a + (i : α) * ((b - a) / n)

/-- Number of points along an edge (utils.py:551-563): `nx = hi - lo + 1`, spacing `d` (`d <= 0` means `nx`). -/
def edgeCount (lo hi d : Int) : Nat :=
  let n := hi - lo + 1
  let d' := if d ≤ 0 then n else d
  (max 1 ⌈(n : ℚ) / d'⌉).toNat

/-- The four edges given by `_get_boundary_points` without shrinking (utils.py:551-586): bottom, right, top, left. -/
def edges (xmin xmax ymin ymax dx dy : Int) : List (List (α × α)) :=
  let sx := edgeCount xmin xmax dx
  let sy := edgeCount ymin ymax dy
  [(linspace (xmin : α) xmax sx).map fun x => (x, (ymin : α)),
   (linspace (ymin : α) ymax sy).map fun y => ((xmax : α), y),
   (linspace (xmax : α) xmin sx).map fun x => (x, (ymax : α)),
   (linspace (ymax : α) ymin sy).map fun y => ((xmin : α), y)]

/-- A rectangle of pixels (utils.py:220-239). -/
structure Rect where
  xmin : Int
  xmax : Int
  ymin : Int
  ymax : Int
deriving DecidableEq

/-- The edges tried for a rectangle (utils.py:431-438). -/
def Rect.edges (r : Rect) : List (List (α × α)) :=
  Resample.edges r.xmin r.xmax r.ymin r.ymax (min ((r.xmax - r.xmin) / 4) 15) (min ((r.ymax - r.ymin) / 4) 15)

/-- `limits[k] += dxy[k]` (utils.py:427, 446-452). -/
def Rect.shrink (r : Rect) (k : Nat) : Rect :=
  match k with
  | 0 => { r with ymin := r.ymin + 1 }
  | 1 => { r with xmax := r.xmax - 1 }
  | 2 => { r with ymax := r.ymax - 1 }
  | _ => { r with xmin := r.xmin + 1 }

/-- The inner loop (utils.py:448-458): the first of the edges `k, k + 1, ...` (`n` of them, modulo four) with a point
without finite sky coordinates. -/
def firstBad (fin : α × α → Bool) (es : List (List (α × α))) : Nat → Nat → Option Nat
  | _, 0 => none
  | k, n + 1 => if (es.getD k []).all fin then firstBad fin es ((k + 1) % 4) n else some k

/-- The search (utils.py:426-460): the rectangles tried one after the other and the one found, if any; `fin` says whether
the sky coordinates of a pixel position are finite. -/
def search (fin : α × α → Bool) (r : Rect) (k : Nat) : List Rect × Option Rect :=
  if r.xmin < r.xmax ∧ r.ymin < r.ymax then
    match firstBad fin r.edges k 4 with
    | none => ([r], some r)
    | some j =>
      let res := search fin (r.shrink j) ((j + 1) % 4)
      (r :: res.1, res.2)
  else ([], none)
termination_by ((r.xmax - r.xmin) + (r.ymax - r.ymin)).toNat
decreasing_by
  all_goals
    simp only [Rect.shrink]
    split <;> simp only <;> omega

/-- First rectangle (utils.py:409-424): the bounding box or the whole image with `ny` rows and `nx` columns. -/
def firstRect (ny nx : Nat) (box : Option ((α × α) × (α × α))) : Rect :=
  let b := box.getD ((-(1 / 2), (nx : α) - 1 / 2), (-(1 / 2), (ny : α) - 1 / 2))
  let x1 := min b.1.1 b.1.2
  let x2 := max b.1.1 b.1.2
  let y1 := min b.2.1 b.2.2
  let y2 := max b.2.1 b.2.2
  { xmin := max 0 (trunc (x1 + 1 / 2)), xmax := min ((nx : Int) - 1) (trunc (x2 - 1 / 2)),
    ymin := max 0 (trunc (y1 + 1 / 2)), ymax := min ((ny : Int) - 1) (trunc (y2 - 1 / 2)) }

/-- `compute_mean_pixel_area` (utils.py:368-463) up to the outline found: the rectangle, and its outline. -/
def outline (fin : α × α → Bool) (ny nx : Nat) (box : Option ((α × α) × (α × α))) : Option (Rect × List (α × α)) :=
  (search fin (firstRect ny nx box) 0).2.map fun r => (r, r.edges.flatten)

end Range

end Verif.Resample
