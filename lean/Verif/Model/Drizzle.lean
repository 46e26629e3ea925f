import Verif.Model.Resample

/-!
# The images made by `Resample`

Model of the way from an input model to the science image, the weight image and the variances in `src/stcal/resample/resample.py`
(`add_model`, `_resample_one_variance_array`, `finalize`), at one output pixel.  The package `drizzle` is not in the repository: how its class
`Drizzle` combines images is taken from its documentation (a running weighted mean), and the overlap of an input pixel with the output
pixel, which it computes from the pixel map, the kernel and `pixfrac`, is a number given with the input pixel.  Not modelled: context
and DQ images, single precision.
-/

namespace Verif.Drizzle

open Verif.Resample

variable {α : Type} [Field α] [LinearOrder α] {ν : Type}

/-- What `Drizzle` keeps at one output pixel: the image (`none` is NaN) and the weight (library behaviour, used at resample.py:655-667). -/
structure Cell (α : Type) where
  img : Option α
  wht : α

/-- A new `Drizzle` object (resample.py:655-667, 1256). -/
def Cell.empty : Cell α := ⟨none, 0⟩

/-- One input pixel of value `d` with overlap times weight `dow` (library behaviour, called from resample.py:838-840, 860, 1261): pixels without weight
are skipped, the first value is taken as it is, later ones enter the weighted mean. -/
def Cell.put (s : Cell α) (d : Option α) (dow : α) : Cell α :=
  if dow = 0 then s
  else if s.wht = 0 then ⟨d, dow⟩
  else match s.img, d with
    | some x, some y => ⟨some ((x * s.wht + y * dow) / (s.wht + dow)), s.wht + dow⟩
    | _, _ => ⟨none, s.wht + dow⟩

/-- `out_img`: output pixels without weight have the fill value (resample.py:655-667, 876, 991). -/
def Cell.out (fill : Option α) (s : Cell α) : Option α := if s.wht = 0 then fill else s.img

/-- What is read of an input model (resample.py:783-817, 1346-1360, utils.py:300-329): shape, data, DQ, the variances by name (`none`: missing or of
wrong shape), the sky variance, measurement time (a number), sky level, and whether it is subtracted already; the bounding box of
its WCS; and the overlap of its pixels with the output pixel. -/
structure Input (ν α : Type) where
  ny : Nat
  nx : Nat
  data : Nat → Nat → Option α
  dq : Nat → Nat → Nat
  vars : ν → Option (Nat → Nat → Fl α)
  sky : Option (Nat → Nat → Fl α)
  time : α
  level : Option α
  subtracted : Bool
  box : Option ((α × α) × (α × α))
  overlap : Nat → Nat → α

/-- The data after the sky level has been taken off (resample.py:816-818). -/
def Input.science (m : Input ν α) (r c : Nat) : Option α :=
  if m.subtracted = false then
    match m.level with
    | some b => (m.data r c).map fun x => x - b
    | none => m.data r c
  else m.data r c

/-- `weight_map` (resample.py:808-813); `rn` is the name of the read-noise variance.  It is a number for every pixel (C53). -/
def Input.weight (m : Input ν α) (rn : ν) (t : DrizType) (good : Option Nat) (r c : Nat) : α :=
  match drizWeight t (m.dq r c) good ((m.vars rn).map fun v => v r c) (m.sky.map fun v => v r c) (.num m.time) with
  | .num x => x
  | _ => 0

section
variable [FloorRing α]

/-- The input pixels (row, column) from `ymin` to `ymax` and `xmin` to `xmax` (resample.py:820, 831-834).  Simplification: an upper
limit of zero, which the documentation of `Drizzle` says means no limit (resample.py:1105-1108), is a limit here. -/
def Input.pixels (m : Input ν α) : List (Nat × Nat) :=
  let b := resampleRange m.ny m.nx m.box
  (List.range m.ny).flatMap fun (r : Nat) => (List.range m.nx).filterMap fun (c : Nat) =>
    if (b.2.1 ≤ (r : Int) ∧ (r : Int) ≤ b.2.2) ∧ b.1.1 ≤ (c : Int) ∧ (c : Int) ≤ b.1.2 then some (r, c) else none

/-- `Drizzle.add_image` (resample.py:822-840, 860, 1261-1275) for any array of values. -/
def addImage (rn : ν) (t : DrizType) (good : Option Nat) (val : Nat → Nat → Option α) (iscale : α) (m : Input ν α) (s : Cell α) :
    Cell α :=
  m.pixels.foldl (fun s p => s.put ((val p.1 p.2).map fun x => x * iscale) (m.overlap p.1 p.2 * m.weight rn t good p.1 p.2)) s

/-- The science image (resample.py:838-840) after models have been added one after the other, each with its intensity scale. -/
def science (rn : ν) (t : DrizType) (good : Option Nat) (ms : List (α × Input ν α)) : Cell α :=
  ms.foldl (fun s q => addImage rn t good q.2.science q.1 q.2 s) .empty

/-- `np.sqrt` of a variance (resample.py:1262): NaN if negative.  An infinite variance counts as NaN here: the variances made of either are left
out for not being finite (resample.py:1150, 1166). -/
def root (sqrt : α → α) : Fl α → Option α
  | .num x => if x < 0 then none else some (sqrt x)
  | _ => none

/-- `_resample_one_variance_array` (resample.py:1221-1277): the roots of the variances are drizzled, the result is squared.  Unpopulated
pixels are NaN. -/
def oneVariance (sqrt : α → α) (rn : ν) (t : DrizType) (good : Option Nat) (q : α × Input ν α) (n : ν) : Option (Option α) :=
  (q.2.vars n).map fun v =>
    ((addImage rn t good (fun r c => root sqrt (v r c)) q.1 q.2 .empty).out none).map fun x => x ^ 2

/-- The weight type of the variances (resample.py:1146-1156): all types that begin with `ivm` weight by the read noise.  The constructor rejects other
types than `exptime` and these (resample.py:287-290), so the last type of the model does not occur here. -/
def varType : DrizType → WeightType
  | .exptime => .exptime
  | _ => .ivm

/-- The variances in the output model (resample.py:862-873, 1174-1219); `none` is an exception. -/
def variance [DecidableEq ν] (sqrt : α → α) (names : List ν) (rn : ν) (t : DrizType) (good : Option Nat) (scaling : α)
    (ms : List (α × Input ν α)) (n : ν) : Option (Option α) :=
  (addVars names rn (varType t) (ms.map fun q => ⟨oneVariance sqrt rn t good q, q.2.time⟩)).map fun i => finalVar scaling (i n)

end

end Verif.Drizzle
