import Verif.Model.Angles
import Verif.Model.Catalog

/-!
# Reference angles of a WCS

Model of `_wcsinfo_from_wcs_transform` (tweakreg/utils.py:6-38) and `construct_wcs_corrector` (tweakreg/tweakreg.py:383-414).
-/

namespace Verif.WcsInfo

/-- A submodel of a transform: a `RotationSequence3D` with its axes and angles (in degrees), or anything else, each with an optional name
(tweakreg/utils.py:15-17, 30). -/
inductive Kind (α : Type) where
  | rotation (axes : List Char) (angles : List α)
  | other

/-- A submodel with its name (tweakreg/utils.py:30). -/
structure Submodel (α : Type) where
  name : Option String
  kind : Kind α

/-- A step of the pipeline of a `gwcs.WCS`: a frame and the submodels of the transform to the next frame, in order
(tweakreg/utils.py:7, 14, 29).  Simplification: the transform is a compound model, so that it can be iterated over; the last frame has no
transform. -/
structure Step (α : Type) where
  frame : String
  subs : List (Submodel α)

variable {α : Type}

/-- `wcs.available_frames` (tweakreg/utils.py:7). -/
def frames (w : List (Step α)) : List String := w.map fun s => s.frame

/-- `wcs.get_transform(a, b)` for `a` before `b`: the submodels of all steps from `a` up to `b` (tweakreg/utils.py:14, 29); `none` is an
exception.  Simplification: the inverse transform that gwcs returns if `b` comes before `a` has no named submodels, so that the lookup of
tweakreg/utils.py:30 fails; this is an exception here already. -/
def transform (w : List (Step α)) (a b : String) : Option (List (Submodel α)) :=
  let i := (frames w).idxOf a
  let j := (frames w).idxOf b
  if i < j ∧ j < w.length then some (((w.drop i).take (j - i)).flatMap fun s => s.subs) else none

/-- The loop of tweakreg/utils.py:15-21: angles of the first rotation with five of them. -/
def firstFive : List (Submodel α) → Option (α × α × α × α × α)
  | [] => none
  | s :: l => match s.kind with
    | .rotation _ [a, b, c, d, e] => some (a, b, c, d, e)
    | _ => firstFive l

/-- `tpcorr["det_to_optic_axis"].angles.value` unpacked into three (tweakreg/utils.py:30).  The lookup by name fails if no submodel or more
than one has it, the attribute if it is not a rotation, the unpacking if the number of angles differs. -/
def opticAxis (l : List (Submodel α)) : Option (α × α × α) :=
  match l.filter fun s => s.name == some "det_to_optic_axis" with
  | [⟨_, .rotation _ [a, b, c]⟩] => some (a, b, c)
  | _ => none

/-- The returned dictionary (tweakreg/utils.py:32-38). -/
structure Info (α : Type) where
  v2 : α
  v3 : α
  roll : α
  ra : α
  dec : α

/-- `_wcsinfo_from_wcs_transform` (tweakreg/utils.py:6-38); `none` is an exception. -/
def info [Field α] (w : List (Step α)) : Option (Info α) :=
  let fs := frames w
  if ¬ fs.contains "v2v3" ∨ ¬ fs.contains "world" ∨ fs.getLast? ≠ some "world" then none
  else
    ((fs.dropLast.getLast?).bind fun f => transform w f "world").bind fun t =>
      (firstFive t).bind fun (v2, nv3, roll, dec, nra) =>
        if fs.contains "v2v3corr" then
          ((transform w (if fs.contains "v2v3vacorr" then "v2v3vacorr" else "v2v3") "v2v3corr").bind opticAxis).map
            fun (v2, nv3, roll) => ⟨3600 * v2, -3600 * nv3, roll, -nra, dec⟩
        else some ⟨3600 * v2, -3600 * nv3, roll, -nra, dec⟩

/-- What `construct_wcs_corrector` hands to `JWSTWCSCorrector` (tweakreg/tweakreg.py:403-414): the angles, the filtered catalog, its name and
the group. -/
structure Corrector (α ρ : Type) where
  roll : α
  v2 : α
  v3 : α
  catalog : List ρ
  name : Option String
  group : String

/-- `construct_wcs_corrector` (tweakreg/tweakreg.py:383-414).  Filtering a table keeps its metadata. -/
def corrector [LinearOrder α] {ρ : Type} (x y : ρ → Option α) (box : Option ((α × α) × (α × α))) (refang : Info α) (cat : List ρ)
    (name : Option String) (group : String) : Corrector α ρ :=
  ⟨refang.roll, refang.v2, refang.v3, Catalog.filterBox x y cat box, name, group⟩

open Verif.Aberration (Vec)

/-- Rotation of one angle (in degrees) about an axis in the convention of `RotationSequence3D` (the transform of tweakreg/utils.py:14, evaluated):
the coordinate axes turn, so the vector turns backwards. -/
noncomputable def turn (axis : Char) (angle : ℝ) (v : Vec) : Vec :=
  let c := Real.cos (Angles.rad angle)
  let s := Real.sin (Angles.rad angle)
  if axis = 'x' then ⟨v.x, c * v.y + s * v.z, -s * v.y + c * v.z⟩
  else if axis = 'y' then ⟨c * v.x - s * v.z, v.y, s * v.x + c * v.z⟩
  else ⟨c * v.x + s * v.y, -s * v.x + c * v.y, v.z⟩

/-- A `RotationSequence3D` applied to a vector: one rotation after the other (the transform of tweakreg/utils.py:14, evaluated). -/
noncomputable def turns (axes : List Char) (angles : List ℝ) (v : Vec) : Vec :=
  (axes.zip angles).foldl (fun v p => turn p.1 p.2 v) v

end Verif.WcsInfo
