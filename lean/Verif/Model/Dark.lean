import Mathlib.Algebra.Field.Basic
import Mathlib.Algebra.BigOperators.Group.List.Basic

/-!
# Model of `dark_current/dark_sub.py`

Every array operation of this file acts pixel by pixel along the integration and
group axes, so the model follows one pixel: science data is a list (integrations)
of lists (groups).  `none : Option α` is NaN; an outer `none` of type
`Option (…)` is a Python exception (`IndexError`).
-/

set_option linter.unusedSectionVars false

namespace Verif.Dark

variable {α : Type} [Field α]

/-- One pixel of `dark_class.ScienceData` (dark_class.py:69-109). -/
structure Sci (α : Type) where
  data : List (List (Option α))
  groupdq : List (List Nat)
  pixeldq : Nat
  nframes : Nat
  groupgap : Nat
  intstart : Option Int

/-- One pixel of the `data`/`groupdq` pair of `dark_class.DarkData`
(dark_class.py 5-66): three-dimensional (one ramp, one DQ word) or
four-dimensional (MIRI: a ramp and a DQ ramp for each dark integration). -/
inductive DarkArr (α : Type) where
  | d3 (ramp : List (Option α)) (dq : Nat)
  | d4 (ramps : List (List (Option α))) (dq : List (List Nat))

/-- One pixel of a dark reference with its metadata (dark_class.py:5-66). -/
structure Ref (α : Type) where
  arr : DarkArr α
  ngroups : Nat
  nframes : Nat
  groupgap : Nat

/-- What `do_correction_data` returns: `cal_step`, the output science data and
the pixel of the averaged dark (`None` unless frames were averaged).
Simplification: the `dark_output` file name bookkeeping is left out (dark_sub.py:128, 172). -/
structure Result (α : Type) where
  skipped : Bool
  out : Sci α
  averaged : Option (DarkArr α)

/-- NaN-propagating subtraction (dark_sub.py:394, 416). -/
def osub : Option α → Option α → Option α
  | some a, some b => some (a - b)
  | _, _ => none

/-- dark_sub.py:105-106: frames spanned by `ngroups` groups.  Simplification:
natural-number subtraction, exact for `ngroups ≥ 1`. -/
def totalFrames (ngroups nframes groupgap : Nat) : Nat :=
  ngroups * nframes + (ngroups - 1) * groupgap

/-- dark_sub.py:111-115: `ceil((frames + gap) / (nframes + gap))`, written with
natural-number division. -/
def groupsToExtrapolate (sciTotal drkTotal nframes groupgap : Nat) : Nat :=
  ((sciTotal - drkTotal) + groupgap + (nframes + groupgap - 1)) / (nframes + groupgap)

/-- dark_sub.py:414-422, `_extrapolate_int`.  `arr[-2]` raises on fewer than two
groups. -/
def extrapolateInt (arr : List (Option α)) (ngroups : Nat) : Option (List (Option α)) :=
  if arr.length < 2 then none
  else
    let last := arr[arr.length - 1]?.getD none
    let prev := arr[arr.length - 2]?.getD none
    let rate := osub last prev
    some (arr ++ (List.range ngroups).map (fun k =>
      match rate, last with
      | some r, some l => some (((k + 1 : Nat) : α) * r + l)
      | _, _ => none))

/-- dark_sub.py:399-433, `extrapolate_dark`. -/
def extrapolateArr (arr : DarkArr α) (ngroups : Nat) : Option (DarkArr α) :=
  match arr with
  | .d3 r dq => (extrapolateInt r ngroups).map (fun r' => .d3 r' dq)
  | .d4 rs dq => (rs.mapM (fun r => extrapolateInt r ngroups)).map (fun rs' => .d4 rs' dq)

/-- dark_sub.py:131: NaN becomes zero. -/
def nanToZero (x : Option α) : Option α := some (x.getD 0)

/-- dark_sub.py:131 on the whole array. -/
def zeroNaNs : DarkArr α → DarkArr α
  | .d3 r dq => .d3 (r.map nanToZero) dq
  | .d4 rs dq => .d4 (rs.map (fun r => r.map nanToZero)) dq

/-- numpy `mean(axis=0)`: NaN of an empty slice, NaN if any entry is NaN (dark_sub.py:229, 311). -/
def omean (l : List (Option α)) : Option α :=
  if l = [] then none
  else (l.mapM (fun x => x)).map (fun v => v.sum / (v.length : α))

/-- dark_sub.py:211-231 (3-D) and 297-314 (4-D): the loop over science groups,
with `start` as loop variable.  A Python slice past the end is silently short;
an index past the end raises. -/
def averageLoop (arr : List (Option α)) (nframes groupgap : Nat) :
    Nat → Nat → Option (List (Option α))
  | 0, _ => some []
  | n + 1, start =>
    let stop := start + nframes
    let this : Option (Option α) :=
      if nframes = 1 then arr[start]?
      else some (omean ((arr.drop start).take (stop - start)))
    match this, averageLoop arr nframes groupgap n (stop + groupgap) with
    | some v, some rest => some (v :: rest)
    | _, _ => none

/-- dark_sub.py:175-239 and 242-321: `average_dark_frames_3d`,
`average_dark_frames_4d`.  In the 4-D routine the output starts as zeros and
only the first `min(dint, nints)` integrations are filled. -/
def averageArr (arr : DarkArr α) (nints ngroups nframes groupgap : Nat) : Option (DarkArr α) :=
  match arr with
  | .d3 r dq => (averageLoop r nframes groupgap ngroups 0).map (fun r' => .d3 r' dq)
  | .d4 rs dq =>
    let numInts := if rs.length > nints then nints else rs.length
    ((rs.take numInts).mapM (fun r => averageLoop r nframes groupgap ngroups 0)).map
      (fun l => .d4 (l ++ List.replicate (rs.length - numInts) (List.replicate ngroups (some 0))) dq)

/-- dark_sub.py:392-394: subtract group by group; a dark with too few groups
raises. -/
def subtractInt (sci dark : List (Option α)) : Option (List (Option α)) :=
  if dark.length < sci.length then none else some (List.zipWith osub sci dark)

/-- dark_sub.py:376-389: the dark used for science integration `i`. -/
def darkForInt (arr : DarkArr α) (intStart : Int) (i : Nat) : Option (List (Option α)) :=
  match arr with
  | .d3 r _ => some r
  | .d4 rs _ => if i < rs.length ∧ intStart = 1 then rs[i]? else rs.getLast?

/-- dark_sub.py:361-369: the dark DQ word of the pixel. -/
def darkDq : DarkArr α → Option Nat
  | .d3 _ dq => some dq
  | .d4 rs dq =>
    ((List.range (max rs.length 1)).mapM (fun i => dq[i]?.bind (fun g => g[0]?))).map
      (fun l => l.foldl (· ||| ·) 0)

/-- dark_sub.py:324-396, `subtract_dark`. -/
def subtractDark (sci : Sci α) (arr : DarkArr α) : Option (Sci α) :=
  let intStart := sci.intstart.getD 1
  match darkDq arr,
      sci.data.zipIdx.mapM (fun p => (darkForInt arr intStart p.2).bind (subtractInt p.1)) with
  | some dq, some d => some { sci with data := d, pixeldq := sci.pixeldq ||| dq }
  | _, _ => none

/-- Number of science groups (`science_data.data.shape[1]`) (dark_sub.py:74). -/
def Sci.ngroups (sci : Sci α) : Nat := (sci.data.head?.map List.length).getD 0

/-- dark_sub.py:107-116: the dark after extrapolation, if any. -/
def extended (sci : Sci α) (drk : Ref α) : Option (DarkArr α) :=
  let st := totalFrames sci.ngroups sci.nframes sci.groupgap
  let dt := totalFrames drk.ngroups drk.nframes drk.groupgap
  if st > dt then extrapolateArr drk.arr (groupsToExtrapolate st dt drk.nframes drk.groupgap)
  else some drk.arr

/-- dark_sub.py:49-172, `do_correction_data`. -/
def doCorrection (sci : Sci α) (drk : Ref α) : Option (Result α) :=
  match extended sci drk with
  | none => none
  | some arr0 =>
    if drk.nframes > sci.nframes ∨ drk.groupgap > sci.groupgap then
      some { skipped := true, out := sci, averaged := none }
    else
      let arr := zeroNaNs arr0
      if sci.nframes = drk.nframes ∧ sci.groupgap = drk.groupgap then
        (subtractDark sci arr).map (fun o => { skipped := false, out := o, averaged := none })
      else
        match averageArr arr sci.data.length sci.ngroups sci.nframes sci.groupgap with
        | none => none
        | some avg =>
          (subtractDark sci avg).map
            (fun o => { skipped := false, out := o, averaged := some avg })

/-- The dark model as `do_correction` leaves it (dark_sub.py:43-46;
dark_class.py:38-47).  `DarkData.data` is the model's own array, so the assignment
of line 131 writes through to the model, unless the dark was extrapolated: then
`extrapolate_dark` has bound `DarkData.data` to a new array (lines 414-433) and
the model keeps its NaNs.  A skipped step returns before line 131. -/
def modelAfter (sci : Sci α) (drk : Ref α) : Ref α :=
  if totalFrames sci.ngroups sci.nframes sci.groupgap >
      totalFrames drk.ngroups drk.nframes drk.groupgap then drk
  else if drk.nframes > sci.nframes ∨ drk.groupgap > sci.groupgap then drk
  else { drk with arr := zeroNaNs drk.arr }

end Verif.Dark
