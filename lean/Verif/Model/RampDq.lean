import Verif.Model.Dq
import Mathlib.Data.List.Basic

/-!
# Ramp-fitting data-quality bookkeeping

Model of the python-side DQ handling around ramp fitting:
`ramp_fitting/utils.py` (DQ compression), `ramp_fitting/ols_fit.py:discard_miri_groups` and
`ramp_fitting/ramp_fit.py:suppress_one_good_group_ramps`.

DQ words are `Nat`.  numpy's element-wise operations on a cube act on each pixel separately, so the
compression and suppression functions are modelled at one pixel, on the list of its group (or integration)
words.  `discard_miri_groups` looks at whole planes, so it is modelled on the list of groups, each group being
the flattened list of the words of all integrations, rows and columns.
-/

namespace Verif.RampDq

open Verif.Dq

/-- `np.bitwise_and(dq, flag).astype(bool)` at one element (ramp_fitting/utils.py:64). -/
def isSet (d f : Nat) : Bool := decide (d &&& f ≠ 0)

/-- `set_if_total_integ` (ramp_fitting/utils.py:42-71) and `set_if_total_ramp` (17-39) at one pixel: count the planes with
the flag and set `setFlag` when the count equals the number of planes. -/
def setIfTotal (final : Nat) (dqs : List Nat) (flag setFlag : Nat) : Nat :=
  if (dqs.map fun d => if isSet d flag then 1 else 0).sum = dqs.length then final ||| setFlag else final

/-- `dq_compress_sect` (ramp_fitting/utils.py:74-118) at one pixel. -/
def compressSect (dnu sat jump : Nat) (gdq : List Nat) (pixeldq : Nat) : Nat :=
  let p1 := setIfTotal pixeldq gdq (sat ||| dnu) dnu
  let p2 := if 0 < (gdq.map fun d => d &&& sat).sum then p1 ||| sat else p1
  if 0 < (gdq.map fun d => d &&& jump).sum then p2 ||| jump else p2

/-- `dq_compress_final` (ramp_fitting/utils.py:121-155) at one pixel; `none` is the IndexError of `dq_int[0]` when there is
no integration. -/
def compressFinal (dnu : Nat) (dqInt : List Nat) : Option Nat :=
  match dqInt with
  | [] => none
  | d0 :: ds => some (setIfTotal (clear (ds.foldl (fun acc d => acc ||| d) d0) dnu) dqInt dnu dnu)

/-- `suppress_one_good_group_ramps` (ramp_fit.py:280-312) at one pixel of one integration. -/
def suppressOne (dnu pers : Nat) (gdq : List Nat) : List Nat :=
  if (gdq.map fun d => if clear d pers = 0 then 1 else 0).sum = 1 then gdq.map fun d => d ||| dnu else gdq

/-- The suppression as reached from `ramp_fit` (ramp_fit.py:186-196, 262-270): switched off when the exposure has
one group; the OLS branch then applies `suppress_one_good_group_ramps`.  `cube` lists the ramps (one per
integration and pixel). -/
def suppressFromRampFit (dnu pers ngroups : Nat) (requested : Bool) (cube : List (List Nat)) : List (List Nat) :=
  let suppress := if requested && decide (ngroups = 1) then false else requested
  if suppress then cube.map (suppressOne dnu pers) else cube

/-- `np.all(np.bitwise_and(groupdq[:, g], DO_NOT_USE))`: every pixel of every integration (ols_fit.py:700, 732). -/
def allDnu (dnu : Nat) (plane : List Nat) : Bool := plane.all fun d => isSet d dnu

/-- Lines 712-719: remove `JUMP_DET` (by subtraction) where it is set in the new first group (ols_fit.py:712-719). -/
def clearJump (jump : Nat) (plane : List Nat) : List Nat :=
  plane.map fun d => if isSet d jump then d - jump else d

/-- The `while` loop of `discard_miri_groups` (ols_fit.py:700-719) on the remaining groups: `none` is
`return False`; otherwise the number of stripped groups and the remaining groups.  The first argument is the
loop's `num_bad_slices`.  An exposure without groups (`IndexError`) is also `none`. -/
def stripLeading (dnu jump : Nat) : Nat → List (List Nat) → Option (Nat × List (List Nat))
  | _, [] => none
  | k, g :: rest =>
    if allDnu dnu g then
      match rest with
      | [] => none
      | g' :: rest' => stripLeading dnu jump (k + 1) (clearJump jump g' :: rest')
    else some (k, g :: rest)
termination_by _ gs => gs.length

/-- `discard_miri_groups` (ols_fit.py:670-760).  `data` and `orig` are the other arrays with a group axis;
`none` is the return value `False` (arrays not replaced). -/
def discardGroups {δ : Type*} (dnu jump : Nat) (data : List δ) (gdq : List (List Nat)) (orig : Option (List (List Nat))) :
    Option (List δ × List (List Nat) × Option (List (List Nat))) :=
  match stripLeading dnu jump 0 gdq with
  | none => none
  | some (k, q) =>
    let data1 := data.drop k
    let orig1 := orig.map fun o => o.drop k
    let dropLast := match q.getLast? with
      | none => false
      | some g => allDnu dnu g
    let ng := if dropLast then q.length - 1 else q.length
    if ng < 1 then none
    else if ng < 2 then none
    else if dropLast then some (data1.dropLast, q.dropLast, orig1.map fun o => o.dropLast)
    else some (data1, q, orig1)

end Verif.RampDq
