import Mathlib.Algebra.Order.Field.Basic
import Mathlib.Algebra.Order.Group.Abs

/-!
# Image alignment: acceptance of corrections and columns of reference catalogues

Model of `_is_wcs_correction_small`, the parameter checks of `relative_align` and `absolute_align`, and `_parse_sky_centroid` in
`src/stcal/tweakreg/tweakreg.py`.
-/

namespace Verif.Tweakreg

section Small
variable {α : Type} [Field α] [LinearOrder α]

/-- `max_corr` (tweakreg.py:348-351), in arc seconds. -/
def maxCorr (use2dhist : Bool) (searchrad tolerance xoffset yoffset : α) : α :=
  if use2dhist then 2 * (searchrad + tolerance) else 2 * (max |xoffset| |yoffset| + tolerance)

/-- `separation < max_corr` (tweakreg.py:356); the separation is NaN where a position is. -/
def below (s : Option α) (b : α) : Bool := match s with | none => false | some s => decide (s < b)

/-- The loop of `_is_wcs_correction_small` (tweakreg.py:352-362).  `C` are the correctors and `separations c` the distances on the
sky, in arc seconds, between the footprint corners of the original and of the corrected WCS (lines 353-355). -/
def isSmallLoop {C : Type} (separations : C → List (Option α)) (b : α) : List C → Bool
  | [] => true
  | c :: rest => if !((separations c).all fun s => below s b) then false else isSmallLoop separations b rest

/-- `_is_wcs_correction_small` (tweakreg.py:344-362). -/
def isSmall {C : Type} (separations : C → List (Option α)) (cs : List C) (use2dhist : Bool)
    (searchrad tolerance xoffset yoffset : α) : Bool :=
  isSmallLoop separations (maxCorr use2dhist searchrad tolerance xoffset yoffset) cs

/-- `relative_align` (tweakreg.py:54-109); `none` is a raised exception.  `sqrt2` is `_SQRT2`; `align` is `align_wcs` with all its
exceptions, whatever they are turned into (lines 71-100). -/
def relativeAlign {C : Type} (sqrt2 : α) (separations : C → List (Option α)) (align : List C → Option (List C)) (cs : List C)
    (use2dhist : Bool) (searchrad separation tolerance xoffset yoffset : α) : Option (List C) :=
  if separation ≤ sqrt2 * tolerance then none
  else
    match align cs with
    | none => none
    | some cs' => if isSmall separations cs' use2dhist searchrad tolerance xoffset yoffset then some cs' else none

/-- `absolute_align` (tweakreg.py:131-224); `none` is a raised exception.  `refcat` is the result of `_parse_refcat`, `setGroup` sets the
group id and drops a fit marked as reference (lines 180-183), `align` is `align_wcs` (lines 186-222). -/
def absoluteAlign {C R : Type} (sqrt2 : α) (refcat : Option (List R)) (setGroup : C → C) (align : List R → List C → Option (List C))
    (cs : List C) (separation tolerance : α) (minobj : Nat) : Option (List C) :=
  if separation ≤ sqrt2 * tolerance then none
  else
    match refcat with
    | none => none
    | some rows => if rows.length < minobj then none else align rows (cs.map setGroup)

end Small

section Columns
variable {γ : Type}

/-- The name a column gets (tweakreg.py:293-297). -/
def newName (n : String) : String :=
  if n.toUpper = "RA" ∨ n.toUpper = "DEC" then n.toUpper else if n.toLower = "sky_centroid" then "sky_centroid" else n

/-- The loop over columns (tweakreg.py:293-297).  Renaming a column to a name that another column has raises a `KeyError`
(`Table.rename_column`), here `none`. -/
def renameAll (done : List (String × γ)) : List (String × γ) → Option (List (String × γ))
  | [] => some done
  | (n, c) :: rest =>
    if newName n ≠ n ∧ newName n ∈ (done ++ rest).map Prod.fst then none else renameAll (done ++ [(newName n, c)]) rest

/-- Setting a column (tweakreg.py:337-338): replaced in place, or added at the end. -/
def setCol (cols : List (String × γ)) (n : String) (c : γ) : List (String × γ) :=
  if n ∈ cols.map Prod.fst then cols.map fun q => if q.1 = n then (n, c) else q else cols ++ [(n, c)]

/-- `_parse_sky_centroid` (tweakreg.py:285-341); `none` is a `KeyError`.  `ra` and `dec` extract the coordinates of a
`sky_centroid` column (lines 336-338). -/
def parseSkyCentroid (ra dec : γ → γ) (cols : List (String × γ)) : Option (List (String × γ)) :=
  match renameAll [] cols with
  | none => none
  | some cs =>
    let nra := (cs.map Prod.fst).count "RA"
    let ndec := (cs.map Prod.fst).count "DEC"
    let ncentroid := (cs.map Prod.fst).count "sky_centroid"
    if nra > 1 ∨ ndec > 1 then none
    else if nra = 1 ∧ ndec = 1 then
      if ncentroid > 0 then some (cs.filter fun q => q.1 ≠ "sky_centroid") else some cs
    else if ncentroid > 1 then none
    else if ncentroid = 0 then none
    else
      match cs.find? fun q => q.1 = "sky_centroid" with
      | none => none
      | some sc => some ((setCol (setCol cs "RA" (ra sc.2)) "DEC" (dec sc.2)).filter fun q => q.1 ≠ "sky_centroid")

end Columns

end Verif.Tweakreg
