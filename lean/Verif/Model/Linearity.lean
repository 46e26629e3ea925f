import Verif.Model.Dq
import Mathlib.Algebra.Field.Basic
import Mathlib.Algebra.Order.Field.Basic
import Mathlib.Algebra.BigOperators.Group.List.Basic

/-!
# Model of `linearity/linearity.py`

Values are `Option α`, with `none` for NaN; infinities are not modelled (a
division by zero gives NaN).  An outer `none` is a Python exception.
-/

set_option linter.unusedSectionVars false

namespace Verif.Linearity

open Verif

variable {α : Type} [Field α] [LinearOrder α]

/-- NaN-propagating addition (linearity.py:400, 402). -/
def oadd : Option α → Option α → Option α
  | some a, some b => some (a + b)
  | _, _ => none

/-- NaN-propagating subtraction (linearity.py:454). -/
def osub : Option α → Option α → Option α
  | some a, some b => some (a - b)
  | _, _ => none

/-- NaN-propagating multiplication (linearity.py:401). -/
def omul : Option α → Option α → Option α
  | some a, some b => some (a * b)
  | _, _ => none

/-- NaN-propagating division; division by zero is NaN (linearity.py:454). -/
def odiv : Option α → Option α → Option α
  | some a, some b => if b = 0 then none else some (a / b)
  | _, _ => none

/-- `np.minimum`: NaN-propagating minimum (linearity.py:484). -/
def omin : Option α → Option α → Option α
  | some a, some b => some (min a b)
  | _, _ => none

/-- `np.mean` along the read axis: NaN for no reads or any NaN (linearity.py:470, 493). -/
def omean (l : List (Option α)) : Option α :=
  odiv (l.foldl oadd (some 0)) (some (l.length : α))

/-- Python `list[j]` on a coefficient list (indices in range in all uses) (linearity.py:400-402). -/
def at' (c : List (Option α)) (j : Nat) : Option α := (c[j]?).getD none

/-- linearity.py:394-402: Horner loop of `apply_polynomial` (the optional
saturation mask is `applyPolyDq`). -/
def applyPoly (c : List (Option α)) (x : Option α) : Option α :=
  let n := c.length
  let start := omul (at' c (n - 1)) x
  let body := (List.range (n - 2)).foldl (fun r t => omul (oadd r (at' c (n - 2 - t))) x) start
  oadd body (at' c 0)

/-- linearity.py:404-408: `apply_polynomial` with DQ: a saturated value is kept. -/
def applyPolyDq (c : List (Option α)) (sat : Nat) (dq : Nat) (x : Option α) : Option α :=
  if dq &&& sat ≠ 0 then x else applyPoly c x

/-- linearity.py:298-319, `ben_coeffs`. -/
def benCoeffs (n : Nat) : List (Option α) :=
  (List.range n).map (fun j => some (if j = 1 then 1 else 0))

/-- linearity.py:281-295, `correct_for_flag`, one pixel.  Simplification: the
loop bound `num_flag` counts pixels with any NO_LIN_CORR bit while the index
arrays hold those with all; the two agree because NO_LIN_CORR is one bit. -/
def correctForFlag (c : List (Option α)) (linDq nlc : Nat) : List (Option α) :=
  if linDq &&& nlc = nlc then benCoeffs c.length else c

/-- linearity.py:186-203, `correct_for_NaN`, one pixel. -/
def correctForNaN (c : List (Option α)) (pdq nlc : Nat) : List (Option α) × Nat :=
  if c.any Option.isNone then (benCoeffs c.length, pdq ||| nlc) else (c, pdq)

/-- linearity.py:233-252, `correct_for_zero`, one pixel.  `lin_coeffs[1]` raises
when there are fewer than two coefficients. -/
def correctForZero (c : List (Option α)) (pdq nlc : Nat) : Option (List (Option α) × Nat) :=
  if c.length < 2 then none
  else if at' c 1 = some 0 then some (benCoeffs c.length, pdq ||| nlc)
  else some (c, pdq)

/-- linearity.py:322-363, `prepare_coefficients`, one pixel. -/
def prepare (c : List (Option α)) (linDq pdq nlc : Nat) : Option (List (Option α) × Nat) :=
  let p0 := pdq ||| linDq
  let c1 := correctForFlag c linDq nlc
  let r2 := correctForNaN c1 p0 nlc
  correctForZero r2.1 r2.2 nlc

/-- linearity.py:563-567: `linearity_correction_int` without inverse
coefficients, one pixel, all groups. -/
def simpleInt (c : List (Option α)) (sat : Nat) (data : List (Option α)) (gdq : List Nat) :
    List (Option α) :=
  data.zipIdx.map (fun p => applyPolyDq c sat ((gdq[p.2]?).getD 0) p.1)

/-- linearity.py:133-150: one zero-frame pixel.  A zero gets a dummy SATURATED
flag and is reset to zero afterwards. -/
def zeroFrame (c : List (Option α)) (sat : Nat) (z : Option α) : Option α :=
  let zdq := if z = some 0 then sat else 0
  let r := applyPolyDq c sat zdq z
  if z = some 0 then some 0 else r

/-- Output of `linearity_correction` for one pixel (linearity.py:152). -/
structure Out (α : Type) where
  data : List (List (Option α))
  pdq : Nat
  zframe : Option (List (Option α))

/-- linearity.py:98-152, `linearity_correction` without `ilin_coeffs`, one pixel
(all operations on this path are pixel by pixel). -/
def linearityPixel (data : List (List (Option α))) (gdq : List (List Nat)) (pdq : Nat)
    (coeffs : List (Option α)) (linDq sat nlc : Nat) (zframe : Option (List (Option α))) :
    Option (Out α) :=
  match prepare coeffs linDq pdq nlc with
  | none => none
  | some (c, p) => some
    { data := data.zipIdx.map (fun r => simpleInt c sat r.1 ((gdq[r.2]?).getD [])),
      pdq := p,
      zframe := zframe.map (fun z => z.map (zeroFrame c sat)) }

/-- linearity.py:197, 246, 293: what `linearity_correction` leaves in the caller's
`lin_coeffs` for one pixel: `prepare_coefficients` assigns into the array it was
given (nothing on the way copies it), so the caller's array ends up holding the
prepared coefficients.  `none` is an exception. -/
def coeffsAfter (c : List (Option α)) (linDq nlc : Nat) : Option (List (Option α)) :=
  (prepare c linDq 0 nlc).map Prod.fst

/-! ## Read-level path -/

/-- One pixel of one integration on the read-level path, with prepared
coefficients (linearity.py:411-428). -/
structure Px (α : Type) where
  data : List (Option α)
  gdq : List Nat
  coeffs : List (Option α)
  icoeffs : List (Option α)
  satval : Option (Option α)

/-- Mean of a read group as an element of `α` (`np.mean(reads)`, linearity.py:429). -/
def meanRead (reads : List Nat) : Option α := omean (reads.map (fun r : Nat => some (r : α)))

/-- linearity.py:434-446: index of the last resultant used for the count rate. -/
def lastValid (sat : Nat) (gdq : List Nat) : Nat :=
  let n := (gdq.filter (fun d => d &&& sat = 0)).length
  -- integer subtraction then clamp: `n - 1` below two becomes two
  (if n - 1 < 2 then 2 else n - 1) - 1

/-- linearity.py:443: linearised first resultant. -/
def firstLin (sat : Nat) (p : Px α) : Option α :=
  applyPolyDq p.coeffs sat ((p.gdq[0]?).getD 0) ((p.data[0]?).getD none)

/-- linearity.py:447-454: count rate per read.  Simplification: an index past the
end (a one-resultant exposure) raises in the code and gives NaN here; all
theorems on this path that depend on it assume two or more resultants. -/
def countRate (sat : Nat) (pattern : List (List Nat)) (p : Px α) : Option α :=
  let lv := lastValid sat p.gdq
  let lastLin := applyPolyDq p.coeffs sat ((p.gdq[lv]?).getD 0) ((p.data[lv]?).getD none)
  let dReads := osub (meanRead ((pattern[lv]?).getD [])) (meanRead ((pattern[0]?).getD []))
  odiv (osub lastLin (firstLin sat p)) dReads

/-- linearity.py:460-472: the reads of resultant `i` brought back to uncorrected
counts and shifted so that their mean is the measured resultant. -/
def adjustedReads (sat : Nat) (pattern : List (List Nat)) (i : Nat) (p : Px α) :
    List (Option α) :=
  let first := firstLin sat p
  let rate := countRate sat pattern p
  let m0 := meanRead ((pattern[0]?).getD [])
  let lin := ((pattern[i]?).getD []).map
    (fun r : Nat => oadd first (omul rate (osub (some (r : α)) m0)))
  let unlin := lin.map (applyPoly p.icoeffs)
  let offset := osub ((p.data[i]?).getD none) (omean unlin)
  unlin.map (fun r => oadd r offset)

/-- linearity.py:456, 483-484: cap at 1.2 times saturation. -/
def capRead (satval : Option (Option α)) (r : Option α) : Option α :=
  match satval with
  | none => r
  | some s => omin r (omul (some (6 / 5)) s)

/-- linearity.py:486-494: linearise the reads, average, keep saturated values. -/
def finishResultant (sat : Nat) (i : Nat) (p : Px α) (reads : List (Option α)) : Option α :=
  let corrected := omean ((reads.map (capRead p.satval)).map (applyPoly p.coeffs))
  if ((p.gdq[i]?).getD 0) &&& sat ≠ 0 then (p.data[i]?).getD none else corrected

/-- The optional `additional_correction` callable: it sees the whole tile of
reads (rows × columns × reads) and returns a correction of the same shape (linearity.py:474-476). -/
abbrev Additional (α : Type) :=
  Option (List (List (List (Option α))) → List (List (List (Option α))))

/-- Element-wise `+=` of two read arrays (linearity.py:476). -/
def addReads (a b : List (List (List (Option α)))) : List (List (List (Option α))) :=
  List.zipWith (List.zipWith (List.zipWith oadd)) a b

/-- linearity.py:458-494: resultant `i` of one tile. -/
def tileResultant (sat : Nat) (pattern : List (List Nat)) (add : Additional α) (i : Nat)
    (tile : List (List (Px α))) : List (List (Option α)) :=
  let reads := tile.map (fun row => row.map (adjustedReads sat pattern i))
  let reads' := match add with
    | none => reads
    | some f => addReads reads (f reads)
  List.zipWith (List.zipWith (finishResultant sat i)) tile reads'

/-- linearity.py:411-494, `_linearity_correction_tile`: for each resultant the
image of the tile.  Resultant `i` of the data is read only while resultant `i` is
processed (first and last were read before the loop), so the in-place writes
are not observed. -/
def tileCorrect (sat : Nat) (pattern : List (List Nat)) (add : Additional α) (ngroups : Nat)
    (tile : List (List (Px α))) : List (List (List (Option α))) :=
  (List.range ngroups).map (fun i => tileResultant sat pattern add i tile)

/-- linearity.py:569-583: the loop over tiles of `tileRows` rows.  `fuel` bounds
the number of tiles; `nrows` suffices. -/
def tileLoop (sat : Nat) (pattern : List (List Nat)) (add : Additional α) (ngroups tileRows : Nat) :
    Nat → List (List (Px α)) → List (List (List (Option α)))
  | 0, _ => List.replicate ngroups []
  | fuel + 1, rows =>
    if rows = [] then List.replicate ngroups []
    else
      List.zipWith (· ++ ·)
        (tileCorrect sat pattern add ngroups (rows.take tileRows))
        (tileLoop sat pattern add ngroups tileRows fuel (rows.drop tileRows))

/-- linearity.py:497-583: read-level `linearity_correction_int`; the result lists,
for each resultant, the corrected image. -/
def readLevelInt (sat : Nat) (pattern : List (List Nat)) (add : Additional α)
    (ngroups tileRows : Nat) (rows : List (List (Px α))) : List (List (List (Option α))) :=
  tileLoop sat pattern add ngroups tileRows rows.length rows

/-- One pixel as `linearity_correction` receives it on the read-level path: all
integrations of the science data, its DQ words, both coefficient lists, the
optional cap and the zero frame (linearity.py:4-16). -/
structure RawPx (α : Type) where
  data : List (List (Option α))
  gdq : List (List Nat)
  pdq : Nat
  coeffs : List (Option α)
  icoeffs : List (Option α)
  linDq : Nat
  satval : Option (Option α)
  zframe : List (Option α)

/-- A pixel after `prepare_coefficients` has been called for both lists (linearity.py:106-110). -/
structure ReadyPx (α : Type) where
  raw : RawPx α
  coeffs : List (Option α)
  icoeffs : List (Option α)
  pdq : Nat

/-- linearity.py:106-110: prepare the coefficients, then the inverse coefficients
with the DQ word the first call returned. -/
def readyPx (nlc : Nat) (r : RawPx α) : Option (ReadyPx α) :=
  match prepare r.coeffs r.linDq r.pdq nlc with
  | none => none
  | some (c, p) =>
    match prepare r.icoeffs r.linDq p nlc with
    | none => none
    | some (ic, p') => some { raw := r, coeffs := c, icoeffs := ic, pdq := p' }

/-- linearity.py:114-123: what the correction of integration `i` sees of a pixel. -/
def ReadyPx.px (i : Nat) (r : ReadyPx α) : Px α :=
  { data := (r.raw.data[i]?).getD [], gdq := (r.raw.gdq[i]?).getD [],
    coeffs := r.coeffs, icoeffs := r.icoeffs, satval := r.raw.satval }

/-- Output of `linearity_correction` for an image: integration, group, row,
column; pixel DQ; zero frame by row, column, integration (linearity.py:152). -/
structure ImageOut (α : Type) where
  data : List (List (List (List (Option α))))
  pdq : List (List Nat)
  zframe : Option (List (List (List (Option α))))

/-- linearity.py:98-152, `linearity_correction` with `ilin_coeffs`, whole image.
`none` is an exception: no read pattern (lines 103-104), or too few
coefficients.  Tiles have the default 64 rows (line 506).  Simplification:
`useZ` tells whether a zero frame was passed (`zframe` of each pixel is ignored
otherwise). -/
def linearityRead (sat nlc : Nat) (pattern : Option (List (List Nat))) (add : Additional α)
    (nints ngroups : Nat) (useZ : Bool) (img : List (List (RawPx α))) : Option (ImageOut α) :=
  match pattern with
  | none => none
  | some pat =>
    match img.mapM (fun row => row.mapM (readyPx nlc)) with
    | none => none
    | some rows => some
      { data := (List.range nints).map (fun i =>
          readLevelInt sat pat add ngroups 64 (rows.map (fun row => row.map (ReadyPx.px i)))),
        pdq := rows.map (fun row => row.map ReadyPx.pdq),
        zframe := if useZ then
            some (rows.map (fun row => row.map (fun r => r.raw.zframe.map (zeroFrame r.coeffs sat))))
          else none }

end Verif.Linearity
