import Verif.Model.Jump
import Verif.Model.Slicing

/-!
# The drivers of two-point jump detection

Model of `find_crs` (jump/twopoint_difference.py) on a whole exposure and of `detect_jumps_data` (jump/jump.py), built
from the per-pixel and per-plane functions of `Verif.Model.Jump`.  Sigma clipping (`astropy.stats.sigma_clip`), the
snowball step and the shower search are parameters.
-/

set_option linter.unusedSectionVars false

namespace Verif.JumpDriver

open Verif Verif.Jump

/-- A four-dimensional array: integration, group, row, column (twopoint_difference.py:39). -/
abbrev Cube (β : Type) := Nat → Nat → Nat → Nat → β

/-- `data.shape` (twopoint_difference.py:39). -/
structure Dims where
  ni : Nat
  ng : Nat
  nr : Nat
  nc : Nat

/-- The options of `TwoPointParams` that select what is run (twopoint_difference_class.py:20, 36-39). -/
structure Switch where
  minGroups : Nat
  minSigclip : Nat
  minSingle : Nat
  onlyInts : Bool
  flag4 : Bool

/-- What `find_crs` leaves behind: its return values and its data argument, in which unusable samples have become NaN
(twopoint_difference.py:63, 76, 170). -/
structure Found (α : Type) where
  gdq : Cube Nat
  below : Nat → Nat → Nat → Nat
  above : Nat → Nat → Nat → Nat
  count : Int
  data : Cube (Option α)

variable {α : Type} [Field α] [LinearOrder α]

/-! ## Counting groups -/

/-- `np.all(np.bitwise_and(gdq[integ, grp, :, :], fl_dnu))` (twopoint_difference.py:658). -/
def groupDnu (p : Params α) (d : Dims) (gdq : Cube Nat) (i g : Nat) : Bool :=
  (List.range d.nr).all fun r => (List.range d.nc).all fun c => decide (gdq i g r c &&& p.dnu ≠ 0)

/-- `num_flagged_grps` of one integration (twopoint_difference.py:656-659). -/
def flaggedIn (p : Params α) (d : Dims) (gdq : Cube Nat) (i : Nat) : Nat :=
  (List.range d.ng).countP (groupDnu p d gdq i)

/-- The loop of `groups_all_set_dnu` (twopoint_difference.py:650-662): largest count, total, and the count of the
integration visited last. -/
def groupLoop (p : Params α) (d : Dims) (gdq : Cube Nat) : Nat × Nat × Nat :=
  (List.range d.ni).foldl (fun s i =>
    let n := flaggedIn p d gdq i
    (if n > s.1 then n else s.1, s.2.1 + n, n)) (0, 0, 0)

/-- `min_usable_groups` (twopoint_difference.py:668). -/
def minUsable (p : Params α) (d : Dims) (gdq : Cube Nat) : Nat := d.ng - (groupLoop p d gdq).1

/-- `total_groups` (twopoint_difference.py:669). -/
def totalGroups (p : Params α) (d : Dims) (gdq : Cube Nat) : Nat := d.ni * d.ng - (groupLoop p d gdq).2.1

/-- `total_sigclip_groups` (twopoint_difference.py:663-666): what is subtracted is the count of the last integration
only. -/
def sigclipGroups (p : Params α) (s : Switch) (d : Dims) (gdq : Cube Nat) : Nat :=
  if s.onlyInts then d.ni else d.ni * d.ng - (groupLoop p d gdq).2.2

/-- `check_group_counts` (twopoint_difference.py:604-626). -/
def checkCounts (s : Switch) (d : Dims) (sigclip : Nat) : Bool :=
  (s.onlyInts && decide (d.ni < s.minSigclip)) || (!s.onlyInts && decide (sigclip < s.minSigclip))

/-- `find_crs` gives up (twopoint_difference.py:55-63). -/
def skips (p : Params α) (s : Switch) (d : Dims) (gdq : Cube Nat) : Bool :=
  decide (minUsable p d gdq < s.minGroups) && checkCounts s d (sigclipGroups p s d gdq)

/-- All groups are uniform (twopoint_difference.py:482).  A standard deviation is zero exactly if all entries are
equal; rounding in `np.std` is not modelled. -/
def uniform (p : Params α) (d : Dims) : Bool :=
  (List.range (d.ng - 1)).all fun j => decide (p.nReads j = p.nReads 0) && decide (p.dt j = p.dt 0)

/-- `check_sigma_clip_groups` (twopoint_difference.py:462-488). -/
def usesClip (p : Params α) (s : Switch) (d : Dims) (gdq : Cube Nat) : Bool :=
  uniform p d && ((s.onlyInts && decide (s.minSigclip ≤ d.ni))
    || (!s.onlyInts && decide (s.minSigclip ≤ totalGroups p d gdq)))

/-- `min_usable_diffs >= min_diffs_single_pass` (twopoint_difference.py:211, 670). -/
def usesSingle (p : Params α) (s : Switch) (d : Dims) (gdq : Cube Nat) : Bool :=
  decide ((s.minSingle : Int) ≤ (minUsable p d gdq : Int) - 1)

/-! ## Detection -/

/-- The ramps of one pixel (`data[:, :, r, c]`, twopoint_difference.py:39). -/
def pixel {β : Type} (d : Dims) (f : Cube β) (r c : Nat) : List (List β) :=
  (List.range d.ni).map fun i => (List.range d.ng).map fun g => f i g r c

/-- Entry of a two-dimensional list, the array access of twopoint_difference.py:390-397. -/
def entry {β : Type} (z : β) (l : List (List β)) (i j : Nat) : β := (((l[i]?).getD [])[j]?).getD z

/-- `first_diffs` of one pixel (twopoint_difference.py:170-179). -/
def diffs (p : Params α) (d : Dims) (data : Cube (Option α)) (gdq : Cube Nat) (r c : Nat) : List (List (Option α)) :=
  List.zipWith (firstDiffs p) (pixel d data r c) (pixel d gdq r c)

/-- `median_diffs` of one pixel (twopoint_difference.py:188). -/
def medDiff (p : Params α) (d : Dims) (data : Cube (Option α)) (gdq : Cube Nat) (r c : Nat) : Option α :=
  nanmedian (diffs p d data gdq r c).flatten

/-- `clipped_diffs.mask` at one difference of one pixel (twopoint_difference.py:438-444): `clip` is `sigma_clip`'s mask
of a list of values; with `only_use_ints` each difference is compared with the same difference of the other
integrations, otherwise with all differences of the pixel. -/
def clipMask (clip : List (Option α) → List Bool) (s : Switch) (d : Dims) (fd : List (List (Option α))) (i j : Nat) :
    Bool :=
  if s.onlyInts then ((clip ((List.range d.ni).map fun k => entry none fd k j))[i]?).getD false
  else ((clip fd.flatten)[i * (d.ng - 1) + j]?).getD false

/-- twopoint_difference.py:439-448: the words after the clipping itself. -/
def clipWords (p : Params α) (clip : List (Option α) → List Bool) (s : Switch) (d : Dims) (data : Cube (Option α))
    (gdq : Cube Nat) : Cube Nat := fun i g r c =>
  let fd := diffs p d data gdq r c
  if decide (1 ≤ g) && clipMask clip s d fd i (g - 1) && (entry none fd i (g - 1)).isSome
      && decide (gdq i g r c &&& (p.sat ||| p.dnu) = 0) then gdq i g r c ||| p.jump
  else gdq i g r c

/-- `det_jump_sigma_clipping` (twopoint_difference.py:402-459), with the reset of planes in which every pixel is a jump
or unusable (twopoint_difference.py:451-458). -/
def clipDetect (p : Params α) (clip : List (Option α) → List Bool) (s : Switch) (d : Dims) (data : Cube (Option α))
    (gdq : Cube Nat) : Cube Nat := fun i g r c =>
  let w := clipWords p clip s d data gdq
  if (List.range d.nr).all (fun y => (List.range d.nc).all fun x => decide (w i g y x &&& (p.jump ||| p.dnu) ≠ 0))
      && decide (w i g r c = p.jump) then 0
  else w i g r c

/-- `look_for_more_than_one_jump` on the exposure (twopoint_difference.py:353-399). -/
def singleDetect (p : Params α) (sqrt : α → α) (rn : Nat → Nat → α) (d : Dims) (data : Cube (Option α))
    (gdq : Cube Nat) : Cube Nat := fun i g r c =>
  entry 0 (singlePass p sqrt (rn r c * rn r c) (pixel d data r c) (pixel d gdq r c)) i g

/-- `iterative_jump` on the exposure (twopoint_difference.py:221-274). -/
def iterDetect (p : Params α) (sqrt : α → α) (rn : Nat → Nat → α) (d : Dims) (data : Cube (Option α))
    (gdq : Cube Nat) : Cube Nat := fun i g r c =>
  if decide (1 ≤ g) && entry false (iterative p sqrt (rn r c * rn r c) (diffs p d data gdq r c)).2 i (g - 1) then
    gdq i g r c ||| p.jump
  else gdq i g r c

/-- `run_jump_detection` (twopoint_difference.py:131-218). -/
def detect (p : Params α) (sqrt : α → α) (clip : List (Option α) → List Bool) (s : Switch) (d : Dims)
    (rn : Nat → Nat → α) (data : Cube (Option α)) (gdq : Cube Nat) : Cube Nat :=
  if usesClip p s d gdq then clipDetect p clip s d data gdq
  else if usesSingle p s d gdq then singleDetect p sqrt rn d data gdq
  else iterDetect p sqrt rn d data gdq

/-- Jumps of one row (twopoint_difference.py:70). -/
def rowCount (p : Params α) (d : Dims) (w : Cube Nat) (r : Nat) : Nat :=
  ((List.range d.ni).map fun i => ((List.range d.ng).map fun g =>
    (List.range d.nc).countP fun c => decide (w i g r c &&& p.jump ≠ 0)).sum).sum

/-- `num_primary_crs` (twopoint_difference.py:70). -/
def primaries (p : Params α) (d : Dims) (w : Cube Nat) : Nat := ((List.range d.nr).map (rowCount p d w)).sum

/-! ## Post-processing -/

/-- `ratio` of `flag_four_neighbors` (twopoint_difference.py:531-536). -/
def ratioPlane (p : Params α) (sqrt : α → α) (d : Dims) (rn : Nat → Nat → α) (data : Cube (Option α)) (gdq : Cube Nat)
    (i j : Nat) : Img (Option α) := fun r c =>
  ratio (entry none (diffs p d data gdq r c) i j) (medDiff p d data gdq r c)
    (sigma p sqrt (rn r c * rn r c) (medDiff p d data gdq r c) j)

/-- `flag_four_neighbors` for one plane (twopoint_difference.py:527-555); the first group is not visited. -/
def neighborPlane (p : Params α) (sqrt : α → α) (s : Switch) (d : Dims) (rn : Nat → Nat → α) (data : Cube (Option α))
    (gdq w : Cube Nat) (i g : Nat) : PlaneRes :=
  if s.flag4 && decide (1 ≤ g) then fourNeighbors p d.nr d.nc (ratioPlane p sqrt d rn data gdq i (g - 1)) (w i g)
  else ⟨w i g, fun _ => 0, fun _ => 0⟩

/-- `transient_jumps` (twopoint_difference.py:125-126, 558-601); pixels are numbered row by row. -/
def transient (p : Params α) (d : Dims) (data : Cube (Option α)) (gdq w : Cube Nat) : Cube Nat := fun i g r c =>
  if 0 < p.n1 ∨ 0 < p.n2 then
    transientInt p d.ng (d.nr * d.nc) (fun j x => entry none (diffs p d data gdq (x / d.nc) (x % d.nc)) i j)
      (fun x => medDiff p d data gdq (x / d.nc) (x % d.nc)) (fun k x => w i k (x / d.nc) (x % d.nc)) g (r * d.nc + c)
  else w i g r c

/-- `find_crs` (twopoint_difference.py:11-76). -/
def findCrs (p : Params α) (sqrt : α → α) (clip : List (Option α) → List Bool) (s : Switch) (d : Dims)
    (rn : Nat → Nat → α) (data : Cube (Option α)) (gdq : Cube Nat) : Found α :=
  if skips p s d gdq then ⟨gdq, fun _ _ _ => 0, fun _ _ _ => 0, -99, data⟩
  else
    let w := detect p sqrt clip s d rn data gdq
    let nb := neighborPlane p sqrt s d rn data gdq w
    { gdq := transient p d data gdq (fun i g => (nb i g).gdq)
      below := fun i g => (nb i g).below
      above := fun i g => (nb i g).above
      count := primaries p d w
      data := fun i g r c => maskData p (gdq i g r c) (data i g r c) }

/-! ## Slices and the step -/

/-- Rows from `start` on (jump.py:266-267, 277-278). -/
def fromRow {β : Type} (start : Nat) (f : Cube β) : Cube β := fun i g r c => f i g (r + start) c

/-- Slice `k` of `n` (jump.py:262-282, 161). -/
def sliceFound (p : Params α) (sqrt : α → α) (clip : List (Option α) → List Bool) (s : Switch) (d : Dims)
    (rn : Nat → Nat → α) (data : Cube (Option α)) (gdq : Cube Nat) (n k : Nat) : Found α :=
  let yinc := d.nr / n
  findCrs p sqrt clip s { d with nr := if n = k + 1 then d.nr - k * yinc else yinc }
    (fun r c => rn (r + k * yinc) c) (fromRow (k * yinc) data) (fromRow (k * yinc) gdq)

/-- `twopoint_diff_multi` (jump.py:123-165): group DQ and number of primary cosmic rays. -/
def multi (p : Params α) (sqrt : α → α) (clip : List (Option α) → List Bool) (s : Switch) (d : Dims)
    (rn : Nat → Nat → α) (data : Cube (Option α)) (gdq : Cube Nat) (n : Nat) : Cube Nat × Int :=
  let res := sliceFound p sqrt clip s d rn data gdq n
  (fun i g => reassemble d.nr n (d.nr / n) (fun k => ⟨(res k).gdq i g, (res k).below i g, (res k).above i g⟩) (gdq i g),
    ((List.range n).map fun k => (res k).count).sum)

/-- The input of `detect_jumps_data` (jump_class.py:34-78, 102-111).  `gain` is NaN for `none`; `rnoise` is a number. -/
structure Exposure (α : Type) where
  d : Dims
  data : Cube (Option α)
  gdq : Cube Nat
  gain : Img (Option α)
  rnoise : Img α
  pdq : Img Nat
  dn1 : α
  dn2 : α

/-- `jump_data.data * jump_data.gain_2d` (jump.py:74). -/
def electrons (e : Exposure α) : Cube (Option α) := fun i g r c =>
  match e.data i g r c, e.gain r c with
  | some x, some y => some (x * y)
  | _, _ => none

/-- `jump_data.rnoise_2d * jump_data.gain_2d` (jump.py:76).  With a NaN gain the result is NaN; the number used here
does not matter because all data of the pixel are NaN then. -/
def noiseElectrons (e : Exposure α) : Img α := fun r c => e.rnoise r c * (e.gain r c).getD 0

/-- `np.nanmedian(jump_data.gain_2d)` (jump.py:79-80).  If every gain is NaN the median is NaN and no after-jump
comparison holds; the number used here does not matter because all differences are NaN then. -/
def medianGain (e : Exposure α) : α :=
  (nanmedian ((List.range e.d.nr).flatMap fun r => (List.range e.d.nc).map fun c => e.gain r c)).getD 0

/-- Parameters with the after-jump thresholds in electrons (jump.py:79-80, 91). -/
def stepParams (p : Params α) (e : Exposure α) : Params α :=
  { p with e1 := e.dn1 * medianGain e, e2 := e.dn2 * medianGain e }

/-- The two-point difference part of `detect_jumps_data` (jump.py:67-103): group DQ after the clean-up, the count, and
the data handed on to the shower search.  Only the single-process branch sets `minimum_groups = 3`, and only there
`find_crs` works on the step's own data array (in the other branch it works on copies in other processes). -/
def twoPoint (p : Params α) (sqrt : α → α) (clip : List (Option α) → List Bool) (s : Switch) (e : Exposure α)
    (maxCores : List Char) (ncpu : Nat) : Cube Nat × Int × Cube (Option α) :=
  let p' := stepParams p e
  let n := Slicing.computeNumCores maxCores e.d.nr ncpu
  if n = 1 then
    let f := findCrs p' sqrt clip { s with minGroups := 3 } e.d (noiseElectrons e) (electrons e) e.gdq
    (fun i g r c => cleanup p (f.gdq i g r c), f.count, f.data)
  else
    let f := multi p' sqrt clip s e.d (noiseElectrons e) (electrons e) e.gdq n
    (fun i g r c => cleanup p (f.1 i g r c), f.2, electrons e)

/-- `detect_jumps_data` (jump.py:29-120) with the snowball step and the shower search switched off: group DQ, number of primary
cosmic rays, number of extended events (0 then).  With them: `JumpStep.step`.  The pixel DQ is `setupPdq`
(`Verif.Model.Snowball`). -/
def detectJumps (p : Params α) (sqrt : α → α) (clip : List (Option α) → List Bool) (s : Switch)
    (e : Exposure α) (maxCores : List Char) (ncpu : Nat) : Cube Nat × Int × Nat :=
  let t := twoPoint p sqrt clip s e maxCores ncpu
  (t.1, t.2.1, 0)

end Verif.JumpDriver
