import Verif.Model.Dq
import Mathlib.Algebra.Field.Basic
import Mathlib.Algebra.Order.Field.Basic
import Mathlib.Algebra.Order.Group.Abs
import Mathlib.Data.List.Sort

/-!
# Model of `jump/twopoint_difference.py` and the slicing part of `jump/jump.py`

Values are `Option α` with `none` for NaN (infinities are not modelled).  The
square root is a parameter `sqrt : α → α`; nothing is assumed about it.
-/

set_option linter.unusedSectionVars false

namespace Verif.Jump

open Verif

variable {α : Type} [Field α] [LinearOrder α]

/-- The `TwoPointParams` fields used by the modelled functions (twopoint_difference_class.py:4-73). -/
structure Params (α : Type) where
  jump : Nat
  sat : Nat
  dnu : Nat
  normalThresh : α
  threeThresh : α
  twoThresh : α
  maxNeighbor : α
  minNeighbor : α
  /-- `dt_group` for difference `j` (length-1 arrays are constant functions). -/
  dt : Nat → α
  /-- `n_reads_groupdiff` for difference `j`. -/
  nReads : Nat → α
  e1 : α
  e2 : α
  n1 : Nat
  n2 : Nat

/-! ## NaN-aware statistics -/

/-- The entries that are numbers (the NaN rule of twopoint_difference.py:173). -/
def finite (l : List (Option α)) : List α := l.filterMap (fun x => x)

/-- Median of a sorted list of numbers: middle element or mean of the two middle
elements (numpy's convention); `none` for an empty list (`np.nanmedian`, twopoint_difference.py:188, 762). -/
def medianSorted (s : List α) : Option α :=
  if s.length = 0 then none
  else if s.length % 2 = 1 then s[s.length / 2]?
  else match s[s.length / 2 - 1]?, s[s.length / 2]? with
    | some a, some b => some ((a + b) / 2)
    | _, _ => none

/-- `np.nanmedian` over all given entries (twopoint_difference.py:188, 762). -/
def nanmedian (l : List (Option α)) : Option α :=
  medianSorted ((finite l).insertionSort (· ≤ ·))

/-- `np.nanmax` over all given entries (twopoint_difference.py:258, 338, 758). -/
def nanmax (l : List (Option α)) : Option α := (finite l).max?

/-- `np.nanmin` over all given entries (twopoint_difference.py:765). -/
def nanmin (l : List (Option α)) : Option α := (finite l).min?

/-! ## Differences, sigma, single pass (one pixel) -/

/-- twopoint_difference.py:170: data flagged DO_NOT_USE or SATURATED become NaN. -/
def maskData (p : Params α) (dq : Nat) (x : Option α) : Option α :=
  if dq &&& (p.dnu ||| p.sat) ≠ 0 then none else x

/-- twopoint_difference.py:179: one normalised first difference. -/
def diff (p : Params α) (j : Nat) (a b : Option α) : Option α :=
  match a, b with
  | some x, some y => if p.dt j = 0 then none else some ((y - x) / p.dt j)
  | _, _ => none

/-- twopoint_difference.py:170-179: the first differences of one integration of
one pixel. -/
def firstDiffs (p : Params α) (data : List (Option α)) (gdq : List Nat) : List (Option α) :=
  let d := List.zipWith (maskData p) gdq data
  (List.range (d.length - 1)).map
    (fun j => diff p j ((d[j]?).getD none) ((d[j + 1]?).getD none))

/-- twopoint_difference.py:195-202 (and 315-322): sigma of difference `j`; zero
becomes NaN. -/
def sigma (p : Params α) (sqrt : α → α) (rn2 : α) (med : Option α) (j : Nat) : Option α :=
  match med with
  | none => none
  | some m =>
    let s := sqrt (|m| * p.dt j + rn2 / (1 / 2 * p.nReads j)) / p.dt j
    if s = 0 then none else some s

/-- `|d - m| / s` with NaN propagation (twopoint_difference.py:332, 396, 536). -/
def ratio (d m s : Option α) : Option α :=
  match d, m, s with
  | some x, some y, some z => some (|x - y| / z)
  | _, _, _ => none

/-- Comparison `x > t`; false for NaN (twopoint_difference.py:344-346, 397, 540). -/
def gt (x : Option α) (t : α) : Bool :=
  match x with
  | some v => decide (v > t)
  | none => false

/-- Comparison `x < t`; false for NaN (twopoint_difference.py:539). -/
def lt (x : Option α) (t : α) : Bool :=
  match x with
  | some v => decide (v < t)
  | none => false

/-- Comparison `x ≥ t`; false for NaN (twopoint_difference.py:588-589). -/
def ge (x : Option α) (t : α) : Bool :=
  match x with
  | some v => decide (v ≥ t)
  | none => false

/-- twopoint_difference.py:385-399, `look_for_more_than_one_jump`, one
integration of one pixel. -/
def singlePassInt (p : Params α) (sqrt : α → α) (rn2 : α) (med : Option α)
    (fd : List (Option α)) (gdq : List Nat) : List Nat :=
  gdq.zipIdx.map (fun q =>
    if q.2 = 0 then q.1
    else
      let d := (fd[q.2 - 1]?).getD none
      let r := ratio d med (sigma p sqrt rn2 med (q.2 - 1))
      if gt r p.normalThresh && d.isSome then q.1 ||| p.jump else q.1)

/-- twopoint_difference.py:170-214 on the single-pass branch, one pixel, all
integrations: differences, median over all of them, flags. -/
def singlePass (p : Params α) (sqrt : α → α) (rn2 : α) (data : List (List (Option α)))
    (gdq : List (List Nat)) : List (List Nat) :=
  let fds := List.zipWith (firstDiffs p) data gdq
  let med := nanmedian fds.flatten
  List.zipWith (singlePassInt p sqrt rn2 med) fds gdq

/-! ## Iterative detection (one pixel) -/

/-- twopoint_difference.py:744-770, `calc_med_first_diffs`, one pixel. -/
def calcMed (l : List (Option α)) : Option α :=
  let n := (finite l).length
  if n < 2 then none
  else if n = 2 then nanmin l
  else if n ≥ 4 then nanmedian (l.map (fun x => if x = nanmax l then none else x))
  else nanmedian l

/-- twopoint_difference.py:343-348: the threshold that applies with `n` usable
differences; `none` means no jump can be declared. -/
def threshold (p : Params α) (n : Nat) : Option α :=
  if n ≥ 4 then some p.normalThresh
  else if n = 3 then some p.threeThresh
  else if n = 2 then some p.twoThresh
  else none

/-- twopoint_difference.py:314-332: ratios of all differences of one pixel. -/
def ratios (p : Params α) (sqrt : α → α) (rn2 : α) (fa : List (List (Option α))) :
    List (List (Option α)) :=
  let med := calcMed fa.flatten
  fa.map (fun row => row.zipIdx.map (fun q => ratio q.1 med (sigma p sqrt rn2 med q.2)))

/-- twopoint_difference.py:338-348: does this integration contain a jump? -/
def crInt (p : Params α) (nusable : Nat) (row : List (Option α)) : Bool :=
  match threshold p nusable with
  | none => false
  | some t => gt (nanmax row) t

/-- twopoint_difference.py:258: the newly found jumps of one pixel: entries equal
to the largest ratio of all integrations, in integrations with a jump. -/
def newCr (p : Params α) (sqrt : α → α) (rn2 : α) (fa : List (List (Option α))) :
    List (List Bool) :=
  let rs := ratios p sqrt rn2 fa
  let m := nanmax rs.flatten
  let n := (finite fa.flatten).length
  rs.map (fun row => row.map (fun x => x.isSome && decide (x = m) && crInt p n row))

/-- twopoint_difference.py:266: mask the new jumps. -/
def maskNew (fa : List (List (Option α))) (new : List (List Bool)) : List (List (Option α)) :=
  List.zipWith (List.zipWith (fun x b => if b then none else x)) fa new

/-- Element-wise "or" of flag arrays (twopoint_difference.py:265 accumulates into `gdq`). -/
def orFlags (a b : List (List Bool)) : List (List Bool) :=
  List.zipWith (List.zipWith (· || ·)) a b

/-- twopoint_difference.py:254-272: the loop, one pixel.  Simplification: the
code iterates until no pixel of the image finds a new jump, and gives a pixel
that found none zero ratios from then on; with non-negative thresholds that pixel
never changes again, so its own loop may stop. -/
def iterLoop (p : Params α) (sqrt : α → α) (rn2 : α) :
    Nat → List (List (Option α)) → List (List Bool) → List (List (Option α)) × List (List Bool)
  | 0, fa, acc => (fa, acc)
  | fuel + 1, fa, acc =>
    let new := newCr p sqrt rn2 fa
    if new.flatten.any (fun b => b) = false then (fa, acc)
    else iterLoop p sqrt rn2 fuel (maskNew fa new) (orFlags acc new)

/-- twopoint_difference.py:245-274, `iterative_jump`, one pixel: the jump flags of
the differences. -/
def iterative (p : Params α) (sqrt : α → α) (rn2 : α) (fds : List (List (Option α))) :
    List (List (Option α)) × List (List Bool) :=
  let fa := fds.map (fun row => row.map (fun x => x.map (fun v => |v|)))
  iterLoop p sqrt rn2 fds.flatten.length fa (fds.map (fun row => row.map (fun _ => false)))

/-! ## Transients after a jump -/

/-- Decision of twopoint_difference.py:707 for a cube with `ngroups` groups and
`npix` pixels (numpy mean of booleans `> 1e-3`). -/
def dense (ngroups npix : Nat) (flag : Nat → Nat → Bool) : Bool :=
  decide (((List.range ngroups).flatMap (fun g => (List.range npix).map (fun x => flag g x))).count true
    * 1000 > ngroups * npix)

/-- twopoint_difference.py:708-709, option A: step `j` of the loop,
`flag[j+1:] |= flag[j:-1]`. -/
def stepA (j : Nat) (flag : Nat → Nat → Bool) : Nat → Nat → Bool :=
  fun g x => flag g x || (decide (j + 1 ≤ g) && flag (g - 1) x)

/-- twopoint_difference.py:702-715, `propagate_flags` on groups `g < ngroups`. -/
def propagateFlags (ngroups npix n : Nat) (flag : Nat → Nat → Bool) : Nat → Nat → Bool :=
  let jmax : Int := min (n : Int) ((ngroups : Int) - 2)
  if (jmax ≤ 50 ∧ jmax > 0) ∨ dense ngroups npix flag = true then
    (List.range jmax.toNat).foldl (fun f j => stepA j f) flag
  else if jmax > 0 then
    fun g x => flag g x ||
      (List.range ngroups).any (fun g0 => flag g0 x && decide (g0 ≤ g) && decide (g < g0 + n + 1))
  else flag

/-- twopoint_difference.py:580-599, `transient_jumps` for one integration with
`ngroups` groups and `npix` pixels; `fd j x` is difference `j` of pixel `x`. -/
def transientInt (p : Params α) (ngroups npix : Nat) (fd : Nat → Nat → Option α)
    (med : Nat → Option α) (gdq : Nat → Nat → Nat) : Nat → Nat → Nat :=
  let ejump := fun (j x : Nat) => match fd j x, med x with
    | some a, some b => some ((a - b) * p.dt j)
    | _, _ => none
  let big := fun (e : α) (g x : Nat) =>
    decide (1 ≤ g) && ge (ejump (g - 1) x) e && decide (gdq g x &&& p.jump ≠ 0)
  let b1 := propagateFlags ngroups npix p.n1 (big p.e1)
  let b2 := propagateFlags ngroups npix p.n2 (big p.e2)
  fun g x =>
    if (b1 g x || b2 g x) && decide (gdq g x &&& (p.sat ||| p.dnu) = 0) then gdq g x ||| p.jump
    else gdq g x

/-! ## Four neighbours and slices (one integration, one group) -/

/-- An image plane (a slice of `gdq`, twopoint_difference.py:527-555). -/
abbrev Img (β : Type) := Nat → Nat → β

/-- twopoint_difference.py:536-542: primary jumps whose neighbours are flagged. -/
def primary (p : Params α) (ratio : Img (Option α)) (gdq : Img Nat) : Img Bool :=
  fun r c => lt (ratio r c) p.maxNeighbor && gt (ratio r c) p.minNeighbor &&
    decide (gdq r c &&& p.jump ≠ 0)

/-- twopoint_difference.py:545-549: dilation by one pixel in the four directions
of an image with `nr` rows and `nc` columns. -/
def dilate4 (nr nc : Nat) (f : Img Bool) : Img Bool :=
  fun r c => f r c || (decide (0 < r) && f (r - 1) c) || (decide (r + 1 < nr) && f (r + 1) c) ||
    (decide (0 < c) && f r (c - 1)) || (decide (c + 1 < nc) && f r (c + 1))

/-- What `find_crs` returns for one plane (twopoint_difference.py:128). -/
structure PlaneRes where
  gdq : Img Nat
  below : Nat → Nat
  above : Nat → Nat

/-- twopoint_difference.py:527-555, `flag_four_neighbors`, one plane of `nr` rows. -/
def fourNeighbors (p : Params α) (nr nc : Nat) (ratio : Img (Option α)) (gdq : Img Nat) :
    PlaneRes :=
  let f := primary p ratio gdq
  let d := dilate4 nr nc f
  { gdq := fun r c =>
      if decide (gdq r c &&& (p.sat ||| p.dnu) = 0) && d r c then gdq r c ||| p.jump else gdq r c
    below := fun c => if f 0 c then p.jump else 0
    above := fun c => if f (nr - 1) c then p.jump else 0 }

/-- jump.py:102-103: clean-up of one DQ word. -/
def cleanup (p : Params α) (w : Nat) : Nat :=
  let w1 := if w &&& (p.jump ||| p.dnu) = (p.jump ||| p.dnu) then w ^^^ p.jump else w
  if w1 &&& (p.jump ||| p.sat) = (p.jump ||| p.sat) then w1 ^^^ p.jump else w1

/-- Loop state of `reassemble_sliced_data` (jump.py:168-222). -/
structure Asm where
  gdq : Img Nat
  prevAbove : Nat → Nat

/-- jump.py:203-220: one iteration of the loop in `reassemble_sliced_data`. -/
def asmStep (nrows n yinc : Nat) (res : Nat → PlaneRes) (s : Asm) (k : Nat) : Asm :=
  let stop := if n = k + 1 then nrows else (k + 1) * yinc
  let g1 : Img Nat := fun r c =>
    if k * yinc ≤ r ∧ r < stop then (res k).gdq (r - k * yinc) c else s.gdq r c
  let g2 : Img Nat := if k ≠ 0 then
      fun r c => if r = k * yinc - 1 then g1 r c ||| (res k).below c else g1 r c
    else g1
  let g3 : Img Nat := if k ≠ 0 then
      fun r c => if r = k * yinc then g2 r c ||| s.prevAbove c else g2 r c
    else g2
  { gdq := g3, prevAbove := (res k).above }

/-- jump.py:168-222, `reassemble_sliced_data`, one plane. -/
def reassemble (nrows n yinc : Nat) (res : Nat → PlaneRes) (gdq : Img Nat) : Img Nat :=
  ((List.range n).foldl (asmStep nrows n yinc res) { gdq := gdq, prevAbove := fun _ => 0 }).gdq

/-- jump.py:123-165 and 255-283 restricted to neighbour flagging: slice, flag each
slice on its own, reassemble. -/
def slicedNeighbors (p : Params α) (nrows nc n : Nat) (ratio : Img (Option α)) (gdq : Img Nat) :
    Img Nat :=
  let yinc := nrows / n
  reassemble nrows n yinc
    (fun k => fourNeighbors p (if n = k + 1 then nrows - k * yinc else yinc) nc
      (fun r c => ratio (r + k * yinc) c) (fun r c => gdq (r + k * yinc) c)) gdq

end Verif.Jump
