import Verif.Model.Dq
import Mathlib.Algebra.Order.Field.Basic

/-!
# Saturation flagging, `src/stcal/saturation/saturation.py`

Images are functions of row and column; a value outside the image is never read by the code.  Science values are
`Option α`, `none` being NaN.
-/

namespace Verif.Saturation

open Verif.Dq

/-- A 2-D array (saturation.py:268-338). -/
abbrev Img (β : Type*) := Nat → Nat → β

/-- The entries of `dqflags` used, `saturation.py:92-95`. -/
structure Flags where
  dnu : Nat
  sat : Nat
  adFloor : Nat
  noSatCheck : Nat

/-- `x >= t`, false if `x` is NaN (`saturation.py:133`). -/
def fge {α : Type*} [LE α] [DecidableLE α] (x : Option α) (t : α) : Bool :=
  match x with
  | none => false
  | some v => decide (t ≤ v)

/-- `x <= 0`, false if `x` is NaN (`saturation.py:140`). -/
def fle0 {α : Type*} [LE α] [DecidableLE α] [Zero α] (x : Option α) : Bool :=
  match x with
  | none => false
  | some v => decide (v ≤ 0)

/-! ## `_adjacent_pixels` -/

/-- Scipy's `reflect` boundary rule for an index at most one array length outside (`d c b a | a b c d | d c b a`), as used by
`ndimage.maximum_filter` at `saturation.py:328-331`. -/
def reflectIdx (len : Nat) (q : Int) : Nat :=
  if q < 0 then (-1 - q).toNat else if q < len then q.toNat else (2 * len - 1 - q).toNat

/-- `ndimage.maximum_filter(line, 2n+1)` on a boolean line, at position `p` (`saturation.py:328-331`). -/
def maxFilter (len n : Nat) (line : Nat → Bool) (p : Nat) : Bool :=
  (List.range (2 * n + 1)).any fun k => line (reflectIdx len ((p : Int) - n + k))

/-- One step of the box loop, `saturation.py:316-321`:
`dilated[n:-n, n:-n] |= only_sat[i:i2, j:j2]`, so the target `(r, c)` reads the source `(r - n + i, c - n + j)`. -/
def boxStep (nrows ncols n : Nat) (only : Img Bool) (d : Img Bool) (ij : Nat × Nat) : Img Bool := fun r c =>
  d r c || (decide (n ≤ r) && decide (r + n < nrows) && decide (n ≤ c) && decide (c + n < ncols) &&
    only (r - n + ij.1) (c - n + ij.2))

/-- One step of the edge loop, `saturation.py:328-331`: row `i`, column `i`, row `-i-1`, column `-i-1` are ORed with the
filtered row `j`, column `j`, row `-j-1`, column `-j-1`. -/
def edgeStep (nrows ncols n : Nat) (only : Img Bool) (d : Img Bool) (ij : Nat × Nat) : Img Bool := fun r c =>
  d r c || (decide (r = ij.1) && maxFilter ncols n (fun c' => only ij.2 c') c)
    || (decide (c = ij.1) && maxFilter nrows n (fun r' => only r' ij.2) r)
    || (decide (r + ij.1 + 1 = nrows) && maxFilter ncols n (fun c' => only (nrows - ij.2 - 1) c') c)
    || (decide (c + ij.1 + 1 = ncols) && maxFilter nrows n (fun r' => only r' (ncols - ij.2 - 1)) r)

/-- The index pairs of the box loop, `saturation.py:311-312`. -/
def boxPairs (n : Nat) : List (Nat × Nat) :=
  (List.range (2 * n + 1)).flatMap fun i => (List.range (2 * n + 1)).map fun j => (i, j)

/-- The index pairs of the edge loop, `saturation.py:323-324` (both indices run downwards). -/
def edgePairs (n : Nat) : List (Nat × Nat) :=
  (List.range n).reverse.flatMap fun i => (List.range (i + n + 1)).reverse.map fun j => (i, j)

/-- The array `dilated`, `saturation.py:298-331`. -/
def dilated (nrows ncols n : Nat) (only : Img Bool) : Img Bool :=
  (edgePairs n).foldl (edgeStep nrows ncols n only) ((boxPairs n).foldl (boxStep nrows ncols n only) only)

/-- The exceptions of `_adjacent_pixels`.  The edge loop reads row `j` and column `j` up to `j = 2n-1`
(`saturation.py:323-331`), which is an `IndexError` when the image has fewer rows or columns (for some shapes the
slices at line 321 fail to broadcast before, a `ValueError`); either way an exception is raised. -/
def adjacentRaises (nrows ncols n : Nat) : Bool := decide (0 < n) && (decide (nrows < 2 * n) || decide (ncols < 2 * n))

/-- `_adjacent_pixels`, `saturation.py:268-338`, when no exception is raised: `cgdq[dilated] |= saturated`. -/
def adjacentPixels (nrows ncols n : Nat) (flag : Nat) (gdq : Img Nat) : Img Nat := fun r c =>
  if dilated nrows ncols n (fun r c => decide (Has (gdq r c) flag)) r c then gdq r c ||| flag else gdq r c

/-- `_adjacent_pixels` with its exception (`none`) (saturation.py:268-338). -/
def adjacentPixels? (nrows ncols n : Nat) (flag : Nat) (gdq : Img Nat) : Option (Img Nat) :=
  if adjacentRaises nrows ncols n then none else some (adjacentPixels nrows ncols n flag gdq)

/-! ## `flag_saturated_pixels` -/

section
variable {α : Type*} [Field α] [LinearOrder α]

/-- Parameters shared by all integrations (`saturation.py:12-113`).  Thresholds, reference DQ and bias are the 2-D variants; the 4-D
ones are in `Verif.Model.Saturation4`. -/
structure Params (α : Type*) where
  nrows : Nat
  ncols : Nat
  ngroups : Nat
  flags : Flags
  /-- `sat_thresh`, `none` is NaN -/
  satThresh : Img (Option α)
  satDq : Img Nat
  atodLimit : α
  nGrow : Nat
  readPattern : Option (List (List α))
  bias : Img α

/-- `no_sat_check_mask`, `saturation.py:98,103`. -/
def Params.noCheck (p : Params α) (r c : Nat) : Bool :=
  decide (p.satDq r c &&& p.flags.noSatCheck = p.flags.noSatCheck) || (p.satThresh r c).isNone

/-- `sat_dq` after `saturation.py:102`. -/
def Params.satDq' (p : Params α) (r c : Nat) : Nat :=
  if (p.satThresh r c).isNone then p.satDq r c ||| p.flags.noSatCheck else p.satDq r c

/-- `sat_thresh` after `saturation.py:108`. -/
def Params.thresh (p : Params α) (r c : Nat) : α :=
  if p.noCheck r c then p.atodLimit + 1 else (p.satThresh r c).getD 0

/-- Optional growth, `saturation.py:148-150` and `200-201`. -/
def Params.grow (p : Params α) (flag : Nat) (g : Img Nat) : Img Nat :=
  if p.nGrow > 0 then adjacentPixels p.nrows p.ncols p.nGrow flag g else g

/-- Replace group `g` of a cube (saturation.py:12-265). -/
def setGroup {β : Type*} (q : Nat → Img β) (g : Nat) (v : Img β) : Nat → Img β := fun g' => if g' = g then v else q g'

/-- The body of the forward loop for group `g`, `saturation.py:123-150`; `st.1` is `previously_saturated`. -/
def forwardStep (p : Params α) (data : Nat → Img (Option α)) (g : Nat) (st : Img Bool × (Nat → Img Nat)) :
    Img Bool × (Nat → Img Nat) :=
  let prev : Img Bool := fun r c => st.1 r c || fge (data g r c) (p.thresh r c)
  let q1 : Img Nat := fun r c => st.2 g r c ||| (if prev r c then p.flags.sat else 0)
  let q2 : Img Nat := fun r c => q1 r c ||| (if fle0 (data g r c) then p.flags.adFloor ||| p.flags.dnu else 0)
  (prev, setGroup st.2 g (p.grow p.flags.sat q2))

/-- The forward loop over the first `k` groups, `saturation.py:120-150`. -/
def forward (p : Params α) (data : Nat → Img (Option α)) (gdq : Nat → Img Nat) : Nat → Img Bool × (Nat → Img Nat)
  | 0 => (fun _ _ => false, gdq)
  | k + 1 => forwardStep p data k (forward p data gdq k)

/-- `np.mean(l)` (`saturation.py:170,225`). -/
def mean (l : List α) : α := l.sum / l.length

/-- `dilution_factor` of a group before broadcasting, `saturation.py:170`.  Simplification: a last read at time 0 would make it
NaN; here a division by zero is 0.  Read times and indices are positive in practice. -/
def dilution (rp : List (List α)) (g : Nat) : α := mean (rp.getD g []) / (rp.getD g []).getLastD 0

/-- `partial_sat`, `saturation.py:174,191-195`. -/
def partialSat (p : Params α) (dil : α) (plane : Img (Option α)) (thisdq nextdq : Img Nat) (r c : Nat) : Bool :=
  fge (plane r c) (p.thresh r c * (if p.noCheck r c then 1 else dil)) &&
    decide (¬ Has (thisdq r c) (p.flags.sat ||| p.flags.dnu)) && decide (Has (nextdq r c) p.flags.sat)

/-- The body of the backward loop for group `g`, `saturation.py:157-204`. -/
def backwardStep (p : Params α) (rp : List (List α)) (data : Nat → Img (Option α)) (g : Nat) (q : Nat → Img Nat) :
    Nat → Img Nat :=
  let dil := dilution rp g
  if dil = 1 then q
  else
    let flagarray : Img Nat := fun r c => if partialSat p dil (data g) (q g) (q (g + 1)) r c then p.flags.dnu else 0
    let flagarray := p.grow p.flags.dnu flagarray
    setGroup q g (fun r c => q g r c ||| flagarray r c)

/-- The backward loop over groups `k-1, …, 0`, `saturation.py:156`. -/
def backward (p : Params α) (rp : List (List α)) (data : Nat → Img (Option α)) : Nat → (Nat → Img Nat) → (Nat → Img Nat)
  | 0, q => q
  | k + 1, q => backward p rp data k (backwardStep p rp data k q)

/-- `mask` of the second-group pass, `saturation.py:219-236`; comparisons with NaN are false. -/
def group2Mask (p : Params α) (rp : List (List α)) (data : Nat → Img (Option α)) (q : Nat → Img Nat) (r c : Nat) : Bool :=
  match data 0 r c, data 1 r c with
  | some d0, some d1 =>
    decide ((d0 - p.bias r c) / mean (rp.getD 0 []) * (rp.getD 2 []).getLastD 0 + p.bias r c < p.thresh r c) &&
      decide ((p.thresh r c - d0) / (rp.getD 1 []).length < d1 - d0) &&
      (decide (Has (q 2 r c) p.flags.sat) && decide (¬ Has (q 1 r c) p.flags.sat))
  | _, _ => false

/-- The second-group pass, `saturation.py:208-242`. -/
def group2 (p : Params α) (rp : List (List α)) (data : Nat → Img (Option α)) (q : Nat → Img Nat) : Nat → Img Nat :=
  if p.ngroups > 2 then
    setGroup q 1 (fun r c => q 1 r c ||| (if group2Mask p rp data q r c then p.flags.dnu else 0))
  else q

/-- All passes over one integration, `saturation.py:114-242`.  Without a read pattern the backward loop only
`continue`s (line 177). -/
def flagIntegration (p : Params α) (data : Nat → Img (Option α)) (gdq : Nat → Img Nat) : Nat → Img Nat :=
  let q := (forward p data gdq p.ngroups).2
  match p.readPattern with
  | none => q
  | some rp => group2 p rp data (backward p rp data (p.ngroups - 1) q)

/-- The loop over integrations, `saturation.py:114`: integration `i` of the cube is replaced in turn. -/
def flagAll (p : Params α) (data : Nat → Nat → Img (Option α)) (gdq : Nat → Nat → Img Nat) : Nat → Nat → Nat → Img Nat
  | 0 => gdq
  | k + 1 =>
    let q := flagAll p data gdq k
    fun i => if i = k then flagIntegration p (data k) (q k) else q i

/-- `pdq`, `saturation.py:263`. -/
def pixelDq (p : Params α) (pdq : Img Nat) : Img Nat := fun r c => pdq r c ||| p.satDq' r c

/-- `_plane_saturation` and the zero-frame block, `saturation.py:341-379` and `245-256`. -/
def zeroFrame (p : Params α) (z : Img (Option α)) : Img (Option α) :=
  let zdq : Img Nat := fun r c => (if fge (z r c) (p.thresh r c) then p.flags.sat else 0) |||
    (if fle0 (z r c) then p.flags.adFloor ||| p.flags.dnu else 0)
  let zdq := p.grow p.flags.sat zdq
  fun r c => if zdq r c ≠ 0 then some 0 else z r c

/-- `flag_saturated_pixels`, `saturation.py:91-265`, with the exception of the growth step (`none`).  The growth step is
reached when there is at least one group. -/
def flagSaturatedPixels (p : Params α) (nints : Nat) (data : Nat → Nat → Img (Option α)) (gdq : Nat → Nat → Img Nat)
    (pdq : Img Nat) (z : Option (Nat → Img (Option α))) :
    Option ((Nat → Nat → Img Nat) × Img Nat × Option (Nat → Img (Option α))) :=
  if 0 < nints ∧ (0 < p.ngroups ∨ z.isSome) ∧ adjacentRaises p.nrows p.ncols p.nGrow then none
  else some (flagAll p data gdq nints, pixelDq p pdq, z.map fun zf i => if i < nints then zeroFrame p (zf i) else zf i)

end
end Verif.Saturation
