import Verif.Model.Snowball
import Mathlib.Algebra.BigOperators.Group.Finset.Basic
import Mathlib.Data.Int.Interval

/-!
# Detection of showers (`src/stcal/jump/jump.py`)

Model of the part of `find_faint_extended` before the flagging, and of its helpers.  `sqrt`, the sigma-clipped statistics of
astropy and the search for connected regions (`_sk_filter_areas`) are parameters.  Numbers that are not finite are `none`.
The convolution by Fourier transform (scipy's `oaconvolve`) is taken to be the exact sum.
-/

namespace Verif.Shower

open Verif.Jump (Img nanmedian)
open Verif.Snowball (Ellipse Env Cube4 nanInvalid maskRef findFaintExtended)

variable {α : Type} [Field α] [LinearOrder α]

/-- The parameters of the detection (fields of `JumpData`, jump_class.py:32, 175-207); `half` is half the width of the kernel
of jump.py:841, `kernel` its values by the offset from the centre. -/
structure Det (α : Type) where
  threshold : α
  minSigclip : Nat
  nframes : Nat
  half : Nat
  kernel : Int → Int → α
  sqrt : α → α
  /-- median and standard deviation after clipping, of the values of one difference over the integrations -/
  clip : List (Option α) → Option α × Option α
  /-- regions with at least the minimum area -/
  findBig : Img Bool → List (Ellipse α)

/-- `count_dnu_groups` (jump.py:944-967). -/
def countDnu (dnu nints ngrps nrows ncols : Nat) (gdq : Cube4) : Nat :=
  ((List.range nints).map fun i => ((List.range ngrps).filter fun g =>
    (List.range nrows).all fun r => (List.range ncols).all fun c => decide (gdq i g r c &&& dnu ≠ 0)).length).sum

/-- `find_first_good_group` (jump.py:1229-1256). -/
def firstGood (dnu ngrps nrows ncols : Nat) (gdq : Nat → Img Nat) : Nat :=
  ((List.range ngrps).find? fun g =>
    !((List.range nrows).all fun r => (List.range ncols).all fun c => decide (gdq g r c &&& dnu ≠ 0))).getD 0

/-- The difference of group `g + 1` and group `g` of the data left by `nan_invalid_data` (jump.py:816, 820). -/
def firstDiff (e : Env α) (data : Nat → Nat → Nat → Nat → Option α) (gdq : Cube4) (i g r c : Nat) : Option α :=
  match nanInvalid e (gdq i g r c) (data i g r c), nanInvalid e (gdq i (g + 1) r c) (data i (g + 1) r c) with
  | some a, some b => some (b - a)
  | _, _ => none

/-- One element of `diff_meddiff_int` with `sigma` (jump.py:832-833, 1152-1155); `rn` is the read noise.  If `nframes` is zero,
`sigma` is infinite (NaN for a read noise of zero). -/
def ratioInt (d : Det α) (rn med x : Option α) : Option α :=
  match rn, med, x with
  | some rn, some m, some x =>
    if d.nframes = 0 then (if rn = 0 then none else some 0)
    else
      let s := d.sqrt (|m| + rn ^ 2 / (d.nframes : α))
      if s = 0 then none else some (|x - m| / s)
  | _, _, _ => none

/-- One element of `diff_meddiff_grp` (jump.py:1186-1193). -/
def ratioGrp (s : Option α × Option α) (x : Option α) : Option α :=
  match s.1, s.2, x with
  | some m, some s, some x => if s = 0 then none else some (|x - m| / s)
  | _, _, _ => none

/-- The plane `ratio[grp - 1]` of integration `i` (jump.py:829-845, 1045). -/
def ratio (e : Env α) (d : Det α) (nints ngrps : Nat) (data : Nat → Nat → Nat → Nat → Option α) (rn : Img (Option α))
    (gdq : Cube4) (i grp : Nat) : Img (Option α) := fun r c =>
  if d.minSigclip ≤ nints then
    ratioGrp (d.clip ((List.range nints).map fun j => firstDiff e data gdq j (grp - 1) r c))
      (firstDiff e data gdq i (grp - 1) r c)
  else
    ratioInt d (rn r c) (nanmedian ((List.range nints).flatMap fun j => (List.range (ngrps - 1)).map fun g =>
      firstDiff e data gdq j g r c)) (firstDiff e data gdq i (grp - 1) r c)

/-- Masking in `get_bigellipses` (jump.py:1051-1054). -/
def masked (e : Env α) (gdq pdq : Img Nat) (x : Img (Option α)) : Img (Option α) := fun r c =>
  if (gdq r c ||| pdq r c) &&& (e.jump ||| e.sat ||| e.dnu) ≠ 0 then none else x r c

/-- Sum over the kernel of `k u v * f (r - u) (c - v)`, the value of a convolution at one pixel (jump.py:1107, 1115). -/
def conv (half : Nat) (k : Int → Int → α) (f : Int → Int → α) (r c : Int) : α :=
  ∑ u ∈ Finset.Icc (-(half : Int)) half, ∑ v ∈ Finset.Icc (-(half : Int)) half, k u v * f (r - u) (c - v)

/-- Is the position in the image (jump.py:1107, 1112-1114)? -/
def inside (nrows ncols : Nat) (r c : Int) : Bool := decide (0 ≤ r ∧ r < nrows ∧ 0 ≤ c ∧ c < ncols)

/-- `convolve_fast` (jump.py:1069-1126) for a square kernel of odd width at least 3 (width 1
raises in line 1114; line 1113 takes the kernel to be square). -/
def convolveFast (nrows ncols half : Nat) (k : Int → Int → α) (x : Img (Option α)) : Img (Option α) := fun r c =>
  let value := fun i j : Int => if inside nrows ncols i j then (x i.toNat j.toNat).getD 0 else 0
  let good := fun i j : Int => if inside nrows ncols i j then (if (x i.toNat j.toNat).isSome then (1 : α) else 0) else 1
  let norm := conv half k good r c
  let mean := (conv half k (fun _ _ => 1) 0 0) / ((2 * half + 1) * (2 * half + 1) : Nat)
  if (x r c).isSome ∧ norm > 1 / 1000 * mean then some (conv half k value r c / norm) else none

/-- `extended_emission` of `get_bigellipses` (jump.py:1045-1063). -/
def emission (e : Env α) (d : Det α) (nrows ncols : Nat) (gdq pdq : Img Nat) (x : Img (Option α)) : Img Bool := fun r c =>
  if r < nrows ∧ c < ncols then
    match convolveFast nrows ncols d.half d.kernel (masked e gdq pdq x) r c with
    | some y => decide (y > d.threshold)
    | none => false
  else false

/-- The showers found (jump.py:835-851), with the reference pixels marked unusable (818-819). -/
def showers (e : Env α) (d : Det α) (nints ngrps nrows ncols : Nat) (data : Nat → Nat → Nat → Nat → Option α)
    (rn : Img (Option α)) (pdq : Img Nat) (ingdq : Cube4) : List (Nat × Nat × List (Ellipse α)) :=
  let gdq := maskRef e pdq ingdq
  (List.range nints).flatMap fun i =>
    let first := firstGood e.dnu ngrps nrows ncols (gdq i)
    ((List.range' (first + 1) (ngrps - (first + 1))).map fun g =>
      (i, g, d.findBig (emission e d nrows ncols (gdq i g) pdq (ratio e d nints ngrps data rn ingdq i g)))).filter
        fun s => decide (0 < s.2.2.length)

/-- `find_faint_extended` (jump.py:779-876). -/
def findFaint (e : Env α) (d : Det α) (nints ngrps nrows ncols minDiffs num : Nat) (expansion : α)
    (data : Nat → Nat → Nat → Nat → Option α) (rn : Img (Option α)) (pdq : Img Nat) (ingdq : Cube4) : Cube4 :=
  findFaintExtended e nints ngrps nrows ncols minDiffs (countDnu e.dnu nints ngrps nrows ncols ingdq) num expansion
    (showers e d nints ngrps nrows ncols data rn pdq ingdq) data pdq ingdq

end Verif.Shower
