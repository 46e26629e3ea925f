import Verif.Model.Chargeloss
import Verif.Model.RampDq
import Verif.Model.Slicing

/-!
# The ramp-fitting driver

Model of `ramp_fitting/ramp_fit.py` (`ramp_fit`, `create_ramp_fit_class`, `ramp_fit_data`) and of
`ramp_fitting/ols_fit.py:ols_ramp_fit_multi` down to the fit of each pixel (`Verif.Ols.fitPixel`,
`Verif.Ols.fitPixelOrig`), and of the byte-order handling around the C extension.  An exposure is the list of its
detector rows, a row the list of its pixels.  The likelihood fit is a parameter here.
-/

namespace Verif.RampFit

open Verif.Dq Verif.Ols Verif.RampDq

/-- A pixel as handed to `ramp_fit`: gain (`none`: NaN), read noise, dark current, pixel DQ and per integration the
samples, the group DQ and the zero-frame value (`none`: no zero frame in the exposure) (ramp_fit.py:33-114). -/
structure RPix (α : Type*) where
  gain : Option α
  rnoise : α
  dark : α
  pixeldq : Nat
  ints : List (List (Option α) × List Nat × Option (Option α))

/-- What the fit of one pixel needs after the driver's preparation: the C extension's pixel and the unmodified group
DQ, if it is handed on (slope_fitter.c:337-377). -/
structure Job (α : Type*) where
  pix : PixIn α
  orig : Option (List (List Nat))

section Arith
variable {α : Type*} [Field α] [LinearOrder α]

/-- `algorithm.upper()` (ramp_fit.py:71, 250, 259).  Simplification: ASCII letters. -/
def upper (s : List Char) : List Char := s.map Char.toUpper

/-- `LIKELY_MIN_NGROUPS` (likely_fit.py:13). -/
def likelyMin : Nat := 4

/-- The algorithm `ramp_fit_data` runs (ramp_fit.py:249-275): `true` is the likelihood fit. -/
def usesLikely (algorithm : List Char) (ngroups : Nat) : Bool :=
  let algorithm := if upper algorithm = "LIKELY".toList ∧ ngroups < likelyMin then "OLS_C".toList else algorithm
  decide (upper algorithm = "LIKELY".toList) && decide (likelyMin ≤ ngroups)

/-- Whether `create_ramp_fit_class` keeps a copy of the group DQ (ramp_fit.py:70-75). -/
def keepsOrig (fl : Flags) (algorithm : List Char) (rows : List (List (RPix α))) : Bool :=
  decide (upper algorithm = "OLS_C".toList)
    && rows.any fun row => row.any fun p => p.ints.any fun e => e.2.1.any fun d => hasB d fl.chargeloss

/-- `readnoise_2d *= gain_2d / np.sqrt(2.0 * nframes)` at one pixel (ramp_fit.py:266).  With a NaN gain the value is
NaN and the pixel unusable; the number used here for it does not matter. -/
def scaledNoise (sqrt : α → α) (nframes : Nat) (p : RPix α) : α := p.rnoise * (p.gain.getD 0 / sqrt (2 * (nframes : α)))

/-- The pixel handed to the C extension: scaled read noise, and group DQ changed by the suppression of one-group
ramps (ramp_fit.py:266-270; `suppressOne`).  The original group DQ was copied before (ramp_fit.py:74). -/
def prepare (fl : Flags) (sqrt : α → α) (nframes : Nat) (suppress keep : Bool) (p : RPix α) : Job α :=
  { pix :=
      { gainBad := match p.gain with
          | none => true
          | some g => decide (g ≤ 0)
        px := ⟨p.gain.getD 0, scaledNoise sqrt nframes p, p.dark⟩
        pixeldq := p.pixeldq
        ints := p.ints.map fun e => (e.1, if suppress then suppressOne fl.dnu fl.pers e.2.1 else e.2.1, e.2.2) }
    orig := if keep then some (p.ints.map fun e => e.2.1) else none }

/-- The groups of the exposure, each the words of all pixels and integrations (`groupdq[:, g, :, :]`)
(ols_fit.py:693-712). -/
def planes (ngroups : Nat) (rows : List (List (Job α))) : List (List Nat) :=
  (List.range ngroups).map fun g => rows.flatten.flatMap fun j => j.pix.ints.map fun e => e.2.1.getD g 0

/-- `discard_miri_groups` (ols_fit.py:670-760) as the list of the groups that are kept; `none` is `False`. -/
def keptGroups (fl : Flags) (ngroups : Nat) (rows : List (List (Job α))) : Option (List Nat) :=
  (discardGroups fl.dnu fl.jump (List.range ngroups) (planes ngroups rows) none).map fun r => r.1

/-- Selection of groups (ols_fit.py:721-746). -/
def select {β : Type*} (kept : List Nat) (l : List β) : List β := kept.filterMap fun (k : Nat) => l[k]?

/-- Ramp words after discarding: JUMP_DET is subtracted in the first kept group if a group before it was dropped
(ols_fit.py:712-719). -/
def stripDq (fl : Flags) (kept : List Nat) (g : List Nat) : List Nat :=
  if kept.head? = some 0 then select kept g
  else match select kept g with
    | [] => []
    | d :: t => (if isSet d fl.jump then d - fl.jump else d) :: t

/-- The discarding at one pixel (ols_fit.py:721-746, 755-758). -/
def stripJob (fl : Flags) (kept : List Nat) (j : Job α) : Job α :=
  { pix := { j.pix with ints := j.pix.ints.map fun e => (select kept e.1, stripDq fl kept e.2.1, e.2.2) }
    orig := j.orig.map fun o => o.map (select kept) }

/-- `np.all(np.bitwise_and(first_gdq, SATURATED))` (ols_fit.py:84-87). -/
def allFirstSat (fl : Flags) (rows : List (List (Job α))) : Bool :=
  rows.all fun row => row.all fun j => j.pix.ints.all fun e => hasB (e.2.1.getD 0 0) fl.sat

/-- One pixel in the C extension (slope_fitter.c:2553-2593): with the charge-loss step if the original group DQ is
there. -/
def fitJob (fl : Flags) (cfg : Cfg α) (ngroups : Nat) (suppress : Bool) (j : Job α) : List (Rate α) × Rate α :=
  match j.orig with
  | none => fitPixel fl { cfg with suppress1g := suppress } ngroups j.pix
  | some o => fitPixelOrig fl { cfg with suppress1g := suppress } ngroups j.pix o

/-- The result of one pixel: rateints and rate (ols_fit.py:64-105). -/
abbrev PixOut (α : Type*) := List (Rate α) × Rate α

/-- `ols_ramp_fit_multi` from the check for saturation on (ols_fit.py:84-105).  `ncpu` is `cpu_count()`. -/
def olsFitRows (fl : Flags) (cfg : Cfg α) (ngroups : Nat) (suppress : Bool) (slices : Nat)
    (rows : List (List (Job α))) : Option (List (List (PixOut α))) :=
  if allFirstSat fl rows then none
  else
    let fitRow : Bool → List (Job α) → Option (List (PixOut α)) := fun s row => some (row.map (fitJob fl cfg ngroups s))
    if slices = 1 then Slicing.fitSingle fitRow ⟨rows, suppress⟩
    else Slicing.fitMulti [] fitRow ⟨rows, suppress⟩ slices

/-- `ols_ramp_fit_multi` (ols_fit.py:64-105). -/
def olsMulti (fl : Flags) (cfg : Cfg α) (miri : Bool) (ngroups : Nat) (suppress : Bool) (maxCores : List Char)
    (ncpu : Nat) (rows : List (List (Job α))) : Option (List (List (PixOut α))) :=
  let slices := Slicing.computeNumCores maxCores rows.length ncpu
  if miri && decide (1 < ngroups) then
    match keptGroups fl ngroups rows with
    | none => none
    | some kept => olsFitRows fl cfg kept.length suppress slices (rows.map fun row => row.map (stripJob fl kept))
  else olsFitRows fl cfg ngroups suppress slices rows

/-- Outcome of `ramp_fit` (ramp_fit.py:249-277). -/
inductive Outcome (γ α : Type*) where
  | likely (r : γ)
  | ols (r : Option (List (List (PixOut α))))

/-- `ramp_fit` (ramp_fit.py:117-196, 199-277): the outcome, and the caller's read-noise array on return.  `lik` is
`likely_ramp_fit`. -/
def rampFit {γ : Type*} (fl : Flags) (cfg : Cfg α) (lik : List (List (RPix α)) → γ) (miri : Bool) (nframes ngroups : Nat)
    (algorithm : List Char) (suppress : Bool) (maxCores : List Char) (ncpu : Nat) (rows : List (List (RPix α))) :
    Outcome γ α × List (List α) :=
  let suppress := if suppress && decide (ngroups = 1) then false else suppress
  let keep := keepsOrig fl algorithm rows
  if usesLikely algorithm ngroups then (.likely (lik rows), rows.map fun row => row.map fun p => p.rnoise)
  else
    (.ols (olsMulti fl cfg miri ngroups suppress maxCores ncpu
        (rows.map fun row => row.map (prepare fl cfg.sqrt nframes suppress keep))),
      rows.map fun row => row.map (scaledNoise cfg.sqrt nframes))

/-- Number of groups in which the `while` loop of `discard_miri_groups` subtracts JUMP_DET (ols_fit.py:700-719): the rounds
that get beyond the check for remaining groups (705-708).  The groups are views of the caller's array. -/
def clearedGroups (dnu jump : Nat) : List (List Nat) → Nat
  | [] => 0
  | g :: rest =>
    if allDnu dnu g then
      match rest with
      | [] => 0
      | g' :: rest' => clearedGroups dnu jump (clearJump jump g' :: rest') + 1
    else 0
termination_by gs => gs.length

/-- The words of a ramp with JUMP_DET subtracted in the groups `1 … k` (ols_fit.py:715-719). -/
def subtractJump (jump k : Nat) (g : List Nat) : List Nat :=
  g.mapIdx fun i d => if 1 ≤ i ∧ i ≤ k ∧ isSet d jump = true then d - jump else d

/-- The exposure with its group DQ as `ramp_fit` leaves it when least squares are used.  `ramp_data.groupdq` is the array
of the caller (ramp_fit.py:77-84): suppression sets flags in it (ramp_fit.py:270, 280-312), and so does the discarding
of MIRI groups (ols_fit.py:76-82, 715-719), whether or not it succeeds.  The C extension works on copies
(slope_fitter.c:1874). -/
def dqAfter (fl : Flags) (miri : Bool) (ngroups : Nat) (suppress : Bool) (rows : List (List (RPix α))) :
    List (List (RPix α)) :=
  let suppress := if suppress && decide (ngroups = 1) then false else suppress
  let rows1 : List (List (RPix α)) := rows.map fun row => row.map fun p =>
    { p with ints := p.ints.map fun e => (e.1, if suppress then suppressOne fl.dnu fl.pers e.2.1 else e.2.1, e.2.2) }
  let k := if miri && decide (1 < ngroups) then
      clearedGroups fl.dnu fl.jump
        ((List.range ngroups).map fun g => rows1.flatten.flatMap fun p => p.ints.map fun e => e.2.1.getD g 0)
    else 0
  rows1.map fun row => row.map fun p =>
    { p with ints := p.ints.map fun e => (e.1, subtractJump fl.jump k e.2.1, e.2.2) }

end Arith

/-! ## Byte order -/

/-- A numpy array of multi-byte items: the byte order of its dtype and its memory, one byte list per item.  Items of
one byte have no byte order; they are covered by `swapItem` being the identity on them (ols_fit.py:593-619). -/
structure Arr where
  big : Bool
  mem : List (List UInt8)
deriving DecidableEq

/-- The items as python sees them, least significant byte first (numpy, as assumed in ols_fit.py:626-630). -/
def Arr.value (a : Arr) : List (List UInt8) := if a.big then a.mem.map List.reverse else a.mem

/-- The items as the C extension reads them on a machine of the given byte order (`PyArray_GETPTR`; the dtype's byte
order is ignored) (as stated in ols_fit.py:629-630). -/
def Arr.native (sysBig : Bool) (a : Arr) : List (List UInt8) := if sysBig then a.mem.map List.reverse else a.mem

/-- `arr.view(arr.dtype.newbyteorder("S")).byteswap(inplace=True)`: the memory is swapped, the dtype of `arr` is
not (ols_fit.py:583, 585, 616). -/
def Arr.swapMem (a : Arr) : Arr := { a with mem := a.mem.map List.reverse }

/-- `handle_array_endianness` (ols_fit.py:613-619). -/
def handleEndian (sysBig : Bool) (a : Arr) : Arr × Bool := if a.big ≠ sysBig then (a.swapMem, true) else (a, false)

/-- The arrays of `endianness_handler` (ols_fit.py:654-667), and the zero frame, which the C extension reads in the same way
(slope_fitter.c:1832, 2086, 2274) but which is not among them.  `groupdq` has items of one byte. -/
structure Arrays where
  gain : Arr
  rnoise : Arr
  data : Arr
  dark : Arr
  pixeldq : Arr
  zeroframe : Option Arr
deriving DecidableEq

/-- `ols_ramp_fit_single` as far as the arrays are concerned (ols_fit.py:566-585): what the C extension reads, and the
caller's arrays on return. -/
def fitArrays (sysBig : Bool) (a : Arrays) : Arrays × Arrays :=
  let g := handleEndian sysBig a.gain
  let r := handleEndian sysBig a.rnoise
  let inside : Arrays :=
    ⟨g.1, r.1, (handleEndian sysBig a.data).1, (handleEndian sysBig a.dark).1, (handleEndian sysBig a.pixeldq).1,
      a.zeroframe⟩
  (inside,
    { inside with
      rnoise := if r.2 then r.1.swapMem else r.1
      gain := if g.2 then g.1.swapMem else g.1 })

end Verif.RampFit
