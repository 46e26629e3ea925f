import Verif.Model.Dq
import Verif.Model.Jump
import Mathlib.Algebra.Order.Field.Basic
import Mathlib.Algebra.BigOperators.Group.Finset.Basic

/-!
# Likelihood ramp fitting

Model of `ramp_fitting/likely_fit.py` and `ramp_fitting/likely_algo_classes.py` for one pixel.  Columns of arrays are
functions of the index, with the number `n` of group differences beside them.  Floats are an ordered field; `sqrt` and
the fractional power in the rescaling loop are parameters.  The snowball expansion inside `likely_ramp_fit` (133-142)
is not modelled here.
-/

namespace Verif.Likely

open Finset

variable {α : Type} [Field α] [LinearOrder α]

/-! ## Covariance of the read pattern -/

/-- `Covar._compute_means_and_taus`, mean time (likely_algo_classes.py:201). -/
def meanT (times : List α) : α := times.sum / (times.length : α)

/-- `Covar._compute_means_and_taus`, `tau` (likely_algo_classes.py:203-213); `k` counts from zero here. -/
def tauT (times : List α) : α :=
  (∑ k ∈ range times.length, (2 * (times.length : α) + 1 - 2 * ((k : α) + 1)) * times.getD k 0)
    / ((times.length : α) * (times.length : α))

/-- The arrays of `Covar` (likely_algo_classes.py:151-246): `delta_t`, and the photon and read noise parts of the
diagonal and off-diagonal. -/
structure Covar (α : Type) where
  delta : Nat → α
  alphaR : Nat → α
  betaR : Nat → α
  alphaP : Nat → α
  betaP : Nat → α
  nreads : Nat → Nat

/-- `Covar.__init__` with `_compute_alphas_and_betas` (likely_algo_classes.py:159-246) for resultants with the given
read times. -/
def covar (times : Nat → List α) : Covar α :=
  let mt := fun i => meanT (times i)
  let ta := fun i => tauT (times i)
  let nr := fun i => (((times i).length : Nat) : α)
  let dt := fun i => mt (i + 1) - mt i
  { delta := dt
    alphaR := fun i => (1 / nr i + 1 / nr (i + 1)) / (dt i * dt i)
    betaR := fun i => -1 / (nr (i + 1) * dt (i + 1) * dt i)
    alphaP := fun i => (ta i + ta (i + 1) - 2 * mt i) / (dt i * dt i)
    betaP := fun i => (mt (i + 1) - ta (i + 1)) / (dt (i + 1) * dt i)
    nreads := fun i => (times i).length }

/-! ## Determinant recursions -/

/-- `compute_thetas` (likely_fit.py:876-904). -/
def theta (a b : Nat → α) : Nat → α
  | 0 => 1
  | 1 => a 0
  | i + 2 => a (i + 1) * theta a b (i + 1) - b i * b i * theta a b i

/-- `phi[n - k]` of `compute_phis` (likely_fit.py:932-934). -/
def phiR (n : Nat) (a b : Nat → α) : Nat → α
  | 0 => 1
  | 1 => a (n - 1)
  | k + 2 => a (n - (k + 2)) * phiR n a b (k + 1) - b (n - (k + 2)) * b (n - (k + 2)) * phiR n a b k

/-- `compute_phis` (likely_fit.py:907-935). -/
def phi (n : Nat) (a b : Nat → α) (i : Nat) : α := phiR n a b (n - i)

/-- `sgn` (likely_fit.py:595-596). -/
def sgn (i : Nat) : α := if i % 2 = 0 then -1 else 1

/-- `Phi[n - 1 - k]` of `compute_Phis` (likely_fit.py:967). -/
def bigPhiR (n : Nat) (b ph : Nat → α) : Nat → α
  | 0 => 0
  | k + 1 => bigPhiR n b ph k * b (n - (k + 2)) + sgn (n - (k + 2) + 1) * b (n - (k + 2)) * ph (n - (k + 2) + 2)

/-- `compute_Phis` (likely_fit.py:938-968). -/
def bigPhi (n : Nat) (b ph : Nat → α) (i : Nat) : α := bigPhiR n b ph (n - 1 - i)

/-- `PhiD[n - 1 - k]` of `compute_PhiDs` (likely_fit.py:1004). -/
def bigPhiDR (n : Nat) (b ph d : Nat → α) : Nat → α
  | 0 => 0
  | k + 1 => (bigPhiDR n b ph d k + sgn (n - (k + 2) + 1) * d (n - (k + 2) + 1) * ph (n - (k + 2) + 2)) * b (n - (k + 2))

/-- `compute_PhiDs` (likely_fit.py:971-1005). -/
def bigPhiD (n : Nat) (b ph d : Nat → α) (i : Nat) : α := bigPhiDR n b ph d (n - 1 - i)

/-- `compute_Thetas` (likely_fit.py:1008-1037). -/
def bigTheta (b th : Nat → α) : Nat → α
  | 0 => -th 0
  | i + 1 => bigTheta b th i * b i + sgn (i + 1) * th (i + 1)

/-- `compute_ThetaDs` (likely_fit.py:1040-1072). -/
def bigThetaD (b th d : Nat → α) : Nat → α
  | 0 => 0
  | 1 => -d 0 * th 0
  | i + 2 => b i * bigThetaD b th d (i + 1) + sgn (i + 1) * d (i + 1) * th (i + 1)

/-- The quantities of `matrix_computations` (likely_fit.py:1141-1155). -/
structure Mat (α : Type) where
  dB : Nat → α
  dC : Nat → α
  A : α
  B : α
  C : α

/-- `matrix_computations` (likely_fit.py:1075-1155) with the calls before it (592-601), from the diagonal `a`, the
already masked off-diagonal `b`, the masked differences `d` and the mask `u`. -/
def matrix (n : Nat) (a b d u : Nat → α) : Mat α :=
  let th := theta a b
  let ph := phi n a b
  let bp := bigPhi n b ph
  let bpd := bigPhiD n b ph d
  let bt := bigTheta b th
  let btd := bigThetaD b th d
  let bext := fun i => if i = 0 then 1 else b (i - 1)
  let dC := fun i => sgn i / th n * (ph (i + 1) * bt i + th i * bp i) * u i
  let dB := fun i => sgn i / th n * (ph (i + 1) * btd (i + 1) + th i * bpd i)
  { dB := dB
    dC := dC
    A := 2 * (∑ i ∈ range n, d i * sgn i / th n * bext i * ph (i + 1) * btd i)
      + ∑ i ∈ range n, d i * d i * th i * ph (i + 1) / th n
    B := ∑ i ∈ range n, d i * dC i
    C := ∑ i ∈ range n, dC i }

/-! ## The fit -/

/-- Noise parameters of a pixel and the rate used for the covariance (likely_fit.py:774-870). -/
structure Noise (α : Type) where
  guess : α
  gain : α
  rnoise : α

/-- Photon part of the diagonal (likely_fit.py:819). -/
def alphaPh (cv : Covar α) (q : Noise α) (i : Nat) : α := q.guess / q.gain * cv.alphaP i
/-- Read-noise part of the diagonal (likely_fit.py:820). -/
def alphaRd (cv : Covar α) (q : Noise α) (i : Nat) : α := q.rnoise * q.rnoise * cv.alphaR i
/-- Photon part of the off-diagonal (likely_fit.py:823). -/
def betaPh (cv : Covar α) (q : Noise α) (i : Nat) : α := q.guess / q.gain * cv.betaP i
/-- Read-noise part of the off-diagonal (likely_fit.py:824). -/
def betaRd (cv : Covar α) (q : Noise α) (i : Nat) : α := q.rnoise * q.rnoise * cv.betaR i

/-- State of the rescaling loop after step `i`: `theta[i-1]`, `theta[i]`, `scale` (likely_fit.py:840-870). -/
structure Resc (α : Type) where
  prev : α
  cur : α
  scale : α

/-- Loop body of the rescaling (likely_fit.py:851-863) for `i ≥ 2`; `root x i` is `x ** (1 / i)`. -/
def rescStep (root : α → Nat → α) (n dn : Nat) (a b : Nat → α) (s : Resc α) (i : Nat) : Resc α :=
  let t := a (i - 1) / s.scale * s.cur - b (i - 2) * b (i - 2) / (s.scale * s.scale) * s.prev
  if i % dn = 0 ∨ i = n then
    let f := root t i
    ⟨s.cur / (t / f), 1, s.scale * f⟩
  else ⟨s.cur, t, s.scale⟩

/-- `scale` of `compute_alphas_betas` (likely_fit.py:840-868) with `rescale = True`; `dn` is `dn_scale` (10). -/
def rescale (root : α → Nat → α) (n dn : Nat) (a b : Nat → α) : α :=
  ((List.range' 2 (n - 1)).foldl (rescStep root n dn a b) ⟨1, a 0, 1⟩).scale

/-- `RampResult` of `get_ramp_result` (likely_fit.py:1158-1232); `uncert` before the square root. -/
structure Result (α : Type) where
  countrate : α
  chisq : α
  uncert2 : α
  weights : Nat → α
  varP : α
  varR : α

/-- `fit_ramps` (likely_fit.py:576-616) up to `matrix_computations`. -/
def fitMatrix (n : Nat) (cv : Covar α) (q : Noise α) (scale : α) (diffs u : Nat → α) : Mat α :=
  matrix n (fun i => (alphaPh cv q i + alphaRd cv q i) / scale)
    (fun i => (betaPh cv q i + betaRd cv q i) / scale * u (i + 1) * u i) (fun i => diffs i * u i) u

/-- `fit_ramps` (likely_fit.py:511-638) with `compute_alphas_betas` (774-873) and `get_ramp_result`, for a given value of
`scale` and without jump detection.  `none`: the fit has no information (`C = 0`), all results are NaN. -/
def fitWith (n : Nat) (cv : Covar α) (q : Noise α) (scale : α) (diffs u : Nat → α) : Option (Result α) :=
  let m := fitMatrix n cv q scale diffs u
  if m.C = 0 then none
  else
    let w := fun i => m.dC i / m.C
    some
      { countrate := m.B * (1 / m.C)
        chisq := (m.A - m.B * m.B / m.C) / scale
        uncert2 := scale / m.C
        weights := w
        varP := (∑ i ∈ range n, w i * w i * alphaPh cv q i)
          + 2 * ∑ i ∈ range (n - 1), w (i + 1) * w i * betaPh cv q i
        varR := (∑ i ∈ range n, w i * w i * alphaRd cv q i)
          + 2 * ∑ i ∈ range (n - 1), w (i + 1) * w i * betaRd cv q i }

/-! ## Jump detection -/

/-- `chisq_one_omit` of `compute_jump_detects` before the division by `scale` (likely_fit.py:721-728), with the
best-fit rate and jump; `m` are the matrix quantities, `cd` is `Cinv_diag[i]`. -/
def chisqOne (m : Mat α) (cd : α) (i : Nat) : α × α × α :=
  let x := (cd * m.B - m.dB i * m.dC i) / (m.C * cd - m.dC i * m.dC i)
  let y := (m.dB i - x * m.dC i) / cd
  (x, y, m.A + x * x * m.C - 2 * x * m.B + y * y * cd - 2 * y * m.dB i + 2 * x * y * m.dC i)

/-- `chisq_two_omit` before the division by `scale` (likely_fit.py:742-758): the best fit of rate and two jumps in the
differences `i` and `i + 1`; `cd`, `cd'` are the diagonal elements, `co` the off-diagonal one. -/
def chisqTwo (m : Mat α) (cd cd' co : α) (i : Nat) : α × α × α × α :=
  let cpj := m.dC i * m.dC i - m.C * cd
  let cjck := m.dC i * m.dC (i + 1) - m.C * co
  let bcpj := m.B * m.dC i - m.dB i * m.C
  let z := bcpj / cpj - (m.B * m.dC (i + 1) - m.dB (i + 1) * m.C) / cjck
  let z := z / (cjck / cpj - (m.dC (i + 1) * m.dC (i + 1) - m.C * cd') / cjck)
  let y := (bcpj - z * cjck) / cpj
  let x := (m.B - y * m.dC i - z * m.dC (i + 1)) / m.C
  (x, y, z, m.A + x * x * m.C + y * y * cd + z * z * cd' - (2 * x * m.B + 2 * y * m.dB i + 2 * z * m.dB (i + 1))
    + (2 * x * y * m.dC i + 2 * x * z * m.dC (i + 1) + 2 * y * z * co))

/-- `Cinv_diag` (likely_fit.py:706-707). -/
def cinvDiag (n : Nat) (a b u : Nat → α) (i : Nat) : α := theta a b i * phi n a b (i + 1) / theta a b n * u i
/-- `Cinv_offdiag` (likely_fit.py:712). -/
def cinvOff (n : Nat) (a b : Nat → α) (i : Nat) : α := -b i * theta a b i * phi n a b (i + 2) / theta a b n

/-- What one call of `fit_ramps(..., detect_jumps=True)` tells `mask_jumps` about one pixel, as a function of the mask in
use: the count rate, the chi-square improvements on omitting one difference or two adjacent ones, and the count rates
then obtained (`none`: NaN) (likely_fit.py:172-348). -/
structure Search (α : Type) where
  rate : (Nat → Bool) → Option α
  one : (Nat → Bool) → Nat → Option α
  two : (Nat → Bool) → Nat → Option α
  rateOne : (Nat → Bool) → Nat → Option α
  rateTwo : (Nat → Bool) → Nat → Option α

/-- Numeric form of a mask (likely_fit.py:450-479). -/
def num (u : Nat → Bool) (i : Nat) : α := if u i then 1 else 0

/-- `compute_jump_detects` (likely_fit.py:644-771) with `fill_masked_reads` (likely_algo_classes.py:107-148).  A vanishing
denominator is NaN (numpy: NaN or infinite). -/
def search (n : Nat) (cv : Covar α) (q : Noise α) (scale : α) (diffs : Nat → α) : Search α :=
  let b := fun (u : Nat → Bool) i => (betaPh cv q i + betaRd cv q i) / scale * num u (i + 1) * num u i
  let a := fun i => (alphaPh cv q i + alphaRd cv q i) / scale
  let mat := fun (u : Nat → Bool) => fitMatrix n cv q scale diffs (num u)
  let cd := fun (u : Nat → Bool) i => cinvDiag n a (b u) (num u) i
  let co := fun (u : Nat → Bool) i => cinvOff n a (b u) i
  let rawOne := fun (u : Nat → Bool) i =>
    let m := mat u
    if cd u i = 0 ∨ m.C * cd u i - m.dC i * m.dC i = 0 then none else
      some ((chisqOne m (cd u i) i).1, (chisqOne m (cd u i) i).2.2)
  let full := fun (u : Nat → Bool) =>
    let m := mat u
    if m.C = 0 then none else some (m.B * (1 / m.C), m.A - m.B * m.B / m.C)
  let one := fun (u : Nat → Bool) i => if u i then rawOne u i else full u
  let two := fun (u : Nat → Bool) i =>
    if u i = false then one u (i + 1)
    else if u (i + 1) = false then one u i
    else
      let m := mat u
      let cpj := m.dC i * m.dC i - m.C * cd u i
      let cjck := m.dC i * m.dC (i + 1) - m.C * co u i
      if m.C = 0 ∨ cpj = 0 ∨ cjck = 0 ∨ cjck / cpj - (m.dC (i + 1) * m.dC (i + 1) - m.C * cd u (i + 1)) / cjck = 0
      then none
      else
        let r := chisqTwo m (cd u i) (cd u (i + 1)) (co u i) i
        some (r.1, r.2.2.2)
  let gain := fun (u : Nat → Bool) (o : Option (α × α)) =>
    match full u, o with
    | some f, some x => some (f.2 / scale - x.2 / scale)
    | _, _ => none
  { rate := fun u => (full u).map (·.1)
    one := fun u i => gain u (one u i)
    two := fun u i => gain u (two u i)
    rateOne := fun u i => (one u i).map (·.1)
    rateTwo := fun u i => (two u i).map (·.1) }

/-- Differences adjacent to a flagged group are not used: `determine_diffs2use` (likely_fit.py:450-479).  The flags are
copied into an array of bytes (470-471), which keeps the lowest eight bits only. -/
def diffs2use (gdq : Nat → Nat) (i : Nat) : Bool := decide (gdq (i + 1) % 256 = 0) && decide (gdq i % 256 = 0)

/-- Largest of `f 0 .. f (n-1)` (`np.amax`, `n ≥ 1`) (likely_fit.py:288-289). -/
def amax (n : Nat) (f : Nat → α) : α := (List.range (n - 1)).foldl (fun m i => max m (f (i + 1))) (f 0)

/-- The masks `dropone`, `droptwo` of a pass (likely_fit.py:284-312) for numeric improvements; `okTwo i` is
`two_omit_ok[i]`; `one_omit_ok` is always true, every resultant having at least one read. -/
def drops (n : Nat) (okTwo : Nat → Bool) (t1 t2 : α) (one two : Nat → α) : (Nat → Bool) × (Nat → Bool) :=
  let b1 := amax n one
  let b2 := amax (n - 1) fun i => if okTwo i then two i else 0
  let oneBetter := decide (b1 - t1 > b2 - t2)
  let best := (if b1 > t1 ∧ oneBetter = true then b1 else 0) + (if b2 > t2 ∧ oneBetter = false then b2 else 0)
  if best = 0 then (fun _ => false, fun _ => false)
  else (fun i => decide (i < n ∧ one i = best) && oneBetter, fun i => decide (i + 1 < n ∧ two i = best) && !oneBetter)

/-- The same with NaN: an improvement that is not a number makes the maxima, and so `best_dchisq`, NaN, and nothing is
dropped (likely_fit.py:288-300). -/
def dropsO (n : Nat) (okTwo : Nat → Bool) (t1 t2 : α) (one two : Nat → Option α) : (Nat → Bool) × (Nat → Bool) :=
  if (List.range n).all (fun i => (one i).isSome) && (List.range (n - 1)).all (fun i => (two i).isSome) then
    drops n okTwo t1 t2 (fun i => (one i).getD 0) fun i => (two i).getD 0
  else (fun _ => false, fun _ => false)

/-- Number of differences in use (likely_fit.py:450-479). -/
def count (n : Nat) (u : Nat → Bool) : Nat := (List.range n).countP fun i => u i

/-- Per-pixel state of `mask_jumps`: mask, `recheck`, and count rate (likely_fit.py:172-348). -/
structure MaskState (α : Type) where
  use : Nat → Bool
  recheck : Bool
  rate : Option α

/-- Sum of the rates of the dropped positions (likely_fit.py:320-324); NaN if any rate is NaN (`NaN * False` is NaN). -/
def sumRates (n : Nat) (r : Nat → Option α) (d : Nat → Bool) : Option α :=
  if (List.range n).all fun i => (r i).isSome then
    some ((List.range n).map fun i => if d i then (r i).getD 0 else 0).sum
  else none

/-- One pass of `mask_jumps` for one pixel (likely_fit.py:257-346); the pixel is skipped once `recheck` is false. -/
def maskPass (n : Nat) (okTwo : Nat → Bool) (t1 t2 : α) (sr : Search α) (s : MaskState α) (_ : Nat) : MaskState α :=
  if s.recheck then
    let d := dropsO n okTwo t1 t2 (sr.one s.use) (sr.two s.use)
    let any1 := (List.range n).any fun i => d.1 i
    let any2 := (List.range n).any fun i => d.2 i
    if any1 || any2 then
      let u := fun i => s.use i && !d.1 i && !d.2 i && !(decide (0 < i) && d.2 (i - 1))
      { use := u
        recheck := decide (3 < count n u)
        rate := if any2 then sumRates (n - 1) (sr.rateTwo s.use) d.2 else sumRates n (sr.rateOne s.use) d.1 }
    else { s with recheck := false }
  else s

/-- `mask_jumps` (likely_fit.py:172-348) for one pixel. -/
def maskJumps (n : Nat) (okTwo : Nat → Bool) (t1 t2 : α) (sr : Search α) (u : Nat → Bool) : MaskState α :=
  (List.range n).foldl (maskPass n okTwo t1 t2 sr) ⟨u, true, sr.rate u⟩

/-- Group DQ after jump detection (likely_fit.py:124-127): a dropped difference flags its later group. -/
def flagJumps (jump : Nat) (gdq : Nat → Nat) (u u' : Nat → Bool) (g : Nat) : Nat :=
  if g = 0 then gdq 0 else if u (g - 1) != u' (g - 1) then gdq g ||| jump else gdq g

/-- Positive part, `x * (x > 0)` (likely_fit.py:251, 505). -/
def pos (x : α) : α := if 0 < x then x else 0

/-- Settings of the fit of a pixel: read noise (already divided by the square root of two), gain, dark current and the
thresholds (likely_fit.py:18-170). -/
structure Cfg (α : Type) where
  gain : α
  rnoise : α
  dark : α
  t1 : α
  t2 : α

/-- Scale used for a rate guess (likely_fit.py:840-870). -/
def scaleOf (root : α → Nat → α) (n : Nat) (cv : Covar α) (q : Noise α) : α :=
  rescale root n 10 (fun i => alphaPh cv q i + alphaRd cv q i) fun i => betaPh cv q i + betaRd cv q i

/-- One pixel of one integration in `likely_ramp_fit` (likely_fit.py:97-159), from the group differences (numbers; a NaN
anywhere makes everything NaN, see `pixelFitO`) and the group DQ: new mask and group DQ, and the fit.  The snowball
expansion (133-142) is not modelled. -/
def pixelFit (root : α → Nat → α) (n : Nat) (cv : Covar α) (c : Cfg α) (jump : Nat) (gdq : Nat → Nat)
    (diffs : Nat → α) : (Nat → Bool) × (Nat → Nat) × Option (Result α) :=
  let u0 := diffs2use gdq
  let guess0 := pos ((Verif.Jump.nanmedian ((List.range n).map fun i => some (diffs i))).getD 0)
  let q0 : Noise α := ⟨guess0, c.gain, c.rnoise⟩
  let s := maskJumps n (fun i => decide (1 < cv.nreads (i + 1))) c.t1 c.t2 (search n cv q0 (scaleOf root n cv q0) diffs) u0
  (s.use, flagJumps jump gdq u0 s.use,
    match s.rate with
    | none => none
    | some r =>
      let q : Noise α := ⟨pos r + c.dark, c.gain, c.rnoise⟩
      fitWith n cv q (scaleOf root n cv q) diffs (num s.use))

/-- The same with NaN in the data: the mask multiplies the differences (`diffs * diffs2use`, likely_fit.py:587), and
`NaN * 0` is NaN, so that one NaN makes every sum NaN: nothing is dropped and there is no result. -/
def pixelFitO (root : α → Nat → α) (n : Nat) (cv : Covar α) (c : Cfg α) (jump : Nat) (gdq : Nat → Nat)
    (diffs : Nat → Option α) : (Nat → Bool) × (Nat → Nat) × Option (Result α) :=
  if (List.range n).all fun i => (diffs i).isSome then pixelFit root n cv c jump gdq fun i => (diffs i).getD 0
  else (diffs2use gdq, gdq, none)

/-! ## Read times -/

/-- Handling of the read pattern in `likely_ramp_fit` (likely_fit.py:51-69) with `get_readtimes` (351-381).  The first
component is the pattern the caller's `ramp_data` holds afterwards, the second the times used, the third whether the zero
frame joins the groups (`use_zeroframe`): `readtimes` is the very list object of `ramp_data.read_pattern` when there is
one. -/
def readTimes (pattern : Option (List (List α))) (default : List (List α)) (zeroframe : Bool) :
    Option (List (List α)) × List (List α) × Bool :=
  let rt := pattern.getD default
  let r := if zeroframe then
      match rt with
      | (t0 :: t1 :: ts) :: rest => ([t0] :: (t1 :: ts) :: rest, true)
      | _ => (rt, false)
    else (rt, false)
  (pattern.map fun _ => r.1, r)

/-- `get_readtimes` without a read pattern (likely_fit.py:376-379). -/
def defaultTimes (ngroups nframes groupgap : Nat) (frameTime : α) : List (List α) :=
  (List.range ngroups).map fun k : Nat =>
    (List.range nframes).map fun j : Nat => ((j : α) + 1 + (k : α) * ((nframes : α) + (groupgap : α))) * frameTime

/-! ## Combining integrations -/

/-- Per-integration values of one pixel: slope and the two variances (NaN: `none`) (likely_algo_classes.py:4-31). -/
structure Int1 (α : Type) where
  data : Option α
  varP : Option α
  varR : Option α

/-- `rate_scale` (likely_fit.py:423-424): NaN, infinite and negative ratios become 0. -/
def rateScale (slope data : Option α) : α :=
  match slope, data with
  | some s, some d => if d = 0 then 0 else if s / d < 0 then 0 else s / d
  | _, _ => 0

/-- Sum of the numbers in a list (`np.nansum`) (likely_fit.py:427-440). -/
def nansum (l : List (Option α)) : α := (l.filterMap id).sum

/-- Product with NaN (likely_fit.py:427-440). -/
def omul (x y : Option α) : Option α :=
  match x, y with
  | some a, some b => some (a * b)
  | _, _ => none

/-- `1 / (all_var_p + var_rnoise)` (likely_fit.py:425-426).  A sum that vanishes, for which numpy gives an infinite weight, is
not modelled (the weight is 0 here). -/
def rawWeight (slope : Option α) (i : Int1 α) : Option α :=
  match i.varP, i.varR with
  | some p, some r => some (1 / (p * rateScale slope i.data + r))
  | _, _ => none

/-- Normalised weight (likely_fit.py:427). -/
def normWeight (slope : Option α) (l : List (Int1 α)) (i : Int1 α) : Option α :=
  (rawWeight slope i).map fun w => w / nansum (l.map (rawWeight slope))

/-- `np.nansum`, NaN when everything is (likely_fit.py:429-441). -/
def sumOrNan (l : List (Option α)) : Option α := if l.all (fun x => x.isNone) then none else some (nansum l)

/-- One round of the loop (likely_fit.py:423-431). -/
def combineRound (l : List (Int1 α)) (slope : Option α) : Option α :=
  sumOrNan (l.map fun i => omul i.data (normWeight slope l i))

/-- `compute_image_info` (likely_fit.py:384-447) for one pixel: slope and the two variances (DQ is `dq_compress_final`,
see `Verif.RampDq`). -/
def combine (l : List (Int1 α)) : Int1 α :=
  match l with
  | [i] => i
  | _ =>
    let s0 := Verif.Jump.nanmedian (l.map fun i => i.data)
    let s1 := combineRound l s0
    let w := normWeight s1 l
    let sq := fun i => omul (w i) (w i)
    { data := combineRound l s1
      varP := sumOrNan (l.map fun i => omul (omul i.varP (some (rateScale s1 i.data))) (sq i))
      varR := sumOrNan (l.map fun i => omul i.varR (sq i)) }

end Verif.Likely
