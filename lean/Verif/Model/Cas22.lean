import Mathlib.Algebra.Order.Field.Basic
import Mathlib.Algebra.BigOperators.Group.Finset.Basic
import Mathlib.Order.WithBot

/-!
# Casertano+22 ramp fitting with jump detection

Model of `ramp_fitting/ols_cas22/_ramp.pyx` and `_jump.pyx`; `_fit.pyx` is in `Verif.Cas22Driver`.  Per-pixel arrays are
functions of the resultant index.  Floats are an ordered field; `sqrt`, `pow` and `log10` are parameters.  The
resultants are numbers (no NaN); the fit result of a degenerate ramp is `none`.  Statistics may be NaN (`none`) or
infinite (`⊤`, `⊥`), because the code divides by a square root whose argument can be negative or zero.
-/

namespace Verif.Cas22

/-- `RampIndex`: first and last resultant of a ramp, both included (_ramp.pxd:6-8). -/
structure Ramp where
  start : Nat
  stop : Nat
deriving DecidableEq, Repr

/-! ## Ramp discovery -/

/-- Loop body of `init_ramps` (_ramp.pyx:175-196); the ramp under construction is its start index. -/
def initStep (dq : Nat → Nat) (st : Option Nat × List Ramp) (i : Nat) : Option Nat × List Ramp :=
  match st.1 with
  | none => if dq i = 0 then (some i, st.2) else st
  | some s => if dq i = 0 then st else (none, st.2 ++ [⟨s, i - 1⟩])

/-- `init_ramps` (_ramp.pyx:146-204); the result in order of `push_back`. -/
def initRamps (dq : Nat → Nat) (n : Nat) : List Ramp :=
  let st := (List.range n).foldl (initStep dq) (none, [])
  match st.1 with
  | some s => st.2 ++ [⟨s, n - 1⟩]
  | none => st.2

/-! ## Fit of one ramp -/

/-- `RampFit` for a ramp of two or more resultants (_ramp.pxd:11-14). -/
structure Fit (α : Type*) where
  slope : α
  readVar : α
  poissonVar : α
deriving DecidableEq, Repr

/-- The arithmetic the code takes from the C library, and the threshold parameters (`Thresh`) (_jump.pxd:32-34). -/
structure Cfg (α : Type*) where
  sqrt : α → α
  pow : α → α → α
  log10 : α → α
  intercept : α
  constant : α
  useJump : Bool

/-- Read-pattern derived arrays (`ReadPattern`, _ramp.pyx:65-95) and the data of one pixel. -/
structure Pix (α : Type*) where
  tbar : Nat → α
  tau : Nat → α
  nreads : Nat → Nat
  res : Nat → α
  readNoise : α

variable {α : Type*} [Field α] [LinearOrder α]

open Finset

/-- `from_read_pattern`, mean time of a resultant (_ramp.pyx:139). -/
def meanTime (readTime : α) (reads : List α) : α := readTime * (reads.sum / (reads.length : α))

/-- `from_read_pattern`, `tau` of a resultant (_ramp.pyx:140-141). -/
def tauTime (readTime : α) (reads : List α) : α :=
  (∑ k ∈ range reads.length, (2 * ((reads.length : α) - (k : α)) - 1) * reads.getD k 0) * readTime
    / ((reads.length : α) * (reads.length : α))

/-- `_get_power` (_ramp.pyx:214-234) with `_PTABLE` (_ramp.pyx:210-211). -/
def getPower (signal : α) : α :=
  if signal < 5 then 0 else if signal < 10 then 2 / 5 else if signal < 20 then 1
  else if signal < 50 then 3 else if signal < 100 then 6 else 10

/-- Power of a ramp (_ramp.pyx:304-306; for read noise 0 and a ramp that does not rise
the code computes 0/0 and ends with power 10, which is not modelled). -/
def rampPower (cfg : Cfg α) (p : Pix α) (r : Ramp) : α :=
  let s := max (p.res r.stop - p.res r.start) 0
  getPower (s / cfg.sqrt (p.readNoise * p.readNoise + s))

/-- Weight of resultant `i` (_ramp.pyx:297, 310-311, 324-325). -/
def weight (cfg : Cfg α) (p : Pix α) (r : Ramp) (i : Nat) : α :=
  let mid := (p.tbar r.start + p.tbar r.stop) / 2
  let sc := (p.tbar r.stop - p.tbar r.start) / 2
  let sc := if sc = 0 then 1 else sc
  let pw := rampPower cfg p r
  ((1 + pw) * (p.nreads i : α)) / (1 + pw * (p.nreads i : α)) * cfg.pow |(p.tbar i - mid) / sc| pw

/-- Loop body of the second loop of `fit_ramp` (_ramp.pyx:339-356) after the coefficients: accumulates slope, read
variance and Poisson variance; the last component is `sum_coeffs_tbar`. -/
def fitStep (p : Pix α) (coeff : Nat → α) (a : Fit α × α) (i : Nat) : Fit α × α :=
  (⟨a.1.slope + coeff i * p.res i,
    a.1.readVar + coeff i * coeff i * (p.readNoise * p.readNoise) / (p.nreads i : α),
    a.1.poissonVar + (coeff i * coeff i * p.tau i + 2 * coeff i * a.2)⟩,
   a.2 + coeff i * p.tbar i)

/-- The resultants of a ramp in order (the slices of _ramp.pyx:290-293). -/
def Ramp.idx (r : Ramp) : List Nat := List.range' r.start (r.stop + 1 - r.start)

/-- `fit_ramp` (_ramp.pyx:237-358).  `none`: the NaN result for fewer than two resultants. -/
def fitRamp (cfg : Cfg α) (p : Pix α) (r : Ramp) : Option (Fit α) :=
  if r.stop + 1 - r.start ≤ 1 then none
  else
    let w := weight cfg p r
    let f0 := (r.idx.map w).sum
    let f1 := (r.idx.map fun i => w i * p.tbar i).sum
    let f2 := (r.idx.map fun i => w i * (p.tbar i * p.tbar i)).sum
    let det := f2 * f0 - f1 * f1
    if det = 0 then some ⟨0, 0, 0⟩
    else
      let coeff := fun i => (f0 * p.tbar i - f1) * w i / det
      some (r.idx.foldl (fitStep p coeff) (⟨0, 0, 0⟩, 0)).1

/-! ## Jump statistic -/

/-- A float that may be NaN (`none`) or infinite (results of _jump.pyx:251-294). -/
abbrev Ext (α : Type*) := Option (WithBot (WithTop α))

/-- C comparison `a > b` (false with a NaN operand) (_jump.pyx:383, 491). -/
def gt (a b : Ext α) : Bool :=
  match a, b with
  | some x, some y => decide (y < x)
  | _, _ => false

/-- `fmaxf`: a NaN operand is ignored (_jump.pyx:366-380). -/
def fmax (a b : Ext α) : Ext α :=
  match a, b with
  | some x, some y => some (max x y)
  | some x, none => some x
  | none, y => y

/-- A finite float (results of _jump.pyx:203-294). -/
def fin (x : α) : Ext α := some ((x : WithTop α) : WithBot (WithTop α))

/-- `_threshold` (_jump.pyx:203-221). -/
def threshold (cfg : Cfg α) (slope : α) : α :=
  let s := if slope > 1 then slope else 1
  let s := if s < 10000 then s else 10000
  cfg.intercept - cfg.constant * cfg.log10 s

/-- `_statstic` (_jump.pyx:251-294) for the difference of the resultants `i` and `i + j`, with the pre-computed values
of `fill_fixed_values` (65-137), `_fill_pixel_values` (140-200) and `_correction` (227-245) put in.  `delta / sqrtf v`
is NaN for negative `v` and for `0/0`, infinite for zero `v` otherwise.  Distinct resultants have distinct mean
times. -/
def stat (cfg : Cfg α) (p : Pix α) (r : Ramp) (slope : α) (i j : Nat) : Ext α :=
  let dt := p.tbar (i + j) - p.tbar i
  let delta := (p.res (i + j) - p.res i) / dt - slope
  let varRead := p.readNoise * p.readNoise * (1 / (p.nreads (i + j) : α) + 1 / (p.nreads i : α))
  let varSlope := p.tau (i + j) + p.tau i - 2 * min (p.tbar (i + j)) (p.tbar i)
  let v := (varRead + slope * varSlope) / (dt * dt) + -slope / (p.tbar r.stop - p.tbar r.start)
  if v < 0 then none
  else if v = 0 then (if 0 < delta then some ⊤ else if delta < 0 then some ⊥ else none)
  else fin (delta / cfg.sqrt v)

/-- Statistic of position `i` of a ramp: larger of single and double difference (_jump.pyx:366-380). -/
def stat2 (cfg : Cfg α) (p : Pix α) (r : Ramp) (slope : α) (i : Nat) : Ext α :=
  fmax (stat cfg p r slope i 1) (stat cfg p r slope i 2)

/-- Loop body (_jump.pyx:383-385). -/
def maxStep (f : Nat → Ext α) (a : Nat × Ext α) (k : Nat) : Nat × Ext α :=
  if gt (f k) a.2 then (k, f k) else a

/-- `_fit_statistic` (_jump.pyx:299-387): position relative to the ramp start and value of the largest statistic. -/
def fitStatistic (cfg : Cfg α) (p : Pix α) (r : Ramp) (slope : α) : Nat × Ext α :=
  if r.start = r.stop then (0, none)
  else
    (List.range (r.stop - 1 - r.start)).foldl (maxStep fun k => stat2 cfg p r slope (r.start + k))
      (r.stop - r.start - 1, stat cfg p r slope (r.stop - 1) 1)

/-- Outcome of the jump test of one ramp (_jump.pyx:481-491): the position of the jump, if one is detected.  A
degenerate fit gives a NaN slope and a NaN statistic. -/
def detect (cfg : Cfg α) (p : Pix α) (r : Ramp) : Option Nat :=
  if cfg.useJump then
    match fitRamp cfg p r with
    | none => none
    | some f =>
      let s := fitStatistic cfg p r f.slope
      if gt s.2 (fin (threshold cfg f.slope)) then some s.1 else none
  else none

/-! ## The fit/split loop -/

/-- `JUMP_DET` (_jump.pxd:30). -/
def jumpDet : Nat := 4

/-- State of the loop of `fit_jumps`; the top of the stack (`ramps.back()`) is the head of `stack`.  `done`: ramps
whose fit is recorded, in order (_jump.pyx:446-590). -/
structure Loop where
  stack : List Ramp
  dq : Nat → Nat
  done : List Ramp

/-- `dq[j] = JUMP_DET` (_jump.pyx:518-519). -/
def setJump (dq : Nat → Nat) (j : Nat) : Nat → Nat := fun i => if i = j then jumpDet else dq i

/-- Body of the loop of `fit_jumps` (_jump.pyx:467-573) without the averages, with the jump test as a function of the
ramp. -/
def loopBody (det : Ramp → Option Nat) (dq : Nat → Nat) (done : List Ramp) (r : Ramp) (rest : List Ramp) : Loop :=
  match det r with
  | some a =>
    let j0 := a + r.start
    let j1 := j0 + 1
    let rest := if j0 > r.start then ⟨r.start, j0 - 1⟩ :: rest else rest
    let rest := if j1 < r.stop then ⟨j1 + 1, r.stop⟩ :: rest else rest
    ⟨rest, setJump (setJump dq j0) j1, done⟩
  | none => ⟨rest, dq, done ++ [r]⟩

/-- The loop, run for at most `fuel` rounds; `none` if the stack is not empty then (_jump.pyx:446-590). -/
def runLoop (det : Ramp → Option Nat) : Nat → Loop → Option Loop
  | _, ⟨[], dq, done⟩ => some ⟨[], dq, done⟩
  | 0, ⟨_ :: _, _, _⟩ => none
  | fuel + 1, ⟨r :: rest, dq, done⟩ => runLoop det fuel (loopBody det dq done r rest)

/-- Averaging (_jump.pyx:575-593) over the recorded fits. -/
def average (fits : List (Option (Fit α))) : Fit α :=
  let fs := fits.filterMap id
  let w := fun f : Fit α => if f.readVar = 0 then 0 else 1 / f.readVar
  let tot := (fs.map w).sum
  let d1 := if tot ≠ 0 then tot else 1
  let d2 := if tot ≠ 0 then tot * tot else 1
  let slope := (fs.map fun f => w f * f.slope).sum / d1
  ⟨slope, (fs.map fun f => w f * w f * f.readVar).sum / d2,
    (fs.map fun f => w f * w f * f.poissonVar).sum / d2 * max slope 0⟩

/-- `fit_jumps` (_jump.pyx:393-595) for one pixel, with an upper bound on the number of rounds: the final DQ, the ramps
whose fits were recorded, and the average. -/
def fitPixel (cfg : Cfg α) (p : Pix α) (dq : Nat → Nat) (n fuel : Nat) : Option ((Nat → Nat) × List Ramp × Fit α) :=
  (runLoop (detect cfg p) fuel ⟨(initRamps dq n).reverse, dq, []⟩).map fun s =>
    (s.dq, s.done, average (s.done.map (fitRamp cfg p)))

end Verif.Cas22
