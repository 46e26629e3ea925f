import Verif.Model.Dq
import Mathlib.Algebra.Order.Field.Basic
import Mathlib.Algebra.BigOperators.Group.List.Basic
import Mathlib.Data.List.Sort

/-!
# Ordinary-least-squares ramp fitting of one pixel

Model of `ramp_fitting/src/slope_fitter.c` (the C extension behind `ols_slope_fitter`), for one pixel: group
statistics and zero-frame substitution (`get_pixel_ramp`), segments (`compute_integration_segments`,
`add_segment_to_list`, `prune_segment_list`), median rate, segment fits, and the combination into the rateints and
rate products (`ramp_fit_pixel`).

Floats are an ordered field, NaN is `none`.  `sqrt` and `powf` are parameters.  Linked lists
are lists here; their memory handling is in `Verif.Model.OlsHeap`.  The memory-error returns are left out.  IEEE infinities are
not modelled: where the C code divides by zero the theorems carry hypotheses excluding it.
-/

namespace Verif.Ols

open Verif.Dq

/-- The flag values of `struct ramp_data` (slope_fitter.c:209); `invalid = dnu | sat` (2160). -/
structure Flags where
  dnu : Nat
  sat : Nat
  jump : Nat
  pers : Nat
  ngval : Nat
  chargeloss : Nat

/-- Truth value of `dq & flag` in C (e.g. slope_fitter.c:1889-1908). -/
def hasB (d f : Nat) : Bool := decide (d &&& f ≠ 0)

/-! ## Segments -/

/-- `struct simple_ll_node`: a segment `[start, stop)` (slope_fitter.c:270-285). -/
structure Seg where
  start : Nat
  stop : Nat
deriving DecidableEq, Repr

/-- `seg->length` (slope_fitter.c:1024). -/
def Seg.len (s : Seg) : Nat := s.stop - s.start

/-- `struct segment_list` (slope_fitter.c:291-296). -/
structure SegList where
  segs : List Seg
  size : Nat
  maxLen : Nat
deriving DecidableEq, Repr

/-- An empty list (`clean_segment_list`, slope_fitter.c:1219-1269). -/
def SegList.empty : SegList := ⟨[], 0, 0⟩

/-- `add_segment_to_list` (slope_fitter.c:1000-1045): a one-group segment is ignored once a longer one is in the list. -/
def addSeg (l : SegList) (s : Seg) : SegList :=
  if s.len = 1 ∧ 1 < l.maxLen then l
  else
    { segs := l.segs ++ [s]
      size := if l.segs.isEmpty then 1 else l.size + 1
      maxLen := if l.maxLen < s.len then s.len else l.maxLen }

/-- `prune_segment_list` (slope_fitter.c:2686-2735).  In the second branch the C code frees all nodes after the head but leaves
`size` as it was. -/
def prune (l : SegList) : SegList :=
  if l.size < 2 then l
  else if l.maxLen < 2 then { l with segs := l.segs.take 1 }
  else
    { l with
      segs := l.segs.filter fun s => decide (s.len ≠ 1)
      size := l.size - (l.segs.filter fun s => decide (s.len = 1)).length }

/-- Loop state of `compute_integration_segments`: `in_seg`, `start` and the segment list
(slope_fitter.c:1276-1353). -/
structure LoopSt where
  inSeg : Bool
  start : Nat
  lst : SegList

/-- Body of the loop over the groups (slope_fitter.c:1305-1334).  `g` is the group DQ of the integration. -/
def segStep (fl : Flags) (g : List Nat) (st : LoopSt) (idx : Nat) : LoopSt :=
  if clear (g.getD idx 0) fl.pers = 0 then
    if !st.inSeg then
      { st with
        inSeg := true
        start := if 0 < idx ∧ clear (g.getD (idx - 1) 0) fl.pers = fl.jump then idx - 1 else idx }
    else st
  else
    if st.inSeg then { st with inSeg := false, lst := addSeg st.lst ⟨st.start, idx⟩ } else st

/-- `compute_integration_segments` (slope_fitter.c:1276-1353) from the loop on: the pruned segment list of one integration. -/
def computeSegs (fl : Flags) (g : List Nat) : SegList :=
  let st := (List.range g.length).foldl (segStep fl g) ⟨false, 0, SegList.empty⟩
  prune (if st.inSeg then addSeg st.lst ⟨st.start, g.length⟩ else st.lst)

/-- The early exit (slope_fitter.c:1296-1302): the first group is saturated (`chargeloss` is 0 on the fitting path). -/
def firstSat (fl : Flags) (g : List Nat) : Bool := hasB (g.getD 0 0) fl.sat

/-- Segments used by the fit: none when the first group is saturated (slope_fitter.c:1296-1302). -/
def fitSegs (fl : Flags) (g : List Nat) : SegList := if firstSat fl g then SegList.empty else computeSegs fl g

section Arith
variable {α : Type*} [Field α] [LinearOrder α]

/-! ## Segment fits -/

/-- Sum of a function over `0 … n-1` (slope_fitter.c:3424-3444). -/
def sumTo (n : Nat) (f : Nat → α) : α := ((List.range n).map f).sum

/-- Exposure constants of `struct ramp_data` and the elementary functions (slope_fitter.c:169-248). -/
structure Cfg (α : Type*) where
  groupTime : α
  frameTime : α
  oneGroupTime : α
  suppress1g : Bool
  sqrt : α → α
  powf : α → α → α

/-- Pixel constants of `struct pixel_ramp`.  `gain` is the pixel's gain with NaN replaced by an arbitrary number:
a NaN gain flags the pixel unusable (slope_fitter.c:1929-1931), after which every value computed from the gain is discarded. -/
structure Pix (α : Type*) where
  gain : α
  rnoise : α
  dcurrent : α

/-- NaN-propagating binary operation (IEEE arithmetic in slope_fitter.c:3178-3533). -/
def o2 (f : α → α → α) (a b : Option α) : Option α := a.bind fun x => b.map fun y => f x y

/-- `segment_snr` (slope_fitter.c:3776-3804) from the data at both ends of the segment; `none` is NaN. -/
def segSnr (cfg : Cfg α) (px : Pix α) (first last : Option α) : Option α :=
  match o2 (· - ·) last first with
  | none => if px.gain = 0 then some 0 else none
  | some d =>
    let den := px.rnoise * px.rnoise + d * px.gain
    if den ≤ 0 ∨ px.gain = 0 then some 0
    else
      let s := d * px.gain / cfg.sqrt den
      if s < 0 then some 0 else some s

/-- `snr_power` (slope_fitter.c:3808-3822); a NaN compares false with everything and gives the last value. -/
def snrPower (snr : Option α) : α :=
  match snr with
  | none => 10
  | some s => if s < 5 then 0 else if s < 10 then 2 / 5 else if s < 20 then 1 else if s < 50 then 3 else if s < 100 then 6 else 10

/-- Optimal weight of group `k` of a segment of length `len` (slope_fitter.c:3419-3429). -/
def optWeight (cfg : Cfg α) (px : Pix α) (len : Nat) (power : α) (k : Nat) : α :=
  let mid := ((len : α) - 1) / 2
  cfg.powf (|((k : α) - mid) * (1 / mid)|) power * (1 / (px.rnoise * px.rnoise))

/-- Slope and intercept of the weighted least-squares line (sums slope_fitter.c:3424-3444, solution 3477-3489).  `w` are the
weights, `y` the data of the segment (NaN already replaced by zero), `start` its first group; the slope is per
group. -/
def wls (n start : Nat) (w y : Nat → α) : α × α :=
  let x : Nat → α := fun k => (k : α) + (start : α)
  let sumw := sumTo n w
  let sumx := sumTo n fun k => x k * w k
  let sumxx := sumTo n fun k => x k * (x k * w k)
  let sumy := sumTo n fun k => y k * w k
  let sumxy := sumTo n fun k => y k * (x k * w k)
  let den := sumw * sumxx - sumx * sumx
  ((sumw * sumxy - sumx * sumy) * (1 / den), (sumxx * sumy - sumx * sumxy) * (1 / den))

/-- Result of a segment fit: slope (NaN possible), Poisson and read-noise variance; `var_e` is their sum
(slope_fitter.c:270-285). -/
structure SegFit (α : Type*) where
  slope : Option α
  varP : α
  varR : α
deriving DecidableEq

/-- `median_rate + dcurrent` if the median rate is positive, else `dcurrent` (slope_fitter.c:3246-3251, 3332-3337, 3495-3500);
a NaN median rate compares false. -/
def poissonNum (px : Pix α) (med : Option α) : α :=
  match med with
  | some m => if 0 < m then m + px.dcurrent else px.dcurrent
  | none => px.dcurrent

/-- Read-noise variance of a segment of `len` groups over time steps `t` (`segment_rnoise_len1` slope_fitter.c:3289-3302,
`segment_rnoise_len2` 3364-3376 with `len = 2`, `segment_rnoise_default` 3517-3533). -/
def rnoiseVar (px : Pix α) (len : Nat) (t : α) : α :=
  12 * (px.rnoise / t) * (px.rnoise / t) / ((((len : α)) * len * len - len) * px.gain * px.gain)

/-- `segment_len1_timing` (slope_fitter.c:3270-3283). -/
def len1Timing (cfg : Cfg α) (is0th isZframe : Bool) : α :=
  if !cfg.suppress1g && is0th then cfg.oneGroupTime
  else if !cfg.suppress1g && isZframe then cfg.frameTime
  else cfg.groupTime

/-- `ramp_fit_pixel_integration_fit_slope_seg` (slope_fitter.c:3178-3533): fit of one segment of the integration's data. -/
def fitSeg (cfg : Cfg α) (px : Pix α) (med : Option α) (is0th isZframe : Bool) (data : Nat → Option α) (s : Seg) :
    SegFit α :=
  if s.len = 1 then
    let t := len1Timing cfg is0th isZframe
    { slope := (data s.start).map fun d => d / t
      varP := poissonNum px med / (t * px.gain)
      varR := rnoiseVar px 2 t }
  else if s.len = 2 then
    { slope := (o2 (· - ·) (data (s.start + 1)) (data s.start)).map fun d => d / cfg.groupTime
      varP := poissonNum px med / (cfg.groupTime * px.gain)
      varR := rnoiseVar px 2 cfg.groupTime }
  else
    let power := snrPower (segSnr cfg px (data s.start) (data (s.start + s.len - 1)))
    let sol := wls s.len s.start (optWeight cfg px s.len power) fun k => (data (s.start + k)).getD 0
    { slope := some (sol.1 / cfg.groupTime)
      varP := poissonNum px med / (cfg.groupTime * px.gain * ((s.len : α) - 1))
      varR := if px.gain ≤ 0 then 0 else rnoiseVar px s.len cfg.groupTime }

/-! ## One integration -/

/-- `struct integ_gdq_stats` (counts) (slope_fitter.c:324-332). -/
structure Stats where
  jumpDet : Bool
  persistence : Bool
  cntGood : Nat
  cntDnuSat : Int
  cntSat : Nat

/-- Group statistics of one integration (`get_pixel_ramp_integration`, slope_fitter.c:1864-1909). -/
def stats (fl : Flags) (g : List Nat) : Stats where
  jumpDet := g.any fun d => hasB d fl.jump
  persistence := g.any fun d => hasB d fl.pers
  cntGood := g.countP fun d => decide (d = 0)
  cntDnuSat := (g.countP fun d => hasB d fl.dnu || hasB d fl.sat : Nat)
  cntSat := g.countP fun d => hasB d fl.sat

/-- One integration as held in `struct pixel_ramp` after `get_pixel_ramp` (slope_fitter.c:337-377). -/
structure Integ (α : Type*) where
  data : List (Option α)
  gdq : List Nat
  st : Stats
  is0th : Bool
  isZframe : Bool

/-- `get_pixel_ramp` for one integration (slope_fitter.c:1797-1858): saturated samples become NaN (1902-1904); without
suppression a ramp whose only good group is the first is marked, and a ramp without good group takes a non-zero
zero-frame value as its first group.  `zf = none` means no zero frame was given; the value inside may be NaN
(`none`), which is different from zero. -/
def loadInteg (fl : Flags) (suppress1g : Bool) (data : List (Option α)) (g : List Nat) (zf : Option (Option α)) :
    Integ α :=
  let d := List.zipWith (fun x q => if hasB q fl.sat then none else x) data g
  let s := stats fl g
  if suppress1g then ⟨d, g, s, false, false⟩
  else if s.cntGood = 1 ∧ g.getD 0 0 = 0 then ⟨d, g, s, true, false⟩
  else if s.cntGood = 0 then
    match zf with
    | none => ⟨d, g, s, false, false⟩
    | some z =>
      if z = some 0 then ⟨d, g, s, false, false⟩
      else
        ⟨d.set 0 z, g.set 0 0,
          { s with
            cntGood := 1
            cntDnuSat := s.cntDnuSat - 1
            cntSat := if g.length = s.cntSat then s.cntSat - 1 else s.cntSat },
          false, true⟩
  else ⟨d, g, s, false, false⟩

/-- `real_nan_median` (slope_fitter.c:1694-1727) applied to the list sorted with NaN last: the median of the numbers. -/
def nanMedian (l : List (Option α)) : Option α :=
  let v := (l.filterMap id).insertionSort (· ≤ ·)
  match v.length with
  | 0 => none
  | 1 => v[0]?
  | 2 => o2 (fun a b => (a + b) / 2) v[0]? v[1]?
  | n => if n % 2 = 1 then v[n / 2]? else o2 (fun a b => (a + b) / 2) v[n / 2]? v[n / 2 - 1]?

/-- `median_rate_integration` with its sort step (slope_fitter.c:2417-2510), for at least two groups: median of the first
differences per group time, without unusable groups and jumps; the first sample if no difference is left. -/
def medianInteg (fl : Flags) (cfg : Cfg α) (data : List (Option α)) (g : List Nat) : Option α :=
  let loc := List.zipWith (fun x q => if hasB q fl.dnu then none else x.map fun d => d / cfg.groupTime) data g
  let diffs := (List.range (g.length - 1)).map fun k =>
    if hasB (g.getD (k + 1) 0) fl.jump then none else o2 (· - ·) ((loc[k + 1]?).join) ((loc[k]?).join)
  let diffs := if diffs.all (fun d => d.isNone) && ((loc[0]?).join).isSome then diffs.set 0 ((loc[0]?).join) else diffs
  nanMedian diffs

/-- `compute_median_rate` (slope_fitter.c:2282-2371): mean over the integrations of the integration median rates (NaN counted as
zero); for one-group ramps the plain mean of the rates (NaN if one is). -/
def medianRate (fl : Flags) (cfg : Cfg α) (ngroups : Nat) (ints : List (Integ α)) : Option α :=
  if ngroups = 1 then
    (ints.foldl (fun acc i => o2 (· + ·) acc (((i.data[0]?).join).map fun d => d / cfg.oneGroupTime)) (some 0)).map
      fun s => s / (ints.length : α)
  else
    some ((ints.map fun i =>
      ((if i.is0th then ((i.data[0]?).join).map fun d => d / cfg.oneGroupTime
        else if i.isZframe then ((i.data[0]?).join).map fun d => d / cfg.frameTime
        else medianInteg fl cfg i.data i.gdq).getD 0)).sum / (ints.length : α))

/-- `LARGE_VARIANCE_THRESHOLD` (slope_fitter.c:61). -/
def large : α := 1000000

/-- A rate product entry (`struct ramp_fit`) (slope_fitter.c:253-259). -/
structure Rate (α : Type*) where
  slope : Option α
  varP : α
  varR : α
  varErr : α
  dq : Nat

/-- Sums over the segments of an integration (`invvar_r`, `invvar_p`, `invvar_e`, `slope_i_num`; slope_fitter.c:3103-3129). -/
structure Acc (α : Type*) where
  invR : α
  invP : α
  invE : α
  num : Option α

/-- The accumulation loop (slope_fitter.c:3110-3129). -/
def accSegs (fits : List (SegFit α)) : Acc α :=
  fits.foldl (fun (a : Acc α) (f : SegFit α) =>
    { invR := a.invR + 1 / f.varR
      invP := if 0 < f.varP then a.invP + 1 / f.varP else a.invP
      invE := a.invE + 1 / (f.varP + f.varR)
      num := o2 (· + ·) a.num (f.slope.map fun s => s / f.varR) }) ⟨0, 0, 0, some 0⟩

/-- `ramp_fit_pixel_integration_fit_slope` (slope_fitter.c:3095-3172) given the fitted segments and the integration's DQ: the
rateints entry and the contributions to the rate sums (`none` when there is no segment, 3105-3107: the entry then
keeps the zeros it was initialised with). -/
def combineInteg (fl : Flags) (cfg : Cfg α) (fits : List (SegFit α)) (dq : Nat) : Rate α × Option (Acc α) :=
  if fits.isEmpty then (⟨some 0, 0, 0, 0, dq⟩, none)
  else
    let a := accSegs fits
    let vp0 := if 0 < a.invP then 1 / a.invP else 0
    let vp := if large ≤ vp0 then 0 else vp0
    let vr0 := 1 / a.invR
    let vr := if large ≤ vr0 then 0 else vr0
    if hasB dq (fl.dnu ||| fl.sat) then (⟨none, 0, 0, 0, dq⟩, some a)
    else
      let ve := 1 / a.invE
      (⟨a.num.map fun n => n * vr, vp, vr, if large < ve then 0 else cfg.sqrt ve, dq⟩, some a)

/-- `ramp_fit_pixel_integration` (slope_fitter.c:3041-3066) together with the early exit of the segment computation: result for
one integration.  `dq0` is the entry's DQ set up by `get_pixel_ramp`. -/
def fitInteg (fl : Flags) (cfg : Cfg α) (px : Pix α) (med : Option α) (ngroups : Nat) (i : Integ α) (dq0 : Nat) :
    Rate α × Option (Acc α) :=
  let dq1 := if firstSat fl i.gdq then dq0 ||| fl.dnu ||| fl.sat else dq0
  let slope1 : Option α := if firstSat fl i.gdq then none else some 0
  if (ngroups : Int) = i.st.cntDnuSat then
    let dq2 := dq1 ||| fl.dnu
    let dq3 := if ngroups = i.st.cntSat then dq2 ||| fl.sat else dq2
    (⟨slope1, 0, 0, 0, dq3⟩, none)
  else
    let segs := (fitSegs fl i.gdq).segs
    let fits := segs.map (fitSeg cfg px med i.is0th i.isZframe fun k => (i.data[k]?).join)
    let r := combineInteg fl cfg fits dq1
    (if fits.isEmpty then { r.1 with slope := slope1 } else r.1, r.2)

/-- Post-processing of one integration in `ramp_fit_pixel` (slope_fitter.c:2837-2858): the slope is NaN if the entry is unusable
or saturated; afterwards SATURATED is set if some group was saturated.  Returns the entry and whether it counts as
unusable / saturated. -/
def postInteg (fl : Flags) (i : Integ α) (r : Rate α) : Rate α × Bool × Bool :=
  let isDnu := hasB r.dq fl.dnu
  let isSat := hasB r.dq fl.sat
  let slope := if isDnu || isSat then none else r.slope
  ({ r with slope := slope, dq := if 0 < i.st.cntSat then r.dq ||| fl.sat else r.dq }, isDnu, isSat)

/-- The pixel's inputs (slope_fitter.c:337-377). -/
structure PixIn (α : Type*) where
  gainBad : Bool
  px : Pix α
  pixeldq : Nat
  ints : List (List (Option α) × List Nat × Option (Option α))

/-- `get_pixel_ramp_meta` (slope_fitter.c:1915-1938): a non-positive or NaN gain makes the pixel unusable. -/
def metaDq (fl : Flags) (p : PixIn α) : Nat := if p.gainBad then p.pixeldq ||| (fl.dnu ||| fl.ngval) else p.pixeldq

/-- JUMP_DET / PERSISTENCE bits added by an integration's statistics (slope_fitter.c:1849-1856). -/
def statBits (fl : Flags) (s : Stats) : Nat :=
  (if s.jumpDet then fl.jump else 0) ||| (if s.persistence then fl.pers else 0)

/-- `get_pixel_ramp` for the whole pixel (slope_fitter.c:1797-1858). -/
def loadPixel (fl : Flags) (cfg : Cfg α) (p : PixIn α) : List (Integ α) :=
  p.ints.map fun (d, g, z) => loadInteg fl cfg.suppress1g d g z

/-- The integration results of `ramp_fit_pixel` (slope_fitter.c:2828-2858): per integration the raw result, its post-processing
and its contribution to the sums. -/
def pixelInts (fl : Flags) (cfg : Cfg α) (ngroups : Nat) (p : PixIn α) :
    List (Integ α × (Rate α × Bool × Bool) × Option (Acc α)) :=
  let ints := loadPixel fl cfg p
  let med := medianRate fl cfg ngroups ints
  ints.map fun i =>
    let r := fitInteg fl cfg p.px med ngroups i (metaDq fl p ||| statBits fl i.st)
    (i, postInteg fl i r.1, r.2)

/-- `ramp_fit_pixel` (slope_fitter.c:2808-2908): rateints and rate of one pixel. -/
def fitPixel (fl : Flags) (cfg : Cfg α) (ngroups : Nat) (p : PixIn α) : List (Rate α) × Rate α :=
  let rs := pixelInts fl cfg ngroups p
  let nints := rs.length
  let dnuCnt := rs.countP fun r => r.2.1.2.1
  let satCnt := rs.countP fun r => r.2.1.2.2
  let dq0 := rs.foldl (fun acc r => acc ||| statBits fl r.1.st) (metaDq fl p)
  let dq1 := if nints = dnuCnt then dq0 ||| fl.dnu else dq0
  let dq2 := if satCnt = nints then dq1 ||| fl.sat else dq1
  let accs := rs.filterMap fun r => r.2.2
  let sumP := (accs.map fun a => if 0 < a.invP then a.invP else 0).sum
  let sumR := (accs.map fun a => a.invR).sum
  let num := accs.foldl (fun s a => o2 (· + ·) s a.num) (some 0)
  let vp0 := if 0 < sumP then 1 / sumP else sumP
  let vp := if large ≤ vp0 ∨ vp0 < 0 then 0 else vp0
  let vr0 := if 0 < sumR then 1 / sumR else sumR
  let vr := if large ≤ vr0 then 0 else vr0
  let inval := hasB dq2 (fl.dnu ||| fl.sat)
  let anySat := rs.any fun r => decide (0 < r.1.st.cntSat)
  let dq3 := if anySat then dq2 ||| fl.sat else dq2
  (rs.map fun r => r.2.1.1,
    if inval then ⟨none, 0, 0, 0, dq3⟩
    else ⟨num.map fun n => n * vr, vp, vr, cfg.sqrt (vp + vr), dq3⟩)

end Arith
end Verif.Ols
