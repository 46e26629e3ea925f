import Verif.Model.Likely
import Verif.Model.RampDq

/-!
# The driver of the likelihood fit

Model of `likely_ramp_fit` (ramp_fitting/likely_fit.py:18-169) for one pixel: zero frame, differences, jump masking,
snowball expansion (as a parameter), fit, data quality, and the combination of the integrations.
-/

namespace Verif.LikelyDriver

open Verif Verif.Likely

variable {α : Type} [Field α] [LinearOrder α]

/-- One integration of one pixel as handed to `likely_ramp_fit`: samples, group DQ and zero-frame value (NaN: `none`)
(likely_fit.py:77-84). -/
structure IntIn (α : Type) where
  data : Nat → Option α
  gdq : Nat → Nat
  zf : Option α

/-- The samples with the zero frame in front (likely_fit.py:89-93): the zero frame is taken out of the first group, which
is assumed to be the average of `nframes` frames.  With `nframes = 1` the quotient is infinite or NaN; both are `none`
here, since either makes the whole pixel NaN. -/
def splitZero (nframes : Nat) (zf : Option α) (data : Nat → Option α) : Nat → Option α
  | 0 => zf
  | 1 => match data 0, zf with
    | some x, some z => if nframes = 1 then none else some ((x * (nframes : α) - z) / ((nframes : α) - 1))
    | _, _ => none
  | g + 2 => data (g + 1)

/-- The group DQ with the zero frame in front, which borrows that of the first group (likely_fit.py:86-87, 94). -/
def shiftDq (gdq : Nat → Nat) : Nat → Nat
  | 0 => gdq 0
  | g + 1 => gdq g

/-- Equation (5): differences divided by the time between the mean times (likely_fit.py:97). -/
def diffsOf (cv : Covar α) (data : Nat → Option α) (i : Nat) : Option α :=
  match data (i + 1), data i with
  | some y, some x => some ((y - x) / cv.delta i)
  | _, _ => none

/-- Jump masking of a pixel whose differences are numbers (likely_fit.py:102-129; `mask_jumps` 172-348). -/
def masked (root : α → Nat → α) (n : Nat) (cv : Covar α) (c : Cfg α) (gdq : Nat → Nat) (diffs : Nat → α) : MaskState α :=
  let q0 : Noise α := ⟨pos ((Verif.Jump.nanmedian ((List.range n).map fun i => some (diffs i))).getD 0), c.gain, c.rnoise⟩
  maskJumps n (fun i => decide (1 < cv.nreads (i + 1))) c.t1 c.t2 (search n cv q0 (scaleOf root n cv q0) diffs)
    (diffs2use gdq)

/-- The fit of a pixel with the mask `u` and the rate guess of the masking (likely_fit.py:130, 151-158). -/
def finalFit (root : α → Nat → α) (n : Nat) (cv : Covar α) (c : Cfg α) (rate : Option α) (diffs : Nat → α)
    (u : Nat → Bool) : Option (Result α) :=
  match rate with
  | none => none
  | some r =>
    let q : Noise α := ⟨pos r + c.dark, c.gain, c.rnoise⟩
    fitWith n cv q (scaleOf root n cv q) diffs (num u)

/-- Mask after the snowball expansion (likely_fit.py:133-141): `grow` is what `flag_large_events` makes of the group DQ
of this pixel; `none`: no expansion asked for. -/
def expandMask (jump : Nat) (grow : Option ((Nat → Nat) → Nat → Nat)) (gdq : Nat → Nat) (u : Nat → Bool) : Nat → Bool :=
  match grow with
  | none => u
  | some f => fun i => u i && decide (f gdq (i + 1) &&& jump = 0)

/-- Group DQ after the snowball expansion (likely_fit.py:133-141). -/
def expandDq (grow : Option ((Nat → Nat) → Nat → Nat)) (gdq : Nat → Nat) : Nat → Nat :=
  match grow with
  | none => gdq
  | some f => f gdq

/-- One pixel of one integration with the expansion (likely_fit.py:97-159).  Without it this is `Likely.pixelFitO`. -/
def pixelFitE (root : α → Nat → α) (n : Nat) (cv : Covar α) (c : Cfg α) (jump : Nat)
    (grow : Option ((Nat → Nat) → Nat → Nat)) (gdq : Nat → Nat) (diffs : Nat → Option α) :
    (Nat → Bool) × (Nat → Nat) × Option (Result α) :=
  if (List.range n).all fun i => (diffs i).isSome then
    let d := fun i => (diffs i).getD 0
    let s := masked root n cv c gdq d
    let g := flagJumps jump gdq (diffs2use gdq) s.use
    let u := expandMask jump grow g s.use
    (u, expandDq grow g, finalFit root n cv c s.rate d u)
  else (expandMask jump grow gdq (diffs2use gdq), expandDq grow gdq, none)

/-- What is left of one integration of one pixel: fit, pixel DQ of the integration, and the caller's group DQ
(likely_fit.py:143-162). -/
structure IntOut (α : Type) where
  fit : Option (Result α)
  dq : Nat
  gdq : Nat → Nat

/-- DQ flags (likely_fit.py:126, 148, 161). -/
structure Flags where
  dnu : Nat
  sat : Nat
  jump : Nat

/-- One integration of one pixel (likely_fit.py:76-164); `ng` groups, `useZero` is `use_zeroframe`. -/
def fitInt (root : α → Nat → α) (fl : Flags) (ng nframes : Nat) (useZero : Bool) (times : List (List α)) (c : Cfg α)
    (grow : Option ((Nat → Nat) → Nat → Nat)) (pixeldq : Nat) (e : IntIn α) : IntOut α :=
  let cv := covar fun j => times.getD j []
  let data := if useZero then splitZero nframes e.zf e.data else e.data
  let gdq := if useZero then shiftDq e.gdq else e.gdq
  let shift := if useZero then 1 else 0
  let rows := ng + shift
  let r := pixelFitE root (rows - 1) cv c fl.jump grow gdq (diffsOf cv data)
  { fit := r.2.2
    dq := RampDq.compressSect fl.dnu fl.sat fl.jump ((List.range rows).map r.2.1) pixeldq
    gdq := fun g => e.gdq g ||| r.2.1 (g + shift) }

/-- The rate product of one pixel (likely_fit.py:384-447): slope and variances, `err` before the square root, chi-square
and DQ. -/
structure PixOut (α : Type) where
  comb : Int1 α
  err2 : Option α
  chisq : Option α
  dq : Option Nat

/-- Values of an integration in the form `combine` wants (likely_algo_classes.py:44-63). -/
def toInt1 (o : IntOut α) : Int1 α := ⟨o.fit.map (·.countrate), o.fit.map (·.varP), o.fit.map (·.varR)⟩

/-- Sum with NaN (likely_fit.py:443-445). -/
def osum (l : List (Option α)) : Option α := l.foldl (fun s x => match s, x with
  | some a, some b => some (a + b)
  | _, _ => none) (some 0)

/-- `compute_image_info` (likely_fit.py:384-447) with the values of `IntegInfo` (likely_algo_classes.py:44-63). -/
def imageInfo (fl : Flags) (l : List (IntOut α)) : PixOut α :=
  match l with
  | [o] => ⟨toInt1 o, o.fit.map (·.uncert2), o.fit.map (·.chisq), some o.dq⟩
  | _ =>
    let k := combine (l.map toInt1)
    ⟨k, match k.varP, k.varR with
      | some p, some r => some (p + r)
      | _, _ => none, osum (l.map fun o => o.fit.map (·.chisq)), RampDq.compressFinal fl.dnu (l.map (·.dq))⟩

/-- `likely_ramp_fit` (likely_fit.py:18-169) for one pixel; `none` is the ValueError for fewer than four groups.  `hasZero`
says that the exposure has a zero frame.  `grow k` is the snowball expansion of integration `k`. -/
def likelyPixel (root : α → Nat → α) (fl : Flags) (ng nframes : Nat) (pattern : Option (List (List α)))
    (default : List (List α)) (hasZero : Bool) (c : Cfg α) (grow : Nat → Option ((Nat → Nat) → Nat → Nat)) (pixeldq : Nat)
    (ints : List (IntIn α)) : Option (List (IntOut α) × PixOut α) :=
  if ng < 4 then none
  else
    let rt := readTimes pattern default hasZero
    let outs := ints.zipIdx.map fun e => fitInt root fl ng nframes rt.2.2 rt.2.1 c (grow e.2) pixeldq e.1
    some (outs, imageInfo fl outs)

end Verif.LikelyDriver
