import Verif.Model.Cas22

/-!
# Casertano+22 ramp fitting: tables and drivers

Model of the pre-computed tables of `ramp_fitting/ols_cas22/_jump.pyx` (`fill_fixed_values`, `_fill_pixel_values`) and the
jump test reading them, of `ramp_fitting/ols_cas22/_fit.pyx:fit_ramps` with its scratch array shared by all pixels, and of
`ramp_fitting/ols_cas22_fit.py:fit_ramps_casertano`.  The arithmetic of the fits is that of `Verif.Cas22`.
-/

namespace Verif.Cas22Driver

open Verif.Cas22

/-- `FixedOffsets` without the distinction of single and double differences (_jump.pxd:9-18). -/
inductive Entry where
  | diff
  | diffSqr
  | recip
  | varSlope
deriving DecidableEq

/-- `PixelOffsets` without the distinction of single and double differences (_jump.pxd:21-26). -/
inductive PEntry where
  | slope
  | var
deriving DecidableEq

/-- The array `fixed`; the second argument is true for the rows of double differences, NaN is `none` (_fit.pyx:163). -/
abbrev Fixed (α : Type*) := Entry → Bool → Nat → Option α

/-- The array `pixel` (_fit.pyx:164). -/
abbrev Scratch (α : Type*) := PEntry → Bool → Nat → Option α

/-- Assignment to an element of an array (_jump.pyx:120-135, 189-198). -/
def put {κ β : Type*} [DecidableEq κ] (f : κ → Bool → Nat → β) (e : κ) (d : Bool) (i : Nat) (v : β) : κ → Bool → Nat → β :=
  fun e' d' i' => if e' = e ∧ d' = d ∧ i' = i then v else f e' d' i'

variable {α : Type*} [Field α] [LinearOrder α]

/-- Loop body of `fill_fixed_values` (_jump.pyx:119-135). -/
def fixedStep (tbar tau : Nat → α) (nreads : Nat → Nat) (n : Nat) (f : Fixed α) (i : Nat) : Fixed α :=
  let f := put f .diff false i (some (tbar (i + 1) - tbar i))
  let f := put f .diffSqr false i ((f .diff false i).map fun x => x ^ 2)
  let f := put f .recip false i (some (1 / (nreads (i + 1) : α) + 1 / (nreads i : α)))
  let f := put f .varSlope false i (some (tau (i + 1) + tau i - 2 * min (tbar (i + 1)) (tbar i)))
  if i + 2 < n then
    let f := put f .diff true i (some (tbar (i + 2) - tbar i))
    let f := put f .diffSqr true i ((f .diff true i).map fun x => x ^ 2)
    let f := put f .recip true i (some (1 / (nreads (i + 2) : α) + 1 / (nreads i : α)))
    put f .varSlope true i (some (tau (i + 2) + tau i - 2 * min (tbar (i + 2)) (tbar i)))
  else put (put (put (put f .diff true i none) .diffSqr true i none) .recip true i none) .varSlope true i none

/-- `fill_fixed_values` (_jump.pyx:68-137). -/
def fillFixed (tbar tau : Nat → α) (nreads : Nat → Nat) (n : Nat) (f : Fixed α) : Fixed α :=
  (List.range (n - 1)).foldl (fixedStep tbar tau nreads n) f

/-- Loop body of `_fill_pixel_values` (_jump.pyx:188-198). -/
def pixelStep (res : Nat → α) (fixed : Fixed α) (readNoise : α) (n : Nat) (s : Scratch α) (i : Nat) : Scratch α :=
  let s := put s .slope false i ((fixed .diff false i).map fun t => (res (i + 1) - res i) / t)
  let s := put s .var false i ((fixed .recip false i).map fun r => readNoise ^ 2 * r)
  if i + 2 < n then
    let s := put s .slope true i ((fixed .diff true i).map fun t => (res (i + 2) - res i) / t)
    put s .var true i ((fixed .recip true i).map fun r => readNoise ^ 2 * r)
  else put (put s .slope true i none) .var true i none

/-- `_fill_pixel_values` (_jump.pyx:143-200). -/
def fillPixel (res : Nat → α) (fixed : Fixed α) (readNoise : α) (n : Nat) (s : Scratch α) : Scratch α :=
  (List.range (n - 1)).foldl (pixelStep res fixed readNoise n) s

/-- `_correction` (_jump.pyx:227-245). -/
def correction (tbar : Nat → α) (r : Ramp) (slope : α) : α := -slope / (tbar r.stop - tbar r.start)

/-- `_statstic` (_jump.pyx:251-294) from the table entries; NaN entries give NaN. -/
def statOf (sqrt : α → α) (localSlope varRead diffSqr varSlope : Option α) (slope correct : α) : Ext α :=
  match localSlope, varRead, diffSqr, varSlope with
  | some l, some vr, some t2, some vs =>
    let delta := l - slope
    let v := (vr + slope * vs) / t2 + correct
    if v < 0 then none
    else if v = 0 then (if 0 < delta then some ⊤ else if delta < 0 then some ⊥ else none)
    else fin (delta / sqrt v)
  | _, _, _, _ => none

/-- One statistic of `_fit_statistic` (_jump.pyx:356-361, 368-379). -/
def statAt (sqrt : α → α) (pixel : Scratch α) (fixed : Fixed α) (slope correct : α) (dbl : Bool) (i : Nat) : Ext α :=
  statOf sqrt (pixel .slope dbl i) (pixel .var dbl i) (fixed .diffSqr dbl i) (fixed .varSlope dbl i) slope correct

/-- `_fit_statistic` (_jump.pyx:299-387). -/
def fitStatisticT (sqrt : α → α) (pixel : Scratch α) (fixed : Fixed α) (tbar : Nat → α) (slope : α) (r : Ramp) :
    Nat × Ext α :=
  if r.start = r.stop then (0, none)
  else
    let correct := correction tbar r slope
    (List.range (r.stop - 1 - r.start)).foldl
      (maxStep fun k => fmax (statAt sqrt pixel fixed slope correct false (r.start + k))
        (statAt sqrt pixel fixed slope correct true (r.start + k)))
      (r.stop - r.start - 1, statAt sqrt pixel fixed slope correct false (r.stop - 1))

/-- The jump test of one ramp with the tables (_jump.pyx:481-491). -/
def detectT (cfg : Cfg α) (p : Pix α) (pixel : Scratch α) (fixed : Fixed α) (r : Ramp) : Option Nat :=
  if cfg.useJump then
    match fitRamp cfg p r with
    | none => none
    | some f =>
      let s := fitStatisticT cfg.sqrt pixel fixed p.tbar f.slope r
      if gt s.2 (fin (threshold cfg f.slope)) then some s.1 else none
  else none

/-- `fit_jumps` (_jump.pyx:393-595) with the scratch array: its new contents, the DQ of the pixel and the average.  The
loop gets `n + 1` rounds, which is enough (`C36_loop`); `none` is a loop that has not ended by then. -/
def fitJumps (cfg : Cfg α) (fixed : Fixed α) (n : Nat) (scratch : Scratch α) (p : Pix α) (dq : Nat → Nat) :
    Scratch α × Option ((Nat → Nat) × Fit α) :=
  let pixel := if cfg.useJump then fillPixel p.res fixed p.readNoise n scratch else scratch
  (pixel, (runLoop (detectT cfg p pixel fixed) (n + 1) ⟨(initRamps dq n).reverse, dq, []⟩).map fun s =>
    (s.dq, average (s.done.map (fitRamp cfg p))))

/-- What `fit_ramps` stores for a pixel: parameters, variances and the column of `dq` (_fit.pyx:188-189, 200, 220-226). -/
structure PixOut (α : Type*) where
  intercept : α
  slope : α
  readVar : α
  poissonVar : α
  totalVar : α
  dq : Nat → Nat

/-- Loop body of `fit_ramps` (_fit.pyx:205-230). -/
def rampsStep (cfg : Cfg α) (fixed : Fixed α) (n : Nat) (pix : Nat → Pix α) (dq : Nat → Nat → Nat)
    (st : Scratch α × List (Option (PixOut α))) (k : Nat) : Scratch α × List (Option (PixOut α)) :=
  let r := fitJumps cfg fixed n st.1 (pix k) (dq k)
  (r.1, st.2 ++ [r.2.map fun o =>
    ⟨0, o.2.slope, o.2.readVar, o.2.poissonVar, o.2.readVar + o.2.poissonVar, o.1⟩])

/-- The pixel `k` as the code sees it: table of times from the read pattern (`from_read_pattern`, _ramp.pyx:104-143),
column of the resultants, read noise (_fit.pyx:153-156, 207-213). -/
def pixelOf (readTime : α) (pattern : List (List α)) (res : Nat → Nat → α) (readNoise : Nat → α) (k : Nat) : Pix α :=
  { tbar := fun i => meanTime readTime (pattern.getD i [])
    tau := fun i => tauTime readTime (pattern.getD i [])
    nreads := fun i => (pattern.getD i []).length
    res := res k
    readNoise := readNoise k }

/-- `fit_ramps` (_fit.pyx:97-236) without diagnostics.  `res k i` and `dq k i` belong to pixel `k` and resultant `i`;
`fixed0` and `scratch0` are the uninitialised arrays of `np.empty`.  `none`: RuntimeError for a read pattern of another
length, or (never, see `C103_every_pixel`) a loop that does not end. -/
def fitRamps (cfg : Cfg α) (readTime : α) (pattern : List (List α)) (n npix : Nat) (res : Nat → Nat → α)
    (dq : Nat → Nat → Nat) (readNoise : Nat → α) (fixed0 : Fixed α) (scratch0 : Scratch α) : Option (List (PixOut α)) :=
  if n ≠ pattern.length then none
  else
    let pix := pixelOf readTime pattern res readNoise
    let fixed := if cfg.useJump then fillFixed (pix 0).tbar (pix 0).tau (pix 0).nreads n fixed0 else fixed0
    (((List.range npix).foldl (rampsStep cfg fixed n pix dq) (scratch0, [])).2).mapM id

/-- Read noise as accepted by `fit_ramps_casertano` (ols_cas22_fit.py:111-113): a number, a one-dimensional array of a
given length, or an array of at least two dimensions, flattened. -/
inductive Noise (α : Type*) where
  | scalar (x : α)
  | line (len : Nat) (f : Nat → α)
  | full (f : Nat → α)

/-- The read noise by flat pixel index (ols_cas22_fit.py:111-113, 120, 125); `none` if broadcasting or reshaping fails.  A line
is broadcast along the last axis; if that has length one, the product has more elements than there are pixels, and the
first ones are used.  Simplifications: a full array is assumed to have one element per pixel and a line not to be empty (the
code checks neither and would read outside the array). -/
def spread (shape : List Nat) : Noise α → Option (Nat → α)
  | .scalar x => some fun _ => x
  | .full f => some f
  | .line len f => match shape.getLast? with
    | none => if len = 1 then some fun _ => f 0 else none
    | some c => if len = 1 then some fun _ => f 0 else if len = c ∨ c = 1 then some fun k => f (k % len) else none

/-- Output of `fit_ramps_casertano` (ols_cas22_fit.py:132-144): shape and flat contents of parameters and variances, flat DQ,
and the unit attached to the parameters. -/
structure Out (α : Type*) where
  parShape : List Nat
  par : List α
  varShape : List Nat
  var : List α
  dq : Nat → Nat
  unit : Option α

/-- `a[0]` of an array (ols_cas22_fit.py:137-138). -/
def first (a : List Nat × List α) : List Nat × List α := (a.1.tail, a.2.take a.1.tail.prod)

/-- `fit_ramps_casertano` (ols_cas22_fit.py:39-144).  `shape` is the shape of the pixels, empty for a single ramp; `res` and
`dq` are flat, resultant by resultant; `unit` is the number of electrons in the unit of the resultants, if they have one.
Without resultants the `reshape` of line 123 raises.  Simplification: `dq` has the shape of the resultants; rounding to float32
and int32 (108, 110, 113) is not modelled. -/
def casertano (cfg : Cfg α) (readTime : α) (pattern : List (List α)) (n : Nat) (shape : List Nat) (res : Nat → α)
    (dq : Nat → Nat) (noise : Noise α) (unit : Option α) (fixed0 : Fixed α) (scratch0 : Scratch α) : Option (Out α) :=
  let npix := shape.prod
  let value := match unit with
    | some u => fun i => res i * u
    | none => res
  if n = 0 then none else
  match spread shape noise with
  | none => none
  | some rn =>
    match fitRamps cfg readTime pattern n npix (fun k i => value (i * npix + k)) (fun k i => dq (i * npix + k)) rn fixed0
      scratch0 with
    | none => none
    | some outs =>
      let par := (shape ++ [2], outs.flatMap fun o => [o.intercept, o.slope])
      let var := (shape ++ [3], outs.flatMap fun o => [o.readVar, o.poissonVar, o.totalVar])
      let par := if shape = [] then first par else par
      let var := if shape = [] then first var else var
      some
        { parShape := par.1
          par := par.2
          varShape := var.1
          var := var.2
          dq := fun m => ((outs[m % npix]?).map fun o => o.dq (m / npix)).getD (dq m)
          unit := unit }

end Verif.Cas22Driver
