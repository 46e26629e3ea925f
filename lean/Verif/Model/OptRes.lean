import Verif.Model.Ols
import Verif.Model.Slicing

/-!
# Optional results of the ordinary-least-squares fit

Model of the optional-results product: segment values (`ramp_fitting/src/slope_fitter.c`, the `save_opt` parts of
the segment fits), cosmic-ray magnitudes, pedestals, the zero-padded arrays built by `create_opt_res` and
`save_opt_res`, and their reassembly from row slices (`ramp_fitting/ols_fit.py:168-376`).
-/

namespace Verif.Ols

section Arith
variable {α : Type*} [Field α] [LinearOrder α]

/-- Optional results of one segment (`struct simple_ll_node`, filled by the segment fits) (slope_fitter.c:270-285). -/
structure SegOpt (α : Type*) where
  fit : SegFit α
  sigslope : α
  yint : Option α
  sigyint : α
  weight : α

/-- The constant `sqrt2` (slope_fitter.c:3318). -/
def sqrt2 : α := 141421356 / 100000000

/-- The segment fits with `save_opt` (one group slope_fitter.c:3229-3264, two groups 3308-3358, more 3463-3511).  A one-group
segment keeps the zeros of `calloc` for the uncertainties and the intercept. -/
def segOpt (cfg : Cfg α) (px : Pix α) (med : Option α) (is0th isZframe : Bool) (data : Nat → Option α) (s : Seg) :
    SegOpt α :=
  let f := fitSeg cfg px med is0th isZframe data s
  if s.len = 1 then ⟨f, 0, some 0, 0, 1 / f.varR⟩
  else if s.len = 2 then
    let read2 : α := (s.start : α) + 1
    ⟨f, sqrt2 * px.rnoise, o2 (fun d1 d0 => d1 * (1 - read2) + d0 * read2) (data (s.start + 1)) (data s.start),
      sqrt2 * px.rnoise, 1 / f.varR⟩
  else
    let power := snrPower (segSnr cfg px (data s.start) (data (s.start + s.len - 1)))
    let w := optWeight cfg px s.len power
    let x : Nat → α := fun k => (k : α) + (s.start : α)
    let sumw := sumTo s.len w
    let sumx := sumTo s.len fun k => x k * w k
    let sumxx := sumTo s.len fun k => x k * (x k * w k)
    let invden := 1 / (sumw * sumxx - sumx * sumx)
    let sol := wls s.len s.start w fun k => (data (s.start + k)).getD 0
    ⟨f, cfg.sqrt (sumw * invden), some sol.2, cfg.sqrt (sumxx * invden), 1 / f.varR⟩

/-- Cosmic-ray magnitudes of one integration (get_pixel_ramp, slope_fitter.c:1816-1825): for every group after the first with the
JUMP flag, the sample minus the one before, saturated samples being NaN.  Before the zero frame is put in. -/
def crMags (fl : Flags) (data : List (Option α)) (g : List Nat) : List (Option α) :=
  let d := List.zipWith (fun x q => if hasB q fl.sat then none else x) data g
  (List.range g.length).filterMap fun k =>
    if 0 < k ∧ hasB (g.getD k 0) fl.jump then some (o2 (· - ·) ((d[k]?).join) ((d[k - 1]?).join)) else none

/-- `ped_tmp` (slope_fitter.c:2126). -/
def pedTmp (nframes dropframes groupgap : Nat) : α :=
  (((nframes : α) + 1) / 2 + (dropframes : α)) / ((nframes : α) + (groupgap : α))

/-- The pedestal of one integration (slope_fitter.c:2000-2015), computed from the integration's entry after an unusable one got the
slope NaN and before partial saturation is marked (2837-2855). -/
def pedestal (fl : Flags) (ped : α) (i : Integ α) (r : Rate α) : α :=
  if hasB r.dq fl.sat then 0
  else (o2 (fun f s => f - s * ped) ((i.data[0]?).join) (if hasB r.dq fl.dnu then none else r.slope)).getD 0

end Arith

/-! ## Padded arrays -/

/-- One cell (an integration and pixel) of a padded array: its values, then zeros (`create_opt_res` slope_fitter.c:1444-1500,
`save_opt_res` 3574-3674). -/
def padCell {β : Type*} (zero : β) (planes : Nat) (vals : List β) : List β :=
  vals ++ List.replicate (planes - vals.length) zero

/-- A padded array: number of planes and, by detector row, the cells of the row (integrations and columns)
(slope_fitter.c:413-427). -/
structure Padded (β : Type*) where
  planes : Nat
  rows : List (List (List β))

/-- The array built from the linked lists of the cells of some detector rows.  Every cell has the size its list
reported, whose maximum is the number of planes (`max_num_segs` slope_fitter.c:1978-1980, `max_num_crs` 1988-1993), and its
values. -/
def optProduct {β : Type*} (zero : β) (rows : List (List (Nat × List β))) : Padded β :=
  let planes := (rows.flatMap fun r => r.map Prod.fst).foldl max 0
  ⟨planes, rows.map fun r => r.map fun c => padCell zero planes c.2⟩

/-- `get_max_segs_crs`, `ols_fit.py:363-376`: maximum over the slices, starting from 1 for segments and from 0 for
cosmic rays (`start`). -/
def maxPlanes {β : Type*} (start : Nat) (slices : List (Padded β)) : Nat :=
  slices.foldl (fun m s => if m < s.planes then s.planes else m) start

/-- Number of elements of an array given by rows (`.size`, `ols_fit.py:257`). -/
def padSize {β : Type*} (rows : List (List (List β))) : Nat := (rows.map fun r => (r.map List.length).sum).sum

/-- `get_slice` for a padded array, `ols_fit.py:245-261`: assigned as a whole if the sizes agree, otherwise to the
first planes only. -/
def getSlicePadded {β : Type*} (out : List (List (List β))) (slice : Padded β) (rowStart nrows : Nat) :
    List (List (List β)) :=
  let target := Verif.Slicing.rowSlice out rowStart nrows
  if padSize target = padSize slice.rows then Verif.Slicing.getSlice out slice.rows rowStart nrows
  else
    Verif.Slicing.getSlice out
      (List.zipWith (fun o s => List.zipWith (fun oc sc => sc ++ oc.drop slice.planes) o s) target slice.rows)
      rowStart nrows

/-- The assembly loop, `ols_fit.py:213-223`. -/
def assemblePadded {β : Type*} : List (List (List β)) → Nat → List (Padded β) → List Nat → List (List (List β))
  | out, start, s :: ss, n :: ns => assemblePadded (getSlicePadded out s start n) (start + n) ss ns
  | out, _, _, _ => out

/-- One array of the optional product with `nslices` processes: the rows are distributed
(`compute_slices_for_starmap`), every slice builds its own array, and the arrays are assembled into zeros
(`create_output_info`, `ols_fit.py:308-336`).  `ncells` is the number of cells of a row. -/
def optMulti {β : Type*} (zero : β) (start ncells : Nat) (rows : List (List (Nat × List β))) (nslices : Nat) :
    Padded β :=
  let (slices, heights) := Verif.Slicing.computeSlices ⟨rows, false⟩ nslices
  let prods := slices.map fun s => optProduct zero s.rows
  let planes := maxPlanes start prods
  ⟨planes, assemblePadded
    (List.replicate rows.length (List.replicate ncells (List.replicate planes zero))) 0 prods heights⟩

end Verif.Ols
