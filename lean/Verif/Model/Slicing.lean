import Mathlib.Data.List.Basic

/-!
# Work distribution: core counts, ramp-fit row slices, jump-detection row slices
-/

namespace Verif.Slicing

/-- `str.isnumeric`, used at `src/stcal/multiprocessing.py:29`.  Simplification: only the ASCII digits are numeric (Python
also accepts characters such as `½`, for which the following `int()` raises `ValueError`). -/
def isNumeric (s : List Char) : Bool := !s.isEmpty && s.all Char.isDigit

/-- `int(max_cores)` on a numeric string, `src/stcal/multiprocessing.py:30`. -/
def toInt (s : List Char) : Nat := s.foldl (fun acc c => 10 * acc + (c.toNat - '0'.toNat)) 0

/-- Python's `a or b` on integers (`src/stcal/multiprocessing.py:34`). -/
def orElse (a b : Nat) : Nat := if a = 0 then b else a

/-- `compute_num_cores`, `src/stcal/multiprocessing.py:4-40`.  The string is a list of characters. -/
def computeNumCores (maxCores : List Char) (nchunks maxAvailable : Nat) : Nat :=
  let numberSlices :=
    if isNumeric maxCores then toInt maxCores
    else if maxCores.map Char.toLower = "none".toList ∨ maxCores.map Char.toLower = "one".toList then 1
    else if maxCores = "quarter".toList then orElse (maxAvailable / 4) 1
    else if maxCores = "half".toList then orElse (maxAvailable / 2) 1
    else if maxCores = "all".toList then maxAvailable
    else 1
  min (min nchunks numberSlices) maxAvailable

/-- `rows_per_slice`, `src/stcal/ramp_fitting/ols_fit.py:425-455`. -/
def rowsPerSlice (nslices nrows : Nat) : List Nat :=
  let quotient := nrows / nslices
  let remainder := nrows % nslices
  let noInc := nslices - remainder
  if remainder > 0 then
    List.replicate remainder (quotient + 1) ++ List.replicate noInc quotient
  else
    List.replicate nslices quotient

/-- Numpy's row slice `a[start : start + n]` (`src/stcal/ramp_fitting/ols_fit.py:417,484`), an array being the list of
its rows. -/
def rowSlice {α : Type*} (rows : List α) (start n : Nat) : List α := (rows.drop start).take n

/-- `RampData` as far as slicing is concerned (`src/stcal/ramp_fitting/ramp_fit_class.py:6-57`): the rows (all
integrations, groups, flags, noise and gain of one detector row are one element), and the option
`suppress_one_group_ramps`.  Other metadata are constants of the run and carried over unchanged. -/
structure RampData (α : Type*) where
  rows : List α
  suppressOneGroup : Bool := false

/-- `slice_ramp_data`, `src/stcal/ramp_fitting/ols_fit.py:458-524`.  A new `RampData` is made; the arrays are sliced by
row, metadata and flags are copied, and `suppress_one_group_ramps` is *not* copied, so it has the constructor's default
`False` (`ramp_fit_class.py:50`). -/
def sliceRampData {α : Type*} (rd : RampData α) (start n : Nat) : RampData α :=
  { rows := rowSlice rd.rows start n }

/-- The loop of `compute_slices_for_starmap`, `src/stcal/ramp_fitting/ols_fit.py:413-420`: `start_row` runs along the
list of slice heights. -/
def sliceLoop {α : Type*} (rd : RampData α) : Nat → List Nat → List (RampData α)
  | _, [] => []
  | start, n :: ns => sliceRampData rd start n :: sliceLoop rd (start + n) ns

/-- `compute_slices_for_starmap`, `src/stcal/ramp_fitting/ols_fit.py:411-422`. -/
def computeSlices {α : Type*} (rd : RampData α) (nslices : Nat) : List (RampData α) × List Nat :=
  let rslices := rowsPerSlice nslices rd.rows.length
  (sliceLoop rd 0 rslices, rslices)

/-- `get_slice`, `src/stcal/ramp_fitting/ols_fit.py:229-261`: `out[srow:erow] = slice`.  Simplification: one output array,
as the list of its rows (the slice has the height of the target; the padded optional product is modelled separately). -/
def getSlice {β : Type*} (out slice : List β) (rowStart nrows : Nat) : List β :=
  out.take rowStart ++ slice ++ out.drop (rowStart + nrows)

/-- The assembly loop, `src/stcal/ramp_fitting/ols_fit.py:213-223`. -/
def assembleLoop {β : Type*} : List β → Nat → List (List β) → List Nat → List β
  | out, start, res :: rs, n :: ns => assembleLoop (getSlice out res start n) (start + n) rs ns
  | out, _, _, _ => out

/-- `assemble_pool_results`, `src/stcal/ramp_fitting/ols_fit.py:204-226`: any missing slice result makes the
whole result `None`; otherwise the output starts as zeros (`create_output_info`, lines 285-306) and is filled slice by slice. -/
def assemble {β : Type*} (zero : β) (totRows : Nat) (pool : List (Option (List β))) (rslices : List Nat) :
    Option (List β) :=
  if pool.all Option.isSome then
    some (assembleLoop (List.replicate totRows zero) 0 (pool.filterMap id) rslices)
  else none

/-- `ols_ramp_fit_single`, `src/stcal/ramp_fitting/ols_fit.py:527-590`, for a fitter that treats detector rows independently: the C
extension visits every pixel on its own (`src/stcal/ramp_fitting/src/slope_fitter.c`, `ols_slope_fit_pixels`).
The per-row fit is a parameter; it sees the option and one row and may fail, in which case the product is `None`. -/
def fitSingle {α β : Type*} (fitRow : Bool → α → Option β) (rd : RampData α) : Option (List β) :=
  rd.rows.mapM (fitRow rd.suppressOneGroup)

/-- `ols_ramp_fit_multiprocessing`, `src/stcal/ramp_fitting/ols_fit.py:149-165`; the pool is a map. -/
def fitMulti {α β : Type*} (zero : β) (fitRow : Bool → α → Option β) (rd : RampData α) (nslices : Nat) :
    Option (List β) :=
  let (slices, rslices) := computeSlices rd nslices
  assemble zero rd.rows.length (slices.map (fitSingle fitRow)) rslices

/-- `slice_data`, `src/stcal/jump/jump.py:255-283`: `yinc` and the half-open row ranges of the slices. -/
def jumpSliceRanges (nrows nSlices : Nat) : Nat × List (Nat × Nat) :=
  let yinc := nrows / nSlices
  (yinc, (List.range (nSlices - 1)).map (fun i => (i * yinc, (i + 1) * yinc)) ++ [((nSlices - 1) * yinc, nrows)])

/-- The loop over `enumerate(real_result)`, `src/stcal/jump/jump.py:203-207`. -/
def jumpReassembleLoop {β : Type*} (nrows yinc : Nat) : Nat → List (List β) → List β → List β
  | _, [], out => out
  | k, [r], out => getSlice out r (k * yinc) (nrows - k * yinc)
  | k, r :: r' :: rs, out => jumpReassembleLoop nrows yinc (k + 1) (r' :: rs) (getSlice out r (k * yinc) yinc)

/-- The write-back of `reassemble_sliced_data`, `src/stcal/jump/jump.py:203-207` (without the edge-row exchange, see
`Verif.Model.Jump`): slice `k` is assigned to rows `k*yinc : (k+1)*yinc`, the last one to `k*yinc : nrows`. -/
def jumpReassemble {β : Type*} (nrows yinc : Nat) (results : List (List β)) (gdq : List β) : List β :=
  jumpReassembleLoop nrows yinc 0 results gdq

end Verif.Slicing
