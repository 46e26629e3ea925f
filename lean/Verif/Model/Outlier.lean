import Mathlib.Algebra.Order.Field.Basic
import Mathlib.Data.List.Basic
import Verif.Model.Jump

/-!
# Outlier detection

Model of `src/stcal/outlier_detection/median.py` and of the array functions of `src/stcal/outlier_detection/utils.py`
(`gwcs_blot` is in `Model/Blot.lean`, `compute_weight_threshold` in `Model/WeightThreshold.lean`, the class `MedianComputer` in
`Model/MedianComputer.lean`).

A value is `Option α`, `none` being NaN; infinities are not modelled.  Data types are not modelled.
-/

namespace Verif.Outlier

/-! ### Median of a stack of images -/

/-- An image: list of rows (median.py:330-346). -/
abbrev Img (β : Type) := List (List β)

/-- The shape of an image is (rows, cols) (`data.shape`) (median.py:350). -/
def hasShape {β : Type} (img : Img β) (rows cols : Nat) : Bool :=
  decide (img.length = rows) && img.all fun r => decide (r.length = cols)

/-- `_DiskAppendableArray` (median.py:141-221): shape of a slice, content of the file, number of appends. -/
structure Arr (β : Type) where
  rows : Nat
  cols : Nat
  file : List β
  count : Nat

/-- `_DiskAppendableArray.append` (median.py:190-208); `none` is the `ValueError` for a wrong shape. -/
def Arr.append {β : Type} (a : Arr β) (data : Img β) : Option (Arr β) :=
  if hasShape data a.rows a.cols then some { a with file := a.file ++ data.flatten, count := a.count + 1 } else none

/-- `_DiskAppendableArray.read` (median.py:210-221): element `(k, r, c)` of the file reshaped to (count, rows, cols);
`none` outside. -/
def Arr.read {β : Type} (a : Arr β) (k r c : Nat) : Option β :=
  if k < a.count ∧ r < a.rows ∧ c < a.cols then a.file[(k * a.rows + r) * a.cols + c]? else none

/-- `nanmedian3D` (median.py:21-47) at one pixel of the array of a section, for any statistic `med`. -/
def median3D {β γ : Type} (med : List β → γ) (a : Arr β) (r c : Nat) : γ :=
  med ((List.range a.count).filterMap fun k => a.read k r c)

/-- Smallest integer not below the quotient (`int(np.ceil(a / b))`) (median.py:309). -/
def ceilDiv (a b : Nat) : Nat := (a + b - 1) / b

/-- `_get_buffer_indices` (median.py:271-316): rows of a section.  The quotient of floating-point numbers followed by
`//` is taken exactly. -/
def sectionRows (n rows cols item buffer : Nat) : Nat :=
  let b := if buffer = 0 then rows * cols * item else buffer
  let s := min rows (b / n / (cols * item))
  if s = 0 then 1 else s

/-- `_get_buffer_indices` (median.py:309): number of sections. -/
def nSections (n rows cols item buffer : Nat) : Nat := ceilDiv rows (sectionRows n rows cols item buffer)

/-- `_OnDiskMedian` (median.py:224-269). -/
structure Disk (β : Type) where
  rows : Nat
  cols : Nat
  nsec : Nat
  srows : Nat
  nadds : Nat
  arrs : List (Arr β)

/-- `_OnDiskMedian.__init__` with `_temparray_setup` (median.py:225-269, 318-328). -/
def Disk.init (β : Type) (n rows cols item buffer : Nat) : Disk β :=
  let s := sectionRows n rows cols item buffer
  let m := nSections n rows cols item buffer
  { rows, cols, nsec := m, srows := s, nadds := 0
    arrs := (List.range m).map fun i =>
      { rows := if i = m - 1 then rows - (m - 1) * s else s, cols, file := [], count := 0 } }

/-- Rows `a` up to `b` of an image (`data[a:b]`) (median.py:343-346). -/
def rowSlice {β : Type} (img : Img β) (a b : Nat) : Img β := (img.take b).drop a

/-- `add_image` (median.py:330-355); `none` is an exception. -/
def Disk.add {β : Type} (d : Disk β) (img : Img β) : Option (Disk β) :=
  if d.nadds ≥ d.nsec then none
  else if !hasShape img d.rows d.cols then none
  else
    (d.arrs.zipIdx.mapM fun (p : Arr β × Nat) =>
        p.1.append (rowSlice img (p.2 * d.srows) (min (p.2 * d.srows + d.srows) d.rows))).map
      fun as => { d with nadds := d.nadds + 1, arrs := as }

/-- Adding a list of images one by one (calls of median.py:330-346). -/
def Disk.addAll {β : Type} (d : Disk β) (imgs : List (Img β)) : Option (Disk β) :=
  imgs.foldl (fun acc img => acc.bind fun d => d.add img) (some d)

/-- `compute_median` (median.py:366-391): the image is filled with NaN (`nan`) and every section writes its rows. -/
def Disk.median {β γ : Type} (med : List β → γ) (nan : γ) (d : Disk β) : Nat → Nat → γ :=
  d.arrs.zipIdx.foldl (fun out p r c =>
    if p.2 * d.srows ≤ r ∧ r < min ((p.2 + 1) * d.srows) d.rows ∧ c < d.cols then median3D med p.1 (r - p.2 * d.srows) c
    else out r c) fun _ _ => nan

/-- In-memory computer (median.py:89-138) after the images were appended at indices 0, 1, ...: the median at one pixel. -/
def memMedian {β γ : Type} (med : List β → γ) (imgs : List (Img β)) (r c : Nat) : γ :=
  med (imgs.filterMap fun img => img[r]?.bind fun row => row[c]?)

/-! ### Flagging -/

section
variable {α : Type} [Field α] [LinearOrder α]

/-- An array of values, NaN being `none` (utils.py:89-114). -/
abbrev Arr2 (α : Type) := Nat → Nat → Option α

/-- Absolute difference of two values (utils.py:98, 109). -/
def absDiff (a b : Option α) : Option α :=
  match a, b with
  | some x, some y => some |x - y|
  | _, _ => none

/-- `d > o` for values (utils.py:105, 148). -/
def gt (d o : Option α) : Bool :=
  match d, o with
  | some x, some y => decide (x > y)
  | _, _ => false

/-- First pass of `_abs_deriv` (utils.py:91-99): zeros, NaN, and the difference with the row above where finite. -/
def deriv1 (a : Arr2 α) : Arr2 α := fun r c =>
  let o : Option α := match a r c with
    | none => none
    | some _ => some 0
  if 1 ≤ r then
    match absDiff (a r c) (a (r - 1) c) with
    | some d => some d
    | none => o
  else o

/-- Second pass (utils.py:101-105): maximum with the difference with the row below. -/
def deriv2 (h : Nat) (a o : Arr2 α) : Arr2 α := fun r c =>
  if r + 1 < h then (let d := absDiff (a (r + 1) c) (a r c); if gt d (o r c) then d else o r c) else o r c

/-- Third pass (utils.py:109-111): maximum with the difference with the column to the left. -/
def deriv3 (a o : Arr2 α) : Arr2 α := fun r c =>
  if 1 ≤ c then (let d := absDiff (a r c) (a r (c - 1)); if gt d (o r c) then d else o r c) else o r c

/-- Fourth pass (utils.py:112-113): maximum with the difference with the column to the right. -/
def deriv4 (w : Nat) (a o : Arr2 α) : Arr2 α := fun r c =>
  if c + 1 < w then (let d := absDiff (a r (c + 1)) (a r c); if gt d (o r c) then d else o r c) else o r c

/-- `_abs_deriv` (utils.py:89-114) for an array with `h` rows and `w` columns. -/
def absDeriv (h w : Nat) (a : Arr2 α) : Arr2 α := deriv4 w a (deriv3 a (deriv2 h a (deriv1 a)))

/-- `np.nan_to_num` for values that are not infinite (utils.py:148, 195). -/
def nanToNum (x : Option α) : α := x.getD 0

/-- `flag_crs` (utils.py:117-148). -/
def flagCrs (sci err blot : Arr2 α) (snr : α) : Nat → Nat → Bool := fun r c =>
  gt (absDiff (sci r c) (blot r c)) (some (snr * nanToNum (err r c)))

/-- `diff_noise` (utils.py:198). -/
def diffNoise (sci blot : Arr2 α) (backg : α) : Arr2 α := fun r c =>
  match sci r c, blot r c with
  | some s, some b => some |s - b - backg|
  | _, _ => none

/-- `threshold1`, `threshold2` (utils.py:203, 212). -/
def threshold (scale snr : α) (deriv err : Arr2 α) : Arr2 α := fun r c =>
  (deriv r c).map fun d => scale * d + snr * nanToNum (err r c)

/-- Index clamped to the array (`mode="nearest"`) (utils.py:208). -/
def clampIdx (n : Nat) (i : Int) : Nat := (max 0 (min i ((n : Int) - 1))).toNat

/-- Convolution of a Boolean image with a 3x3 box of ones (utils.py:206-208): true where the sum is not zero. -/
def dilate3 (h w : Nat) (m : Nat → Nat → Bool) : Nat → Nat → Bool := fun r c =>
  [(-1 : Int), 0, 1].any fun dr => [(-1 : Int), 0, 1].any fun dc =>
    m (clampIdx h ((r : Int) - dr)) (clampIdx w ((c : Int) - dc))

/-- `flag_resampled_crs` (utils.py:151-216) for images with `h` rows and `w` columns. -/
def flagResampled (h w : Nat) (sci err blot : Arr2 α) (snr1 snr2 scale1 scale2 backg : α) : Nat → Nat → Bool :=
  let deriv := absDeriv h w blot
  let dn := diffNoise sci blot backg
  let mask1 := fun r c => gt (dn r c) (threshold scale1 snr1 deriv err r c)
  let mask2 := fun r c => gt (dn r c) (threshold scale2 snr2 deriv err r c)
  let smoothed := dilate3 h w mask1
  fun r c => smoothed r c && mask2 r c

/-! ### Median filter -/

/-- `np.pad(arr, [[k // 2] ...])` (utils.py:47) for an array with `h` rows and `w` columns: zeros around. -/
def padZero (h w k l : Nat) (a : Arr2 α) : Arr2 α := fun r c =>
  if k / 2 ≤ r ∧ r < h + k / 2 ∧ l / 2 ≤ c ∧ c < w + l / 2 then a (r - k / 2) (c - l / 2) else some 0

/-- `medfilt` (utils.py:27-51) with a two-dimensional kernel `k` by `l`: size of the result and its values. -/
def medfilt (h w k l : Nat) (a : Arr2 α) : (Nat × Nat) × Arr2 α :=
  ((h + 2 * (k / 2) + 1 - k, w + 2 * (l / 2) + 1 - l), fun r c =>
    Verif.Jump.nanmedian ((List.range k).flatMap fun i => (List.range l).map fun j =>
      padZero h w k l a (r + i) (c + j)))

end

end Verif.Outlier
