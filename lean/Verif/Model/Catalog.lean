import Mathlib.Algebra.Order.Field.Basic
import Mathlib.Analysis.SpecialFunctions.Trigonometric.Basic

/-!
# Reference catalogues

Model of the partition search in `src/stcal/tweakreg/_s3_catalog.py`, of the source limit in
`src/stcal/tweakreg/astrometric_utils.py` and of the catalogue filter in `src/stcal/tweakreg/tweakreg.py`.
-/

namespace Verif.Catalog

/-! ### Partitions -/

/-- `_generate_depth_29_ranges` (_s3_catalog.py:86-88).  Integers are unbounded; the depth is at most 29. -/
def ranges (pixels : List Nat) (depth : Nat) : List (Nat × Nat) :=
  pixels.map fun i => (i <<< ((29 - depth) * 2), (i + 1) <<< ((29 - depth) * 2))

/-- The loop over depths (_s3_catalog.py:102-108): `pixels_by_depth` (lines 95-99) holds `i` at `depth` exactly when the
pair is in the list of partitions. -/
def lookup (cat : List (Nat × Nat)) (minDepth : Nat) : Nat → Nat → Option (Nat × Nat)
  | 0, i => if 0 < minDepth then none else if (0, i) ∈ cat then some (0, i) else none
  | d + 1, i =>
    if d + 1 < minDepth then none else if (d + 1, i) ∈ cat then some (d + 1, i) else lookup cat minDepth d (i >>> 2)

/-- The set of matches (_s3_catalog.py:100-108), as a list without repetition. -/
def matches_ (cat : List (Nat × Nat)) (minDepth searchDepth : Nat) : List Nat → List (Nat × Nat)
  | [] => []
  | i :: rest =>
    let m := matches_ cat minDepth searchDepth rest
    match lookup cat minDepth searchDepth i with
    | none => m
    | some p => if p ∈ m then m else p :: m

/-- `_find_pixels_in_catalog` (_s3_catalog.py:91-109); `none` is the `ValueError` for a search depth below all partitions (line
94), or of the minimum of no partition (line 92).  The order of the resulting list (that of a Python set) has no meaning. -/
def findPixels (cat : List (Nat × Nat)) (search : List Nat) (searchDepth : Nat) : Option (List (Nat × Nat)) :=
  match (cat.map Prod.fst).min? with
  | none => none
  | some minDepth => if searchDepth < minDepth then none else some (matches_ cat minDepth searchDepth search)

/-- The filters (_s3_catalog.py:121-127) applied to a spatial index: one of the ranges contains it. -/
def passes (dr : List (Nat × Nat)) (k : Nat) : Bool := dr.any fun r => decide (r.1 ≤ k) && decide (k < r.2)

/-- `_get_hats_sources` (_s3_catalog.py:154-175) up to the final filter: `file p` are the rows of a partition, `index` is
the column `_healpix_29` of a row, and `cone` is the result of the cone search at the greatest depth. -/
def readRows {ρ : Type} (cat : List (Nat × Nat)) (cone : Nat → List Nat) (file : Nat × Nat → List ρ) (index : ρ → Nat) :
    Option (List ρ) :=
  match (cat.map Prod.fst).max? with
  | none => none
  | some maxDepth =>
    (findPixels cat (cone maxDepth) maxDepth).map fun ps =>
      (ps.flatMap file).filter fun r => passes (ranges (cone maxDepth) maxDepth) (index r)

/-! ### The accurate cone search -/

/-- `np.radians` (_s3_catalog.py:140-143, 150). -/
noncomputable def radians (x : ℝ) : ℝ := x * (Real.pi / 180)

/-- The condition of `_filter_table` (_s3_catalog.py:139-151) on a row at `(ra, dec)`. -/
def Kept (ra dec ra0 dec0 radius : ℝ) : Prop :=
  let cosAngle := Real.sin (radians dec) * Real.sin (radians dec0) +
    Real.cos (radians dec) * Real.cos (radians dec0) * Real.cos (radians ra - radians ra0)
  Real.cos (radians radius) ≤ max (-1) (min cosAngle 1)

/-! ### Source limit -/

section Slice
variable {ρ : Type}

/-- `table[:i]` (astrometric_utils.py:109). -/
def sliceTo (t : List ρ) (i : Int) : List ρ := if 0 ≤ i then t.take i.toNat else t.take (t.length - (-i).toNat)

/-- `table[i:]` (astrometric_utils.py:109). -/
def sliceFrom (t : List ρ) (i : Int) : List ρ := if 0 ≤ i then t.drop i.toNat else t.drop (t.length - (-i).toNat)

/-- `create_astrometric_catalog` (astrometric_utils.py:100-109).  `sort` is `Table.sort("mag", reverse=True)`, of which the theorems
use only that it is a permutation in descending order; masked magnitudes are not modelled. -/
def limitSources (sort : List ρ → List ρ) (t : List ρ) (numSources : Option Int) : List ρ :=
  let s := sort t
  match numSources with
  | none => s
  | some n => let indx := -1 * n; if n < 0 then sliceTo s indx else sliceFrom s indx

end Slice

/-! ### Bounding box -/

section Box
variable {α : Type} [LinearOrder α] {ρ : Type}

/-- `a > b` for a position that may be NaN (tweakreg.py:379). -/
def gt (a : Option α) (b : α) : Bool := match a with | none => false | some a => decide (b < a)

/-- `a < b` for a position that may be NaN (tweakreg.py:379). -/
def lt (a : Option α) (b : α) : Bool := match a with | none => false | some a => decide (a < b)

/-- `filter_catalog_by_bounding_box` (tweakreg.py:370-380). -/
def filterBox (x y : ρ → Option α) (cat : List ρ) (box : Option ((α × α) × (α × α))) : List ρ :=
  match box with
  | none => cat
  | some ((xmin, xmax), (ymin, ymax)) =>
    cat.filter fun r => gt (x r) xmin && lt (x r) xmax && gt (y r) ymin && lt (y r) ymax

end Box

end Verif.Catalog
