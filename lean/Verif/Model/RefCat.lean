import Verif.Model.Angles
import Verif.Model.Catalog
import Verif.Model.SRegion
import Mathlib.Analysis.SpecialFunctions.Trigonometric.Inverse

/-!
# Reference catalogues

Model of `compute_radius` and the rows chosen by `get_catalog` (tweakreg/astrometric_utils.py), of `_correct_for_proper_motion`,
`_pixels_to_paths`, `_get_hats_sources` and `get_s3_catalog` (tweakreg/_s3_catalog.py), and of the choice of a catalogue in `_parse_refcat`
(tweakreg/tweakreg.py).  Files, network, timeouts and the orbit of the Earth are parameters.
-/

namespace Verif.RefCat

open Verif.Aberration (Vec dot)
open Verif.Angles
open Verif.SRegion (natChars strip)

/-! ## Search radius -/

/-- `SkyCoord.separation` in degrees (astrometric_utils.py:128): the angle between two directions. -/
noncomputable def separation (p q : ℝ × ℝ) : ℝ := deg (Real.arccos (dot (toVec p) (toVec q)))

/-- `compute_radius` (astrometric_utils.py:118-130): radius and fiducial point; `foot` is the footprint of the WCS, which has no spectral
axis, `junk` as in `computeFiducial`.  `none` is the ValueError for no vertices. -/
noncomputable def computeRadius (junk : (ℝ × ℝ) × ℝ) (foot : List (ℝ × ℝ)) : Option (ℝ × (ℝ × ℝ)) :=
  match computeFiducial junk foot [] with
  | none => none
  | some f => (foot.map (separation f.1)).max?.map fun r => (r, f.1)

/-! ## Proper motion and parallax -/

/-- A row of the catalogue (columns of _s3_catalog.py:23-37); a masked entry is `none`.  `ρ` are the columns not used here. -/
structure Src (ρ : Type) where
  ra : ℝ
  dec : ℝ
  refEpoch : ℝ
  pmra : Option ℝ
  pmdec : Option ℝ
  parallax : Option ℝ
  rest : ρ

variable {ρ : Type}

/-- `radpermas` (_s3_catalog.py:54). -/
noncomputable def radPerMas : ℝ := Real.pi / (180 * 3600 * 1000)

/-- `unit_vectors()["lon"]` (_s3_catalog.py:49-50). -/
noncomputable def raHat (p : ℝ × ℝ) : Vec := ⟨-Real.sin (rad p.1), Real.cos (rad p.1), 0⟩

/-- `unit_vectors()["lat"]` (_s3_catalog.py:49, 51). -/
noncomputable def decHat (p : ℝ × ℝ) : Vec :=
  ⟨-Real.sin (rad p.2) * Real.cos (rad p.1), -Real.sin (rad p.2) * Real.sin (rad p.1), Real.cos (rad p.2)⟩

/-- `newxyz` of a row (_s3_catalog.py:43-59); `earth` is the position of the Earth. -/
noncomputable def newVec (earth : Vec) (dt : ℝ) (p : ℝ × ℝ) (pmra pmdec plx : ℝ) : Vec :=
  let u := toVec p
  let e := raHat p
  let n := decHat p
  let f (x a b : ℝ) : ℝ := x + a * dt * radPerMas * pmra + b * dt * radPerMas * pmdec -
    (a * dot earth e * plx * radPerMas + b * dot earth n * plx * radPerMas)
  ⟨f u.x e.x n.x, f u.y e.y n.y, f u.z e.z n.z⟩

/-- A row after the correction (_s3_catalog.py:43-67), `none` if the row is removed (lines 41-42).  Longitudes are wrapped at 360
degrees (astropy). -/
noncomputable def moveStar (earth : ℝ → Vec) (epoch : ℝ) (s : Src ρ) : Option (Src ρ) :=
  match s.pmra, s.pmdec, s.parallax with
  | some a, some b, some c =>
    let q := toAngles (newVec (earth epoch) (epoch - s.refEpoch) (s.ra, s.dec) a b c)
    some { s with ra := q.1, dec := q.2 }
  | _, _, _ => none

/-- `_correct_for_proper_motion` (_s3_catalog.py:40-68); `earth` is the barycentric position of the Earth in AU at an epoch (package
astropy). -/
noncomputable def correct (earth : ℝ → Vec) (epoch : ℝ) (t : List (Src ρ)) : List (Src ρ) := t.filterMap (moveStar earth epoch)

open Classical in
/-- `_filter_table` (_s3_catalog.py:139-151). -/
noncomputable def filterTable (c : ℝ × ℝ) (radius : ℝ) (t : List (Src ρ)) : List (Src ρ) :=
  t.filter fun s => decide (Verif.Catalog.Kept s.ra s.dec c.1 c.2 radius)

/-- `_get_hats_sources` (_s3_catalog.py:154-178): `parts` are the partitions of the catalogue, `cone depth` is the result of the cone search
around `c`, `file` the rows of a partition and `index` the column `_healpix_29`. -/
noncomputable def hatsSources (parts : List (Nat × Nat)) (cone : Nat → List Nat) (file : Nat × Nat → List (Src ρ)) (index : Src ρ → Nat)
    (c : ℝ × ℝ) (radius : ℝ) : Option (List (Src ρ)) :=
  (Verif.Catalog.readRows parts cone file index).map (filterTable c radius)

open Classical in
/-- `get_s3_catalog` (_s3_catalog.py:218-232) without the copied columns; the name of the catalogue is one of the known ones. -/
noncomputable def s3Catalog (earth : ℝ → Vec) (parts : List (Nat × Nat)) (cone : Nat → List Nat) (file : Nat × Nat → List (Src ρ))
    (index : Src ρ → Nat) (c : ℝ × ℝ) (radius : ℝ) (epoch : Option ℝ) : Option (List (Src ρ)) :=
  match hatsSources parts cone file index c radius, epoch with
  | none, _ => none
  | some t, none => some t
  | some t, some e => if e ≠ 0 then some (correct earth e t) else some t

/-- The rows chosen by `get_catalog` from an answer of the web service (astrometric_utils.py:209-217); `hasMask` tells whether the column of
proper motions in right ascension and in declination has a mask. -/
noncomputable def voRows (hasMask : Bool × Bool) (epoch : Option ℝ) (t : List (Src ρ)) : List (Src ρ) :=
  match epoch with
  | none => t
  | some e =>
    open Classical in
    if e ≠ 0 ∧ t ≠ [] then
      t.filter fun s => !((hasMask.1 && s.pmra.isNone) || (hasMask.2 && s.pmdec.isNone))
    else t

/-- `create_astrometric_catalog` (astrometric_utils.py:80-109) for a catalogue on S3, without renaming columns and writing the table; `cone c r` is the cone
search of radius `r` around `c`, `sort` and `num` as in `Verif.Catalog.limitSources`.  An empty table is returned as it is (lines 87-88). -/
noncomputable def createCatalog (junk : (ℝ × ℝ) × ℝ) (foot : List (ℝ × ℝ)) (earth : ℝ → Vec) (parts : List (Nat × Nat))
    (cone : ℝ × ℝ → ℝ → Nat → List Nat) (file : Nat × Nat → List (Src ρ)) (index : Src ρ → Nat) (epoch : Option ℝ)
    (sort : List (Src ρ) → List (Src ρ)) (num : Option Int) : Option (List (Src ρ)) :=
  (computeRadius junk foot).bind fun rf =>
    (s3Catalog earth parts (cone rf.2 rf.1) file index rf.2 rf.1 epoch).map fun t =>
      if t.length = 0 then t else Verif.Catalog.limitSources sort t num

/-- Waiting for the reading of the catalogue (_s3_catalog.py:221-225): what the call gives (`none`: TimeoutError) and when.  `work` is the time the
reading takes.  Leaving the `with` statement waits for the worker (`ThreadPoolExecutor.__exit__` calls `shutdown(wait=True)`). -/
def waitFor {β : Type} (work timeout : Nat) (r : β) : Option β × Nat :=
  let at_ := min work timeout
  (if work ≤ timeout then some r else none, max at_ work)

/-! ## Paths of partitions -/

/-- `int(number / 10000) * 10000` (_s3_catalog.py:116); `fl` is the rounding of the quotient. -/
def directory (fl : ℚ → ℚ) (number : Nat) : Nat := (⌊fl ((number : ℚ) / 10000)⌋).toNat * 10000

/-- `_pixels_to_paths` (_s3_catalog.py:112-118). -/
def paths (fl : ℚ → ℚ) (pixels : List (Nat × Nat)) (fsPath : List Char) : List (List Char) :=
  pixels.map fun p => fsPath ++ "/dataset/Norder=".toList ++ natChars p.1 ++ "/Dir=".toList ++ natChars (directory fl p.2) ++
    "/Npix=".toList ++ natChars p.2 ++ ".parquet".toList

/-! ## Choice of a catalogue -/

/-- Where the reference catalogue comes from (tweakreg.py:253-282). -/
inductive Source where
  /-- A catalogue of this name, written to a file of this name if asked for (tweakreg.py:253-270). -/
  | query (name : List Char) (output : Option (List Char))
  /-- A file (tweakreg.py:272-275). -/
  | file (path : List Char)
  /-- The ValueError (tweakreg.py:277-282). -/
  | error
  deriving DecidableEq

/-- `SINGLE_GROUP_REFCAT` (tweakreg.py:27, astrometric_utils.py:12, _s3_catalog.py:18-21). -/
def refcatNames : List (List Char) :=
  ["GAIAREFCAT".toList, "GAIADR3".toList, "GAIADR2".toList, "GAIADR1".toList, "GAIADR3_S3".toList]

/-- `str.upper` of a character (tweakreg.py:252), ASCII only. -/
def up (c : Char) : Char := if 97 ≤ c.toNat ∧ c.toNat ≤ 122 then Char.ofNat (c.toNat - 32) else c

/-- `str.lower` of a character (tweakreg.py:247), ASCII only. -/
def low (c : Char) : Char := if 65 ≤ c.toNat ∧ c.toNat ≤ 90 then Char.ofNat (c.toNat + 32) else c

/-- `_parse_refcat` (tweakreg.py:245-282) up to the contents; `dir` is the output directory, joined with a slash. -/
def parseRefcat (isFile : List Char → Bool) (abs : List Char) (save : Bool) (dir : Option (List Char)) : Source :=
  let abs := strip abs
  let root := "fit_".toList ++ abs.map low ++ "_ref.ecsv".toList
  let output := if save then
      (match dir with
        | none => some root
        | some d => some (d ++ '/' :: root))
    else none
  if abs.map up ∈ refcatNames then .query (abs.map up) output else if isFile abs then .file abs else .error

end Verif.RefCat
