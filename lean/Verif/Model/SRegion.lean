import Mathlib.Algebra.Order.Field.Basic
import Mathlib.Algebra.Order.Floor.Ring
import Mathlib.Data.Rat.Floor
import Mathlib.Data.List.DropRight
import Verif.Model.Resample

/-!
# S_REGION strings

Model of the writing and parsing of footprints in `src/stcal/alignment/util.py` and
`src/stcal/alignment/resample_utils.py`.  Strings are lists of characters.
-/

namespace Verif.SRegion
open Verif.Resample (Fl)

/-- The digit `d` (used by the `{:.9f}` fields, util.py:625 and resample_utils.py:96). -/
def digit (d : Nat) : Char := Char.ofNat (48 + d)

/-- Decimal digits of a natural number (integer part of the `{:.9f}` fields, util.py:625, resample_utils.py:96). -/
def natChars (n : Nat) : List Char := if n < 10 then [digit n] else natChars (n / 10) ++ [digit (n % 10)]

/-- The last `k` decimal digits, with zeros in front (fraction of the `{:.9f}` fields, util.py:625, resample_utils.py:96). -/
def fracChars : Nat → Nat → List Char
  | 0, _ => []
  | k + 1, n => fracChars k (n / 10) ++ [digit (n % 10)]

section Num
variable {α : Type} [Field α] [LinearOrder α] [FloorRing α]

/-- Rounding to the nearest integer, halves to even (as the `{:.9f}` fields do, util.py:625, resample_utils.py:96). -/
def roundEven (y : α) : Int :=
  if y - ⌊y⌋ < 1 / 2 then ⌊y⌋ else if 1 / 2 < y - ⌊y⌋ then ⌊y⌋ + 1 else if ⌊y⌋ % 2 = 0 then ⌊y⌋ else ⌊y⌋ + 1

/-- `f"{x:.9f}"` for a number (util.py:625, resample_utils.py:96).  Numbers are exact, and a negative number keeps its sign even when
all digits written are zero; the negative zero of floating point is not modelled. -/
def fmt9 (x : α) : List Char :=
  let n := (roundEven (|x| * 10 ^ 9)).toNat
  (if x < 0 then ['-'] else []) ++ natChars (n / 10 ^ 9) ++ '.' :: fracChars 9 n

/-- `f"{x:.9f}"` (util.py:625, resample_utils.py:96). -/
def fmtFl : Fl α → List Char
  | .num x => fmt9 x
  | .nan => "nan".toList
  | .posInf => "inf".toList
  | .negInf => "-inf".toList

/-- Joining with single blanks (resample_utils.py:96, the blanks between the fields of util.py:625). -/
def joinBlank : List (List Char) → List Char
  | [] => []
  | [t] => t
  | t :: ts => t ++ ' ' :: joinBlank ts

/-- The head of a polygon in an S_REGION string (util.py:625, resample_utils.py:97). -/
def polyHead : List Char := "POLYGON ICRS  ".toList

/-- White space (`strip` of resample_utils.py:98, `split` of util.py:337); only the four usual characters. -/
def isWs (c : Char) : Bool := c = ' ' || c = '\t' || c = '\n' || c = '\r'

/-- `str.strip` (resample_utils.py:98). -/
def strip (s : List Char) : List Char := (s.dropWhile isWs).rdropWhile isWs

/-- `_polygons_to_sregion` (resample_utils.py:79-98). -/
def polygonsText (polys : List (List (Fl α × Fl α))) : List Char :=
  strip (polys.map fun p => polyHead ++ joinBlank (p.map fun v => fmtFl v.1 ++ ' ' :: fmtFl v.2) ++ [' ', ' ']).flatten

/-- Result of `compute_s_region_keyword` (util.py:625-633): an exception, no keyword, or a string. -/
inductive Keyword where
  | error
  | none
  | text (s : List Char)

/-- `compute_s_region_keyword` (util.py:612-633): `str.format` with eight fields raises an exception for less than eight
coordinates and ignores those beyond the eighth. -/
def keyword (fp : List (Fl α × Fl α)) : Keyword :=
  let cs := (fp.map fun v => [v.1, v.2]).flatten
  if cs.length < 8 then .error
  else
    let s := polyHead ++ joinBlank ((cs.take 8).map fmtFl)
    if "nan".toList <:+: s then .none else .text s

/-- The letters removed by `re.sub(r"[a-zA-Z]", "", s_region)` (util.py:336). -/
def isLetter (c : Char) : Bool := ('a' ≤ c && c ≤ 'z') || ('A' ≤ c && c ≤ 'Z')

/-- `str.split` (util.py:337). -/
def words (s : List Char) : List (List Char) := (s.splitOnP isWs).filter fun w => !w.isEmpty

/-- Value of a list of digits; `none` if another character occurs (conversion to `float`,
util.py:337). -/
def digitsVal (s : List Char) : Option Nat :=
  s.foldl (fun acc c => acc.bind fun a => if 48 ≤ c.toNat && c.toNat ≤ 57 then some (10 * a + (c.toNat - 48)) else none) (some 0)

/-- `float(s)` (util.py:337) for strings of the form digits, point, digits; `none` is the `ValueError`.  Exponents and words cannot occur
here (letters have been removed); underscores are not modelled. -/
def parseUnsigned (s : List Char) : Option α :=
  let ip := s.takeWhile fun c => c ≠ '.'
  let fp := (s.dropWhile fun c => c ≠ '.').tail
  if (ip ++ fp).isEmpty then none else (digitsVal (ip ++ fp)).map fun (n : Nat) => (n : α) / 10 ^ fp.length

/-- `float(s)`, with sign (util.py:337).  The result is exact. -/
def parseFloat (s : List Char) : Option α :=
  match s with
  | '-' :: t => (parseUnsigned t).map fun x => -x
  | '+' :: t => parseUnsigned t
  | t => parseUnsigned t

/-- `reshape(-1, 2)` (util.py:337); `none` is the `ValueError` for an odd number of coordinates. -/
def pairs : List α → Option (List (α × α))
  | [] => some []
  | [_] => none
  | a :: b :: t => (pairs t).map fun r => (a, b) :: r

/-- `sregion_to_footprint` (util.py:322-337). -/
def parse (s : List Char) : Option (List (α × α)) :=
  ((words (s.filter fun c => !isLetter c)).mapM parseFloat).bind pairs

end Num

end Verif.SRegion
