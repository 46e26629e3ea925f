import Mathlib.Data.List.DropRight
import Mathlib.Data.List.Induction
import Mathlib.Tactic.Linarith
import Mathlib.Tactic.FieldSimp
import Mathlib.Tactic.Ring
import Mathlib.Tactic.Positivity
import Verif.Model.SRegion

/-! # S_REGION strings (C58) -/

set_option linter.unusedSectionVars false

namespace Verif.Thm
open Verif.SRegion
open Verif.Resample (Fl)

/-! ### Digits -/

/-- Characters of the numbers written. -/
def SrDigit (c : Char) : Prop := 48 ≤ c.toNat ∧ c.toNat ≤ 57

theorem sr_digit (d : Nat) (h : d < 10) : (digit d).toNat = 48 + d := by
  have : d = 0 ∨ d = 1 ∨ d = 2 ∨ d = 3 ∨ d = 4 ∨ d = 5 ∨ d = 6 ∨ d = 7 ∨ d = 8 ∨ d = 9 := by omega
  rcases this with rfl | rfl | rfl | rfl | rfl | rfl | rfl | rfl | rfl | rfl <;> decide

theorem sr_digit_ok (d : Nat) (h : d < 10) : SrDigit (digit d) := by
  simp only [SrDigit, sr_digit d h]
  omega

theorem sr_natChars_ok (n : Nat) : ∀ c ∈ natChars n, SrDigit c := by
  induction n using Nat.strong_induction_on with
  | _ n ih =>
    intro c hc
    rw [natChars] at hc
    split at hc
    · rw [List.mem_singleton] at hc
      subst hc
      exact sr_digit_ok n (by assumption)
    · rw [List.mem_append, List.mem_singleton] at hc
      rcases hc with hc | rfl
      · exact ih (n / 10) (by omega) c hc
      · exact sr_digit_ok _ (by omega)

theorem sr_natChars_ne (n : Nat) : natChars n ≠ [] := by
  rw [natChars]
  split <;> simp

theorem sr_fracChars_ok (k n : Nat) : ∀ c ∈ fracChars k n, SrDigit c := by
  induction k generalizing n with
  | zero => simp [fracChars]
  | succ k ih =>
    intro c hc
    rw [fracChars, List.mem_append, List.mem_singleton] at hc
    rcases hc with hc | rfl
    · exact ih (n / 10) c hc
    · exact sr_digit_ok _ (by omega)

theorem sr_fracChars_length (k n : Nat) : (fracChars k n).length = k := by
  induction k generalizing n with
  | zero => rfl
  | succ k ih => rw [fracChars, List.length_append, ih]; rfl

theorem sr_digitsVal_snoc (s : List Char) (d : Nat) (h : d < 10) :
    digitsVal (s ++ [digit d]) = (digitsVal s).map fun a => 10 * a + d := by
  simp only [digitsVal, List.foldl_append, List.foldl_cons, List.foldl_nil, sr_digit d h]
  have : (decide (48 ≤ 48 + d) && decide (48 + d ≤ 57)) = true := by
    simp only [Bool.and_eq_true, decide_eq_true_eq]
    omega
  simp only [this, if_true]
  rcases List.foldl _ (some 0) s with _ | a <;> simp

theorem sr_digitsVal_nat (n : Nat) : digitsVal (natChars n) = some n := by
  induction n using Nat.strong_induction_on with
  | _ n ih =>
    rw [natChars]
    split
    · rename_i h
      have := sr_digitsVal_snoc [] n h
      simpa [digitsVal] using this
    · rw [sr_digitsVal_snoc _ _ (by omega), ih (n / 10) (by omega)]
      simp only [Option.map_some, Option.some.injEq]
      omega

theorem sr_digitsVal_frac (s : List Char) (a : Nat) (hs : digitsVal s = some a) (k n : Nat) :
    digitsVal (s ++ fracChars k n) = some (a * 10 ^ k + n % 10 ^ k) := by
  induction k generalizing n with
  | zero => simp [fracChars, hs, Nat.mod_one]
  | succ k ih =>
    rw [fracChars, ← List.append_assoc, sr_digitsVal_snoc _ _ (by omega), ih]
    simp only [Option.map_some, Option.some.injEq]
    rw [pow_succ, mul_comm (10 ^ k) 10, Nat.mod_mul]
    ring

section Num
variable {α : Type} [Field α] [LinearOrder α] [IsStrictOrderedRing α] [FloorRing α]

theorem sr_roundEven (y : α) : |(roundEven y : α) - y| ≤ 1 / 2 := by
  have h1 := Int.floor_le y
  have h2 := Int.lt_floor_add_one y
  rw [abs_le]
  simp only [roundEven]
  split
  · constructor <;> linarith
  · split
    · push_cast
      constructor <;> linarith
    · split
      · constructor <;> linarith
      · push_cast
        constructor <;> linarith

theorem sr_roundEven_nonneg (y : α) (h : 0 ≤ y) : 0 ≤ roundEven y := by
  have := Int.floor_nonneg.2 h
  simp only [roundEven]
  split
  · exact this
  · split
    · omega
    · split <;> omega

/-- The value written. -/
def srValue (x : α) : α :=
  if x < 0 then -(((roundEven (|x| * 10 ^ 9)).toNat : α) / 10 ^ 9) else ((roundEven (|x| * 10 ^ 9)).toNat : α) / 10 ^ 9

theorem sr_value_close (x : α) : |srValue x - x| ≤ 1 / 2 / 10 ^ 9 := by
  have h0 : (0 : α) ≤ |x| * 10 ^ 9 := by positivity
  have h1 := sr_roundEven (|x| * 10 ^ 9)
  have h2 : (((roundEven (|x| * 10 ^ 9)).toNat : Nat) : α) = ((roundEven (|x| * 10 ^ 9) : Int) : α) := by
    have : (((roundEven (|x| * 10 ^ 9)).toNat : Int)) = roundEven (|x| * 10 ^ 9) :=
      Int.toNat_of_nonneg (sr_roundEven_nonneg _ h0)
    exact_mod_cast congrArg (fun z : Int => (z : α)) this
  simp only [srValue, h2]
  generalize ((roundEven (|x| * 10 ^ 9) : Int) : α) = r at *
  have h3 : |r / 10 ^ 9 - (|x|)| ≤ 1 / 2 / 10 ^ 9 := by
    have : r / 10 ^ 9 - |x| = (r - |x| * 10 ^ 9) / 10 ^ 9 := by field_simp
    rw [this, abs_div, abs_of_pos (by positivity : (0 : α) < 10 ^ 9)]
    exact div_le_div_of_nonneg_right h1 (by positivity)
  split
  · rename_i hx
    rw [abs_of_neg hx] at h3
    rw [← abs_neg]
    have : -(-(r / 10 ^ 9) - x) = r / 10 ^ 9 - -x := by ring
    rwa [this]
  · rename_i hx
    rwa [abs_of_nonneg (not_lt.1 hx)] at h3

theorem sr_digit_ne (c d : Char) (h : SrDigit c) (hd : ¬ SrDigit d) : c ≠ d := by
  rintro rfl
  exact hd h

theorem sr_point : ¬ SrDigit '.' := by simp only [SrDigit]; decide
theorem sr_minus : ¬ SrDigit '-' := by simp only [SrDigit]; decide
theorem sr_plus : ¬ SrDigit '+' := by simp only [SrDigit]; decide

theorem sr_parseUnsigned (n : Nat) :
    parseUnsigned (α := α) (natChars (n / 10 ^ 9) ++ '.' :: fracChars 9 n) = some ((n : α) / 10 ^ 9) := by
  have hall : ∀ c ∈ natChars (n / 10 ^ 9), decide (c ≠ '.') = true := by
    intro c hc
    simpa using sr_digit_ne c '.' (sr_natChars_ok _ c hc) sr_point
  have h1 : (natChars (n / 10 ^ 9) ++ '.' :: fracChars 9 n).takeWhile (fun c => decide (c ≠ '.')) = natChars (n / 10 ^ 9) := by
    rw [List.takeWhile_append_of_pos hall]
    simp
  have h2 : (natChars (n / 10 ^ 9) ++ '.' :: fracChars 9 n).dropWhile (fun c => decide (c ≠ '.')) = '.' :: fracChars 9 n := by
    rw [List.dropWhile_append_of_pos hall]
    simp
  rw [parseUnsigned, h1, h2]
  change (if (natChars (n / 10 ^ 9) ++ fracChars 9 n).isEmpty = true then none else
    (digitsVal (natChars (n / 10 ^ 9) ++ fracChars 9 n)).map fun (m : Nat) => (m : α) / 10 ^ (fracChars 9 n).length) = _
  rw [if_neg (by simp [sr_natChars_ne]), sr_digitsVal_frac _ _ (sr_digitsVal_nat _), sr_fracChars_length]
  simp only [Option.map_some, Option.some.injEq]
  rw [Nat.div_add_mod' n (10 ^ 9)]

theorem sr_parse_fmt9 (x : α) : parseFloat (fmt9 x) = some (srValue x) := by
  simp only [fmt9, srValue]
  generalize (roundEven (|x| * 10 ^ 9)).toNat = n
  split
  · simp only [List.cons_append, List.nil_append, parseFloat]
    rw [sr_parseUnsigned]
    rfl
  · simp only [List.nil_append]
    rcases hd : natChars (n / 10 ^ 9) with _ | ⟨c, t⟩
    · exact absurd hd (sr_natChars_ne _)
    · have hc := sr_natChars_ok (n / 10 ^ 9) c (by rw [hd]; simp)
      have hm := sr_digit_ne c '-' hc sr_minus
      have hp := sr_digit_ne c '+' hc sr_plus
      have := sr_parseUnsigned (α := α) n
      rw [hd] at this
      simp only [List.cons_append] at this ⊢
      rw [parseFloat]
      · exact this
      · intro t' h; injection h with h _; exact hm h
      · intro t' h; injection h with h _; exact hp h

/-- Characters of a token: neither blanks nor letters. -/
theorem sr_fmt9_chars (x : α) : ∀ c ∈ fmt9 x, isWs c = false ∧ isLetter c = false := by
  have hdig : ∀ c, SrDigit c → isWs c = false ∧ isLetter c = false := by
    intro c hc
    constructor
    · simp only [isWs, Bool.or_eq_false_iff, decide_eq_false_iff_not]
      refine ⟨⟨⟨?_, ?_⟩, ?_⟩, ?_⟩ <;> refine sr_digit_ne c _ hc ?_ <;> simp only [SrDigit] <;> decide
    · have h57 : c.toNat ≤ 57 := hc.2
      have e : ∀ a : Char, a ≤ c ↔ a.toNat ≤ c.toNat := by
        intro a
        exact Char.le_def.trans (UInt32.le_iff_toNat_le)
      simp only [isLetter, Bool.or_eq_false_iff, Bool.and_eq_false_iff, decide_eq_false_iff_not]
      constructor <;> left <;> rw [e] <;> intro h
      · have : 'a'.toNat = 97 := by decide
        omega
      · have : 'A'.toNat = 65 := by decide
        omega
  intro c hc
  simp only [fmt9, List.mem_append, List.mem_cons] at hc
  rcases hc with (hc | hc) | rfl | hc
  · split at hc
    · rw [List.mem_singleton] at hc
      subst hc
      decide
    · simp at hc
  · exact hdig c (sr_natChars_ok _ c hc)
  · decide
  · exact hdig c (sr_fracChars_ok _ _ c hc)

theorem sr_fmt9_ne (x : α) : fmt9 x ≠ [] := by
  simp [fmt9]

/-! ### Words -/

theorem sr_words_append (a b : List Char) (c : Char) (hc : isWs c = true) : words (a ++ c :: b) = words a ++ words b := by
  simp only [words]
  rw [List.splitOnP_append_cons _ _ hc, List.filter_append]

theorem sr_words_nil : words [] = [] := by simp [words]

theorem sr_words_cons (b : List Char) (c : Char) (hc : isWs c = true) : words (c :: b) = words b := by
  have := sr_words_append [] b c hc
  rwa [sr_words_nil, List.nil_append, List.nil_append] at this

theorem sr_words_snoc (a : List Char) (c : Char) (hc : isWs c = true) : words (a ++ [c]) = words a := by
  rw [sr_words_append a [] c hc, sr_words_nil, List.append_nil]

theorem sr_words_token (t : List Char) (hne : t ≠ []) (h : ∀ c ∈ t, isWs c = false) : words t = [t] := by
  simp only [words]
  rw [List.splitOnP_eq_singleton h]
  simp [hne]

theorem sr_words_dropWhile (s : List Char) : words (s.dropWhile isWs) = words s := by
  induction s with
  | nil => rfl
  | cons c s ih =>
    by_cases hc : isWs c = true
    · rw [List.dropWhile_cons_of_pos hc, ih, sr_words_cons s c hc]
    · rw [List.dropWhile_cons_of_neg hc]

theorem sr_words_rdropWhile (s : List Char) : words (s.rdropWhile isWs) = words s := by
  induction s using List.reverseRecOn with
  | nil => rfl
  | append_singleton s c ih =>
    by_cases hc : isWs c = true
    · rw [List.rdropWhile_concat_pos _ _ _ hc, ih, sr_words_snoc s c hc]
    · rw [List.rdropWhile_concat_neg _ _ _ hc]

/-- Without letters. -/
def srNoLetters (s : List Char) : List Char := s.filter fun c => !isLetter c

theorem sr_noLetters_ws (c : Char) (hc : isWs c = true) : isLetter c = false := by
  simp only [isWs, Bool.or_eq_true, decide_eq_true_eq] at hc
  rcases hc with ((rfl | rfl) | rfl) | rfl <;> decide

theorem sr_noLetters_dropWhile (s : List Char) : words (srNoLetters (s.dropWhile isWs)) = words (srNoLetters s) := by
  induction s with
  | nil => rfl
  | cons c s ih =>
    by_cases hc : isWs c = true
    · rw [List.dropWhile_cons_of_pos hc, ih]
      simp only [srNoLetters, List.filter_cons, sr_noLetters_ws c hc, Bool.not_false, if_true]
      rw [sr_words_cons _ c hc]
    · rw [List.dropWhile_cons_of_neg hc]

theorem sr_noLetters_rdropWhile (s : List Char) : words (srNoLetters (s.rdropWhile isWs)) = words (srNoLetters s) := by
  induction s using List.reverseRecOn with
  | nil => rfl
  | append_singleton s c ih =>
    by_cases hc : isWs c = true
    · rw [List.rdropWhile_concat_pos _ _ _ hc, ih]
      simp only [srNoLetters, List.filter_append, List.filter_cons, sr_noLetters_ws c hc, Bool.not_false, if_true,
        List.filter_nil]
      rw [sr_words_snoc _ c hc]
    · rw [List.rdropWhile_concat_neg _ _ _ hc]

theorem sr_noLetters_append (a b : List Char) : srNoLetters (a ++ b) = srNoLetters a ++ srNoLetters b := List.filter_append _ _

theorem sr_noLetters_fmt9 (x : α) : srNoLetters (fmt9 x) = fmt9 x := by
  rw [srNoLetters, List.filter_eq_self]
  intro c hc
  simp [(sr_fmt9_chars x c hc).2]

theorem sr_words_fmt9 (x : α) : words (fmt9 x) = [fmt9 x] :=
  sr_words_token _ (sr_fmt9_ne x) fun c hc => (sr_fmt9_chars x c hc).1

/-- Tokens joined with blanks, after a prefix that ends with a blank. -/
theorem sr_words_join (ts : List (List Char)) (w : List Char → List (List Char)) (h : ∀ t ∈ ts, words (srNoLetters t) = w t) :
    words (srNoLetters (joinBlank ts)) = (ts.map w).flatten := by
  induction ts with
  | nil => rfl
  | cons t ts ih =>
    rcases ts with _ | ⟨t', ts⟩
    · simp [joinBlank, h t (by simp)]
    · rw [joinBlank, sr_noLetters_append]
      · have e : srNoLetters (' ' :: joinBlank (t' :: ts)) = ' ' :: srNoLetters (joinBlank (t' :: ts)) := rfl
        rw [e, sr_words_append _ _ ' ' (by decide), ih (fun t ht => h t (by simp [ht])), h t (by simp)]
        simp
      · simp

theorem sr_head (s : List Char) : words (srNoLetters (polyHead ++ s)) = words (srNoLetters s) := by
  rw [sr_noLetters_append]
  have : srNoLetters polyHead = [' ', ' ', ' '] := by decide
  rw [this]
  simp only [List.cons_append, List.nil_append]
  rw [sr_words_cons _ _ (by decide), sr_words_cons _ _ (by decide), sr_words_cons _ _ (by decide)]

theorem sr_mapM_fmt (xs : List α) : (xs.map fmt9).mapM (parseFloat (α := α)) = some (xs.map srValue) := by
  induction xs with
  | nil => rfl
  | cons x xs ih => simp [List.mapM_cons, sr_parse_fmt9, ih]

theorem sr_pairs (ps : List (α × α)) :
    pairs ((ps.map fun v => [v.1, v.2]).flatten.map srValue) = some (ps.map fun v => (srValue v.1, srValue v.2)) := by
  induction ps with
  | nil => rfl
  | cons p ps ih =>
    simp only [List.map_cons, List.flatten_cons, List.cons_append, List.nil_append]
    rw [pairs, ih]
    rfl

/-- Specification: two vertices agree to half a unit of the ninth decimal. -/
def SrClose (p q : α × α) : Prop := |p.1 - q.1| ≤ 1 / 2 / 10 ^ 9 ∧ |p.2 - q.2| ≤ 1 / 2 / 10 ^ 9

theorem sr_close_map (ps : List (α × α)) : List.Forall₂ SrClose (ps.map fun v => (srValue v.1, srValue v.2)) ps := by
  induction ps with
  | nil => exact List.Forall₂.nil
  | cons p ps ih => exact List.Forall₂.cons ⟨sr_value_close _, sr_value_close _⟩ ih

/-- A vertex of numbers. -/
def srNum (v : α × α) : Fl α × Fl α := (.num v.1, .num v.2)

/-- The words seen by the parser for a coordinate. -/
def srTok : Fl α → List (List Char)
  | .num x => [fmt9 x]
  | .nan => []
  | .posInf => []
  | .negInf => [['-']]

theorem sr_words_fmtFl (c : Fl α) : words (srNoLetters (fmtFl c)) = srTok c := by
  cases c with
  | num x => simp only [fmtFl, srTok, sr_noLetters_fmt9, sr_words_fmt9]
  | nan => simp only [fmtFl, srTok]; decide
  | posInf => simp only [fmtFl, srTok]; decide
  | negInf => simp only [fmtFl, srTok]; decide

/-- The words seen by the parser in the string of a list of polygons. -/
theorem sr_words_polys (polys : List (List (Fl α × Fl α))) :
    words (srNoLetters (polygonsText polys)) = (polys.flatten.map fun v => srTok v.1 ++ srTok v.2).flatten := by
  simp only [polygonsText, strip]
  rw [sr_noLetters_rdropWhile, sr_noLetters_dropWhile]
  induction polys with
  | nil => rfl
  | cons p polys ih =>
    simp only [List.map_cons, List.flatten_cons, List.append_assoc] at ih ⊢
    rw [sr_head, sr_noLetters_append]
    have e : ∀ s, srNoLetters ([' ', ' '] ++ s) = ' ' :: ' ' :: srNoLetters s := fun s => rfl
    rw [e, sr_words_append _ _ _ (by decide), sr_words_cons _ _ (by decide), ih, List.map_append, List.flatten_append]
    congr 1
    have htok : ∀ v : Fl α × Fl α, words (srNoLetters (fmtFl v.1 ++ ' ' :: fmtFl v.2)) = srTok v.1 ++ srTok v.2 := by
      intro v
      rw [sr_noLetters_append]
      have e : srNoLetters (' ' :: fmtFl v.2) = ' ' :: srNoLetters (fmtFl v.2) := rfl
      rw [e, sr_words_append _ _ _ (by decide), sr_words_fmtFl, sr_words_fmtFl]
    rw [sr_words_join _ (fun t => words (srNoLetters t)) (fun _ _ => rfl), List.map_map]
    congr 1
    apply List.map_congr_left
    intro v _
    simp only [Function.comp_apply, htok]

theorem sr_parse_eq (s : List Char) : parse (α := α) s = ((words (srNoLetters s)).mapM parseFloat).bind pairs := rfl

/-- **C58**: parsing the string written for polygons gives back all vertices in order, to half a unit of the ninth
decimal. -/
theorem C58_polygons (polys : List (List (α × α))) :
    ∃ ps, parse (polygonsText (polys.map fun p => p.map srNum)) = some ps ∧ List.Forall₂ SrClose ps polys.flatten := by
  refine ⟨polys.flatten.map fun v => (srValue v.1, srValue v.2), ?_, sr_close_map _⟩
  have hw : words (srNoLetters (polygonsText (polys.map fun p => p.map srNum))) =
      (polys.flatten.map fun v => [v.1, v.2]).flatten.map fmt9 := by
    rw [sr_words_polys, ← List.map_flatten, List.map_map]
    generalize polys.flatten = vs
    induction vs with
    | nil => rfl
    | cons v vs ih =>
      simp only [List.map_cons, List.flatten_cons, List.map_append, ih]
      rfl
  rw [sr_parse_eq, hw, sr_mapM_fmt, Option.bind_some, sr_pairs]

/-- The finite coordinates of a list of vertices, in order. -/
def srFinite (vs : List (Fl α × Fl α)) : List α :=
  (vs.map fun v => [v.1, v.2]).flatten.filterMap fun c => match c with | .num x => some x | _ => none

/-- **C58** (finding): NaN and positive infinite coordinates of the polygons are not rejected.  They disappear when the string
is parsed, so that the coordinates after them move to other vertices, or parsing fails because their number is odd. -/
theorem C58_not_finite (polys : List (List (Fl α × Fl α)))
    (h : ∀ v ∈ polys.flatten, v.1 ≠ .negInf ∧ v.2 ≠ .negInf) :
    parse (polygonsText polys) = pairs ((srFinite polys.flatten).map srValue) := by
  have hw : words (srNoLetters (polygonsText polys)) = (srFinite polys.flatten).map fmt9 := by
    rw [sr_words_polys]
    generalize polys.flatten = vs at h
    induction vs with
    | nil => rfl
    | cons v vs ih =>
      have h1 := h v (by simp)
      have h2 := ih fun w hw => h w (by simp [hw])
      rcases v with ⟨a, b⟩
      rcases a <;> rcases b <;> simp_all [srFinite, srTok]
  rw [sr_parse_eq, hw, sr_mapM_fmt, Option.bind_some]

/-- **C58** (finding): a string with a negative infinite coordinate cannot be parsed. -/
theorem C58_negative_infinity (polys : List (List (Fl α × Fl α)))
    (h : ∃ v ∈ polys.flatten, v.1 = .negInf ∨ v.2 = .negInf) : parse (α := α) (polygonsText polys) = none := by
  have hm : (['-'] : List Char) ∈ words (srNoLetters (polygonsText polys)) := by
    rw [sr_words_polys, List.mem_flatten]
    rcases h with ⟨v, hv, hn⟩
    refine ⟨_, List.mem_map_of_mem hv, ?_⟩
    rw [List.mem_append]
    rcases hn with hn | hn
    · left; rw [hn]; simp [srTok]
    · right; rw [hn]; simp [srTok]
  rw [sr_parse_eq]
  have hnone : parseFloat (α := α) ['-'] = none := by simp [parseFloat, parseUnsigned]
  generalize words (srNoLetters (polygonsText polys)) = ws at hm
  have : ws.mapM (parseFloat (α := α)) = none := by
    induction ws with
    | nil => simp at hm
    | cons w ws ih =>
      rw [List.mapM_cons]
      rcases List.mem_cons.1 hm with rfl | hm
      · rw [hnone]; rfl
      · rw [ih hm]
        rcases parseFloat (α := α) w with _ | _ <;> rfl
  rw [this]
  rfl

/-! ### The keyword -/

theorem sr_mem_join (ts : List (List Char)) (c : Char) : c ∈ joinBlank ts → c = ' ' ∨ ∃ t ∈ ts, c ∈ t := by
  induction ts with
  | nil => simp [joinBlank]
  | cons t ts ih =>
    rcases ts with _ | ⟨t', ts⟩
    · intro h
      exact Or.inr ⟨t, by simp, by simpa [joinBlank] using h⟩
    · rw [joinBlank]
      · intro h
        rw [List.mem_append, List.mem_cons] at h
        rcases h with h | h | h
        · exact Or.inr ⟨t, by simp, h⟩
        · exact Or.inl h
        · rcases ih h with h | ⟨s, hs, hc⟩
          · exact Or.inl h
          · exact Or.inr ⟨s, by simp [hs], hc⟩
      · simp

theorem sr_infix_join (ts : List (List Char)) (t : List Char) (h : t ∈ ts) : t <:+: joinBlank ts := by
  induction ts with
  | nil => simp at h
  | cons s ts ih =>
    rcases ts with _ | ⟨t', ts⟩
    · rw [List.mem_singleton] at h
      subst h
      simp [joinBlank]
    · rw [joinBlank]
      · rcases List.mem_cons.1 h with rfl | h
        · exact (List.prefix_append _ _).isInfix
        · exact (ih h).trans ⟨s ++ [' '], [], by simp⟩
      · simp

/-- The eight coordinates written. -/
def srEight (fp : List (Fl α × Fl α)) : List (Fl α) := ((fp.take 4).map fun v => [v.1, v.2]).flatten

theorem sr_take_eight (fp : List (Fl α × Fl α)) : ((fp.map fun v => [v.1, v.2]).flatten).take 8 = srEight fp := by
  rcases fp with _ | ⟨a, _ | ⟨b, _ | ⟨c, _ | ⟨d, t⟩⟩⟩⟩ <;> simp [srEight]

theorem sr_flatten_length (fp : List (Fl α × Fl α)) : ((fp.map fun v => [v.1, v.2]).flatten).length = 2 * fp.length := by
  induction fp with
  | nil => rfl
  | cons v t ih => simp only [List.map_cons, List.flatten_cons, List.length_append, ih, List.length_cons, List.length_nil]; omega

theorem sr_no_nan (cs : List (Fl α)) (h : ∀ c ∈ cs, c ≠ .nan) :
    ¬ "nan".toList <:+: polyHead ++ joinBlank (cs.map fmtFl) := by
  intro hin
  have ha : 'a' ∈ polyHead ++ joinBlank (cs.map fmtFl) := hin.subset (by decide)
  rw [List.mem_append] at ha
  rcases ha with ha | ha
  · exact absurd ha (by decide)
  · rcases sr_mem_join _ _ ha with ha | ⟨t, ht, ha⟩
    · exact absurd ha (by decide)
    · rcases List.mem_map.1 ht with ⟨c, hc, rfl⟩
      cases c with
      | num x => exact absurd (sr_fmt9_chars x _ ha).2 (by decide)
      | nan => exact h _ hc rfl
      | posInf => exact absurd ha (by simp only [fmtFl]; decide)
      | negInf => exact absurd ha (by simp only [fmtFl]; decide)

/-- **C58**: the keyword is written exactly for footprints of at least four vertices without NaN among the first four. -/
theorem C58_keyword_when (fp : List (Fl α × Fl α)) :
    (keyword fp = .error ↔ fp.length < 4) ∧
    (keyword fp = .none ↔ 4 ≤ fp.length ∧ ∃ v ∈ fp.take 4, v.1 = .nan ∨ v.2 = .nan) := by
  have hin : "nan".toList <:+: polyHead ++ joinBlank ((srEight fp).map fmtFl) ↔ ∃ v ∈ fp.take 4, v.1 = .nan ∨ v.2 = .nan := by
    have hmem : (∃ v ∈ fp.take 4, v.1 = .nan ∨ v.2 = .nan) ↔ Fl.nan ∈ srEight fp := by
      simp only [srEight, List.mem_flatten, List.mem_map]
      constructor
      · rintro ⟨v, hv, hn⟩
        exact ⟨_, ⟨v, hv, rfl⟩, by rcases hn with hn | hn <;> simp [hn]⟩
      · rintro ⟨_, ⟨v, hv, rfl⟩, hn⟩
        refine ⟨v, hv, ?_⟩
        simp only [List.mem_cons, List.not_mem_nil, or_false] at hn
        exact hn.imp Eq.symm Eq.symm
    rw [hmem]
    constructor
    · intro h
      by_contra hne
      exact sr_no_nan (srEight fp) (fun c hc hcn => hne (hcn ▸ hc)) h
    · intro h
      exact (sr_infix_join _ _ (List.mem_map_of_mem (f := fmtFl) h)).trans (List.suffix_append _ _).isInfix
  simp only [keyword, sr_take_eight, sr_flatten_length]
  by_cases h : fp.length < 4
  · rw [if_pos (by omega)]
    simp [h]
  · rw [if_neg (by omega)]
    by_cases hn : "nan".toList <:+: polyHead ++ joinBlank ((srEight fp).map fmtFl)
    · rw [if_pos hn]
      simp only [reduceCtorEq, false_iff, true_iff]
      exact ⟨h, by omega, hin.1 hn⟩
    · rw [if_neg hn]
      simp only [reduceCtorEq, false_iff]
      exact ⟨h, fun hh => hn (hin.2 hh.2)⟩

theorem sr_keyword (fp : List (α × α)) (h4 : 4 ≤ fp.length) :
    ∃ s, keyword (fp.map srNum) = .text s ∧ parse s = some ((fp.take 4).map fun v => (srValue v.1, srValue v.2)) := by
  have he : srEight (fp.map srNum) = ((fp.take 4).map fun v => [v.1, v.2]).flatten.map Fl.num := by
    rw [srEight, ← List.map_take, List.map_map, List.map_flatten, List.map_map]
    rfl
  refine ⟨polyHead ++ joinBlank ((srEight (fp.map srNum)).map fmtFl), ?_, ?_⟩
  · simp only [keyword, sr_take_eight, sr_flatten_length, List.length_map]
    rw [if_neg (by omega), if_neg]
    apply sr_no_nan
    intro c hc
    rw [he, List.mem_map] at hc
    rcases hc with ⟨x, _, rfl⟩
    simp
  · rw [sr_parse_eq, sr_head, sr_words_join _ (fun t => words (srNoLetters t)) (fun _ _ => rfl), he]
    have : ((((fp.take 4).map fun v => [v.1, v.2]).flatten.map Fl.num).map fmtFl).map (fun t => words (srNoLetters t)) =
        (((fp.take 4).map fun v => [v.1, v.2]).flatten.map fmt9).map fun t => [t] := by
      simp only [List.map_map]
      apply List.map_congr_left
      intro x _
      simp only [Function.comp_apply, sr_words_fmtFl, srTok]
    rw [this]
    have hs : ∀ l : List (List Char), (l.map fun t => [t]).flatten = l := by
      intro l
      induction l with
      | nil => rfl
      | cons a l ih => simp [ih]
    rw [hs, sr_mapM_fmt, Option.bind_some, sr_pairs]

/-- **C58**: the keyword written for a footprint is parsed to its first four vertices, which are all there are in the documented
use (a 4x2 array).  Missing from the full statement: further vertices, which the code silently leaves out (finding), and footprints of less
than four vertices, for which it fails (`C58_keyword_when`). -/
theorem C58_keyword_partial (fp : List (α × α)) (h4 : 4 ≤ fp.length) :
    ∃ s ps, keyword (fp.map srNum) = .text s ∧ parse s = some ps ∧ List.Forall₂ SrClose ps (fp.take 4) := by
  obtain ⟨s, h1, h2⟩ := sr_keyword fp h4
  exact ⟨s, _, h1, h2, sr_close_map _⟩

end Num

/-- A footprint of four vertices. -/
example : (4 : Nat) ≤ ([(10, -1), (11, -1), (11, 1/3), (10, 1/3)] : List (ℚ × ℚ)).length := by decide

/-- A vertex with a NaN coordinate makes the number of coordinates odd, or shifts the others. -/
example : ∀ v ∈ ([[(Fl.nan, .num 1), (.num 2, .posInf)]] : List (List (Fl ℚ × Fl ℚ))).flatten, v.1 ≠ .negInf ∧ v.2 ≠ .negInf := by
  simp

/-- The text of a number. -/
example : String.ofList (fmt9 (-1 / 3 : ℚ)) = "-0.333333333" := by
  simp only [fmt9]
  have : roundEven (|(-1 / 3 : ℚ)| * 10 ^ 9) = 333333333 := by decide +kernel
  rw [this]
  simp [natChars, fracChars]
  decide +kernel

end Verif.Thm
