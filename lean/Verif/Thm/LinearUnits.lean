import Verif.Model.Linearity
import Mathlib.Tactic.Ring
import Mathlib.Tactic.FieldSimp
import Mathlib.Tactic.NormNum
import Mathlib.Data.Rat.Defs
import Mathlib.Algebra.Field.Rat
import Mathlib.Algebra.Order.Ring.Rat

/-! # The linearity correction and the unit of the data (C194) -/

namespace Verif.Thm

open Verif.Linearity

set_option linter.unusedSectionVars false

variable {α : Type} [Field α] [LinearOrder α]

/-- Specification: values in another unit. -/
def lzVal (k : α) : Option α → Option α := Option.map (· * k)

/-- Specification: the coefficients in another unit; the coefficient of the power `j` is in units of the data divided by their power
`j`. -/
def lzCoeffs (k : α) (c : List (Option α)) : List (Option α) := c.zipIdx.map fun p => p.1.map fun v => v * k / k ^ p.2

theorem lz_length (k : α) (c : List (Option α)) : (lzCoeffs k c).length = c.length := by simp [lzCoeffs]

theorem lz_at (k : α) (c : List (Option α)) (j : Nat) : at' (lzCoeffs k c) j = (at' c j).map fun v => v * k / k ^ j := by
  simp only [at', lzCoeffs, List.getElem?_map, List.getElem?_zipIdx]
  cases c[j]? <;> simp

theorem lz_ben (k : α) (hk : k ≠ 0) (n : Nat) : lzCoeffs k (benCoeffs n) = (benCoeffs n : List (Option α)) := by
  refine List.ext_getElem? fun j => ?_
  simp only [lzCoeffs, benCoeffs, List.getElem?_map, List.getElem?_zipIdx]
  by_cases hj : j < n
  · simp only [List.getElem?_range hj, Option.map_some]
    by_cases h1 : j = 1
    · simp [h1, hk]
    · simp [h1]
  · simp [not_lt.1 hj]

theorem lz_any (k : α) (c : List (Option α)) : (lzCoeffs k c).any Option.isNone = c.any Option.isNone := by
  have : ∀ n, ((c.zipIdx n).map fun p => p.1.map fun v => v * k / k ^ p.2).any Option.isNone = c.any Option.isNone := by
    induction c with
    | nil => simp
    | cons a c ih =>
      intro n
      simp only [List.zipIdx_cons, List.map_cons, List.any_cons, ih (n + 1)]
      cases a <;> rfl
  exact this 0

theorem lz_prepare (k : α) (hk : k ≠ 0) (c : List (Option α)) (linDq pdq nlc : Nat) :
    prepare (lzCoeffs k c) linDq pdq nlc = (prepare c linDq pdq nlc).map fun q => (lzCoeffs k q.1, q.2) := by
  have h1 : correctForFlag (lzCoeffs k c) linDq nlc = lzCoeffs k (correctForFlag c linDq nlc) := by
    simp only [correctForFlag, lz_length]
    split
    · rw [lz_ben k hk]
    · rfl
  simp only [prepare, h1]
  generalize correctForFlag c linDq nlc = c1
  have h2 : ∀ p, correctForNaN (lzCoeffs k c1) p nlc = (lzCoeffs k (correctForNaN c1 p nlc).1, (correctForNaN c1 p nlc).2) := by
    intro p
    simp only [correctForNaN, lz_length, lz_any]
    split
    · rw [lz_ben k hk]
    · rfl
  rw [h2]
  generalize correctForNaN c1 (pdq ||| linDq) nlc = r
  have h3 : at' (lzCoeffs k r.1) 1 = some 0 ↔ at' r.1 1 = some 0 := by
    rw [lz_at]
    cases at' r.1 1 with
    | none => simp
    | some v => simp [hk]
  simp only [correctForZero, lz_length, h3]
  split
  · rfl
  · split
    · simp only [Option.map_some, lz_ben k hk]
    · rfl

theorem lz_poly (k : α) (hk : k ≠ 0) (c : List (Option α)) (hc : 2 ≤ c.length) (x : Option α) :
    applyPoly (lzCoeffs k c) (lzVal k x) = lzVal k (applyPoly c x) := by
  obtain ⟨n, hn⟩ : ∃ n, c.length = n + 2 := ⟨c.length - 2, by omega⟩
  have key : ∀ t, t ≤ n →
      (List.range t).foldl (fun r t => omul (oadd r (at' (lzCoeffs k c) (n - t))) (lzVal k x))
        (omul (at' (lzCoeffs k c) (n + 1)) (lzVal k x)) =
      ((List.range t).foldl (fun r t => omul (oadd r (at' c (n - t))) x) (omul (at' c (n + 1)) x)).map fun v => v * k / k ^ (n - t) := by
    intro t
    induction t with
    | zero =>
      intro _
      simp only [List.range_zero, List.foldl_nil, lz_at, lzVal, Nat.sub_zero]
      cases at' c (n + 1) with
      | none => rfl
      | some a =>
        cases x with
        | none => rfl
        | some x =>
          simp only [omul, Option.map_some]
          congr 1
          field_simp
          ring
    | succ t ih =>
      intro ht
      simp only [List.range_succ, List.foldl_append, List.foldl_cons, List.foldl_nil]
      rw [ih (by omega), lz_at]
      generalize (List.range t).foldl (fun r t => omul (oadd r (at' c (n - t))) x) (omul (at' c (n + 1)) x) = r
      obtain ⟨m, hm⟩ : ∃ m, n - t = m + 1 := ⟨n - t - 1, by omega⟩
      have hm' : n - (t + 1) = m := by omega
      rw [hm, hm']
      cases r with
      | none => rfl
      | some r =>
        cases at' c (m + 1) with
        | none => rfl
        | some a =>
          cases x with
          | none => rfl
          | some x =>
            simp only [omul, oadd, lzVal, Option.map_some]
            congr 1
            field_simp
            ring
  have e1 : c.length - 1 = n + 1 := by omega
  have e2 : c.length - 2 = n := by omega
  simp only [applyPoly, lz_length, e1, e2]
  rw [key n (le_refl n), lz_at]
  generalize (List.range n).foldl (fun r t => omul (oadd r (at' c (n - t))) x) (omul (at' c (n + 1)) x) = r
  cases r with
  | none => rfl
  | some r =>
    cases at' c 0 with
    | none => rfl
    | some a =>
      simp only [oadd, lzVal, Option.map_some]
      congr 1
      simp
      ring

theorem lz_polyDq (k : α) (hk : k ≠ 0) (c : List (Option α)) (hc : 2 ≤ c.length) (sat dq : Nat) (x : Option α) :
    applyPolyDq (lzCoeffs k c) sat dq (lzVal k x) = lzVal k (applyPolyDq c sat dq x) := by
  simp only [applyPolyDq]
  split
  · rfl
  · exact lz_poly k hk c hc x

theorem lz_zero (k : α) (hk : k ≠ 0) (z : Option α) : lzVal k z = some 0 ↔ z = some 0 := by
  cases z <;> simp [lzVal, hk]

theorem lz_len (c : List (Option α)) (linDq pdq nlc : Nat) (q : List (Option α) × Nat) (h : prepare c linDq pdq nlc = some q) :
    2 ≤ q.1.length := by
  simp only [prepare] at h
  generalize correctForNaN (correctForFlag c linDq nlc) (pdq ||| linDq) nlc = r at h
  simp only [correctForZero] at h
  split at h
  · exact absurd h (by simp)
  · split at h
    · simp only [Option.some.injEq] at h
      subst h
      simp [benCoeffs]
      omega
    · simp only [Option.some.injEq] at h
      subst h
      simp
      omega

/-- **C194**: with the data, the zero frame and the coefficients in another unit the corrected values are those of before in that unit,
with the same DQ, for every pixel with a solution or without; a call that raises does so in every unit. -/
theorem C194_unit (k : α) (hk : k ≠ 0) (data : List (List (Option α))) (gdq : List (List Nat)) (pdq : Nat) (coeffs : List (Option α))
    (linDq sat nlc : Nat) (zframe : Option (List (Option α))) :
    linearityPixel (data.map fun r => r.map (lzVal k)) gdq pdq (lzCoeffs k coeffs) linDq sat nlc (zframe.map fun z => z.map (lzVal k)) =
      (linearityPixel data gdq pdq coeffs linDq sat nlc zframe).map fun o =>
        ⟨o.data.map fun r => r.map (lzVal k), o.pdq, o.zframe.map fun z => z.map (lzVal k)⟩ := by
  simp only [linearityPixel, lz_prepare k hk]
  cases h : prepare coeffs linDq pdq nlc with
  | none => rfl
  | some q =>
    have hc := lz_len coeffs linDq pdq nlc q h
    simp only [Option.map_some, Option.some.injEq, Out.mk.injEq, true_and]
    refine ⟨?_, ?_⟩
    · rw [List.zipIdx_map, List.map_map, List.map_map]
      refine List.map_congr_left fun r _ => ?_
      simp only [Function.comp_apply, simpleInt, Prod.map, id_eq]
      rw [List.zipIdx_map, List.map_map, List.map_map]
      refine List.map_congr_left fun v _ => ?_
      exact lz_polyDq k hk q.1 hc sat _ v.1
    · cases zframe with
      | none => rfl
      | some z =>
        simp only [Option.map_some, List.map_map]
        congr 1
        refine List.map_congr_left fun v _ => ?_
        simp only [Function.comp_apply, zeroFrame, lz_zero k hk, lz_polyDq k hk q.1 hc]
        split
        · simp [lzVal]
        · rfl

example : (linearityPixel [[some (2 : ℚ), none, some 5]] [[0, 0, 2]] 1 [some 1, some 2, some 3] 4 2 8 (some [some 0, some 1])).map
      (fun o => (o.data, o.pdq, o.zframe)) = some ([[some 17, none, some 5]], 5, some [some 0, some 6]) ∧
    lzCoeffs (10 : ℚ) [some 1, some 2, some 3] = [some 10, some 2, some (3 / 10)] ∧
    (linearityPixel [[some (20 : ℚ), none, some 50]] [[0, 0, 2]] 1 [some 10, some 2, some (3 / 10)] 4 2 8 (some [some 0, some 10])).map
      (fun o => (o.data, o.pdq, o.zframe)) = some ([[some 170, none, some 50]], 5, some [some 0, some 60]) := by
  refine ⟨?_, ?_, ?_⟩ <;> decide +kernel

/-! ## The read-level path -/

section
variable [IsStrictOrderedRing α]

theorem lz_add (k : α) (a b : Option α) : oadd (lzVal k a) (lzVal k b) = lzVal k (oadd a b) := by
  cases a <;> cases b <;> simp [oadd, lzVal, add_mul]

theorem lz_sub (k : α) (a b : Option α) : osub (lzVal k a) (lzVal k b) = lzVal k (osub a b) := by
  cases a <;> cases b <;> simp [osub, lzVal, sub_mul]

theorem lz_mul (k : α) (a b : Option α) : omul (lzVal k a) b = lzVal k (omul a b) := by
  cases a <;> cases b <;> simp [omul, lzVal]
  ring

theorem lz_mul' (k : α) (a b : Option α) : omul a (lzVal k b) = lzVal k (omul a b) := by
  cases a <;> cases b <;> simp [omul, lzVal]
  ring

theorem lz_div (k : α) (a b : Option α) : odiv (lzVal k a) b = lzVal k (odiv a b) := by
  cases a with
  | none => cases b <;> rfl
  | some a =>
    cases b with
    | none => rfl
    | some b =>
      simp only [odiv, lzVal, Option.map_some]
      split
      · rfl
      · simp only [Option.map_some]
        congr 1
        ring

theorem lz_min (k : α) (hk : 0 < k) (a b : Option α) : omin (lzVal k a) (lzVal k b) = lzVal k (omin a b) := by
  cases a <;> cases b <;> simp [omin, lzVal, min_mul_of_nonneg _ _ hk.le]

theorem lz_mean (k : α) (l : List (Option α)) : omean (l.map (lzVal k)) = lzVal k (omean l) := by
  have : ∀ a : Option α, (l.map (lzVal k)).foldl oadd (lzVal k a) = lzVal k (l.foldl oadd a) := by
    induction l with
    | nil => exact fun _ => rfl
    | cons v l ih =>
      intro a
      simp only [List.map_cons, List.foldl_cons, lz_add, ih]
  have h0 : lzVal k (some (0 : α)) = some 0 := by simp [lzVal]
  have := this (some 0)
  rw [h0] at this
  simp only [omean, this, List.length_map, lz_div]

theorem lz_get (k : α) (l : List (Option α)) (i : Nat) : ((l.map (lzVal k))[i]?).getD none = lzVal k ((l[i]?).getD none) := by
  simp only [List.getElem?_map]
  cases l[i]? <;> rfl

/-- Specification: a pixel of the read-level path in another unit. -/
def lzPx (k : α) (p : Px α) : Px α :=
  ⟨p.data.map (lzVal k), p.gdq, lzCoeffs k p.coeffs, lzCoeffs k p.icoeffs, p.satval.map (lzVal k)⟩

theorem lz_first (k : α) (hk : k ≠ 0) (sat : Nat) (p : Px α) (hc : 2 ≤ p.coeffs.length) :
    firstLin sat (lzPx k p) = lzVal k (firstLin sat p) := by
  simp only [firstLin, lzPx, lz_get, lz_polyDq k hk _ hc]

theorem lz_rate (k : α) (hk : k ≠ 0) (sat : Nat) (pattern : List (List Nat)) (p : Px α) (hc : 2 ≤ p.coeffs.length) :
    countRate sat pattern (lzPx k p) = lzVal k (countRate sat pattern p) := by
  simp only [countRate, lz_first k hk sat p hc]
  simp only [lzPx, lz_get, lz_polyDq k hk _ hc, lz_sub, lz_div]

theorem lz_reads (k : α) (hk : k ≠ 0) (sat : Nat) (pattern : List (List Nat)) (i : Nat) (p : Px α) (hc : 2 ≤ p.coeffs.length)
    (hi : 2 ≤ p.icoeffs.length) : adjustedReads sat pattern i (lzPx k p) = (adjustedReads sat pattern i p).map (lzVal k) := by
  simp only [adjustedReads, lz_first k hk sat p hc, lz_rate k hk sat pattern p hc]
  have h : ((((pattern[i]?).getD []).map fun r : Nat => oadd (lzVal k (firstLin sat p)) (omul (lzVal k (countRate sat pattern p))
      (osub (some (r : α)) (meanRead ((pattern[0]?).getD []))))).map (applyPoly (lzPx k p).icoeffs)) =
      ((((pattern[i]?).getD []).map fun r : Nat => oadd (firstLin sat p) (omul (countRate sat pattern p)
      (osub (some (r : α)) (meanRead ((pattern[0]?).getD []))))).map (applyPoly p.icoeffs)).map (lzVal k) := by
    simp only [List.map_map]
    refine List.map_congr_left fun r _ => ?_
    simp only [Function.comp_apply, lz_mul, lz_add, lzPx, lz_poly k hk _ hi]
  rw [h, lz_mean]
  simp only [lzPx, lz_get, lz_sub, List.map_map]
  refine List.map_congr_left fun r _ => ?_
  simp only [Function.comp_apply, lz_add]

theorem lz_finish (k : α) (hk : 0 < k) (sat i : Nat) (p : Px α) (hc : 2 ≤ p.coeffs.length) (reads : List (Option α)) :
    finishResultant sat i (lzPx k p) (reads.map (lzVal k)) = lzVal k (finishResultant sat i p reads) := by
  have h : ((reads.map (lzVal k)).map (capRead (lzPx k p).satval)).map (applyPoly (lzPx k p).coeffs) =
      ((reads.map (capRead p.satval)).map (applyPoly p.coeffs)).map (lzVal k) := by
    simp only [List.map_map]
    refine List.map_congr_left fun r _ => ?_
    simp only [Function.comp_apply, lzPx]
    rw [← lz_poly k hk.ne' _ hc]
    congr 1
    cases p.satval with
    | none => rfl
    | some s => simp only [Option.map_some, capRead, lz_mul', lz_min k hk]
  simp only [finishResultant, h, lz_mean]
  simp only [lzPx, lz_get]
  split <;> rfl

/-- **C194**, read-level path (without additional correction): the corrected resultants are those of before in the new unit, for pixels
with at least two coefficients in both lists, which `prepare_coefficients` makes sure of, and positive factors. -/
theorem C194_reads (k : α) (hk : 0 < k) (sat : Nat) (pattern : List (List Nat)) (ngroups tileRows : Nat) (rows : List (List (Px α)))
    (h2 : ∀ row ∈ rows, ∀ p ∈ row, 2 ≤ p.coeffs.length ∧ 2 ≤ p.icoeffs.length) :
    readLevelInt sat pattern none ngroups tileRows (rows.map fun row => row.map (lzPx k)) =
      (readLevelInt sat pattern none ngroups tileRows rows).map fun img => img.map fun row => row.map (lzVal k) := by
  have htile : ∀ (tile : List (List (Px α))), (∀ row ∈ tile, ∀ p ∈ row, 2 ≤ p.coeffs.length ∧ 2 ≤ p.icoeffs.length) →
      tileCorrect sat pattern none ngroups (tile.map fun row => row.map (lzPx k)) =
        (tileCorrect sat pattern none ngroups tile).map fun img => img.map fun row => row.map (lzVal k) := by
    intro tile ht
    simp only [tileCorrect, List.map_map]
    refine List.map_congr_left fun i _ => ?_
    simp only [Function.comp_apply, tileResultant, List.map_map, List.zipWith_map_right, List.zipWith_map_left, List.zipWith_self]
    refine List.map_congr_left fun row hrow => ?_
    simp only [Function.comp_apply, List.map_map]
    refine List.map_congr_left fun p hp => ?_
    obtain ⟨hc, hi⟩ := ht row hrow p hp
    rw [lz_reads k hk.ne' sat pattern i p hc hi, lz_finish k hk sat i p hc]
    rfl
  have hloop : ∀ fuel (rows : List (List (Px α))), (∀ row ∈ rows, ∀ p ∈ row, 2 ≤ p.coeffs.length ∧ 2 ≤ p.icoeffs.length) →
      tileLoop sat pattern none ngroups tileRows fuel (rows.map fun row => row.map (lzPx k)) =
        (tileLoop sat pattern none ngroups tileRows fuel rows).map fun img => img.map fun row => row.map (lzVal k) := by
    intro fuel
    induction fuel with
    | zero => intro rows _; simp [tileLoop]
    | succ fuel ih =>
      intro rows hr
      simp only [tileLoop, List.map_eq_nil_iff]
      split
      · simp
      · rw [← List.map_take, ← List.map_drop, ih _ fun row h => hr row (List.mem_of_mem_drop h),
          htile _ fun row h => hr row (List.mem_of_mem_take h), List.map_zipWith, List.zipWith_map]
        simp only [List.map_append]
  simp only [readLevelInt, List.length_map]
  exact hloop _ _ h2

end

/-- A pixel with quadratic coefficients, their approximate inverse, and a cap. -/
def lzOne : Px ℚ := ⟨[some 10, some 30, some 55], [0, 0, 0], [some 0, some 1, some (1 / 100)], [some 0, some 1, some (-1 / 100)], some (some 45)⟩

example : (2 ≤ lzOne.coeffs.length ∧ 2 ≤ lzOne.icoeffs.length) ∧
    readLevelInt 2 [[1], [2, 3], [4, 6]] none 3 64 [[lzOne]] = [[[some 11]], [[some (5490304 / 140625)]], [[some (719990641 / 10125000)]]] ∧
    readLevelInt 2 [[1], [2, 3], [4, 6]] none 3 64 [[lzPx 2 lzOne]] =
      [[[some 22]], [[some (10980608 / 140625)]], [[some (719990641 / 5062500)]]] := by
  refine ⟨?_, ?_, ?_⟩ <;> decide +kernel

end Verif.Thm
