import Verif.Proof.Linearity
import Mathlib.Algebra.Field.Rat
import Mathlib.Data.Rat.Cast.CharZero
import Mathlib.Algebra.Order.Ring.Rat

/-!
# Linearity correction: properties C19-C22, C64, C65
-/

set_option linter.unusedSectionVars false

namespace Verif.Thm

open Verif Verif.Linearity

variable {α : Type} [Field α] [LinearOrder α]

/-! ## Specification vocabulary -/

/-- Specification: the polynomial with coefficients `c`, lowest order first. -/
def polyVal (c : List α) (v : α) : α := ∑ k ∈ Finset.range c.length, c.getD k 0 * v ^ k

/-- Specification: the reference file gives no usable solution for the pixel. -/
def NoSolution (coeffs : List (Option α)) (linDq nlc : Nat) : Prop :=
  linDq &&& nlc = nlc ∨ none ∈ coeffs ∨ coeffs[1]? = some (some 0)

/-! ## Behaviour of `prepare_coefficients` -/

theorem prepare_bad (coeffs : List (Option α)) (linDq pdq nlc : Nat) (hlen : 2 ≤ coeffs.length)
    (h : NoSolution coeffs linDq nlc) :
    ∃ p, prepare coeffs linDq pdq nlc = some (benCoeffs coeffs.length, p) ∧
      (∀ b, p.testBit b = (pdq.testBit b || linDq.testBit b || nlc.testBit b)) := by
  simp only [prepare, correctForFlag]
  by_cases hf : linDq &&& nlc = nlc
  · rw [if_pos hf]
    simp only [correctForNaN, benCoeffs_no_none, Bool.false_eq_true, if_false]
    simp only [correctForZero, benCoeffs_length, benCoeffs_at_one _ hlen]
    rw [if_neg (by omega), if_neg (by simp)]
    refine ⟨_, rfl, fun b => ?_⟩
    have : nlc.testBit b = (linDq.testBit b && nlc.testBit b) := by
      conv_lhs => rw [← hf, Nat.testBit_and]
    rw [Nat.testBit_or]
    cases h1 : linDq.testBit b <;> cases h2 : nlc.testBit b <;> simp_all
  · rw [if_neg hf]
    by_cases hn : none ∈ coeffs
    · have : coeffs.any Option.isNone = true := by
        rw [List.any_eq_true]; exact ⟨none, hn, rfl⟩
      simp only [correctForNaN, this, if_true]
      simp only [correctForZero, benCoeffs_length, benCoeffs_at_one _ hlen]
      rw [if_neg (by omega), if_neg (by simp)]
      exact ⟨_, rfl, fun b => by simp [Nat.testBit_or]⟩
    · have hnn : coeffs.any Option.isNone = false := by
        rw [List.any_eq_false]
        intro x hx
        cases x with
        | none => exact absurd hx hn
        | some v => simp
      have hz : coeffs[1]? = some (some 0) := by
        rcases h with h | h | h
        · exact absurd h hf
        · exact absurd h hn
        · exact h
      simp only [correctForNaN, hnn, Bool.false_eq_true, if_false, correctForZero]
      rw [if_neg (by omega), if_pos (by simp [at', hz])]
      exact ⟨_, rfl, fun b => by simp [Nat.testBit_or]⟩

theorem prepare_good (coeffs : List (Option α)) (linDq pdq nlc : Nat) (hlen : 2 ≤ coeffs.length)
    (h : ¬ NoSolution coeffs linDq nlc) :
    prepare coeffs linDq pdq nlc = some (coeffs, pdq ||| linDq) := by
  simp only [NoSolution, not_or] at h
  obtain ⟨h1, h2, h3⟩ := h
  have hnn : coeffs.any Option.isNone = false := by
    rw [List.any_eq_false]
    intro x hx
    cases x with
    | none => exact absurd hx h2
    | some v => simp
  simp only [prepare, correctForFlag, if_neg h1, correctForNaN, hnn, Bool.false_eq_true, if_false,
    correctForZero]
  rw [if_neg (by omega), if_neg]
  intro hc
  apply h3
  have h4 : 1 < coeffs.length := by omega
  simp only [at', List.getElem?_eq_getElem h4, Option.getD_some] at hc
  rw [List.getElem?_eq_getElem h4, hc]

/-! ## C19 -/

/-- C19.  For a pixel with a usable solution `c_0 … c_n`, every group not flagged
SATURATED leaves `linearity_correction` as `c_0 + c_1 v + … + c_n v^n`, and a
NaN stays NaN. -/
theorem C19_polynomial (data : List (List (Option α))) (gdq : List (List Nat)) (pdq : Nat)
    (c : List α) (linDq sat nlc : Nat) (zframe : Option (List (Option α)))
    (hlen : 2 ≤ c.length) (hgood : ¬ NoSolution (c.map some) linDq nlc) :
    ∃ o, linearityPixel data gdq pdq (c.map some) linDq sat nlc zframe = some o ∧
      ∀ (i g : Nat) (row : List (Option α)) (x : Option α), data[i]? = some row →
        row[g]? = some x →
        ((((gdq[i]?).getD [])[g]?).getD 0) &&& sat = 0 →
        ∃ orow, o.data[i]? = some orow ∧ orow[g]? = some (x.map (polyVal c)) := by
  have hp := prepare_good (c.map some) linDq pdq nlc (by simpa using hlen) hgood
  refine ⟨_, by simp only [linearityPixel, hp]; rfl, ?_⟩
  intro i g row x hrow hx hdq
  refine ⟨simpleInt (c.map some) sat row ((gdq[i]?).getD []), by simp [hrow], ?_⟩
  rw [getElem?_simpleInt _ _ _ _ _ _ hx]
  simp only [applyPolyDq, hdq, ne_eq, not_true, if_false]
  cases x with
  | none => simp [applyPoly_none]
  | some v => simp [applyPoly_some c v hlen, polyVal]

example : ¬ NoSolution (([1, 2, 3] : List ℚ).map some) 4 2 := by
  simp [NoSolution]
example : (linearityPixel [[some (2 : ℚ), none, some 5]] [[0, 0, 2]] 1 [some 1, some 2, some 3]
    4 2 8 none).map (fun o => (o.data, o.pdq)) =
    some ([[some 17, none, some 5]], 5) := by decide +kernel

/-! ## C20 -/

/-- C20.  A pixel without a usable linearity solution keeps all its science
values (saturated or not, NaN or not) and its zero frame, and its output DQ is
the input DQ, the reference DQ and NO_LIN_CORR, bit for bit; in particular no
input bit is cleared. -/
theorem C20_no_solution_passes_through (data : List (List (Option α))) (gdq : List (List Nat))
    (pdq : Nat) (coeffs : List (Option α)) (linDq sat nlc : Nat)
    (zframe : Option (List (Option α)))
    (hlen : 2 ≤ coeffs.length) (hbad : NoSolution coeffs linDq nlc) :
    ∃ o, linearityPixel data gdq pdq coeffs linDq sat nlc zframe = some o ∧
      o.data = data ∧ o.zframe = zframe ∧
      ∀ b, o.pdq.testBit b = (pdq.testBit b || linDq.testBit b || nlc.testBit b) := by
  obtain ⟨p, hp, hbits⟩ := prepare_bad coeffs linDq pdq nlc hlen hbad
  refine ⟨_, by simp only [linearityPixel, hp]; rfl, ?_, ?_, hbits⟩
  · simp only [simpleInt_ben _ _ hlen]
    apply List.ext_getElem
    · simp
    · intro i h1 h2; simp
  · cases zframe with
    | none => rfl
    | some zs =>
      simp only [Option.map_some, Option.some.injEq]
      conv_rhs => rw [← List.map_id zs]
      exact List.map_congr_left (fun z _ => zeroFrame_ben _ _ hlen z)

/-- C20 (converse).  A pixel with a usable solution gets exactly the input and
reference DQ flags: NO_LIN_CORR is not raised without cause. -/
theorem C20_flag_only_with_cause (data : List (List (Option α))) (gdq : List (List Nat))
    (pdq : Nat) (coeffs : List (Option α)) (linDq sat nlc : Nat)
    (zframe : Option (List (Option α)))
    (hlen : 2 ≤ coeffs.length) (hgood : ¬ NoSolution coeffs linDq nlc) :
    ∃ o, linearityPixel data gdq pdq coeffs linDq sat nlc zframe = some o ∧
      ∀ b, o.pdq.testBit b = (pdq.testBit b || linDq.testBit b) := by
  have hp := prepare_good coeffs linDq pdq nlc hlen hgood
  refine ⟨_, by simp only [linearityPixel, hp]; rfl, fun b => by simp [Nat.testBit_or]⟩

example : NoSolution [some (1 : ℚ), none, some 3] 0 2 := Or.inr (Or.inl (by simp))
example : (linearityPixel [[some (2 : ℚ), some 5]] [[0, 0]] 1 [some 1, some 0, some 3]
    4 2 8 (some [some 7])).map (fun o => (o.data, o.pdq, o.zframe)) =
    some ([[some 2, some 5]], 13, some [some 7]) := by decide +kernel

/-! ## C21 -/

/-- C21 (group-level path).  Whatever the coefficients and flags, when the
correction returns, a group flagged SATURATED keeps its input value, and a
zero-frame value of zero stays zero. -/
theorem C21_saturated_kept (data : List (List (Option α))) (gdq : List (List Nat)) (pdq : Nat)
    (coeffs : List (Option α)) (linDq sat nlc : Nat) (zframe : Option (List (Option α)))
    (o : Out α) (h : linearityPixel data gdq pdq coeffs linDq sat nlc zframe = some o) :
    (∀ (i g : Nat) (row : List (Option α)) (x : Option α), data[i]? = some row →
      row[g]? = some x → Dq.Has ((((gdq[i]?).getD [])[g]?).getD 0) sat →
      ∃ orow, o.data[i]? = some orow ∧ orow[g]? = some x) ∧
    (∀ (zs : List (Option α)) (i : Nat), zframe = some zs → zs[i]? = some (some 0) →
      ∃ ozs, o.zframe = some ozs ∧ ozs[i]? = some (some 0)) := by
  simp only [linearityPixel] at h
  split at h
  · simp at h
  · rename_i c p hp
    simp only [Option.some.injEq] at h
    subst h
    constructor
    · intro i g row x hrow hx hs
      refine ⟨simpleInt c sat row ((gdq[i]?).getD []), by simp [hrow], ?_⟩
      rw [getElem?_simpleInt _ _ _ _ _ _ hx]
      unfold Dq.Has at hs
      simp [applyPolyDq, hs]
    · intro zs i hz hi
      refine ⟨zs.map (zeroFrame c sat), by simp [hz], ?_⟩
      simp [hi, zeroFrame]

/-- C21 (read-level path).  A resultant flagged SATURATED keeps its input value
whatever tiling, additional correction, cap and coefficients do. -/
theorem C21_read_level_saturated_kept (sat i : Nat) (p : Px α) (reads : List (Option α))
    (x : Option α) (hx : p.data[i]? = some x) (hs : Dq.Has ((p.gdq[i]?).getD 0) sat) :
    finishResultant sat i p reads = x := by
  unfold Dq.Has at hs
  simp [finishResultant, hs, hx]

example : (linearityPixel [[some (2 : ℚ), some 5]] [[0, 3]] 1 [some 1, some 2, some 3]
    4 2 8 (some [some 0])).map (fun o => (o.data, o.zframe)) =
    some ([[some 17, some 5]], some [some 0]) := by decide +kernel

/-! ## C22 -/

/-- C22.  For every number of rows, every tile height of at least one row and
every row-local additional correction (or none), the tiled read-level correction
equals the correction of the whole image at once. -/
theorem C22_tiling_transparent (sat : Nat) (pattern : List (List Nat)) (add : Additional α)
    (ngroups tileRows : Nat) (rows : List (List (Px α))) (ht : 1 ≤ tileRows)
    (hadd : ∀ f, add = some f → ∃ g, ∀ t, f t = t.map g) :
    readLevelInt sat pattern add ngroups tileRows rows =
      tileCorrect sat pattern add ngroups rows := by
  have hrow : ∃ F : Nat → List (Px α) → List (Option α), ∀ i tile,
      tileResultant sat pattern add i tile = tile.map (F i) := by
    cases add with
    | none => exact ⟨_, fun i tile => tileResultant_none sat pattern i tile⟩
    | some f =>
      obtain ⟨g, hg⟩ := hadd f rfl
      have : f = fun t => t.map g := funext hg
      subst this
      exact ⟨_, fun i tile => tileResultant_rowlocal sat pattern g i tile⟩
  obtain ⟨F, hF⟩ := hrow
  have key : ∀ (fuel : Nat) (rows : List (List (Px α))), rows.length ≤ fuel →
      tileLoop sat pattern add ngroups tileRows fuel rows =
        (List.range ngroups).map (fun i => rows.map (F i)) := by
    intro fuel
    induction fuel with
    | zero =>
      intro rows hr
      have : rows = [] := List.length_eq_zero_iff.mp (by omega)
      subst this
      simp [tileLoop]
    | succ fuel ih =>
      intro rows hr
      unfold tileLoop
      split
      · rename_i h; subst h; simp
      · rename_i h
        have hpos := List.length_pos_of_ne_nil h
        rw [ih (rows.drop tileRows) (by simp; omega)]
        simp only [tileCorrect, hF]
        rw [List.zipWith_map]
        apply List.ext_getElem
        · simp
        · intro i h1 h2
          simp only [List.getElem_zipWith, List.getElem_range, List.getElem_map]
          rw [← List.map_append, List.take_append_drop]
  unfold readLevelInt tileCorrect
  rw [key _ _ (le_refl _)]
  simp only [hF]

/-- A row-local correction (add 1 to every read), three rows in tiles of two. -/
example : ∃ g : List (List (Option ℚ)) → List (List (Option ℚ)),
    ∀ t : List (List (List (Option ℚ))),
      t.map (fun row => row.map (List.map (fun _ => some (1 : ℚ)))) = t.map g := ⟨_, fun _ => rfl⟩
example :
    let px : Px ℚ := ⟨[some 1, some 3], [0, 0], [some 0, some 2], [some 0, some 1], none⟩
    readLevelInt 2 [[1], [2, 3]] (some (fun t => t.map (List.map (List.map (fun _ => some 1)))))
      2 2 [[px], [px], [px]] =
      [[[some 4], [some 4], [some 4]], [[some 8], [some 8], [some 8]]] := by decide +kernel

/-! ## C64 -/

/-- The reads of a resultant as numbers. -/
theorem adjustedReads_eq (sat : Nat) (pattern : List (List Nat)) (i : Nat) (p : Px α)
    (f r m : α) (ic : List α) (reads : List Nat)
    (hf : firstLin sat p = some f) (hr : countRate sat pattern p = some r)
    (hm : meanRead ((pattern[0]?).getD []) = some m)
    (hic : p.icoeffs = ic.map some) (hicl : 2 ≤ ic.length) (hpat : pattern[i]? = some reads) :
    adjustedReads sat pattern i p =
      (reads.map (fun (k : Nat) => some (polyVal ic (f + r * ((k : α) - m))))).map
        (fun x => oadd x (osub ((p.data[i]?).getD none)
          (omean ((reads.map (fun (k : Nat) => polyVal ic (f + r * ((k : α) - m)))).map some)))) := by
  have e : (reads.map (fun (k : Nat) => oadd (some f) (omul (some r)
      (osub (some (k : α)) (some m))))).map (applyPoly (ic.map some)) =
      (reads.map (fun (k : Nat) => polyVal ic (f + r * ((k : α) - m)))).map some := by
    rw [List.map_map, List.map_map]
    apply List.map_congr_left
    intro k _
    simp [oadd, omul, osub, applyPoly_some ic _ hicl, polyVal]
  simp only [adjustedReads, hf, hr, hm, hic, hpat, Option.getD_some]
  rw [e]
  simp [List.map_map, Function.comp_def]

/-- C64 (conservation).  On the read-level path the reconstructed reads of every
non-empty resultant average exactly to the measured resultant, for any count
rate, read pattern and inverse polynomial. -/
theorem C64_reads_average_to_resultant [CharZero α] (sat : Nat) (pattern : List (List Nat))
    (i : Nat) (p : Px α) (f r m v : α) (ic : List α) (reads : List Nat)
    (hf : firstLin sat p = some f) (hr : countRate sat pattern p = some r)
    (hm : meanRead ((pattern[0]?).getD []) = some m)
    (hic : p.icoeffs = ic.map some) (hicl : 2 ≤ ic.length)
    (hpat : pattern[i]? = some reads) (hne : reads ≠ []) (hv : p.data[i]? = some (some v)) :
    omean (adjustedReads sat pattern i p) = some v := by
  rw [adjustedReads_eq sat pattern i p f r m ic reads hf hr hm hic hicl hpat]
  set u := reads.map (fun (k : Nat) => polyVal ic (f + r * ((k : α) - m))) with hu
  have hune : u ≠ [] := by simpa [hu] using hne
  have hul : (u.length : α) ≠ 0 := by
    have := List.length_pos_of_ne_nil hune
    exact_mod_cast this.ne'
  have e : reads.map (fun (k : Nat) => some (polyVal ic (f + r * ((k : α) - m)))) = u.map some := by
    simp [hu]
  rw [e, omean_map_some u hune, hv]
  simp only [Option.getD_some, osub, List.map_map]
  have e2 : (fun x : Option α => oadd x (some (v - u.sum / (u.length : α)))) ∘ some =
      fun a : α => some (a + (v - u.sum / (u.length : α))) := by
    funext a; simp [oadd]
  rw [e2]
  have e3 : u.map (fun a : α => some (a + (v - u.sum / (u.length : α)))) =
      (u.map (fun a : α => a + (v - u.sum / (u.length : α)))).map some := by simp
  rw [e3, omean_map_some _ (by simpa using hune)]
  congr 1
  rw [List.sum_map_add]
  simp only [List.map_id', List.length_map, List.map_const', List.sum_replicate, nsmul_eq_mul]
  field_simp
  ring

/-- C64 (agreement of the two paths).  For a resultant made of a single read,
with no cap and no additional correction, the read-level path gives the same
value as the group-level path: the coefficient polynomial of the resultant. -/
theorem C64_single_read_agrees [CharZero α] (sat : Nat) (pattern : List (List Nat))
    (i k : Nat) (p : Px α) (f r m v : α) (ic c : List α)
    (hf : firstLin sat p = some f) (hr : countRate sat pattern p = some r)
    (hm : meanRead ((pattern[0]?).getD []) = some m)
    (hic : p.icoeffs = ic.map some) (hicl : 2 ≤ ic.length)
    (hc : p.coeffs = c.map some) (hcl : 2 ≤ c.length)
    (hpat : pattern[i]? = some [k]) (hv : p.data[i]? = some (some v))
    (hcap : p.satval = none) :
    finishResultant sat i p (adjustedReads sat pattern i p) =
      applyPolyDq p.coeffs sat ((p.gdq[i]?).getD 0) (some v) := by
  have hadj : adjustedReads sat pattern i p = [some v] := by
    rw [adjustedReads_eq sat pattern i p f r m ic [k] hf hr hm hic hicl hpat]
    rw [omean_map_some _ (by simp)]
    simp [hv, osub, oadd]
  simp only [finishResultant, hadj, applyPolyDq, hv, Option.getD_some]
  split
  · rfl
  · have := omean_map_some [polyVal c v] (by simp)
    simp only [List.map_cons, List.map_nil, capRead, hcap, hc]
    rw [applyPoly_some c v hcl]
    simpa [polyVal] using this

/-! ## C65 -/

/-- C65 (read level).  A pixel whose linearity coefficients were made benign (no
usable solution) keeps every resultant on the read-level path too, when no
additional correction and no cap apply; whatever its inverse polynomial.

Partial: with a cap, an unsaturated value above 1.2 times saturation is lowered
(see `C65_cap_changes_value`); and a pixel that is unusable only in the inverse
coefficients is flagged NO_LIN_CORR but still corrected
(`C65_inverse_only_still_corrected`). -/
theorem C65_read_level_passes_through_partial [CharZero α] (sat : Nat) (pattern : List (List Nat))
    (i n : Nat) (p : Px α) (f r m v : α) (ic : List α) (reads : List Nat)
    (hf : firstLin sat p = some f) (hr : countRate sat pattern p = some r)
    (hm : meanRead ((pattern[0]?).getD []) = some m)
    (hic : p.icoeffs = ic.map some) (hicl : 2 ≤ ic.length)
    (hc : p.coeffs = benCoeffs n) (hn : 2 ≤ n)
    (hpat : pattern[i]? = some reads) (hne : reads ≠ []) (hv : p.data[i]? = some (some v))
    (hcap : p.satval = none) :
    finishResultant sat i p (adjustedReads sat pattern i p) = some v := by
  have hmean := C64_reads_average_to_resultant sat pattern i p f r m v ic reads hf hr hm hic hicl
    hpat hne hv
  simp only [finishResultant, hv, Option.getD_some]
  split
  · rfl
  · rw [hc]
    have e1 : (adjustedReads sat pattern i p).map (capRead p.satval) =
        adjustedReads sat pattern i p := by
      conv_rhs => rw [← List.map_id (adjustedReads sat pattern i p)]
      exact List.map_congr_left (fun x _ => by simp [capRead, hcap])
    have e2 : (adjustedReads sat pattern i p).map (applyPoly (benCoeffs n)) =
        adjustedReads sat pattern i p := by
      conv_rhs => rw [← List.map_id (adjustedReads sat pattern i p)]
      apply List.map_congr_left
      intro x _
      exact applyPoly_ben n hn x
    rw [e1, e2]
    exact hmean

/-- Example pixel for the read-level path: three resultants of one, two and three
reads. -/
def exPx : Px ℚ :=
  { data := [some 1, some 3, some 8], gdq := [0, 0, 0], coeffs := [some 0, some 1],
    icoeffs := [some 0, some 1, some (1/2)], satval := none }

def exPattern : List (List Nat) := [[1], [2, 3], [4, 5, 6]]

example : firstLin 2 exPx = some 1 ∧ countRate 2 exPattern exPx = some (4/3) ∧
    (meanRead ((exPattern[0]?).getD []) : Option ℚ) = some 1 := by decide +kernel
example : finishResultant 2 2 exPx (adjustedReads 2 exPattern 2 exPx) = some 8 := by
  decide +kernel

/-- With a cap, an unsaturated value above 1.2 times the saturation value is
changed even for a pixel flagged as having no solution. -/
theorem C65_cap_changes_value :
    finishResultant 2 0 { exPx with satval := some (some (1/2)) }
      (adjustedReads 2 exPattern 0 { exPx with satval := some (some (1/2)) }) = some (3/5) := by
  decide +kernel

/-- A pixel whose inverse coefficients are NaN is flagged NO_LIN_CORR (8) by the
second call of `prepare_coefficients`, yet its values are still corrected with
the forward polynomial `2 v`. -/
theorem C65_inverse_only_still_corrected :
    (prepare [some (0 : ℚ), none] 0 0 8).map Prod.snd = some 8 ∧
      finishResultant 2 0
        { exPx with coeffs := [some 0, some 2], icoeffs := benCoeffs 2 }
        (adjustedReads 2 exPattern 0
          { exPx with coeffs := [some 0, some 2], icoeffs := benCoeffs 2 }) = some 2 := by
  decide +kernel

end Verif.Thm
