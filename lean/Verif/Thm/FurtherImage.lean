import Verif.Thm.DrizzleVar

/-!
# C184: what a further image does to the resampled variances

Images on the grid of the output, weighted by read noise or by time (resample/resample.py:1057-1277).
-/

set_option linter.unusedSectionVars false

namespace Verif.Thm
open Verif.Resample Verif.Drizzle

variable {α : Type} [Field α] [LinearOrder α] [IsStrictOrderedRing α] [FloorRing α] {ν : Type}

open Classical in
/-- Specification: sum of the inverse read-noise variances of the usable pixels. -/
noncomputable def fiInverse (rn : ν) (good : Option Nat) (ms : List (Input ν α × (Nat × Nat))) : α :=
  (ms.map fun q => if DzGood good (q.1.dq q.2.1 q.2.2) then 1 / dvVar q.1 rn q.2 else 0).sum

theorem fi_inverse (rn : ν) (good : Option Nat) (ms : List (Input ν α × (Nat × Nat))) :
    (ms.map (dvW rn false good)).sum = fiInverse rn good ms := by
  refine congrArg _ (List.map_congr_left fun q _ => ?_)
  simp only [dvW, Bool.false_eq_true, if_false]

theorem fi_noise (rn : ν) (names : List ν) (good : Option Nat) (q : Input ν α × (Nat × Nat)) (h : DvAligned rn names good q.1 q.2) :
    dvW rn false good q ≠ 0 → 0 < dvVar q.1 rn q.2 ∧ dvW rn false good q * dvVar q.1 rn q.2 = 1 := by
  intro hw
  have hg := (dv_pos rn names false good q.1 q.2 h).1 hw
  obtain ⟨x, hx, hv⟩ := h.noise hg
  have he : dvVar q.1 rn q.2 = x := by simp only [dvVar, hv]
  refine ⟨by rw [he]; exact hx, ?_⟩
  simp only [dvW, if_pos hg, Bool.false_eq_true, if_false, he]
  exact one_div_mul_cancel hx.ne'

theorem fi_square (rn : ν) (names : List ν) (good : Option Nat) (q : Input ν α × (Nat × Nat)) (h : DvAligned rn names good q.1 q.2) :
    dvW rn false good q ^ 2 * dvVar q.1 rn q.2 = dvW rn false good q := by
  by_cases hw : dvW rn false good q = 0
  · rw [hw]
    ring
  · have := (fi_noise rn names good q h hw).2
    rw [pow_two, mul_assoc, this, mul_one]

theorem fi_nonneg (rn : ν) (names : List ν) (good : Option Nat) (ms : List (Input ν α × (Nat × Nat)))
    (h : ∀ q ∈ ms, DvAligned rn names good q.1 q.2) : 0 ≤ fiInverse rn good ms := by
  rw [← fi_inverse]
  refine List.sum_nonneg fun x hx => ?_
  obtain ⟨q, hq, rfl⟩ := List.mem_map.1 hx
  exact dv_nonneg rn names false good q.1 q.2 (h q hq)

theorem fi_sum {β : Type} (l : List β) (a w : β → α) (x y : α) :
    (l.map fun q => a q * x - w q * y).sum = (l.map a).sum * x - (l.map w).sum * y := by
  induction l with
  | nil => simp
  | cons q l ih =>
    simp only [List.map_cons, List.sum_cons, ih]
    ring

/-- C184 (read noise).  With inverse-variance weights the resampled read-noise variance is the inverse of the sum of the inverse read-noise
variances of the usable pixels, in output units. -/
theorem C184_read_noise [DecidableEq ν] (sqrt : α → α) (hsq : ∀ x, 0 ≤ x → sqrt x ^ 2 = x) (rn : ν) (names : List ν) (hrn : rn ∈ names)
    (good : Option Nat) (s scaling : α) (hs : s ≠ 0) (ms : List (Input ν α × (Nat × Nat)))
    (h : ∀ q ∈ ms, DvAligned rn names good q.1 q.2) :
    variance sqrt names rn .ivm good scaling (ms.map fun q => (s, q.1)) rn =
      some (if fiInverse rn good ms = 0 then none else some (scaling * (s ^ 2 / fiInverse rn good ms))) := by
  obtain ⟨h0, h1⟩ := C169_variance_of_mean sqrt hsq rn names hrn false good s scaling hs none ms h
  simp only [Bool.false_eq_true, if_false] at h0 h1
  rw [fi_inverse] at h0 h1
  split
  · rename_i hW
    exact (h0 hW).2 rn hrn
  · rename_i hW
    rw [(h1 hW).2 rn hrn]
    congr 3
    have e : ∀ q ∈ ms, (dvW rn false good q / fiInverse rn good ms) ^ 2 * (s ^ 2 * dvVar q.1 rn q.2) =
        dvW rn false good q * (s ^ 2 / fiInverse rn good ms ^ 2) := by
      intro q hq
      have := fi_square rn names good q (h q hq)
      calc (dvW rn false good q / fiInverse rn good ms) ^ 2 * (s ^ 2 * dvVar q.1 rn q.2) =
          (dvW rn false good q ^ 2 * dvVar q.1 rn q.2) * (s ^ 2 / fiInverse rn good ms ^ 2) := by
            rw [div_pow]
            ring
        _ = _ := by rw [this]
    rw [List.map_congr_left e, List.sum_map_mul_right, fi_inverse]
    field_simp

/-- C184 (a further image).  With inverse-variance weights a further image, wherever it stands in the list, never raises the resampled
read-noise variance, and lowers it if its pixel is usable. -/
theorem C184_further_image [DecidableEq ν] (sqrt : α → α) (hsq : ∀ x, 0 ≤ x → sqrt x ^ 2 = x) (rn : ν) (names : List ν) (hrn : rn ∈ names)
    (good : Option Nat) (s scaling : α) (hs : s ≠ 0) (hsc : 0 < scaling) (l1 l2 : List (Input ν α × (Nat × Nat)))
    (q : Input ν α × (Nat × Nat)) (h : ∀ x ∈ l1 ++ q :: l2, DvAligned rn names good x.1 x.2) (v : α)
    (hv : variance sqrt names rn .ivm good scaling ((l1 ++ l2).map fun q => (s, q.1)) rn = some (some v)) :
    ∃ v', variance sqrt names rn .ivm good scaling ((l1 ++ q :: l2).map fun q => (s, q.1)) rn = some (some v') ∧ v' ≤ v ∧
      (DzGood good (q.1.dq q.2.1 q.2.2) → v' < v) := by
  have hold : ∀ x ∈ l1 ++ l2, DvAligned rn names good x.1 x.2 := by
    intro x hx
    refine h x ?_
    simp only [List.mem_append, List.mem_cons] at hx ⊢
    tauto
  rw [C184_read_noise sqrt hsq rn names hrn good s scaling hs _ hold] at hv
  rw [C184_read_noise sqrt hsq rn names hrn good s scaling hs _ h]
  have hsum : fiInverse rn good (l1 ++ q :: l2) = fiInverse rn good (l1 ++ l2) + dvW rn false good q := by
    rw [← fi_inverse, ← fi_inverse]
    simp only [List.map_append, List.map_cons, List.sum_append, List.sum_cons]
    ring
  have hq := dv_nonneg rn names false good q.1 q.2 (h q (by simp))
  have hnn := fi_nonneg rn names good _ hold
  simp only [Option.some.injEq] at hv
  split at hv
  · cases hv
  rename_i hne
  have hpos : 0 < fiInverse rn good (l1 ++ l2) := lt_of_le_of_ne hnn (Ne.symm hne)
  have hpos' : 0 < fiInverse rn good (l1 ++ q :: l2) := by
    rw [hsum]
    exact add_pos_of_pos_of_nonneg hpos hq
  rw [if_neg hpos'.ne']
  simp only [Option.some.injEq] at hv
  have hs2 : 0 < s ^ 2 := by positivity
  refine ⟨_, rfl, ?_, fun hg => ?_⟩
  · rw [← hv]
    refine mul_le_mul_of_nonneg_left (div_le_div_of_nonneg_left hs2.le hpos ?_) hsc.le
    rw [hsum]
    exact le_add_of_nonneg_right hq
  · rw [← hv]
    refine mul_lt_mul_of_pos_left (div_lt_div_of_pos_left hs2 hpos ?_) hsc
    rw [hsum]
    exact lt_add_of_pos_right _ (lt_of_le_of_ne hq (Ne.symm ((dv_pos rn names false good q.1 q.2 (h q (by simp))).2 hg)))

/-- C184 (optimal).  No other weighted mean of the usable pixels has a smaller read-noise variance than the one reported with
inverse-variance weights. -/
theorem C184_optimal [DecidableEq ν] (sqrt : α → α) (hsq : ∀ x, 0 ≤ x → sqrt x ^ 2 = x) (rn : ν) (names : List ν) (hrn : rn ∈ names)
    (good : Option Nat) (s : α) (hs : s ≠ 0) (ms : List (Input ν α × (Nat × Nat)))
    (h : ∀ q ∈ ms, DvAligned rn names good q.1 q.2) (v : α)
    (hv : variance sqrt names rn .ivm good 1 (ms.map fun q => (s, q.1)) rn = some (some v)) (a : Input ν α × (Nat × Nat) → α)
    (ha : (ms.map a).sum = 1) (hbad : ∀ q ∈ ms, ¬ DzGood good (q.1.dq q.2.1 q.2.2) → a q = 0) :
    v ≤ (ms.map fun q => a q ^ 2 * (s ^ 2 * dvVar q.1 rn q.2)).sum := by
  rw [C184_read_noise sqrt hsq rn names hrn good s 1 hs ms h] at hv
  simp only [Option.some.injEq] at hv
  split at hv
  · cases hv
  rename_i hne
  have hpos : 0 < fiInverse rn good ms := lt_of_le_of_ne (fi_nonneg rn names good ms h) (Ne.symm hne)
  simp only [Option.some.injEq, one_mul] at hv
  rw [← hv]
  set W := fiInverse rn good ms with hW
  have hterm : ∀ q ∈ ms, a q * (2 * s ^ 2 / W) - dvW rn false good q * (s ^ 2 / W ^ 2) ≤ a q ^ 2 * (s ^ 2 * dvVar q.1 rn q.2) := by
    intro q hq
    by_cases hw : dvW rn false good q = 0
    · have hg : ¬ DzGood good (q.1.dq q.2.1 q.2.2) := fun hg => (dv_pos rn names false good q.1 q.2 (h q hq)).2 hg hw
      rw [hbad q hq hg, hw]
      simp
    · obtain ⟨hvp, hone⟩ := fi_noise rn names good q (h q hq) hw
      set u := dvVar q.1 rn q.2
      have hwu : dvW rn false good q = 1 / u := eq_one_div_of_mul_eq_one_left hone
      rw [hwu]
      have hsq' : 0 ≤ s ^ 2 * u * (a q - 1 / (u * W)) ^ 2 := by positivity
      have he : s ^ 2 * u * (a q - 1 / (u * W)) ^ 2 = a q ^ 2 * (s ^ 2 * u) - (a q * (2 * s ^ 2 / W) - 1 / u * (s ^ 2 / W ^ 2)) := by
        field_simp
        ring
      linarith
  have hsum := List.sum_le_sum hterm
  refine le_trans (le_of_eq ?_) hsum
  have hsub : (ms.map fun q => a q * (2 * s ^ 2 / W) - dvW rn false good q * (s ^ 2 / W ^ 2)).sum =
      (ms.map a).sum * (2 * s ^ 2 / W) - (ms.map (dvW rn false good)).sum * (s ^ 2 / W ^ 2) :=
    fi_sum ms a (dvW rn false good) _ _
  rw [hsub, ha, fi_inverse, ← hW]
  field_simp
  ring

/-! ## Findings and examples -/

/-- A function that is the root at 0, 1 and 16. -/
def fiSqrt (x : ℚ) : ℚ := if x = 16 then 4 else x

/-- **Finding**: a further image can raise the variances other than the read noise, as the weights do not know them: two images of the same
read noise, the Poisson variance of the first is 1, that of the second 16; the resampled Poisson variance rises from 1 to 17/4 when the second
one is added. -/
theorem C184_poisson_raised : DvAligned true [true, false] none (dvImage 8 1 1 1 0) (0, 0) ∧ DvAligned true [true, false] none (dvImage 8 1 16 1 0) (0, 0) ∧
    variance fiSqrt [true, false] true .ivm none 1 [(1, dvImage 8 1 1 1 0)] false = some (some 1) ∧
    variance fiSqrt [true, false] true .ivm none 1 [(1, dvImage 8 1 1 1 0), (1, dvImage 8 1 16 1 0)] false = some (some (17 / 4)) :=
  ⟨dv_image_aligned _ _ _ _ _ _ (by norm_num) (by norm_num), dv_image_aligned _ _ _ _ _ _ (by norm_num) (by norm_num), by decide +kernel, by decide +kernel⟩

/-- **Finding**: with weights by time a further image can raise the read-noise variance as well. -/
theorem C184_read_noise_raised :
    variance fiSqrt [true, false] true .exptime none 1 [(1, dvImage 8 1 1 1 0)] true = some (some 1) ∧
    variance fiSqrt [true, false] true .exptime none 1 [(1, dvImage 8 1 1 1 0), (1, dvImage 8 16 1 1 0)] true = some (some (17 / 4)) := by
  decide +kernel

-- C184_read_noise, C184_further_image, C184_optimal: 1/(1 + 1/16) after one image with variance 1 and one with variance 16
example : variance fiSqrt [true, false] true .ivm none 1 [(1, dvImage 8 1 1 1 0), (1, dvImage 8 16 1 1 0)] true = some (some (16 / 17)) ∧
    variance fiSqrt [true, false] true .ivm none 1 [(1, dvImage 8 1 1 1 0)] true = some (some 1) ∧
    fiSqrt 0 ^ 2 = 0 ∧ fiSqrt 1 ^ 2 = 1 ∧ fiSqrt 16 ^ 2 = 16 := by decide +kernel

example : DvAligned true [true, false] none (dvImage 8 16 1 1 0) (0, 0) := dv_image_aligned _ _ _ _ _ _ (by norm_num) (by norm_num)

/-- The same kind of image over the real numbers, where there is a root. -/
def fiImage (rn : ℝ) : Input Bool ℝ :=
  { ny := 1, nx := 2, data := fun _ _ => some 8, dq := fun _ _ => 0,
    vars := fun n => some fun _ _ => .num (if n then rn else 1), sky := none, time := 1, level := some 1,
    subtracted := false, box := none, overlap := fun r c => if (r, c) = (0, 0) then 1 else 0 }

theorem fi_image_aligned (rn : ℝ) (h1 : 0 < rn) : DvAligned true [true, false] none (fiImage rn) (0, 0) where
  inside := by
    simp only [DzIn, fiImage, resampleRange, range1, Option.map_none]
    omega
  overlap := fun _ _ => rfl
  time := by simp [fiImage]
  has := by simp [fiImage]
  data := by simp [fiImage]
  vars := by
    intro _ n _
    refine ⟨if n then rn else 1, ?_, rfl⟩
    cases n
    · simp
    · simpa using h1.le
  noise := fun _ => ⟨rn, h1, rfl⟩

-- a second image of variance 2 lowers the read-noise variance
example : ∃ v', variance Real.sqrt [true, false] true .ivm none 1 [(1, fiImage 1), (1, fiImage 2)] true = some (some v') ∧ v' < 1 := by
  have hal : ∀ x ∈ [] ++ (fiImage 2, (0, 0)) :: [(fiImage 1, ((0 : Nat), (0 : Nat)))], DvAligned true [true, false] none x.1 x.2 := by
    intro x hx
    simp only [List.nil_append, List.mem_cons, List.not_mem_nil, or_false] at hx
    rcases hx with rfl | rfl
    · exact fi_image_aligned 2 (by norm_num)
    · exact fi_image_aligned 1 (by norm_num)
  have hv := C184_read_noise Real.sqrt (fun _ h => Real.sq_sqrt h) true [true, false] (by simp) none 1 1 one_ne_zero
    [(fiImage 1, (0, 0)), (fiImage 2, (0, 0))] (by
      intro x hx
      exact hal x (by simp only [List.nil_append, List.mem_cons] at hx ⊢; tauto))
  have hW : fiInverse true none [(fiImage 1, ((0 : Nat), (0 : Nat))), (fiImage 2, (0, 0))] = 3 / 2 := by
    simp only [fiInverse, List.map_cons, List.map_nil, List.sum_cons, List.sum_nil, dvVar, fiImage, DzGood]
    norm_num
  rw [hW, if_neg (by norm_num)] at hv
  exact ⟨_, hv, by norm_num⟩

end Verif.Thm
