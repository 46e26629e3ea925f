import Verif.Thm.RateBounds

/-!
# C187 for the likelihood fit of groups of several reads

Neighbouring group averages share photon noise, so that neighbouring differences may be positively correlated.  The weights of the
likelihood fit are nevertheless not negative as soon as the reads of a group are close together compared with the distance of the groups;
reads that are evenly spaced within each group always are.
-/

set_option linter.unusedSectionVars false

namespace Verif.Thm

open Verif.Likely Verif.LikelyDriver Finset Matrix

variable {α : Type} [Field α] [LinearOrder α] [IsStrictOrderedRing α]

/-! ## The sign of the weights -/

/-- Sequences with `f t x + e (x - left neighbour) + e' (x - right neighbour) = L t` and zero boundary values are not negative, although
the coefficients `e` may be negative, as long as they are small compared with `f t`. -/
theorem rt_sign (n : Nat) (u : Nat → Bool) (f L : α) (hf : 0 ≤ f) (hL : 0 < L) (dt e δ X : Nat → α) (hdt : ∀ i < n, 0 < dt i)
    (hδ : ∀ i < n, 2 * (δ i + δ (i + 1)) < dt i) (hδ0 : ∀ i ≤ n, 0 ≤ δ i) (he : ∀ i ≤ n, -(f * δ i) ≤ e i) (h0 : X 0 = 0)
    (hz : ∀ i, ¬ (i < n ∧ u i = true) → X (i + 1) = 0)
    (heq : ∀ i < n, u i = true →
      f * dt i * X (i + 1) + e i * (X (i + 1) - X i) + e (i + 1) * (X (i + 1) - X (i + 2)) = L * dt i) :
    ∀ i, 0 ≤ X i := by
  by_contra hneg
  push Not at hneg
  obtain ⟨i0, hi0⟩ := hneg
  have hout : ∀ i, n < i → X i = 0 := by
    intro i hi
    obtain ⟨j, rfl⟩ : ∃ j, i = j + 1 := ⟨i - 1, by omega⟩
    exact hz j (by omega)
  have hi0n : i0 ≤ n := by
    by_contra hc
    rw [hout i0 (by omega)] at hi0
    exact lt_irrefl _ hi0
  obtain ⟨k, hk, hmin⟩ := exists_min_image (range (n + 2)) X ⟨0, by simp⟩
  obtain ⟨l, hl, hmax⟩ := exists_max_image (range (n + 2)) X ⟨0, by simp⟩
  have hm : ∀ i, X k ≤ X i := by
    intro i
    by_cases hi : i ≤ n
    · exact hmin i (mem_range.2 (by omega))
    · rw [hout i (by omega), ← hout (n + 1) (by omega)]
      exact hmin _ (mem_range.2 (by omega))
  have hM : ∀ i, X i ≤ X l := by
    intro i
    by_cases hi : i ≤ n
    · exact hmax i (mem_range.2 (by omega))
    · rw [hout i (by omega), ← hout (n + 1) (by omega)]
      exact hmax _ (mem_range.2 (by omega))
  have hm0 : X k < 0 := (hm i0).trans_lt hi0
  have hM0 : 0 ≤ X l := h0 ▸ hM 0
  have hd : 0 < X l - X k := by linarith
  -- the smallest entry
  obtain ⟨i, rfl⟩ : ∃ i, k = i + 1 := by
    refine ⟨k - 1, ?_⟩
    by_contra hc
    have : k = 0 := by omega
    rw [this, h0] at hm0
    exact lt_irrefl _ hm0
  have hi : i < n ∧ u i = true := by
    by_contra hc
    rw [hz i hc] at hm0
    exact lt_irrefl _ hm0
  have q1 := heq i hi.1 hi.2
  have b1 : ∀ j ≤ n, ∀ y, X (i + 1) ≤ y → y ≤ X l → e j * (X (i + 1) - y) ≤ f * δ j * (X l - X (i + 1)) := by
    intro j hj y hy1 hy2
    have := mul_nonneg (by linarith [he j hj] : 0 ≤ e j + f * δ j) (sub_nonneg.2 hy1)
    have := mul_le_mul_of_nonneg_left hy2 (mul_nonneg hf (hδ0 j hj))
    linarith
  have p1 := b1 i (by omega) _ (hm i) (hM i)
  have p2 := b1 (i + 1) (by omega) _ (hm (i + 2)) (hM (i + 2))
  have hf0 : 0 < f := by
    rcases hf.lt_or_eq with h | h
    · exact h
    · subst h
      have := mul_pos hL (hdt i hi.1)
      simp only [zero_mul] at q1 p1 p2
      linarith
  have r1 : L < f * (X (i + 1) + X l) / 2 := by
    have t1 := mul_lt_mul_of_pos_left (hδ i hi.1) (mul_pos hf0 hd)
    have t2 : L * dt i < f * (X (i + 1) + X l) / 2 * dt i := by linarith
    exact lt_of_mul_lt_mul_right t2 (hdt i hi.1).le
  -- the largest entry
  by_cases hl0 : X l = 0
  · rw [hl0, add_zero] at r1
    have := mul_neg_of_pos_of_neg hf0 hm0
    linarith
  · obtain ⟨j, rfl⟩ : ∃ j, l = j + 1 := by
      refine ⟨l - 1, ?_⟩
      by_contra hc
      have : l = 0 := by omega
      exact hl0 (by rw [this, h0])
    have hj : j < n ∧ u j = true := by
      by_contra hc
      exact hl0 (hz j hc)
    have q2 := heq j hj.1 hj.2
    have b2 : ∀ s ≤ n, ∀ y, X (i + 1) ≤ y → y ≤ X (j + 1) → -(f * δ s * (X (j + 1) - X (i + 1))) ≤ e s * (X (j + 1) - y) := by
      intro s hs y hy1 hy2
      have := mul_nonneg (by linarith [he s hs] : 0 ≤ e s + f * δ s) (sub_nonneg.2 hy2)
      have := mul_le_mul_of_nonneg_left hy1 (mul_nonneg hf (hδ0 s hs))
      linarith
    have p3 := b2 j (by omega) _ (hm j) (hM j)
    have p4 := b2 (j + 1) (by omega) _ (hm (j + 2)) (hM (j + 2))
    have t1 := mul_lt_mul_of_pos_left (hδ j hj.1) (mul_pos hf0 hd)
    have t2 : f * (X (i + 1) + X (j + 1)) / 2 * dt j < L * dt j := by linarith
    have := lt_of_mul_lt_mul_right t2 (hdt j hj.1).le
    linarith

/-! ## The mean distance of two reads -/

/-- Mean distance of two reads of a group (a read and itself included). -/
def rtDist (l : List α) : α := (l.map fun x => (l.map fun y => |x - y|).sum).sum / ((l.length : α) * (l.length : α))

theorem rtDist_nonneg (l : List α) : 0 ≤ rtDist l := by
  refine div_nonneg (List.sum_nonneg fun x hx => ?_) (mul_self_nonneg _)
  obtain ⟨y, -, rfl⟩ := List.mem_map.1 hx
  refine List.sum_nonneg fun x hx => ?_
  obtain ⟨y, -, rfl⟩ := List.mem_map.1 hx
  exact abs_nonneg _

theorem rt_abs (x y : α) : |x - y| = x + y - 2 * min x y := by
  rcases le_total x y with h | h
  · rw [abs_of_nonpos (by linarith), min_eq_left h]; ring
  · rw [abs_of_nonneg (by linarith), min_eq_right h]; ring

theorem rt_inner (x : α) (l : List α) :
    (l.map fun y => |x - y|).sum = (l.length : α) * x + l.sum - 2 * (l.map fun y => min x y).sum := by
  induction l with
  | nil => simp
  | cons y l ih =>
    rw [List.map_cons, List.sum_cons, ih, rt_abs]
    simp only [List.map_cons, List.sum_cons, List.length_cons]
    push_cast
    ring

theorem rt_outer (s l : List α) :
    (s.map fun x => (l.map fun y => |x - y|).sum).sum = (l.length : α) * s.sum + (s.length : α) * l.sum - 2 * lkMinSum s l := by
  unfold lkMinSum
  induction s with
  | nil => simp
  | cons x s ih =>
    rw [List.map_cons, List.sum_cons, ih, rt_inner]
    simp only [List.map_cons, List.sum_cons, List.length_cons]
    push_cast
    ring

/-- The mean distance is twice the difference between the mean time and the time `tau` of the photon noise. -/
theorem rt_dist (l : List α) (h0 : l ≠ []) (h : l.Pairwise (· ≤ ·)) : rtDist l = 2 * (meanT l - tauT l) := by
  have hn : (l.length : α) ≠ 0 := by exact_mod_cast (List.length_pos_of_ne_nil h0).ne'
  unfold rtDist meanT tauT
  rw [rt_outer, lkMinSum_self l h, tauL_eq]
  field_simp
  ring

/-! ## One fit -/

/-- **C187**, one likelihood fit: if the mean distance of two reads of a group, added to that of the next group, is less than the time
between the two groups, then all weights are non-negative, and the count rate lies in the range of the differences used.  Reads of a
group need not be evenly spaced. -/
theorem C187_likely_spread {n : Nat} {u : Nat → Bool} {times : Nat → List α} {q : Noise α} {s : α} (h : LkPattern n times)
    (hq : LkNoiseOk q) (hs : 0 < s) (hu : ∃ i < n, u i = true)
    (hd : ∀ i < n, rtDist (times i) + rtDist (times (i + 1)) < lkMean (times (i + 1)) - lkMean (times i)) (diffs : Nat → α) :
    ∃ r, fitWith n (covar times) q s diffs (num u) = some r ∧ (∀ i < n, 0 ≤ r.weights i) ∧ 0 ≤ r.varP ∧ 0 < r.varR
      ∧ ∀ lo hi, (∀ i < n, u i = true → lo ≤ diffs i ∧ diffs i ≤ hi) → lo ≤ r.countrate ∧ r.countrate ≤ hi := by
  obtain ⟨r, e1, -, -, -, -, e6, e7, e8, e9, e10, -, e12, e13, e14⟩ := C38_generalised_least_squares h hq hs hu diffs
  have ht := lkTri q h
  have hp := cov_pos h.ordered q hq.1 hq.2.1 hq.2.2
  -- the normal equations
  have hw : ∀ i < n, 0 ≤ r.weights i := by
    obtain ⟨m, hm, hC, hf⟩ := lkFit_eq h hq hs hu diffs
    rw [e1] at hf
    have hrw : r.weights = fun i => m.dC i / m.C := by rw [Option.some.inj hf]
    have hdet := (Matrix.isUnit_iff_isUnit_det _).1 (usedMat_unit (u := u) ht hp)
    have hSw : lkCov n u times q *ᵥ (fun i => r.weights i.1.1) = (s / m.C) • fun _ => 1 := by
      have : (fun i : { i : Fin n // u i.1 = true } => r.weights i.1.1)
          = (s / m.C) • ((lkCov n u times q)⁻¹ *ᵥ fun _ => 1) := by
        rw [lkCov_eq, inv_one diffs ht hp hs, ← hm, hrw]
        funext i
        simp only [Pi.smul_apply, smul_eq_mul]
        have := hC.ne'
        have := hs.ne'
        field_simp
      rw [this, Matrix.mulVec_smul, Matrix.mulVec_mulVec, lkCov_eq, Matrix.mul_nonsing_inv _ hdet, Matrix.one_mulVec]
    have hnum : ∀ i, num u i * r.weights i = r.weights i := by
      intro i
      rcases hui : u i with _ | _
      · rw [e7 i hui]; ring
      · rw [show (num u i : α) = 1 from by unfold num; rw [hui]; rfl, one_mul]
    have htri : ∀ i < n, u i = true → tri n (fun i => alphaPh (covar times) q i + alphaRd (covar times) q i)
        (fun i => betaPh (covar times) q i + betaRd (covar times) q i) r.weights i = s / m.C := by
      intro i hi hui
      have := usedMat_mulVec (u := u) ht r.weights ⟨⟨i, hi⟩, hui⟩
      rw [← lkCov_eq, hSw] at this
      simp only [Pi.smul_apply, smul_eq_mul, mul_one, hnum] at this
      exact this.symm
    have hdt : ∀ i < n, 0 < meanT (times (i + 1)) - meanT (times i) := fun i hi => h.ordered.delta_pos hi
    have hN : ∀ i ≤ n, 0 < ((times i).length : α) := fun i hi => by
      exact_mod_cast List.length_pos_of_ne_nil (h.1 i hi).1
    have hdist : ∀ i ≤ n, rtDist (times i) = 2 * (meanT (times i) - tauT (times i)) := fun i hi =>
      rt_dist _ (h.1 i hi).1 (h.1 i hi).2
    set F := q.guess / q.gain with hF
    have hF0 : 0 ≤ F := div_nonneg hq.1 hq.2.1.le
    set dt : Nat → α := fun i => meanT (times (i + 1)) - meanT (times i) with hdtd
    set X : Nat → α := fun i => if i = 0 then 0 else if i ≤ n then r.weights (i - 1) / dt (i - 1) else 0 with hX
    have hXs : ∀ i < n, X (i + 1) = r.weights i / dt i := by
      intro i hi
      simp only [hX]
      rw [if_neg (by omega), if_pos (by omega)]
      rfl
    have key := rt_sign n u F (s / m.C) hF0 (div_pos hs hC) dt
      (fun i => q.rnoise * q.rnoise / ((times i).length : α) - F * (meanT (times i) - tauT (times i)))
      (fun i => meanT (times i) - tauT (times i)) X hdt
      (fun i hi => by
        have := hd i hi
        rw [hdist i (by omega), hdist (i + 1) (by omega)] at this
        have e : lkMean (times (i + 1)) - lkMean (times i) = dt i := rfl
        rw [e] at this
        linarith)
      (fun i hi => by have := rtDist_nonneg (times i); rw [hdist i hi] at this; linarith)
      (fun i hi => by have := div_nonneg (mul_self_nonneg q.rnoise) (hN i hi).le; linarith)
      (by simp [hX])
      (fun i hi => by
        by_cases hin : i < n
        · rw [hXs i hin, e7 i (by rw [← Bool.not_eq_true]; exact fun hc => hi ⟨hin, hc⟩), zero_div]
        · simp only [hX]
          rw [if_neg (by omega), if_neg (by omega)])
      (fun i hi hui => by
        have t := htri i hi hui
        have d0 := (hdt i hi).ne'
        have hNi := (hN i (by omega)).ne'
        have hNi1 := (hN (i + 1) (by omega)).ne'
        have eL : (if i = 0 then 0 else (betaPh (covar times) q (i - 1) + betaRd (covar times) q (i - 1)) * r.weights (i - 1))
            = -((q.rnoise * q.rnoise / ((times i).length : α) - F * (meanT (times i) - tauT (times i))) * X i) / dt i := by
          by_cases hi0 : i = 0
          · subst hi0
            simp [hX]
          · obtain ⟨j, rfl⟩ : ∃ j, i = j + 1 := ⟨i - 1, by omega⟩
            have d1 := (hdt j (by omega)).ne'
            rw [if_neg (by omega), hXs j (by omega)]
            simp only [Nat.add_sub_cancel, betaPh, betaRd, covar, ← hF]
            simp only [hdtd] at d0 d1 ⊢
            generalize meanT (times (j + 1 + 1)) - meanT (times (j + 1)) = A at *
            generalize meanT (times (j + 1)) - meanT (times j) = B at *
            generalize meanT (times (j + 1)) - tauT (times (j + 1)) = C at *
            field_simp
            ring
        have eR : (if i + 1 < n then (betaPh (covar times) q i + betaRd (covar times) q i) * r.weights (i + 1) else 0)
            = -((q.rnoise * q.rnoise / ((times (i + 1)).length : α) - F * (meanT (times (i + 1)) - tauT (times (i + 1))))
              * X (i + 2)) / dt i := by
          by_cases hi1 : i + 1 < n
          · have d1 := (hdt (i + 1) hi1).ne'
            rw [if_pos hi1, hXs (i + 1) hi1]
            simp only [betaPh, betaRd, covar, ← hF]
            simp only [hdtd] at d0 d1 ⊢
            generalize meanT (times (i + 1 + 1)) - meanT (times (i + 1)) = A at *
            generalize meanT (times (i + 1)) - meanT (times i) = B at *
            generalize meanT (times (i + 1)) - tauT (times (i + 1)) = C at *
            field_simp
            ring
          · have : X (i + 2) = 0 := by
              simp only [hX]
              rw [if_neg (by omega), if_neg (by omega)]
            rw [if_neg hi1, this]
            simp
        unfold tri at t
        rw [eL, eR] at t
        have eD : (alphaPh (covar times) q i + alphaRd (covar times) q i) * r.weights i
            = (F * dt i + (q.rnoise * q.rnoise / ((times i).length : α) - F * (meanT (times i) - tauT (times i)))
              + (q.rnoise * q.rnoise / ((times (i + 1)).length : α) - F * (meanT (times (i + 1)) - tauT (times (i + 1)))))
              * X (i + 1) / dt i := by
          rw [hXs i hi]
          simp only [alphaPh, alphaRd, covar, ← hF]
          simp only [hdtd] at d0 ⊢
          field_simp
          ring
        rw [eD] at t
        generalize q.rnoise * q.rnoise / ((times i).length : α) - F * (meanT (times i) - tauT (times i)) = E0 at *
        generalize q.rnoise * q.rnoise / ((times (i + 1)).length : α)
          - F * (meanT (times (i + 1)) - tauT (times (i + 1))) = E1 at *
        rw [← t]
        have d2 : dt i ≠ 0 := (hdt i hi).ne'
        generalize dt i = D at d2 ⊢
        field_simp
        ring)
    intro i hi
    have := key (i + 1)
    rw [hXs i hi] at this
    have h2 := mul_nonneg this (hdt i hi).le
    have e : r.weights i / dt i * (meanT (times (i + 1)) - meanT (times i)) = r.weights i := by
      have := (hdt i hi).ne'
      simp only [hdtd]
      field_simp
    rwa [e] at h2
  refine ⟨r, e1, hw, e12, e13, fun lo hi hd => ?_⟩
  rw [e9]
  constructor
  · rw [← one_mul lo, ← e8, sum_mul]
    refine sum_le_sum fun i hi => ?_
    have hi' := mem_range.1 hi
    rcases hx : u i with _ | _
    · rw [e7 i hx]; simp
    · exact mul_le_mul_of_nonneg_left (hd i hi' hx).1 (hw i hi')
  · rw [← one_mul hi, ← e8, sum_mul]
    refine sum_le_sum fun i hi => ?_
    have hi' := mem_range.1 hi
    rcases hx : u i with _ | _
    · rw [e7 i hx]; simp
    · exact mul_le_mul_of_nonneg_left (hd i hi' hx).2 (hw i hi')

/-! ## Evenly spaced reads -/

/-- Reads at equal distances. -/
def RtEven (l : List α) : Prop := ∃ s d : α, 0 ≤ d ∧ l = (List.range l.length).map fun (k : Nat) => s + (k : α) * d

theorem rt_sum1 (n : Nat) : 2 * ∑ k ∈ range n, (k : α) = (n : α) * ((n : α) - 1) := by
  induction n with
  | zero => simp
  | succ n ih => rw [sum_range_succ, mul_add, ih]; push_cast; ring

theorem rt_sum2 (n : Nat) : 6 * ∑ k ∈ range n, (k : α) * (k : α) = (n : α) * ((n : α) - 1) * (2 * (n : α) - 1) := by
  induction n with
  | zero => simp
  | succ n ih => rw [sum_range_succ, mul_add, ih]; push_cast; ring

theorem rt_listSum (n : Nat) (f : Nat → α) : ((List.range n).map f).sum = ∑ k ∈ range n, f k := by
  induction n with
  | zero => simp
  | succ n ih => rw [List.range_succ, List.map_append, List.sum_append, ih, sum_range_succ]; simp

/-- Mean time and mean distance of evenly spaced reads. -/
theorem rt_even (l : List α) (h0 : l ≠ []) (h : RtEven l) :
    ∃ a b, a ∈ l ∧ b ∈ l ∧ 2 * lkMean l = a + b ∧ 2 * rtDist l ≤ b - a := by
  obtain ⟨s, d, hd, e⟩ := h
  have hn := List.length_pos_of_ne_nil h0
  have hget : ∀ k < l.length, l.getD k 0 = s + (k : α) * d := by
    intro k hk
    rw [e]
    simp [List.getD_eq_getElem?_getD, hk]
  have hsorted : l.Pairwise (· ≤ ·) := by
    rw [e, List.pairwise_map]
    refine List.pairwise_lt_range.imp fun {a b} hab => ?_
    have : (a : α) ≤ (b : α) := by exact_mod_cast hab.le
    have := mul_le_mul_of_nonneg_right this hd
    linarith
  have hN1 : (1 : α) ≤ (l.length : α) := by exact_mod_cast hn
  have hN : (l.length : α) ≠ 0 := by linarith
  have hsum : 2 * l.sum = (l.length : α) * (2 * s + ((l.length : α) - 1) * d) := by
    have e1 : l.sum = ∑ k ∈ range l.length, (s + (k : α) * d) := by
      conv_lhs => rw [e]
      rw [rt_listSum]
    rw [e1, sum_add_distrib, ← sum_mul, sum_const, card_range, nsmul_eq_mul]
    linear_combination d * rt_sum1 (α := α) l.length
  have htau : 6 * (∑ k ∈ range l.length, (2 * (l.length : α) + 1 - 2 * ((k : α) + 1)) * l.getD k 0)
      = (l.length : α) * (6 * (l.length : α) * s + ((l.length : α) - 1) * (2 * (l.length : α) - 1) * d) := by
    have e1 : ∑ k ∈ range l.length, (2 * (l.length : α) + 1 - 2 * ((k : α) + 1)) * l.getD k 0
        = ∑ k ∈ range l.length, ((2 * (l.length : α) - 1) * s + ((2 * (l.length : α) - 1) * d - 2 * s) * (k : α)
          - 2 * d * ((k : α) * (k : α))) := by
      refine sum_congr rfl fun k hk => ?_
      rw [hget k (mem_range.1 hk)]
      ring
    have e2 : ∑ k ∈ range l.length, 2 * d * ((k : α) * (k : α)) = 2 * d * ∑ k ∈ range l.length, (k : α) * (k : α) := by
      rw [mul_sum]
    have e3 : ∑ k ∈ range l.length, ((2 * (l.length : α) - 1) * d - 2 * s) * (k : α)
        = ((2 * (l.length : α) - 1) * d - 2 * s) * ∑ k ∈ range l.length, (k : α) := by
      rw [mul_sum]
    rw [e1, sum_sub_distrib, sum_add_distrib, e2, e3, sum_const, card_range, nsmul_eq_mul]
    linear_combination (3 * ((2 * (l.length : α) - 1) * d - 2 * s)) * rt_sum1 (α := α) l.length
      - 2 * d * rt_sum2 (α := α) l.length
  have hmem : ∀ k < l.length, s + (k : α) * d ∈ l := by
    intro k hk
    rw [e]
    exact List.mem_map.2 ⟨k, List.mem_range.2 (by simpa using hk), rfl⟩
  refine ⟨s + ((0 : Nat) : α) * d, s + ((l.length - 1 : Nat) : α) * d, hmem 0 hn, hmem _ (by omega), ?_, ?_⟩
  · unfold lkMean
    rw [Nat.cast_sub hn, ← mul_div_assoc, hsum]
    field_simp
    push_cast
    ring
  · rw [rt_dist l h0 hsorted]
    unfold meanT tauT
    generalize (∑ k ∈ range l.length, (2 * (l.length : α) + 1 - 2 * ((k : α) + 1)) * l.getD k 0) = T at htau
    rw [Nat.cast_sub hn, show l.sum = (l.length : α) * (2 * s + ((l.length : α) - 1) * d) / 2 by linarith,
      show T = (l.length : α) * (6 * (l.length : α) * s + ((l.length : α) - 1) * (2 * (l.length : α) - 1) * d) / 6 by linarith]
    rcases Nat.lt_or_ge 1 l.length with h2 | h2
    · have hN2 : (2 : α) ≤ (l.length : α) := by exact_mod_cast h2
      generalize (l.length : α) = N at *
      have e3 : 2 * (2 * (N * (2 * s + (N - 1) * d) / 2 / N - N * (6 * N * s + (N - 1) * (2 * N - 1) * d) / 6 / (N * N)))
          = 2 * (N - 1) * (N + 1) * d / (3 * N) := by
        field_simp
        ring
      rw [e3, div_le_iff₀ (by linarith)]
      push_cast
      have := mul_nonneg (mul_nonneg (by linarith : 0 ≤ N - 1) hd) (by linarith : 0 ≤ N - 2)
      linarith
    · have : l.length = 1 := by omega
      rw [this]
      apply le_of_eq
      push_cast
      ring

/-- Groups of evenly spaced reads, one after the other, meet the condition of `C187_likely_spread`. -/
theorem rt_even_spread {n : Nat} {times : Nat → List α} (h : LkPattern n times) (he : ∀ i ≤ n, RtEven (times i)) (i : Nat) (hi : i < n) :
    rtDist (times i) + rtDist (times (i + 1)) < lkMean (times (i + 1)) - lkMean (times i) := by
  obtain ⟨a, b, -, hb, h1, h2⟩ := rt_even (times i) (h.1 i (by omega)).1 (he i (by omega))
  obtain ⟨a', b', ha', -, h3, h4⟩ := rt_even (times (i + 1)) (h.1 (i + 1) (by omega)).1 (he (i + 1) (by omega))
  have := h.2 i hi b hb a' ha'
  linarith

/-! ## Pixels -/

/-- Neighbouring samples without any of the lowest eight flags differ by between `lo` and `hi` per unit of time; `t g` is the mean time of
the reads of sample `g`. -/
def RtRates (rows : Nat) (t : Nat → α) (lo hi : α) (gdq : Nat → Nat) (data : Nat → Option α) : Prop :=
  ∀ g, g + 1 < rows → LdClean (gdq g) → LdClean (gdq (g + 1)) → ∀ x y, data g = some x → data (g + 1) = some y →
    lo * (t (g + 1) - t g) ≤ y - x ∧ y - x ≤ hi * (t (g + 1) - t g)

theorem rt_pixel {root : α → Nat → α} (hr : RootOk root) (jump rows : Nat) (hrows : 2 ≤ rows) (ts : List (List α))
    (hT : LdTimes rows ts) (hev : ∀ l ∈ ts, RtEven l) (c : Cfg α) (hg : 0 < c.gain) (hrn : c.rnoise ≠ 0) (hdk : 0 ≤ c.dark)
    (grow : Option ((Nat → Nat) → Nat → Nat)) (lo hi : α) (gdq : Nat → Nat) (data : Nat → Option α)
    (he : RtRates rows (fun g => lkMean (ts.getD g [])) lo hi gdq data) (r : Result α)
    (hfit : (pixelFitE root (rows - 1) (covar fun j => ts.getD j []) c jump grow gdq
      (diffsOf (covar fun j => ts.getD j []) data)).2.2 = some r) :
    lo ≤ r.countrate ∧ r.countrate ≤ hi ∧ 0 ≤ r.varP ∧ 0 < r.varR := by
  have hP := ld_times hT (by omega)
  set times : Nat → List α := fun j => ts.getD j [] with htimes
  have hevn : ∀ i ≤ rows - 1, RtEven (times i) := by
    intro i hi
    have hl : i < ts.length := by have := hT.1; omega
    refine hev _ ?_
    simp only [htimes, List.getD_eq_getElem?_getD, List.getElem?_eq_getElem hl, Option.getD_some]
    exact List.getElem_mem hl
  unfold pixelFitE at hfit
  split at hfit
  · rename_i hall
    set d : Nat → α := fun i => (diffsOf (covar times) data i).getD 0 with hd
    set st := masked root (rows - 1) (covar times) c gdq d with hst
    have hsub : ∀ i, st.use i = true → diffs2use gdq i = true := by
      intro i hi
      have : st = maskJumps _ _ _ _ _ _ := rfl
      rw [this, maskJumps_eq] at hi
      exact (passes_spec _ _ _ _ _ (search_maskedZero ..) _ _).1 i hi
    change finalFit root (rows - 1) (covar times) c st.rate d (expandMask jump grow _ st.use) = some r at hfit
    generalize hG : flagJumps jump gdq (diffs2use gdq) st.use = G at hfit
    set u := expandMask jump grow G st.use with hu
    have husub : ∀ i, u i = true → diffs2use gdq i = true := by
      intro i hi
      refine hsub i ?_
      cases grow with
      | none => exact hi
      | some f =>
        simp only [hu, expandMask, Bool.and_eq_true] at hi
        exact hi.1
    cases hv : st.rate with
    | none => rw [hv] at hfit; cases hfit
    | some v =>
      rw [hv] at hfit
      simp only [finalFit] at hfit
      have hq : LkNoiseOk (⟨pos v + c.dark, c.gain, c.rnoise⟩ : Noise α) := ⟨add_nonneg (ld_pos _) hdk, hg, hrn⟩
      have hsc := (C38_rescaled_determinant hr hP hq (by omega)).1
      by_cases hex : ∃ i < rows - 1, u i = true
      · obtain ⟨r', f1, -, f3, f4, f5⟩ := C187_likely_spread hP hq hsc hex (rt_even_spread hP hevn) d
        rw [f1] at hfit
        obtain rfl := Option.some.inj hfit
        obtain ⟨g1, g2⟩ := f5 lo hi fun i hi hui => by
          have hd0 : 0 < meanT (times (i + 1)) - meanT (times i) := hP.ordered.delta_pos hi
          obtain ⟨c1, c2⟩ := (ld_use _ _).1 (husub i hui)
          have hsome := List.all_eq_true.1 hall i (List.mem_range.2 hi)
          cases hx : data i with
          | none => simp [diffsOf, hx] at hsome
          | some x =>
            cases hy : data (i + 1) with
            | none => simp [diffsOf, hy] at hsome
            | some y =>
              obtain ⟨k1, k2⟩ := he i (by omega) c1 c2 x y hx hy
              have e1 : d i = (y - x) / (meanT (times (i + 1)) - meanT (times i)) := by
                simp [hd, diffsOf, hx, hy, covar]
              rw [e1, le_div_iff₀ hd0, div_le_iff₀ hd0]
              exact ⟨k1, k2⟩
        exact ⟨g1, g2, f3, f4⟩
      · rw [C38_no_used_difference _ _ _ _ fun i hi => by
          rw [← Bool.not_eq_true]
          exact fun hc => hex ⟨i, hi, hc⟩] at hfit
        cases hfit
  · cases hfit

theorem rt_image (fl : LikelyDriver.Flags) (outs : List (IntOut α)) (lo hi : α)
    (hall : ∀ o ∈ outs, ∀ r, o.fit = some r → lo ≤ r.countrate ∧ r.countrate ≤ hi ∧ 0 ≤ r.varP ∧ 0 < r.varR) (v : α)
    (hv : (imageInfo fl outs).comb.data = some v) : lo ≤ v ∧ v ≤ hi := by
  have hcomb : (imageInfo fl outs).comb = combine (outs.map toInt1) := by
    unfold imageInfo
    split <;> rfl
  rw [hcomb] at hv
  have hl : LkInts (outs.map toInt1) := by
    intro i hi
    obtain ⟨o, ho, rfl⟩ := List.mem_map.1 hi
    cases hof : o.fit with
    | none => exact Or.inl ⟨by simp [toInt1, hof], by simp [toInt1, hof], by simp [toInt1, hof]⟩
    | some r =>
      obtain ⟨-, -, k3, k4⟩ := hall o ho r hof
      exact Or.inr ⟨r.countrate, r.varP, r.varR, by simp [toInt1, hof], by simp [toInt1, hof], by simp [toInt1, hof], k3, k4⟩
  obtain ⟨-, w2⟩ := C41_weighted_mean _ hl
  obtain ⟨-, -, -, -, -, -, -, hb, -, -⟩ := w2 v hv
  refine hb lo hi fun i hi d hd => ?_
  obtain ⟨o, ho, rfl⟩ := List.mem_map.1 hi
  cases hof : o.fit with
  | none => simp [toInt1, hof] at hd
  | some r =>
    obtain ⟨k1, k2, -⟩ := hall o ho r hof
    simp [toInt1, hof] at hd
    rw [← hd]
    exact ⟨k1, k2⟩

/-- **C187**, likelihood fitting of groups whose reads are evenly spaced: every rate, of an integration and of the exposure, lies in the
range of the count rates between neighbouring groups that came without flags, whatever jumps are found, with and without snowball
expansion.  The spacing may differ from group to group. -/
theorem C187_likely_groups {root : α → Nat → α} (hr : RootOk root) (fl : LikelyDriver.Flags) (ng nframes : Nat) (hng : 4 ≤ ng)
    (pattern : Option (List (List α))) (default : List (List α)) (hT : LdTimes ng (pattern.getD default))
    (hev : ∀ l ∈ pattern.getD default, RtEven l) (c : Cfg α) (hg : 0 < c.gain) (hrn : c.rnoise ≠ 0)
    (hdk : 0 ≤ c.dark) (grow : Nat → Option ((Nat → Nat) → Nat → Nat)) (pixeldq : Nat) (ints : List (IntIn α)) (lo hi : α)
    (he : ∀ e ∈ ints, RtRates ng (fun g => lkMean ((pattern.getD default).getD g [])) lo hi e.gdq e.data) :
    ∃ outs img, likelyPixel root fl ng nframes pattern default false c grow pixeldq ints = some (outs, img)
      ∧ (∀ o ∈ outs, ∀ r, o.fit = some r → lo ≤ r.countrate ∧ r.countrate ≤ hi)
      ∧ ∀ v, img.comb.data = some v → lo ≤ v ∧ v ≤ hi := by
  set outs := ints.zipIdx.map fun e => fitInt root fl ng nframes false (pattern.getD default) c (grow e.2) pixeldq e.1 with houts
  have hall : ∀ o ∈ outs, ∀ r, o.fit = some r → lo ≤ r.countrate ∧ r.countrate ≤ hi ∧ 0 ≤ r.varP ∧ 0 < r.varR := by
    intro o ho r hor
    obtain ⟨x, hx, rfl⟩ := List.mem_map.1 ho
    exact rt_pixel hr fl.jump ng (by omega) _ hT hev c hg hrn hdk _ lo hi _ _ (he _ (List.fst_mem_of_mem_zipIdx hx)) r hor
  refine ⟨outs, imageInfo fl outs, ?_, fun o ho r hor => ?_, fun v hv => rt_image fl outs lo hi hall v hv⟩
  · unfold likelyPixel
    rw [if_neg (by omega)]
    rfl
  · obtain ⟨a, b, -⟩ := hall o ho r hor
    exact ⟨a, b⟩

/-- The samples of an integration whose zero frame is taken out of the first group of `nframes` frames: the zero frame, the average of the
other frames of the first group, and the other groups; both parts of the first group have its flags. -/
def rtSplit (nframes : Nat) (e : IntIn α) : (Nat → Nat) × (Nat → Option α) :=
  (fun g => e.gdq (g - 1),
   fun g => if g = 0 then e.zf
     else if g = 1 then e.data 0 >>= fun x => e.zf >>= fun z => some (((nframes : α) * x - z) / ((nframes : α) - 1))
     else e.data (g - 1))

/-- **C187** with a zero frame: it becomes a sample of its own, and the rates lie in the range of the count rates between neighbouring
samples. -/
theorem C187_likely_zero {root : α → Nat → α} (hr : RootOk root) (fl : LikelyDriver.Flags) (ng nframes : Nat) (hng : 4 ≤ ng)
    (hnf : nframes ≠ 1) (pattern : Option (List (List α))) (default : List (List α)) (t0 t1 : α) (ts : List α) (rest : List (List α))
    (hp : pattern.getD default = (t0 :: t1 :: ts) :: rest) (hT : LdTimes ng (pattern.getD default))
    (hev : ∀ l ∈ pattern.getD default, RtEven l) (c : Cfg α) (hg : 0 < c.gain) (hrn : c.rnoise ≠ 0)
    (hdk : 0 ≤ c.dark) (grow : Nat → Option ((Nat → Nat) → Nat → Nat)) (pixeldq : Nat) (ints : List (IntIn α)) (lo hi : α)
    (he : ∀ e ∈ ints, RtRates (ng + 1) (fun g => lkMean (([t0] :: (t1 :: ts) :: rest).getD g [])) lo hi (rtSplit nframes e).1
      (rtSplit nframes e).2) :
    ∃ outs img, likelyPixel root fl ng nframes pattern default true c grow pixeldq ints = some (outs, img)
      ∧ (∀ o ∈ outs, ∀ r, o.fit = some r → lo ≤ r.countrate ∧ r.countrate ≤ hi)
      ∧ ∀ v, img.comb.data = some v → lo ≤ v ∧ v ≤ hi := by
  have hT' : LdTimes (ng + 1) ([t0] :: (t1 :: ts) :: rest) := by
    rw [hp] at hT
    obtain ⟨a1, a2, a3⟩ := hT
    refine ⟨by simpa using a1, ?_, ?_⟩
    · intro l hl
      simp only [List.mem_cons] at hl
      rcases hl with rfl | rfl | hl
      · simp
      · simp
      · exact a2 l (by simp [hl])
    · simpa using a3
  have hev' : ∀ l ∈ [t0] :: (t1 :: ts) :: rest, RtEven l := by
    rw [hp] at hev
    intro l hl
    simp only [List.mem_cons] at hl
    rcases hl with rfl | rfl | hl
    · exact ⟨t0, 0, le_rfl, by simp⟩
    · obtain ⟨s, d, hd, e⟩ := hev (t0 :: t1 :: ts) (by simp)
      refine ⟨s + d, d, hd, ?_⟩
      have := congrArg List.tail e
      rw [List.length_cons, List.range_succ_eq_map, List.map_cons, List.tail_cons, List.tail_cons, List.map_map] at this
      rw [this]
      simp only [List.length_map, List.length_range]
      refine List.map_congr_left fun k _ => ?_
      simp only [Function.comp, Nat.succ_eq_add_one]
      push_cast
      ring
    · exact hev l (by simp [hl])
  set outs := ints.zipIdx.map fun e => fitInt root fl ng nframes true ([t0] :: (t1 :: ts) :: rest) c (grow e.2) pixeldq e.1 with houts
  have hall : ∀ o ∈ outs, ∀ r, o.fit = some r → lo ≤ r.countrate ∧ r.countrate ≤ hi ∧ 0 ≤ r.varP ∧ 0 < r.varR := by
    intro o ho r hor
    obtain ⟨x, hx, rfl⟩ := List.mem_map.1 ho
    have h1 : shiftDq x.1.gdq = (rtSplit nframes x.1).1 := by
      funext g
      cases g <;> rfl
    have h2 : splitZero nframes x.1.zf x.1.data = (rtSplit nframes x.1).2 := by
      funext g
      rcases g with _ | _ | g
      · rfl
      · simp only [splitZero, rtSplit]
        cases x.1.data 0 with
        | none => rfl
        | some a =>
          cases x.1.zf with
          | none => rfl
          | some z => simp [hnf, mul_comm]
      · simp [splitZero, rtSplit]
    refine rt_pixel hr fl.jump (ng + 1) (by omega) _ hT' hev' c hg hrn hdk (grow x.2) lo hi _ _
      (he _ (List.fst_mem_of_mem_zipIdx hx)) r ?_
    rw [← h1, ← h2]
    exact hor
  refine ⟨outs, imageInfo fl outs, ?_, fun o ho r hor => ?_, fun v hv => rt_image fl outs lo hi hall v hv⟩
  · unfold likelyPixel
    rw [if_neg (by omega)]
    have : (readTimes pattern default true).2 = ([t0] :: (t1 :: ts) :: rest, true) := by
      unfold readTimes
      simp only [hp]
      rfl
    simp only [this, houts]
  · obtain ⟨a, b, -⟩ := hall o ho r hor
    exact ⟨a, b⟩

/-- The times built from the number of frames, the gap and the frame time are evenly spaced within each group. -/
theorem rt_default (ng nframes groupgap : Nat) (ft : α) (hft : 0 < ft) (hnf : 0 < nframes) :
    LdTimes ng (defaultTimes ng nframes groupgap ft) ∧ ∀ l ∈ defaultTimes ng nframes groupgap ft, RtEven l := by
  unfold defaultTimes
  refine ⟨⟨by simp, ?_, ?_⟩, ?_⟩
  · intro l hl
    obtain ⟨k, -, rfl⟩ := List.mem_map.1 hl
    simp only [ne_eq, List.map_eq_nil_iff, List.range_eq_nil]
    omega
  · rw [List.pairwise_flatten]
    refine ⟨?_, ?_⟩
    · intro l hl
      obtain ⟨k, -, rfl⟩ := List.mem_map.1 hl
      rw [List.pairwise_map]
      refine List.pairwise_lt_range.imp fun {a b} hab => ?_
      have : (a : α) < (b : α) := by exact_mod_cast hab
      exact mul_lt_mul_of_pos_right (by linarith) hft
    · rw [List.pairwise_map]
      refine List.pairwise_lt_range.imp fun {a b} hab => ?_
      intro x hx y hy
      obtain ⟨i, hi, rfl⟩ := List.mem_map.1 hx
      obtain ⟨j, -, rfl⟩ := List.mem_map.1 hy
      have h1 : (i : α) + 1 ≤ (nframes : α) := by exact_mod_cast List.mem_range.1 hi
      have h2 : (a : α) + 1 ≤ (b : α) := by exact_mod_cast hab
      have h3 : (0 : α) < (nframes : α) := by exact_mod_cast hnf
      have h4 : (0 : α) ≤ (groupgap : α) := Nat.cast_nonneg _
      have h5 : (0 : α) ≤ (j : α) := Nat.cast_nonneg _
      refine mul_lt_mul_of_pos_right ?_ hft
      have := mul_le_mul_of_nonneg_right h2 (by linarith : 0 ≤ (nframes : α) + (groupgap : α))
      linarith
  · intro l hl
    obtain ⟨k, -, rfl⟩ := List.mem_map.1 hl
    refine ⟨(1 + (k : α) * ((nframes : α) + (groupgap : α))) * ft, ft, hft.le, ?_⟩
    simp only [List.length_map, List.length_range]
    refine List.map_congr_left fun j _ => ?_
    ring

/-- **C187** for the read-out without a read pattern (`get_readtimes` builds the times from the number of frames, the gap and the frame
time): no condition on the times is left. -/
theorem C187_likely_default {root : α → Nat → α} (hr : RootOk root) (fl : LikelyDriver.Flags) (ng nframes groupgap : Nat) (ft : α)
    (hft : 0 < ft) (hnf : 0 < nframes) (hng : 4 ≤ ng) (c : Cfg α) (hg : 0 < c.gain) (hrn : c.rnoise ≠ 0)
    (hdk : 0 ≤ c.dark) (grow : Nat → Option ((Nat → Nat) → Nat → Nat)) (pixeldq : Nat) (ints : List (IntIn α)) (lo hi : α)
    (he : ∀ e ∈ ints, RtRates ng (fun g => (((g : α) * ((nframes : α) + (groupgap : α))) + ((nframes : α) + 1) / 2) * ft) lo hi
      e.gdq e.data) :
    ∃ outs img, likelyPixel root fl ng nframes none (defaultTimes ng nframes groupgap ft) false c grow pixeldq ints = some (outs, img)
      ∧ (∀ o ∈ outs, ∀ r, o.fit = some r → lo ≤ r.countrate ∧ r.countrate ≤ hi)
      ∧ ∀ v, img.comb.data = some v → lo ≤ v ∧ v ≤ hi := by
  obtain ⟨hT, hev⟩ := rt_default ng nframes groupgap ft hft hnf
  have hmean : ∀ g < ng, lkMean ((defaultTimes ng nframes groupgap ft).getD g [])
      = (((g : α) * ((nframes : α) + (groupgap : α))) + ((nframes : α) + 1) / 2) * ft := by
    intro g hgn
    have hN : (nframes : α) ≠ 0 := by exact_mod_cast hnf.ne'
    have e1 : (defaultTimes ng nframes groupgap ft).getD g []
        = (List.range nframes).map fun j : Nat => ((j : α) + 1 + (g : α) * ((nframes : α) + (groupgap : α))) * ft := by
      simp [defaultTimes, List.getD_eq_getElem?_getD, hgn]
    rw [e1]
    unfold lkMean
    rw [rt_listSum, List.length_map, List.length_range, ← sum_mul, sum_add_distrib, sum_add_distrib, sum_const, sum_const, card_range,
      nsmul_eq_mul, nsmul_eq_mul, div_eq_iff hN]
    linear_combination ft / 2 * rt_sum1 (α := α) nframes
  refine C187_likely_groups hr fl ng nframes hng none _ hT hev c hg hrn hdk grow pixeldq ints lo hi fun e hel g hgn c1 c2 x y hx hy => ?_
  have := he e hel g hgn c1 c2 x y hx hy
  simp only at this
  rw [← hmean g (by omega), ← hmean (g + 1) hgn] at this
  exact this

/-! ## Examples -/

/-- Non-vacuity of `C187_likely_spread`: reads that are not evenly spaced. -/
example : ∀ i < 2, rtDist (([[0], [1, 2, 4], [6, 9, 10]] : List (List ℚ)).getD i [])
    + rtDist (([[0], [1, 2, 4], [6, 9, 10]] : List (List ℚ)).getD (i + 1) [])
    < lkMean (([[0], [1, 2, 4], [6, 9, 10]] : List (List ℚ)).getD (i + 1) [])
      - lkMean (([[0], [1, 2, 4], [6, 9, 10]] : List (List ℚ)).getD i []) := by
  decide +kernel

/-- The pattern of `C187_uneven_reads` does not meet the condition. -/
example : ¬ ∀ i < 4, rtDist (rbUneven.getD i []) + rtDist (rbUneven.getD (i + 1) [])
    < lkMean (rbUneven.getD (i + 1) []) - lkMean (rbUneven.getD i []) := by
  decide +kernel

/-- Groups of two reads at the times 10 20, 40 50, 70 80, 100 110, 130 140. -/
def rtTimes : List (List ℚ) := defaultTimes 5 2 1 10

/-- An exposure with a hit in the fourth group, which is flagged, a saturated last group, and a zero frame. -/
def rtInt : IntIn ℚ :=
  ⟨fun g => ([some 3, some 12, some 23, some 900, some 905] : List (Option ℚ)).getD g none,
    fun g => ([0, 0, 0, 4, 2] : List Nat).getD g 0, some 2⟩

/-- Non-vacuity of `C187_likely_groups`: count rates between 3/10 and 11/30. -/
example : RtRates 5 (fun g => lkMean (rtTimes.getD g [])) (3 / 10) (11 / 30) rtInt.gdq rtInt.data := by
  have t : ∀ g, g < 5 → lkMean (rtTimes.getD g []) = 15 + 30 * (g : ℚ) := by decide +kernel
  intro g hg h1 h2 x y hx hy
  simp only
  rw [t g (by omega), t (g + 1) (by omega)]
  rcases (by omega : g = 0 ∨ g = 1 ∨ g = 2 ∨ g = 3) with rfl | rfl | rfl | rfl
  · simp [rtInt] at hx hy; subst hx; subst hy; norm_num
  · simp [rtInt] at hx hy; subst hx; subst hy; norm_num
  · exact absurd h2 (by decide)
  · exact absurd h1 (by decide)

example : (likelyPixel (fun _ _ => 1) ⟨1, 2, 4⟩ 5 2 none rtTimes false ⟨1, 1, 0, 16, 20⟩ (fun _ => none) 0 [rtInt]).map
    (fun o => o.2.comb.data) = some (some (1 / 3)) := by
  decide +kernel

/-- Non-vacuity of `C187_likely_zero`: the first group gives the samples 2 and 4 at the times 10 and 20. -/
example : RtRates 6 (fun g => lkMean (([10] :: [20] :: rtTimes.tail).getD g [])) (1 / 5) (11 / 30) (rtSplit 2 rtInt).1
    (rtSplit 2 rtInt).2 := by
  have t : ∀ g, g < 6 → lkMean (([10] :: [20] :: rtTimes.tail).getD g []) = ([10, 20, 45, 75, 105, 135] : List ℚ).getD g 0 := by
    decide +kernel
  intro g hg h1 h2 x y hx hy
  simp only
  rw [t g (by omega), t (g + 1) (by omega)]
  rcases (by omega : g = 0 ∨ g = 1 ∨ g = 2 ∨ g = 3 ∨ g = 4) with rfl | rfl | rfl | rfl | rfl
  · simp [rtInt, rtSplit] at hx hy; subst hx; subst hy; norm_num
  · simp [rtInt, rtSplit] at hx hy; subst hx; subst hy; norm_num
  · simp [rtInt, rtSplit] at hx hy; subst hx; subst hy; norm_num
  · exact absurd h2 (by decide)
  · exact absurd h1 (by decide)

example : ((likelyPixel (fun _ _ => 1) ⟨1, 2, 4⟩ 5 2 none rtTimes true ⟨1, 1, 0, 16, 20⟩ (fun _ => none) 0 [rtInt]).bind
    (fun o => o.2.comb.data)).isSome = true := by
  decide +kernel

end Verif.Thm
