import Verif.Thm.LikelyMask

/-! # Fewer differences or more noise in the likelihood fit (C180) -/

namespace Verif.Thm

open Finset Matrix Verif.Likely

set_option linter.unusedSectionVars false

variable {α : Type} [Field α] [LinearOrder α] [IsStrictOrderedRing α]

/-- The variance of the combination of the differences with the given weights. -/
def llVar (n : Nat) (times : Nat → List α) (q : Noise α) (v : Nat → α) : α :=
  ∑ i ∈ range n, ∑ j ∈ range n, v i * v j * lkDiffCov times q i j

section
variable {n : Nat} {times : Nat → List α} {q : Noise α}

/-- Diagonal of the covariance. -/
abbrev llA (times : Nat → List α) (q : Noise α) (i : Nat) : α := alphaPh (covar times) q i + alphaRd (covar times) q i
/-- Off-diagonal of the covariance. -/
abbrev llB (times : Nat → List α) (q : Noise α) (i : Nat) : α := betaPh (covar times) q i + betaRd (covar times) q i

theorem ll_var (h : LkPattern n times) (v : Nat → α) : llVar n times q v = bil n (llA times q) (llB times q) v v := by
  rw [← sum_tri]
  refine sum_congr rfl fun i hi => ?_
  rw [← (lkTri q h).sum v (mem_range.1 hi), mul_sum]
  exact sum_congr rfl fun j _ => by ring

theorem ll_bil_add (n : Nat) (a b x y z : Nat → α) : bil n a b x (fun i => y i + z i) = bil n a b x y + bil n a b x z := by
  unfold bil
  rw [add_add_add_comm, ← sum_add_distrib, ← sum_add_distrib]
  congr 1 <;> exact sum_congr rfl fun i _ => by ring

theorem ll_bil_smul (n : Nat) (a b x y : Nat → α) (t : α) : bil n a b x (fun i => t * y i) = t * bil n a b x y := by
  unfold bil
  rw [mul_add, mul_sum, mul_sum]
  congr 1 <;> exact sum_congr rfl fun i _ => by ring

theorem ll_quad (n : Nat) (a b x y : Nat → α) (t : α) :
    bil n a b (fun i => x i + t * y i) (fun i => x i + t * y i) = bil n a b x x + 2 * t * bil n a b x y + t * t * bil n a b y y := by
  rw [ll_bil_add, ll_bil_smul, bil_comm n _ _ _ x, bil_comm n _ _ _ y, ll_bil_add, ll_bil_add, ll_bil_smul, ll_bil_smul, bil_comm n _ _ y x]
  ring

theorem ll_bil_congr (n : Nat) (a b x y x' y' : Nat → α) (hx : ∀ i < n, x i = x' i) (hy : ∀ i < n, y i = y' i) :
    bil n a b x y = bil n a b x' y' := by
  unfold bil
  congr 1
  · exact sum_congr rfl fun i hi => by rw [hx i (mem_range.1 hi), hy i (mem_range.1 hi)]
  · refine sum_congr rfl fun i hi => ?_
    have := mem_range.1 hi
    rw [hx i (by omega), hx (i + 1) (by omega), hy i (by omega), hy (i + 1) (by omega)]

theorem ll_nonneg (hp : PD n (llA times q) (llB times q)) (v : Nat → α) : 0 ≤ bil n (llA times q) (llB times q) v v := by
  by_cases hv : ∃ i < n, v i ≠ 0
  · exact (hp v hv).le
  · push Not at hv
    rw [ll_bil_congr n _ _ v v (fun _ => 0) (fun _ => 0) hv hv]
    simp [bil]

/-- What the fit says about the weights and the residuals, without the matrix inverse. -/
theorem ll_facts {u : Nat → Bool} {s : α} (h : LkPattern n times) (hq : LkNoiseOk q) (hs : 0 < s) (hu : ∃ i < n, u i = true)
    (d : Nat → α) :
    ∃ r, LkFit n times q s d u = some r ∧ 0 < r.uncert2 ∧ (∀ i, u i = false → r.weights i = 0) ∧ (∑ i ∈ range n, r.weights i) = 1
      ∧ r.countrate = ∑ i ∈ range n, r.weights i * d i
      ∧ (∀ y : Nat → α, (∀ i < n, u i = false → y i = 0) →
          bil n (llA times q) (llB times q) r.weights y = r.uncert2 * ∑ i ∈ range n, y i)
      ∧ ∃ z : Nat → α, (∀ i < n, u i = false → z i = 0) ∧ (∑ i ∈ range n, z i) = 0
        ∧ (∀ y : Nat → α, (∀ i < n, u i = false → y i = 0) →
          bil n (llA times q) (llB times q) z y = ∑ i ∈ range n, y i * (d i - r.countrate))
        ∧ r.chisq = bil n (llA times q) (llB times q) z z := by
  obtain ⟨r, hf, -, -, hchi, -, hpos, hw0, hw1, hrate, hvar, -, -, -, hmin⟩ := C38_generalised_least_squares h hq hs hu d
  have ht := lkTri q h
  have hp := cov_pos h.ordered q hq.1 hq.2.1 hq.2.2
  have hd := (Matrix.isUnit_iff_isUnit_det _).1 (usedMat_unit (u := u) ht hp)
  have hsum : ∀ y : Used n u → α, ∑ i, y i = ∑ i ∈ range n, ext y i := by
    intro y
    have := dot_used y fun _ => 1
    simp only [dotProduct, mul_one] at this
    rw [this]
    refine sum_congr rfl fun i _ => ?_
    unfold Likely.ext
    split <;> simp
  have hext : ∀ y : Nat → α, (∀ i < n, u i = false → y i = 0) → ∀ i < n, ext (fun j : Used n u => y j.1.1) i = y i := by
    intro y hy i hi
    unfold Likely.ext
    split
    · rfl
    · next hh =>
      rcases hui : u i with _ | _
      · rw [hy i hi hui]
      · exact absurd ⟨hi, hui⟩ hh
  have hW := hext r.weights fun i _ => hw0 i
  have hvar' : r.uncert2 = bil n (llA times q) (llB times q) r.weights r.weights := by
    rw [hvar, lkCov_eq, usedMat_quad ht]
    exact ll_bil_congr _ _ _ _ _ _ _ hW hW
  have hmin' : ∀ y : Nat → α, (∀ i < n, u i = false → y i = 0) → (∑ i ∈ range n, y i) = 1 →
      r.uncert2 ≤ bil n (llA times q) (llB times q) y y := by
    intro y hy h1
    have := hmin (fun j => y j.1.1) (by rw [hsum, ← h1]; exact sum_congr rfl fun i hi => hext y hy i (mem_range.1 hi))
    rwa [lkCov_eq, usedMat_quad ht, ll_bil_congr _ _ _ _ _ _ _ (hext y hy) (hext y hy)] at this
  have hzero : ∀ y : Nat → α, (∀ i < n, u i = false → y i = 0) → (∑ i ∈ range n, y i) = 0 →
      bil n (llA times q) (llB times q) r.weights y = 0 := by
    intro y hy h0
    set Q := bil n (llA times q) (llB times q) y y with hQ
    set B := bil n (llA times q) (llB times q) r.weights y with hB
    have hQ0 : 0 ≤ Q := ll_nonneg hp y
    have key : ∀ t, 0 ≤ 2 * t * B + t * t * Q := by
      intro t
      have := hmin' (fun i => r.weights i + t * y i) (fun i hi hui => by rw [hw0 i hui, hy i hi hui]; ring)
        (by rw [sum_add_distrib, hw1, ← mul_sum, h0]; ring)
      rw [ll_quad, ← hQ, ← hB, ← hvar'] at this
      linarith
    by_contra hne
    have hB2 : 0 < B * B := mul_self_pos.2 hne
    have h1 : 0 < Q + 1 := by linarith
    have := key (-B / (Q + 1))
    have e : 2 * (-B / (Q + 1)) * B + -B / (Q + 1) * (-B / (Q + 1)) * Q = -(B * B * (Q + 2)) / ((Q + 1) * (Q + 1)) := by
      field_simp; ring
    rw [e, neg_div] at this
    have : 0 < B * B * (Q + 2) / ((Q + 1) * (Q + 1)) := by positivity
    linarith
  have hlin : ∀ y : Nat → α, (∀ i < n, u i = false → y i = 0) →
      bil n (llA times q) (llB times q) r.weights y = r.uncert2 * ∑ i ∈ range n, y i := by
    intro y hy
    set S := ∑ i ∈ range n, y i with hS
    have h1 := hzero (fun i => y i + -S * r.weights i) (fun i hi hui => by rw [hw0 i hui, hy i hi hui]; ring)
      (by rw [sum_add_distrib, ← mul_sum, hw1]; linarith)
    rw [ll_bil_add, ll_bil_smul, ← hvar'] at h1
    linarith
  set ρ : Used n u → α := fun i => d i.1.1 - r.countrate with hρ
  set z : Nat → α := ext ((usedMat n u (lkDiffCov times q))⁻¹ *ᵥ ρ) with hz
  have hz0 : ∀ i < n, u i = false → z i = 0 := by
    intro i _ hui
    rw [hz]
    unfold Likely.ext
    rw [dif_neg (by simp [hui])]
  have hzy : ∀ y : Nat → α, (∀ i < n, u i = false → y i = 0) →
      bil n (llA times q) (llB times q) z y = ∑ i ∈ range n, y i * (d i - r.countrate) := by
    intro y hy
    have e1 : (fun j : Used n u => y j.1.1) ⬝ᵥ (usedMat n u (lkDiffCov times q) *ᵥ ((usedMat n u (lkDiffCov times q))⁻¹ *ᵥ ρ)) =
        (fun j : Used n u => y j.1.1) ⬝ᵥ ρ := by
      rw [Matrix.mulVec_mulVec, Matrix.mul_nonsing_inv _ hd, Matrix.one_mulVec]
    rw [usedMat_quad ht, dot_used] at e1
    rw [bil_comm, ll_bil_congr _ _ _ y z _ _ (fun i hi => (hext y hy i hi).symm) (fun _ _ => rfl), e1]
    refine sum_congr rfl fun i hi => ?_
    rw [hext y hy i (mem_range.1 hi)]
    rcases hui : u i with _ | _
    · rw [hy i (mem_range.1 hi) hui]; ring
    · congr 1
      unfold Likely.ext
      rw [dif_pos ⟨mem_range.1 hi, hui⟩]
  refine ⟨r, hf, hpos, hw0, hw1, hrate, hlin, z, hz0, ?_, hzy, ?_⟩
  · have h1 := hlin z hz0
    have h2 := hzy r.weights fun i _ => hw0 i
    rw [bil_comm, h1] at h2
    have h3 : ∑ i ∈ range n, r.weights i * (d i - r.countrate) = 0 := by
      simp only [mul_sub]
      rw [sum_sub_distrib, ← sum_mul, hw1, ← hrate]
      ring
    rw [h3] at h2
    exact (mul_eq_zero.1 h2).resolve_left hpos.ne'
  · rw [hchi, lkChi2, lkCov_eq, dot_used]
    rw [hzy z hz0]
    refine sum_congr rfl fun i hi => ?_
    rw [mul_comm]
    by_cases hui : u i = true
    · congr 1
      unfold Likely.ext
      rw [dif_pos ⟨mem_range.1 hi, hui⟩]
    · rw [hz]
      unfold Likely.ext
      rw [dif_neg (by simp [hui]), zero_mul, zero_mul]

end

/-- **C180**, fewer differences: with the same rate guess, a fit that uses only some of the differences never states a smaller uncertainty
or a larger chi-square; the squared change of the count rate is at most the growth of the squared uncertainty times the drop in
chi-square; and the uncertainty stays the same only if the weights do. -/
theorem C180_fewer {n : Nat} {u u' : Nat → Bool} {times : Nat → List α} {q : Noise α} {s s' : α} (h : LkPattern n times) (hq : LkNoiseOk q)
    (hs : 0 < s) (hs' : 0 < s') (hsub : ∀ i < n, u' i = true → u i = true) (hu' : ∃ i < n, u' i = true) (diffs : Nat → α) :
    ∃ r r', LkFit n times q s diffs u = some r ∧ LkFit n times q s' diffs u' = some r'
      ∧ r.uncert2 ≤ r'.uncert2 ∧ r'.chisq ≤ r.chisq
      ∧ (r'.countrate - r.countrate) ^ 2 ≤ (r'.uncert2 - r.uncert2) * (r.chisq - r'.chisq)
      ∧ (r'.uncert2 = r.uncert2 → ∀ i < n, r'.weights i = r.weights i)
      ∧ llVar n times q (fun i => r'.weights i - r.weights i) = r'.uncert2 - r.uncert2 := by
  have hu : ∃ i < n, u i = true := by
    obtain ⟨i, hi, hui⟩ := hu'
    exact ⟨i, hi, hsub i hi hui⟩
  have hp := cov_pos h.ordered q hq.1 hq.2.1 hq.2.2
  obtain ⟨r, hf, hpos, hw0, hw1, hrate, hlin, z, hz0, hz1, hzy, hzz⟩ := ll_facts h hq hs hu diffs
  obtain ⟨r', hf', hpos', hw0', hw1', hrate', hlin', z', hz0', hz1', hzy', hzz'⟩ := ll_facts h hq hs' hu' diffs
  have hin : ∀ y : Nat → α, (∀ i < n, u' i = false → y i = 0) → ∀ i < n, u i = false → y i = 0 := by
    intro y hy i hi hui
    refine hy i hi ?_
    rcases hc : u' i with _ | _
    · rfl
    · rw [hsub i hi hc] at hui; cases hui
  have e1 : bil n (llA times q) (llB times q) r.weights r'.weights = r.uncert2 := by
    rw [hlin _ (hin _ fun i _ => hw0' i), hw1', mul_one]
  have e2 : bil n (llA times q) (llB times q) r.weights r.weights = r.uncert2 := by
    rw [hlin _ fun i _ => hw0 i, hw1, mul_one]
  have e3 : bil n (llA times q) (llB times q) r'.weights r'.weights = r'.uncert2 := by
    rw [hlin' _ fun i _ => hw0' i, hw1', mul_one]
  -- the difference of the weights
  set g : Nat → α := fun i => r'.weights i + -1 * r.weights i with hg
  have hgdef : ∀ i, g i = r'.weights i + -1 * r.weights i := fun i => rfl
  have hgg : bil n (llA times q) (llB times q) g g = r'.uncert2 - r.uncert2 := by
    rw [hg, ll_quad, bil_comm n _ _ r'.weights r.weights, e1, e2, e3]
    ring
  have hg0 : ∀ i < n, u i = false → g i = 0 := by
    intro i hi hui
    rw [hgdef, hin _ (fun i _ => hw0' i) i hi hui, hw0 i hui]
    ring
  have hv0 := ll_nonneg hp g
  rw [hgg] at hv0
  -- chi-square
  have e4 : ∀ y : Nat → α, (∀ i < n, u i = false → y i = 0) → (∑ i ∈ range n, y i) = 0 →
      2 * (∑ i ∈ range n, y i * diffs i) - bil n (llA times q) (llB times q) y y ≤ r.chisq := by
    intro y hy hy1
    have h1 := ll_nonneg hp fun i => z i + -1 * y i
    rw [ll_quad, hzy y hy, ← hzz] at h1
    have h2 : ∑ i ∈ range n, y i * (diffs i - r.countrate) = ∑ i ∈ range n, y i * diffs i := by
      simp only [mul_sub]
      rw [sum_sub_distrib, ← sum_mul, hy1]
      ring
    rw [h2] at h1
    linarith
  have e5 : ∑ i ∈ range n, z' i * diffs i = r'.chisq := by
    have h1 := hzy' z' hz0'
    have h2 : ∑ i ∈ range n, z' i * (diffs i - r'.countrate) = ∑ i ∈ range n, z' i * diffs i := by
      simp only [mul_sub]
      rw [sum_sub_distrib, ← sum_mul, hz1']
      ring
    rw [h2, ← hzz'] at h1
    exact h1.symm
  have e6 : ∑ i ∈ range n, g i * diffs i = r'.countrate - r.countrate := by
    rw [hrate, hrate', ← sum_sub_distrib]
    exact sum_congr rfl fun i _ => by rw [hgdef]; ring
  have e7 : ∑ i ∈ range n, g i = 0 := by
    rw [hg, sum_add_distrib, ← mul_sum, hw1, hw1']
    ring
  have e8 : bil n (llA times q) (llB times q) z' g = 0 := by
    rw [hg, ll_bil_add, ll_bil_smul, bil_comm n _ _ z' r'.weights, bil_comm n _ _ z' r.weights, hlin' z' hz0', hlin z' (hin z' hz0'), hz1']
    ring
  have key : ∀ t : α, r'.chisq + 2 * t * (r'.countrate - r.countrate) - t * t * (r'.uncert2 - r.uncert2) ≤ r.chisq := by
    intro t
    have h1 := e4 (fun i => z' i + t * g i) (fun i hi hui => by rw [hin z' hz0' i hi hui, hg0 i hi hui]; ring)
      (by rw [sum_add_distrib, ← mul_sum, hz1', e7]; ring)
    have h2 : ∑ i ∈ range n, (z' i + t * g i) * diffs i = r'.chisq + t * (r'.countrate - r.countrate) := by
      rw [← e5, ← e6, mul_sum, ← sum_add_distrib]
      exact sum_congr rfl fun i _ => by ring
    rw [h2, ll_quad, e8, hgg, ← hzz'] at h1
    linarith
  have hsame : r'.uncert2 = r.uncert2 → ∀ i < n, r'.weights i = r.weights i := by
    intro he i hi
    by_contra hne
    have := hp g ⟨i, hi, fun hc => hne (by rw [hgdef] at hc; linarith)⟩
    rw [show bil n _ _ g g = r'.uncert2 - r.uncert2 from hgg, he, sub_self] at this
    exact lt_irrefl _ this
  refine ⟨r, r', hf, hf', by linarith, ?_, ?_, hsame, ?_⟩
  · have := key 0
    linarith
  · rcases hv0.eq_or_lt with hv | hv
    · have hw := hsame (by linarith)
      have : r'.countrate = r.countrate := by
        rw [hrate, hrate']
        exact sum_congr rfl fun i hi => by rw [hw i (mem_range.1 hi)]
      rw [this, ← hv]
      simp
    · have h1 := key ((r'.countrate - r.countrate) / (r'.uncert2 - r.uncert2))
      have e9 : 2 * ((r'.countrate - r.countrate) / (r'.uncert2 - r.uncert2)) * (r'.countrate - r.countrate)
          - (r'.countrate - r.countrate) / (r'.uncert2 - r.uncert2) * ((r'.countrate - r.countrate) / (r'.uncert2 - r.uncert2))
            * (r'.uncert2 - r.uncert2) = (r'.countrate - r.countrate) ^ 2 / (r'.uncert2 - r.uncert2) := by
        field_simp; ring
      have h2 : (r'.countrate - r.countrate) ^ 2 / (r'.uncert2 - r.uncert2) ≤ r.chisq - r'.chisq := by linarith
      rw [div_le_iff₀ hv] at h2
      linarith
  · rw [ll_var h, ← hgg]
    exact ll_bil_congr _ _ _ _ _ _ _ (fun i _ => by rw [hgdef]; ring) (fun i _ => by rw [hgdef]; ring)

/-- **C180**, more noise: with the same mask, a larger read noise, a larger rate guess or a smaller gain never gives a smaller uncertainty. -/
theorem C180_noise {n : Nat} {u : Nat → Bool} {times : Nat → List α} {q q' : Noise α} {s s' : α} (h : LkPattern n times) (hq : LkNoiseOk q)
    (hq' : LkNoiseOk q') (hs : 0 < s) (hs' : 0 < s') (hp : q.guess / q.gain ≤ q'.guess / q'.gain) (hr : |q.rnoise| ≤ |q'.rnoise|)
    (hu : ∃ i < n, u i = true) (diffs : Nat → α) :
    ∃ r r', LkFit n times q s diffs u = some r ∧ LkFit n times q' s' diffs u = some r' ∧ r.uncert2 ≤ r'.uncert2 := by
  obtain ⟨r, hf, hpos, hw0, hw1, hrate, hlin, -⟩ := ll_facts h hq hs hu diffs
  obtain ⟨r', hf', hpos', hw0', hw1', hrate', hlin', -⟩ := ll_facts h hq' hs' hu diffs
  refine ⟨r, r', hf, hf', ?_⟩
  have hpd := cov_pos h.ordered q hq.1 hq.2.1 hq.2.2
  have e1 : bil n (llA times q) (llB times q) r.weights r'.weights = r.uncert2 := by
    rw [hlin _ fun i _ => hw0' i, hw1', mul_one]
  have e2 : bil n (llA times q) (llB times q) r.weights r.weights = r.uncert2 := by
    rw [hlin _ fun i _ => hw0 i, hw1, mul_one]
  have e3 : bil n (llA times q') (llB times q') r'.weights r'.weights = r'.uncert2 := by
    rw [hlin' _ fun i _ => hw0' i, hw1', mul_one]
  have h1 := ll_nonneg hpd fun i => r'.weights i + -1 * r.weights i
  rw [ll_quad, bil_comm n _ _ r'.weights r.weights, e1, e2] at h1
  have hform : ∀ q : Noise α, bil n (llA times q) (llB times q) r'.weights r'.weights =
      q.guess / q.gain * bil n (covar times).alphaP (covar times).betaP r'.weights r'.weights
        + q.rnoise * q.rnoise * bil n (covar times).alphaR (covar times).betaR r'.weights r'.weights := by
    intro q
    rw [← bil_lin]
    rfl
  have h2 : 0 ≤ bil n (covar times).alphaP (covar times).betaP r'.weights r'.weights := photon_form_nonneg h.ordered _
  have h3 : 0 ≤ bil n (covar times).alphaR (covar times).betaR r'.weights r'.weights := by
    refine (read_form_pos h.ordered _ ?_).le
    by_contra hc
    push Not at hc
    rw [sum_eq_zero fun i hi => hc i (mem_range.1 hi)] at hw1'
    exact zero_ne_one hw1'
  have h4 : q.rnoise * q.rnoise ≤ q'.rnoise * q'.rnoise := by
    rw [← abs_mul_abs_self q.rnoise, ← abs_mul_abs_self q'.rnoise]
    exact mul_self_le_mul_self (abs_nonneg _) hr
  have h5 : bil n (llA times q) (llB times q) r'.weights r'.weights ≤ r'.uncert2 := by
    rw [← e3, hform, hform]
    exact add_le_add (mul_le_mul_of_nonneg_right hp h2) (mul_le_mul_of_nonneg_right h4 h3)
  linarith

/-- **C180** for flags: flagging more groups (in the flags the fit looks at) leaves fewer differences, so that the above applies. -/
theorem C180_flags {n : Nat} {times : Nat → List α} {q : Noise α} {s s' : α} (h : LkPattern n times) (hq : LkNoiseOk q) (hs : 0 < s) (hs' : 0 < s')
    (gdq gdq' : Nat → Nat) (hmore : ∀ g ≤ n, ∀ b, (gdq g).testBit b = true → (gdq' g).testBit b = true)
    (hleft : ∃ i < n, ∀ b < 8, (gdq' i).testBit b = false ∧ (gdq' (i + 1)).testBit b = false) (diffs : Nat → α) :
    ∃ r r', LkFit n times q s diffs (diffs2use gdq) = some r ∧ LkFit n times q s' diffs (diffs2use gdq') = some r'
      ∧ r.uncert2 ≤ r'.uncert2 ∧ r'.chisq ≤ r.chisq
      ∧ (r'.countrate - r.countrate) ^ 2 ≤ (r'.uncert2 - r.uncert2) * (r.chisq - r'.chisq) := by
  have key : ∀ x : Nat, x % 256 = 0 ↔ ∀ b < 8, x.testBit b = false := by
    intro x
    constructor
    · intro hx b hb
      have := Nat.testBit_mod_two_pow x 8 b
      rw [show (2 : Nat) ^ 8 = 256 from rfl, hx] at this
      simpa [hb] using this.symm
    · intro hx
      refine Nat.eq_of_testBit_eq fun b => ?_
      rw [show (256 : Nat) = 2 ^ 8 from rfl, Nat.testBit_mod_two_pow]
      by_cases hb : b < 8
      · simp [hb, hx b hb]
      · simp [hb]
  have hsub : ∀ i < n, diffs2use gdq' i = true → diffs2use gdq i = true := by
    intro i hi hu
    simp only [diffs2use, Bool.and_eq_true, decide_eq_true_eq, key] at hu ⊢
    have aux : ∀ g ≤ n, (∀ b < 8, (gdq' g).testBit b = false) → ∀ b < 8, (gdq g).testBit b = false := by
      intro g hg h0 b hb
      rcases hc : (gdq g).testBit b with _ | _
      · rfl
      · have := hmore g hg b hc
        rw [h0 b hb] at this
        cases this
    exact ⟨aux _ (by omega) hu.1, aux _ (by omega) hu.2⟩
  have hu' : ∃ i < n, diffs2use gdq' i = true := by
    obtain ⟨i, hi, hb⟩ := hleft
    refine ⟨i, hi, ?_⟩
    simp only [diffs2use, Bool.and_eq_true, decide_eq_true_eq, key]
    exact ⟨fun b hb' => (hb b hb').2, fun b hb' => (hb b hb').1⟩
  obtain ⟨r, r', h1, h2, h3, h4, h5, -⟩ := C180_fewer h hq hs hs' hsub hu' diffs
  exact ⟨r, r', h1, h2, h3, h4, h5⟩

/-! ## Examples -/

/-- Five groups of one read each. -/
def llTimes (i : Nat) : List ℚ := [(i : ℚ) + 1]

theorem ll_pattern : LkPattern 4 llTimes := by
  refine ⟨fun j _ => ⟨by simp [llTimes], by simp [llTimes]⟩, fun j _ s hs t ht => ?_⟩
  simp only [llTimes, List.mem_singleton] at hs ht
  subst hs ht
  push_cast
  linarith

example : LkPattern 4 llTimes ∧ LkNoiseOk (⟨2, 1, 3⟩ : Noise ℚ) ∧ (∃ i < 4, (fun i => decide (i ≠ 2)) i = true) :=
  ⟨ll_pattern, ⟨by decide +kernel, by decide +kernel, by decide +kernel⟩, 0, by omega, rfl⟩

/-- Differences with a hit in the third one. -/
def llDiffs (i : Nat) : ℚ := if i = 2 then 40 else 2

-- leaving out the hit removes the chi-square and moves the rate from 649/49 to 2, by exactly what the growth of the uncertainty allows
example : (LkFit 4 llTimes ⟨2, 1, 3⟩ 1 llDiffs (fun _ => true)).map (fun r => (r.countrate, r.uncert2, r.chisq))
      = some (649 / 49, 139 / 98, 1067838 / 24451)
    ∧ (LkFit 4 llTimes ⟨2, 1, 3⟩ 1 llDiffs (fun i => decide (i ≠ 2))).map (fun r => (r.countrate, r.uncert2, r.chisq)) = some (2, 220 / 51, 0)
    ∧ ((649 / 49 : ℚ) - 2) ^ 2 = (220 / 51 - 139 / 98) * (1067838 / 24451) := by
  decide +kernel

-- flags: a jump in the third group, then also one in the fifth
example : (∀ g ≤ 4, ∀ b, ([0, 0, 4, 0, 0].getD g 0).testBit b = true → ([0, 0, 4, 0, 4].getD g 0).testBit b = true)
    ∧ ∃ i < 4, ∀ b < 8, ([0, 0, 4, 0, 4].getD i 0).testBit b = false ∧ ([0, 0, 4, 0, 4].getD (i + 1) 0).testBit b = false := by
  refine ⟨fun g hg b => ?_, 0, by omega, by decide⟩
  interval_cases g <;> simp

end Verif.Thm
