import Verif.Proof.LikelyGls
import Mathlib.Algebra.Order.Ring.Rat
import Mathlib.Algebra.Field.Rat
import Mathlib.Tactic.IntervalCases
import Mathlib.Tactic.NormNum

/-!
# Likelihood ramp fitting: C38 and C76

`fit_ramps` is compared with generalised least squares stated with Mathlib's matrix inverse: the covariance of the used
group differences is built from single reads (photon noise with covariance proportional to the earlier time, independent
read noise), and chi-square is `r ⬝ᵥ S⁻¹ *ᵥ r`.
-/

namespace Verif.Thm

open Finset Matrix Verif.Likely

set_option linter.unusedSectionVars false

variable {α : Type} [Field α] [LinearOrder α] [IsStrictOrderedRing α]

/-! ## Specification -/

/-- Sum of `min x y` over pairs of reads. -/
def lkMinSum (s t : List α) : α := (s.map fun x => (t.map fun y => min x y).sum).sum

/-- Mean read time. -/
def lkMean (l : List α) : α := l.sum / (l.length : α)

/-- Covariance of two resultants: averages of reads whose photon noise has covariance `rate / gain * min(t, t')` and whose
read noise is independent from read to read. -/
def lkResCov (times : Nat → List α) (q : Noise α) (i j : Nat) : α :=
  q.guess / q.gain * (lkMinSum (times i) (times j) / (((times i).length : α) * ((times j).length : α)))
    + if i = j then q.rnoise * q.rnoise / ((times i).length : α) else 0

/-- Covariance of two group differences `(R_{i+1} - R_i) / (t_{i+1} - t_i)`. -/
def lkDiffCov (times : Nat → List α) (q : Noise α) (i j : Nat) : α :=
  (lkResCov times q (i + 1) (j + 1) - lkResCov times q (i + 1) j - lkResCov times q i (j + 1) + lkResCov times q i j)
    / ((lkMean (times (i + 1)) - lkMean (times i)) * (lkMean (times (j + 1)) - lkMean (times j)))

/-- Covariance matrix of the used differences. -/
def lkCov (n : Nat) (u : Nat → Bool) (times : Nat → List α) (q : Noise α) :
    Matrix { i : Fin n // u i.1 = true } { i : Fin n // u i.1 = true } α :=
  Matrix.of fun i j => lkDiffCov times q i.1.1 j.1.1

/-- Chi-square of a count rate. -/
noncomputable def lkChi2 (n : Nat) (u : Nat → Bool) (times : Nat → List α) (q : Noise α) (diffs : Nat → α) (x : α) : α :=
  (fun i : { i : Fin n // u i.1 = true } => diffs i.1.1 - x)
    ⬝ᵥ ((lkCov n u times q)⁻¹ *ᵥ fun i => diffs i.1.1 - x)

/-- A read pattern: `n + 1` resultants, each with at least one read, in time order. -/
def LkPattern (n : Nat) (times : Nat → List α) : Prop :=
  (∀ j ≤ n, times j ≠ [] ∧ (times j).Pairwise (· ≤ ·)) ∧ ∀ j < n, ∀ s ∈ times j, ∀ t ∈ times (j + 1), s < t

theorem LkPattern.ordered {n : Nat} {times : Nat → List α} (h : LkPattern n times) : Ordered n times :=
  ⟨fun j hj => (h.1 j hj).1, fun j hj => (h.1 j hj).2, h.2⟩

/-! ## The tridiagonal covariance -/

theorem lkMinSum_comm (s t : List α) : lkMinSum s t = lkMinSum t s := by
  induction s with
  | nil => induction t with
    | nil => rfl
    | cons y t ih => simp only [lkMinSum, List.map_cons, List.map_nil, List.sum_cons, List.sum_nil] at *; linarith
  | cons x s ih =>
    have e : ∀ t : List α, lkMinSum t (x :: s) = (t.map fun y => min x y).sum + lkMinSum t s := by
      intro t
      induction t with
      | nil => simp [lkMinSum]
      | cons y t iht =>
        simp only [lkMinSum, List.map_cons, List.sum_cons] at *
        rw [iht, min_comm x y]
        ring
    rw [e, ← ih]
    simp only [lkMinSum, List.map_cons, List.sum_cons]

theorem lkMinSum_before (s t : List α) (h : ∀ x ∈ s, ∀ y ∈ t, x ≤ y) : lkMinSum s t = (t.length : α) * s.sum := by
  induction s with
  | nil => simp [lkMinSum]
  | cons x s ih =>
    have ih' := ih fun z hz y hy => h z (by simp [hz]) y hy
    have e : (t.map fun y => min x y) = t.map fun _ => x :=
      List.map_congr_left fun y hy => min_eq_left (h x (by simp) y hy)
    simp only [lkMinSum, List.map_cons, List.sum_cons] at *
    rw [e, ih']
    simp
    ring

theorem lkMinSum_self (s : List α) (h : s.Pairwise (· ≤ ·)) : lkMinSum s s = tauL s := by
  induction s with
  | nil => simp [lkMinSum, tauL]
  | cons x s ih =>
    rw [List.pairwise_cons] at h
    have h1 : lkMinSum s [x] = (s.length : α) * x := by
      rw [lkMinSum_comm, lkMinSum_before _ _ fun z hz y hy => by
        rw [List.mem_singleton] at hz; subst hz; exact h.1 y hy]
      simp
    have h2 : lkMinSum (x :: s) (x :: s) = x + (s.length : α) * x + ((s.length : α) * x + lkMinSum s s) := by
      have e : ∀ l : List α, lkMinSum l (x :: s) = lkMinSum l [x] + lkMinSum l s := by
        intro l
        induction l with
        | nil => simp [lkMinSum]
        | cons y l ihl =>
          simp only [lkMinSum, List.map_cons, List.sum_cons, List.map_nil, List.sum_nil] at *
          rw [ihl]; ring
      have e3 : lkMinSum (x :: s) (x :: s) = (min x x + (s.map fun y => min x y).sum) + lkMinSum s (x :: s) := by
        simp [lkMinSum]
      rw [e3, e, h1, min_self, show (s.map fun y => min x y) = s.map fun _ => x from
        List.map_congr_left fun y hy => min_eq_left (h.1 y hy)]
      simp
    rw [h2, ih h.2, tauL]
    ring

section
variable {n : Nat} {times : Nat → List α} (h : LkPattern n times) (q : Noise α)

theorem lkNext : ∀ k i, i + k + 1 ≤ n → LkPattern n times → ∀ s ∈ times i, ∀ t ∈ times (i + k + 1), s < t := by
  intro k
  induction k with
  | zero => intro i hi h; exact h.2 i (by omega)
  | succ k ih =>
    intro i hi h s hs t ht
    obtain ⟨m, hm⟩ := List.exists_mem_of_ne_nil _ (h.1 (i + k + 1) (by omega)).1
    exact lt_trans (ih i (by omega) h s hs m hm) (h.2 (i + k + 1) (by omega) m hm t ht)

theorem lkResCov_lt {i j : Nat} (hij : i < j) (hj : j ≤ n) (h : LkPattern n times) :
    lkResCov times q i j = q.guess / q.gain * lkMean (times i) ∧ lkResCov times q j i = q.guess / q.gain * lkMean (times i) := by
  have hb : lkMinSum (times i) (times j) = ((times j).length : α) * (times i).sum := by
    refine lkMinSum_before _ _ fun x hx y hy => ?_
    have := lkNext (j - i - 1) i (by omega) h x hx y (by rw [show i + (j - i - 1) + 1 = j by omega]; exact hy)
    exact this.le
  have hi0 : ((times i).length : α) ≠ 0 := by
    exact_mod_cast (List.length_pos_of_ne_nil (h.1 i (by omega)).1).ne'
  have hj0 : ((times j).length : α) ≠ 0 := by exact_mod_cast (List.length_pos_of_ne_nil (h.1 j hj).1).ne'
  unfold lkResCov lkMean
  rw [if_neg (by omega), if_neg (by omega), lkMinSum_comm (times j), hb]
  constructor <;> field_simp <;> ring

theorem lkResCov_self {i : Nat} (hi : i ≤ n) (h : LkPattern n times) :
    lkResCov times q i i = q.guess / q.gain * tauT (times i) + q.rnoise * q.rnoise / ((times i).length : α) := by
  unfold lkResCov tauT
  rw [if_pos rfl, lkMinSum_self _ (h.1 i hi).2, tauL_eq]

/-- The covariance of the reads is the tridiagonal matrix the code builds. -/
theorem lkTri (h : LkPattern n times) : IsTri n (lkDiffCov times q)
    (fun i => alphaPh (covar times) q i + alphaRd (covar times) q i)
    (fun i => betaPh (covar times) q i + betaRd (covar times) q i) := by
  constructor
  · intro i hi
    have h1 := lkResCov_lt q (show i < i + 1 by omega) (by omega) h
    unfold lkDiffCov
    rw [lkResCov_self q (show i + 1 ≤ n by omega) h, lkResCov_self q (show i ≤ n by omega) h, h1.1, h1.2]
    simp only [alphaPh, alphaRd, covar, meanT, lkMean]
    ring
  · intro i hi
    have h1 := lkResCov_lt q (show i < i + 1 by omega) (by omega) h
    have h2 := lkResCov_lt q (show i < i + 2 by omega) (by omega) h
    have h3 := lkResCov_lt q (show i + 1 < i + 2 by omega) (by omega) h
    unfold lkDiffCov
    rw [lkResCov_self q (show i + 1 ≤ n by omega) h, h3.1, h1.1, h2.1]
    simp only [betaPh, betaRd, covar, meanT, lkMean]
    have hi0 : ((times (i + 1)).length : α) ≠ 0 := by
      exact_mod_cast (List.length_pos_of_ne_nil (h.1 (i + 1) (by omega)).1).ne'
    rw [mul_assoc (((times (i + 1)).length : Nat) : α), neg_div, ← one_div_mul_one_div]
    ring
  · intro i hi
    have h1 := lkResCov_lt q (show i < i + 1 by omega) (by omega) h
    have h2 := lkResCov_lt q (show i < i + 2 by omega) (by omega) h
    have h3 := lkResCov_lt q (show i + 1 < i + 2 by omega) (by omega) h
    unfold lkDiffCov
    rw [lkResCov_self q (show i + 1 ≤ n by omega) h, h3.2, h1.2, h2.2]
    simp only [betaPh, betaRd, covar, meanT, lkMean]
    rw [mul_assoc (((times (i + 1)).length : Nat) : α), neg_div, ← one_div_mul_one_div]
    ring
  · rintro i j hi hj (hij | hij)
    · unfold lkDiffCov
      rw [(lkResCov_lt q (show i + 1 < j + 1 by omega) (by omega) h).1, (lkResCov_lt q (show i + 1 < j by omega) (by omega) h).1,
        (lkResCov_lt q (show i < j + 1 by omega) (by omega) h).1, (lkResCov_lt q (show i < j by omega) (by omega) h).1]
      ring
    · unfold lkDiffCov
      rw [(lkResCov_lt q (show j + 1 < i + 1 by omega) (by omega) h).2, (lkResCov_lt q (show j + 1 < i by omega) (by omega) h).2,
        (lkResCov_lt q (show j < i + 1 by omega) (by omega) h).2, (lkResCov_lt q (show j < i by omega) (by omega) h).2]
      ring

end

/-! ## C38 -/

theorem lkCov_eq (n : Nat) (u : Nat → Bool) (times : Nat → List α) (q : Noise α) :
    lkCov n u times q = usedMat n u (lkDiffCov times q) := rfl

/-- Physical noise parameters. -/
def LkNoiseOk (q : Noise α) : Prop := 0 ≤ q.guess ∧ 0 < q.gain ∧ q.rnoise ≠ 0

theorem lkFitMatrix (n : Nat) (cv : Covar α) (q : Noise α) (s : α) (d : Nat → α) (u : Nat → Bool) :
    fitMatrix n cv q s d (num u) = scaledMat n u (fun i => alphaPh cv q i + alphaRd cv q i)
      (fun i => betaPh cv q i + betaRd cv q i) s d := rfl

/-- The weights of the fit as a vector on the used differences. -/
theorem lkFit_eq {n : Nat} {u : Nat → Bool} {times : Nat → List α} {q : Noise α} {s : α} (h : LkPattern n times)
    (hq : LkNoiseOk q) (hs : 0 < s) (hu : ∃ i < n, u i = true) (d : Nat → α) :
    ∃ m : Mat α, m = scaledMat n u (fun i => alphaPh (covar times) q i + alphaRd (covar times) q i)
        (fun i => betaPh (covar times) q i + betaRd (covar times) q i) s d ∧ 0 < m.C
      ∧ fitWith n (covar times) q s d (num u) = some ⟨m.B * (1 / m.C), (m.A - m.B * m.B / m.C) / s, s / m.C,
        fun i => m.dC i / m.C,
        (∑ i ∈ range n, m.dC i / m.C * (m.dC i / m.C) * alphaPh (covar times) q i)
          + 2 * ∑ i ∈ range (n - 1), m.dC (i + 1) / m.C * (m.dC i / m.C) * betaPh (covar times) q i,
        (∑ i ∈ range n, m.dC i / m.C * (m.dC i / m.C) * alphaRd (covar times) q i)
          + 2 * ∑ i ∈ range (n - 1), m.dC (i + 1) / m.C * (m.dC i / m.C) * betaRd (covar times) q i⟩ := by
  have hp := cov_pos h.ordered q hq.1 hq.2.1 hq.2.2
  have hC := C_pos d (lkTri q h) hp hs hu
  refine ⟨_, rfl, hC, ?_⟩
  unfold fitWith
  rw [lkFitMatrix]
  dsimp only
  rw [if_neg hC.ne']

theorem lkBil (n : Nat) (a b w : Nat → α) :
    (∑ i ∈ range n, w i * w i * a i) + 2 * ∑ i ∈ range (n - 1), w (i + 1) * w i * b i = bil n a b w w := by
  unfold bil
  rw [mul_sum]
  congr 1 <;> exact sum_congr rfl fun i _ => by ring

/-- **C38.** For every read pattern, mask and data the fitted count rate is the unique minimiser of chi-square with the
covariance of the used differences; the reported chi-square is the minimum; the squared uncertainty is the inverse of
`1ᵀ S⁻¹ 1` and the variance of the estimate, which is the linear combination of the used differences with the reported
weights (summing to one); the two reported variances are non-negative and add up to it; and no other unbiased linear
combination has a smaller variance.  The scale does not matter. -/
theorem C38_generalised_least_squares {n : Nat} {u : Nat → Bool} {times : Nat → List α} {q : Noise α} {s : α}
    (h : LkPattern n times) (hq : LkNoiseOk q) (hs : 0 < s) (hu : ∃ i < n, u i = true) (diffs : Nat → α) :
    ∃ r, fitWith n (covar times) q s diffs (num u) = some r
      ∧ (∀ x, lkChi2 n u times q diffs r.countrate ≤ lkChi2 n u times q diffs x)
      ∧ (∀ x, lkChi2 n u times q diffs x = lkChi2 n u times q diffs r.countrate → x = r.countrate)
      ∧ r.chisq = lkChi2 n u times q diffs r.countrate
      ∧ r.uncert2 = 1 / ((fun _ => 1) ⬝ᵥ ((lkCov n u times q)⁻¹ *ᵥ fun _ => 1)) ∧ 0 < r.uncert2
      ∧ (∀ i, u i = false → r.weights i = 0)
      ∧ (∑ i ∈ range n, r.weights i) = 1 ∧ r.countrate = ∑ i ∈ range n, r.weights i * diffs i
      ∧ r.uncert2 = (fun i => r.weights i.1.1) ⬝ᵥ (lkCov n u times q *ᵥ fun i => r.weights i.1.1)
      ∧ r.varP + r.varR = r.uncert2 ∧ 0 ≤ r.varP ∧ 0 < r.varR
      ∧ ∀ v : { i : Fin n // u i.1 = true } → α, (∑ i, v i) = 1 → r.uncert2 ≤ v ⬝ᵥ (lkCov n u times q *ᵥ v) := by
  have ht := lkTri q h
  have hp := cov_pos h.ordered q hq.1 hq.2.1 hq.2.2
  have hd := (Matrix.isUnit_iff_isUnit_det _).1 (usedMat_unit (u := u) ht hp)
  obtain ⟨m, hm, hC, hf⟩ := lkFit_eq h hq hs hu diffs
  have hchi : ∀ x, lkChi2 n u times q diffs x = (m.A - 2 * x * m.B + x * x * m.C) / s := by
    intro x
    unfold lkChi2
    rw [lkCov_eq, chi_eq diffs ht hp hs x, hm]
  have h1 : (fun _ => 1) ⬝ᵥ ((lkCov n u times q)⁻¹ *ᵥ fun _ => 1) = m.C / s := by
    rw [lkCov_eq, one_inv_one diffs ht hp hs, hm]
  have hC0 := hC.ne'
  have hs0 := hs.ne'
  have hzero : ∀ i, u i = false → m.dC i = 0 := by
    intro i hi
    rw [hm]
    simp only [scaledMat, dC_eq]
    rw [show (num u i : α) = 0 from by unfold num; rw [hi]; rfl, mul_zero]
  have hw : (fun i : { i : Fin n // u i.1 = true } => m.dC i.1.1 / m.C)
      = (s / m.C) • ((lkCov n u times q)⁻¹ *ᵥ fun _ => 1) := by
    rw [lkCov_eq, inv_one diffs ht hp hs, ← hm]
    funext i
    simp only [Pi.smul_apply, smul_eq_mul]
    field_simp
  have hSw : lkCov n u times q *ᵥ (fun i => m.dC i.1.1 / m.C) = (s / m.C) • fun _ => 1 := by
    rw [hw, Matrix.mulVec_smul, Matrix.mulVec_mulVec, lkCov_eq, Matrix.mul_nonsing_inv _ hd, Matrix.one_mulVec]
  have hsumw : ∑ i : { i : Fin n // u i.1 = true }, m.dC i.1.1 / m.C = 1 := by
    have : (fun _ => 1) ⬝ᵥ (fun i : { i : Fin n // u i.1 = true } => m.dC i.1.1 / m.C) = 1 := by
      rw [hw, dotProduct_smul, h1, smul_eq_mul]; field_simp
    simpa [dotProduct] using this
  have hvar : s / m.C = (fun i => m.dC i.1.1 / m.C) ⬝ᵥ (lkCov n u times q *ᵥ fun i => m.dC i.1.1 / m.C) := by
    rw [hSw, dotProduct_smul]
    have : (fun i : { i : Fin n // u i.1 = true } => m.dC i.1.1 / m.C) ⬝ᵥ (fun _ => 1) = 1 := by
      simpa [dotProduct] using hsumw
    rw [this, smul_eq_mul, mul_one]
  have hB : m.B = ∑ i ∈ range n, diffs i * num u i * m.dC i := by rw [hm]; rfl
  have hCs : m.C = ∑ i ∈ range n, m.dC i := by rw [hm]; rfl
  have hnum : ∀ i, num u i * m.dC i = m.dC i := by
    intro i
    rcases hui : u i with _ | _
    · rw [hzero i hui]; ring
    · rw [show (num u i : α) = 1 from by unfold num; rw [hui]; rfl, one_mul]
  have hext : ∀ i < n, ext (fun i : { i : Fin n // u i.1 = true } => m.dC i.1.1 / m.C) i = m.dC i / m.C := by
    intro i hi
    unfold Likely.ext
    split
    · rfl
    · next hh =>
      rcases hui : u i with _ | _
      · rw [hzero i hui]; simp
      · exact absurd ⟨hi, hui⟩ hh
  have hvarBil : s / m.C = bil n (fun i => alphaPh (covar times) q i + alphaRd (covar times) q i)
      (fun i => betaPh (covar times) q i + betaRd (covar times) q i) (fun i => m.dC i / m.C) (fun i => m.dC i / m.C) := by
    rw [hvar, lkCov_eq, usedMat_quad ht]
    unfold bil
    congr 1
    · exact sum_congr rfl fun i hi => by rw [hext i (mem_range.1 hi)]
    · exact sum_congr rfl fun i hi => by
        rw [hext i (by have := mem_range.1 hi; omega), hext (i + 1) (by have := mem_range.1 hi; omega)]
  refine ⟨_, hf, ?_, ?_, ?_, ?_, div_pos hs hC, ?_, ?_, ?_, hvar, ?_, ?_, ?_, ?_⟩
  · intro x
    rw [hchi, hchi]
    refine div_le_div_of_nonneg_right ?_ hs.le
    have : 0 ≤ m.C * ((x - m.B / m.C) * (x - m.B / m.C)) := mul_nonneg hC.le (mul_self_nonneg _)
    have e : m.C * ((x - m.B / m.C) * (x - m.B / m.C)) = (m.A - 2 * x * m.B + x * x * m.C)
        - (m.A - 2 * (m.B * (1 / m.C)) * m.B + m.B * (1 / m.C) * (m.B * (1 / m.C)) * m.C) := by
      field_simp; ring
    linarith
  · intro x hx
    rw [hchi, hchi] at hx
    have e : m.C * ((x - m.B / m.C) * (x - m.B / m.C)) = (m.A - 2 * x * m.B + x * x * m.C)
        - (m.A - 2 * (m.B * (1 / m.C)) * m.B + m.B * (1 / m.C) * (m.B * (1 / m.C)) * m.C) := by
      field_simp; ring
    have hx' := (div_left_inj' hs0).1 hx
    rw [hx', sub_self] at e
    have h0 : x - m.B / m.C = 0 := mul_self_eq_zero.1 ((mul_eq_zero.1 e).resolve_left hC0)
    rw [mul_one_div]
    linarith
  · rw [hchi]
    field_simp; ring
  · rw [h1]; field_simp
  · intro i hi
    show m.dC i / m.C = 0
    rw [hzero i hi, zero_div]
  · show ∑ i ∈ range n, m.dC i / m.C = 1
    rw [← sum_div, ← hCs, div_self hC0]
  · show m.B * (1 / m.C) = ∑ i ∈ range n, m.dC i / m.C * diffs i
    rw [hB, sum_mul]
    refine sum_congr rfl fun i _ => ?_
    rw [mul_assoc (diffs i), hnum]
    ring
  · show _ + _ = s / m.C
    rw [lkBil n _ _ fun i => m.dC i / m.C, lkBil n _ _ fun i => m.dC i / m.C, hvarBil]
    have := bil_lin n 1 1 (alphaPh (covar times) q) (betaPh (covar times) q) (alphaRd (covar times) q)
      (betaRd (covar times) q) (fun i => m.dC i / m.C) (fun i => m.dC i / m.C)
    simp only [one_mul] at this
    rw [this]
  · dsimp only
    rw [lkBil n _ _ fun i => m.dC i / m.C]
    have e := bil_lin n (q.guess / q.gain) 0 (covar times).alphaP (covar times).betaP (covar times).alphaP
      (covar times).betaP (fun i => m.dC i / m.C) (fun i => m.dC i / m.C)
    simp only [zero_mul, add_zero] at e
    rw [show bil n (alphaPh (covar times) q) (betaPh (covar times) q) (fun i => m.dC i / m.C) (fun i => m.dC i / m.C) = _
      from e]
    exact mul_nonneg (div_nonneg hq.1 hq.2.1.le) (photon_form_nonneg h.ordered _)
  · dsimp only
    rw [lkBil n _ _ fun i => m.dC i / m.C]
    have e := bil_lin n (q.rnoise * q.rnoise) 0 (covar times).alphaR (covar times).betaR (covar times).alphaP
      (covar times).betaP (fun i => m.dC i / m.C) (fun i => m.dC i / m.C)
    simp only [zero_mul, add_zero] at e
    rw [show bil n (alphaRd (covar times) q) (betaRd (covar times) q) (fun i => m.dC i / m.C) (fun i => m.dC i / m.C) = _
      from e]
    refine mul_pos (mul_self_pos.2 hq.2.2) (read_form_pos h.ordered _ ?_)
    by_contra hc
    push Not at hc
    refine hC0 ?_
    rw [hCs]
    exact sum_eq_zero fun i hi => by
      have := hc i (mem_range.1 hi)
      rwa [div_eq_zero_iff, or_iff_left hC0] at this
  · intro v hv
    show s / m.C ≤ _
    set w : { i : Fin n // u i.1 = true } → α := fun i => m.dC i.1.1 / m.C with hwd
    have hnn : 0 ≤ (v - w) ⬝ᵥ (lkCov n u times q *ᵥ (v - w)) := by
      by_cases hz : v - w = 0
      · rw [hz]; simp
      · exact (usedMat_pos (u := u) ht hp hz).le
    have hone : ∀ y : { i : Fin n // u i.1 = true } → α, y ⬝ᵥ (fun _ => (1 : α)) = ∑ i, y i := by
      intro y; simp [dotProduct]
    have hwv : w ⬝ᵥ (lkCov n u times q *ᵥ v) = s / m.C := by
      have : w ⬝ᵥ (lkCov n u times q *ᵥ v) = v ⬝ᵥ (lkCov n u times q *ᵥ w) := by
        rw [lkCov_eq, usedMat_quad ht, usedMat_quad ht, bil_comm]
      rw [this, hSw, dotProduct_smul, hone, hv, smul_eq_mul, mul_one]
    have hvw : v ⬝ᵥ (lkCov n u times q *ᵥ w) = s / m.C := by
      rw [hSw, dotProduct_smul, hone, hv, smul_eq_mul, mul_one]
    rw [Matrix.mulVec_sub, sub_dotProduct, dotProduct_sub, dotProduct_sub, hwv, hvw, ← hvar] at hnn
    linarith

/-- **C38.** Without a used difference there is no result. -/
theorem C38_no_used_difference {n : Nat} {u : Nat → Bool} (cv : Covar α) (q : Noise α) (s : α) (diffs : Nat → α)
    (hu : ∀ i < n, u i = false) : fitWith n cv q s diffs (num u) = none := by
  unfold fitWith
  rw [lkFitMatrix]
  dsimp only
  rw [if_pos (C_zero diffs hu)]

/-- **C38.** The scale the code divides the covariance by is positive, and makes the determinant one, for every
pattern of at least two differences. -/
theorem C38_rescaled_determinant {root : α → Nat → α} (hr : RootOk root) {n : Nat} {times : Nat → List α}
    (h : LkPattern n times) {q : Noise α} (hq : LkNoiseOk q) (hn : 1 ≤ n) :
    0 < scaleOf root n (covar times) q
    ∧ (2 ≤ n → theta (fun i => (alphaPh (covar times) q i + alphaRd (covar times) q i) / scaleOf root n (covar times) q)
        (fun i => (betaPh (covar times) q i + betaRd (covar times) q i) / scaleOf root n (covar times) q) n = 1) :=
  rescale_spec hr 10 (cov_pos h.ordered q hq.1 hq.2.1 hq.2.2) hn

/-- **C38, masked data (given the rate guess).** Two data vectors that agree on the used differences give the same
result.  Missing: in `likely_ramp_fit` the rate guess comes from the median of all differences, masked ones included, and
a NaN in a masked difference makes everything NaN; see the two theorems below. -/
theorem C38_masked_data_partial (n : Nat) (cv : Covar α) (q : Noise α) (s : α) (u : Nat → Bool) (d d' : Nat → α)
    (hd : ∀ i, u i = true → d i = d' i) : fitWith n cv q s d (num u) = fitWith n cv q s d' (num u) := by
  have e : (fun i => d i * num u i) = fun i => d' i * num u i := by
    funext i
    unfold num
    by_cases h : u i = true
    · rw [if_pos h, hd i h]
    · rw [if_neg h]; ring
  unfold fitWith fitMatrix
  rw [e]

/-! ## C76: the jump search compares with the fit that leaves the difference out -/

section
variable {n : Nat} {u : Nat → Bool} {M : Nat → Nat → α} {a b : Nat → α} {s : α} (d : Nat → α)

/-- Unit vector on the used differences. -/
def lkUnit (n : Nat) (u : Nat → Bool) (i : Nat) : Used n u → α := fun j => if j.1.1 = i then 1 else 0

theorem lkUnit_dot (i : Used n u) (w : Used n u → α) : lkUnit n u i.1.1 ⬝ᵥ w = w i := by
  show ∑ j : Used n u, (if j.1.1 = i.1.1 then 1 else 0) * w j = _
  rw [sum_eq_single i]
  · simp
  · intro j _ hj
    rw [if_neg fun h => hj (Subtype.ext (Fin.ext h)), zero_mul]
  · intro h; exact absurd (mem_univ _) h

theorem lkInv_unit (h : IsTri n M a b) (hp : PD n a b) (hs : 0 < s) (i : Nat) :
    (usedMat n u M)⁻¹ *ᵥ lkUnit n u i = fun j =>
      sol n (fun i => a i / s) (fun i => b i / s * num u (i + 1) * num u i) (Likely.unit i) j.1.1 / s :=
  inv_eq_sol (u := u) h hp hs (Likely.unit i)

theorem lkNum_true {u : Nat → Bool} {i : Nat} (h : u i = true) : (num u i : α) = 1 := by unfold num; rw [if_pos h]

/-- One difference left out. -/
theorem lkOne (h : IsTri n M a b) (hp : PD n a b) (hs : 0 < s) (i : Nat) (hi : i < n) (hui : u i = true)
    (u' : Nat → Bool) (hu' : u' = fun j => u j && decide (j ≠ i)) (hne : ∃ j < n, u' j = true)
    (cd : α) (hcd : cd = cinvDiag n (fun i => a i / s) (fun i => b i / s * num u (i + 1) * num u i) (num u) i)
    (m m' : Mat α) (hm : m = scaledMat n u a b s d) (hm' : m' = scaledMat n u' a b s d) :
    cd ≠ 0 ∧ 0 < m.C * cd - m.dC i * m.dC i ∧ m'.B = (chisqOne m cd i).1 * m'.C
      ∧ (m'.A - m'.B * m'.B / m'.C) / s = (chisqOne m cd i).2.2 / s ∧ 0 < m'.C := by
  have hs0 := hs.ne'
  have hd := (Matrix.isUnit_iff_isUnit_det _).1 (usedMat_unit (u := u) h hp)
  set S := usedMat n u M with hS
  set I : Used n u := ⟨⟨i, hi⟩, hui⟩ with hI
  have e1 : S⁻¹ *ᵥ (fun _ => 1) = fun j => m.dC j.1.1 / s := by rw [hm]; exact inv_one d h hp hs
  have ed : S⁻¹ *ᵥ (fun j => d j.1.1) = fun j => m.dB j.1.1 / s := by rw [hm]; exact inv_data d h hp hs
  have eu : (S⁻¹ *ᵥ lkUnit n u i) I = cd / s := by
    rw [lkInv_unit h hp hs i, hcd]
    show sol _ _ _ _ i / s = _
    rw [sol_unit_diag n _ _ i hi]
    unfold cinvDiag
    rw [lkNum_true hui, mul_one]
  have hpos : ∀ v : Used n u → α, v ≠ 0 → 0 < v ⬝ᵥ (S⁻¹ *ᵥ v) := by
    intro v hv
    have ev : S *ᵥ (S⁻¹ *ᵥ v) = v := by rw [Matrix.mulVec_mulVec, Matrix.mul_nonsing_inv _ hd, Matrix.one_mulVec]
    have hne : S⁻¹ *ᵥ v ≠ 0 := by
      intro hz
      rw [hz, Matrix.mulVec_zero] at ev
      exact hv ev.symm
    have := usedMat_pos (u := u) h hp hne
    rwa [← hS, ev, dotProduct_comm] at this
  have q11 : (fun _ => 1) ⬝ᵥ (S⁻¹ *ᵥ fun _ => 1) = m.C / s := by rw [hm]; exact one_inv_one d h hp hs
  have qd1 : (fun j => d j.1.1) ⬝ᵥ (S⁻¹ *ᵥ fun _ => 1) = m.B / s := by rw [hm]; exact data_inv_one d h hp hs
  have qdd : (fun j => d j.1.1) ⬝ᵥ (S⁻¹ *ᵥ fun j => d j.1.1) = m.A / s := by rw [hm]; exact data_inv_data d h hp hs
  have q1u : (fun _ => 1) ⬝ᵥ (S⁻¹ *ᵥ lkUnit n u i) = m.dC i / s := by
    rw [usedMat_symm h hp, lkUnit_dot I, ← hS, e1]
  have qdu : (fun j => d j.1.1) ⬝ᵥ (S⁻¹ *ᵥ lkUnit n u i) = m.dB i / s := by
    rw [usedMat_symm h hp, lkUnit_dot I, ← hS, ed]
  have quu : lkUnit n u i ⬝ᵥ (S⁻¹ *ᵥ lkUnit n u i) = cd / s := by rw [lkUnit_dot I, eu]
  have qu1 : lkUnit n u i ⬝ᵥ (S⁻¹ *ᵥ fun _ => 1) = m.dC i / s := by rw [lkUnit_dot I, e1]
  have qud : lkUnit n u i ⬝ᵥ (S⁻¹ *ᵥ fun j => d j.1.1) = m.dB i / s := by rw [lkUnit_dot I, ed]
  have q1d : (fun _ => 1) ⬝ᵥ (S⁻¹ *ᵥ fun j => d j.1.1) = m.B / s := by rw [← qd1]; exact usedMat_symm h hp _ _
  have hcd0 : 0 < cd := by
    have := hpos (lkUnit n u i) fun hz => by
      have := congrFun hz I
      simp [lkUnit, hI] at this
    rw [quu] at this
    exact (div_pos_iff_of_pos_right hs).1 this
  have hdet : 0 < m.C * cd - m.dC i * m.dC i := by
    obtain ⟨j, hj, huj⟩ := hne
    rw [hu'] at huj
    simp only [Bool.and_eq_true, decide_eq_true_eq] at huj
    have := hpos ((fun _ => 1) - (m.dC i / cd) • lkUnit n u i) fun hz => by
      have := congrFun hz ⟨⟨j, hj⟩, huj.1⟩
      simp [lkUnit, huj.2] at this
    rw [Matrix.mulVec_sub, Matrix.mulVec_smul, sub_dotProduct, dotProduct_sub, dotProduct_sub, smul_dotProduct,
      smul_dotProduct, dotProduct_smul, dotProduct_smul, q11, q1u, quu, usedMat_symm h hp (lkUnit n u i), ← hS, q1u] at this
    simp only [smul_eq_mul] at this
    have e : m.C / s - m.dC i / cd * (m.dC i / s) - (m.dC i / cd * (m.dC i / s) - m.dC i / cd * (m.dC i / cd * (cd / s)))
        = (m.C * cd - m.dC i * m.dC i) / (cd * s) := by
      field_simp
      ring
    rw [e] at this
    exact (div_pos_iff_of_pos_right (mul_pos hcd0 hs)).1 this
  have hcd1 := hcd0.ne'
  have hdet1 := hdet.ne'
  refine ⟨hcd1, hdet, ?_⟩
  set x := (chisqOne m cd i).1 with hx
  set y := (chisqOne m cd i).2.1 with hy
  have hxv : x = (cd * m.B - m.dB i * m.dC i) / (m.C * cd - m.dC i * m.dC i) := rfl
  have hyv : y = (m.dB i - x * m.dC i) / cd := rfl
  have hyE : cd * y = m.dB i - x * m.dC i := by rw [hyv]; field_simp
  have hxE : m.B - x * m.C - y * m.dC i = 0 := by
    have : x * (m.C * cd - m.dC i * m.dC i) = cd * m.B - m.dB i * m.dC i := by
      rw [hxv]; exact div_mul_cancel₀ _ hdet1
    have h3 : cd * (m.B - x * m.C - y * m.dC i) = 0 := by linear_combination -this - m.dC i * hyE
    exact (mul_eq_zero.1 h3).resolve_left hcd1
  have hVe : S⁻¹ *ᵥ ((fun j : Used n u => d j.1.1) - x • (fun _ => 1) - y • lkUnit n u i)
      = (S⁻¹ *ᵥ fun j => d j.1.1) - x • (S⁻¹ *ᵥ fun _ => 1) - y • (S⁻¹ *ᵥ lkUnit n u i) := by
    rw [Matrix.mulVec_sub, Matrix.mulVec_sub, Matrix.mulVec_smul, Matrix.mulVec_smul]
  have hred := reduced (u := u) (u' := u') (fun j hj => by rw [hu'] at hj; simp at hj; exact hj.1) h hp hs d x
    ((fun j : Used n u => d j.1.1) - x • (fun _ => 1) - y • lkUnit n u i)
    (fun j hj => by
      rw [hu'] at hj
      simp at hj
      simp [lkUnit, hj.2])
    (fun j hj => by
      rw [hu'] at hj
      simp [j.2] at hj
      obtain rfl : j = I := Subtype.ext (Fin.ext hj)
      rw [← hS, hVe]
      simp only [Pi.sub_apply, Pi.smul_apply, smul_eq_mul, eu, e1, ed]
      show m.dB i / s - x * (m.dC i / s) - y * (cd / s) = 0
      field_simp
      linear_combination -hyE)
    (by
      rw [← hS, hVe, dotProduct_sub, dotProduct_sub, dotProduct_smul, dotProduct_smul, q11, q1u,
        usedMat_symm h hp, ← hS, qd1]
      simp only [smul_eq_mul]
      field_simp
      linear_combination hxE)
    hne
  rw [← hm'] at hred
  refine ⟨hred.1, ?_, by rw [hm']; exact C_pos d h hp hs hne⟩
  rw [hred.2, ← hS, hVe]
  simp only [dotProduct_sub, sub_dotProduct, dotProduct_smul, smul_dotProduct, q11, q1u, quu, qd1, qdd, qdu,
    qu1, qud, q1d, smul_eq_mul]
  show _ = (m.A + x * x * m.C - 2 * x * m.B + y * y * cd - 2 * y * m.dB i + 2 * x * y * m.dC i) / s
  ring

/-- Leaving a difference out does not increase chi-square. -/
theorem lkOne_le (m : Mat α) (cd : α) (i : Nat) (hC : 0 < m.C) (hcd : cd ≠ 0)
    (hdet : 0 < m.C * cd - m.dC i * m.dC i) : (chisqOne m cd i).2.2 ≤ m.A - m.B * m.B / m.C := by
  set x := (chisqOne m cd i).1 with hx
  set y := (chisqOne m cd i).2.1 with hy
  have hxv : x = (cd * m.B - m.dB i * m.dC i) / (m.C * cd - m.dC i * m.dC i) := rfl
  have hyv : y = (m.dB i - x * m.dC i) / cd := rfl
  have hyE : cd * y = m.dB i - x * m.dC i := by rw [hyv]; field_simp
  have hxE : m.B - x * m.C - y * m.dC i = 0 := by
    have : x * (m.C * cd - m.dC i * m.dC i) = cd * m.B - m.dB i * m.dC i := by
      rw [hxv]; exact div_mul_cancel₀ _ hdet.ne'
    have h3 : cd * (m.B - x * m.C - y * m.dC i) = 0 := by linear_combination -this - m.dC i * hyE
    exact (mul_eq_zero.1 h3).resolve_left hcd
  have e : (m.A - m.B * m.B / m.C) - (chisqOne m cd i).2.2 = y * y * (m.C * cd - m.dC i * m.dC i) / m.C := by
    show (m.A - m.B * m.B / m.C)
      - (m.A + x * x * m.C - 2 * x * m.B + y * y * cd - 2 * y * m.dB i + 2 * x * y * m.dC i) = _
    have hC0 := hC.ne'
    field_simp
    linear_combination (-(m.B - x * m.C) - m.dC i * y) * hxE - 2 * y * m.C * hyE
  have : 0 ≤ y * y * (m.C * cd - m.dC i * m.dC i) / m.C :=
    div_nonneg (mul_nonneg (mul_self_nonneg y) hdet.le) hC.le
  linarith

/-- Two adjacent differences left out. -/
theorem lkTwo (h : IsTri n M a b) (hp : PD n a b) (hs : 0 < s) (i : Nat) (hi : i + 1 < n) (hui : u i = true)
    (hui' : u (i + 1) = true)
    (u' : Nat → Bool) (hu' : u' = fun j => u j && decide (j ≠ i) && decide (j ≠ i + 1))
    (cd cd' co : α)
    (hcd : cd = cinvDiag n (fun i => a i / s) (fun i => b i / s * num u (i + 1) * num u i) (num u) i)
    (hcd' : cd' = cinvDiag n (fun i => a i / s) (fun i => b i / s * num u (i + 1) * num u i) (num u) (i + 1))
    (hco : co = cinvOff n (fun i => a i / s) (fun i => b i / s * num u (i + 1) * num u i) i)
    (m m' : Mat α) (hm : m = scaledMat n u a b s d) (hm' : m' = scaledMat n u' a b s d)
    (hP : m.dC i * m.dC i - m.C * cd ≠ 0) (hK : m.dC i * m.dC (i + 1) - m.C * co ≠ 0)
    (hD : (m.dC i * m.dC (i + 1) - m.C * co) / (m.dC i * m.dC i - m.C * cd)
      - (m.dC (i + 1) * m.dC (i + 1) - m.C * cd') / (m.dC i * m.dC (i + 1) - m.C * co) ≠ 0) :
    (∃ j < n, u' j = true) ∧ m'.B = (chisqTwo m cd cd' co i).1 * m'.C
      ∧ (m'.A - m'.B * m'.B / m'.C) / s = (chisqTwo m cd cd' co i).2.2.2 / s ∧ 0 < m'.C := by
  have hs0 := hs.ne'
  have hd := (Matrix.isUnit_iff_isUnit_det _).1 (usedMat_unit (u := u) h hp)
  have hCpos : 0 < m.C := by rw [hm]; exact C_pos d h hp hs ⟨i, by omega, hui⟩
  have hC0 := hCpos.ne'
  set S := usedMat n u M with hS
  set I : Used n u := ⟨⟨i, by omega⟩, hui⟩ with hI
  set J : Used n u := ⟨⟨i + 1, hi⟩, hui'⟩ with hJ
  have e1 : S⁻¹ *ᵥ (fun _ => 1) = fun j => m.dC j.1.1 / s := by rw [hm]; exact inv_one d h hp hs
  have ed : S⁻¹ *ᵥ (fun j => d j.1.1) = fun j => m.dB j.1.1 / s := by rw [hm]; exact inv_data d h hp hs
  have euI : (S⁻¹ *ᵥ lkUnit n u i) I = cd / s := by
    rw [lkInv_unit h hp hs i, hcd]
    show sol _ _ _ _ i / s = _
    rw [sol_unit_diag n _ _ i (by omega)]
    unfold cinvDiag
    rw [lkNum_true hui, mul_one]
  have euJ : (S⁻¹ *ᵥ lkUnit n u i) J = co / s := by
    rw [lkInv_unit h hp hs i, hco]
    show sol _ _ _ _ (i + 1) / s = _
    rw [sol_unit_off n _ _ i hi]
    rfl
  have evJ : (S⁻¹ *ᵥ lkUnit n u (i + 1)) J = cd' / s := by
    rw [lkInv_unit h hp hs (i + 1), hcd']
    show sol _ _ _ _ (i + 1) / s = _
    rw [sol_unit_diag n _ _ (i + 1) hi]
    unfold cinvDiag
    rw [lkNum_true hui', mul_one]
  have evI : (S⁻¹ *ᵥ lkUnit n u (i + 1)) I = co / s := by
    rw [← euJ, ← lkUnit_dot I (S⁻¹ *ᵥ lkUnit n u (i + 1)), ← lkUnit_dot J (S⁻¹ *ᵥ lkUnit n u i)]
    exact usedMat_symm h hp _ _
  have q11 : (fun _ => 1) ⬝ᵥ (S⁻¹ *ᵥ fun _ => 1) = m.C / s := by rw [hm]; exact one_inv_one d h hp hs
  have qd1 : (fun j => d j.1.1) ⬝ᵥ (S⁻¹ *ᵥ fun _ => 1) = m.B / s := by rw [hm]; exact data_inv_one d h hp hs
  have qdd : (fun j => d j.1.1) ⬝ᵥ (S⁻¹ *ᵥ fun j => d j.1.1) = m.A / s := by rw [hm]; exact data_inv_data d h hp hs
  have qu1 : lkUnit n u i ⬝ᵥ (S⁻¹ *ᵥ fun _ => 1) = m.dC i / s := by rw [show lkUnit n u i = lkUnit n u I.1.1 from rfl, lkUnit_dot I, e1]
  have qv1 : lkUnit n u (i + 1) ⬝ᵥ (S⁻¹ *ᵥ fun _ => 1) = m.dC (i + 1) / s := by
    rw [show lkUnit n u (i + 1) = lkUnit n u J.1.1 from rfl, lkUnit_dot J, e1]
  have qud : lkUnit n u i ⬝ᵥ (S⁻¹ *ᵥ fun j => d j.1.1) = m.dB i / s := by
    rw [show lkUnit n u i = lkUnit n u I.1.1 from rfl, lkUnit_dot I, ed]
  have qvd : lkUnit n u (i + 1) ⬝ᵥ (S⁻¹ *ᵥ fun j => d j.1.1) = m.dB (i + 1) / s := by
    rw [show lkUnit n u (i + 1) = lkUnit n u J.1.1 from rfl, lkUnit_dot J, ed]
  have quu : lkUnit n u i ⬝ᵥ (S⁻¹ *ᵥ lkUnit n u i) = cd / s := by
    rw [← euI]; exact lkUnit_dot I _
  have qvv : lkUnit n u (i + 1) ⬝ᵥ (S⁻¹ *ᵥ lkUnit n u (i + 1)) = cd' / s := by
    rw [← evJ]; exact lkUnit_dot J _
  have qvu : lkUnit n u (i + 1) ⬝ᵥ (S⁻¹ *ᵥ lkUnit n u i) = co / s := by
    rw [← euJ]; exact lkUnit_dot J _
  have quv : lkUnit n u i ⬝ᵥ (S⁻¹ *ᵥ lkUnit n u (i + 1)) = co / s := by
    rw [← evI]; exact lkUnit_dot I _
  have q1u : (fun _ => 1) ⬝ᵥ (S⁻¹ *ᵥ lkUnit n u i) = m.dC i / s := by rw [← qu1]; exact usedMat_symm h hp _ _
  have q1v : (fun _ => 1) ⬝ᵥ (S⁻¹ *ᵥ lkUnit n u (i + 1)) = m.dC (i + 1) / s := by
    rw [← qv1]; exact usedMat_symm h hp _ _
  have qdu : (fun j => d j.1.1) ⬝ᵥ (S⁻¹ *ᵥ lkUnit n u i) = m.dB i / s := by rw [← qud]; exact usedMat_symm h hp _ _
  have qdv : (fun j => d j.1.1) ⬝ᵥ (S⁻¹ *ᵥ lkUnit n u (i + 1)) = m.dB (i + 1) / s := by
    rw [← qvd]; exact usedMat_symm h hp _ _
  have q1d : (fun _ => 1) ⬝ᵥ (S⁻¹ *ᵥ fun j => d j.1.1) = m.B / s := by rw [← qd1]; exact usedMat_symm h hp _ _
  have hne : ∃ j < n, u' j = true := by
    by_contra hc
    push Not at hc
    have hone : (fun _ : Used n u => (1 : α)) = lkUnit n u i + lkUnit n u (i + 1) := by
      funext j
      have := hc j.1.1 j.1.2
      rw [hu'] at this
      simp only [j.2, Bool.true_and, ne_eq, Bool.and_eq_true, decide_eq_true_eq, not_and, not_not] at this
      simp only [lkUnit, Pi.add_apply]
      by_cases hj : j.1.1 = i
      · rw [if_pos hj, if_neg (by omega), add_zero]
      · rw [if_neg hj, if_pos (this hj), zero_add]
    have r1 : m.dC i = cd + co := by
      have := qu1
      rw [hone, Matrix.mulVec_add, dotProduct_add, quu, quv] at this
      field_simp at this
      exact this.symm
    have r2 : m.dC (i + 1) = co + cd' := by
      have := qv1
      rw [hone, Matrix.mulVec_add, dotProduct_add, qvu, qvv] at this
      field_simp at this
      exact this.symm
    have r3 : m.C = m.dC i + m.dC (i + 1) := by
      have := q11
      rw [hone, add_dotProduct, ← hone, qu1, qv1] at this
      field_simp at this
      exact this.symm
    have p1 : m.dC i * m.dC i - m.C * cd = -(m.dC i * m.dC (i + 1) - m.C * co) := by
      rw [r3, r2, r1]; ring
    have p2 : m.dC (i + 1) * m.dC (i + 1) - m.C * cd' = -(m.dC i * m.dC (i + 1) - m.C * co) := by
      rw [r3, r2, r1]; ring
    rw [p1, p2] at hD
    refine hD ?_
    rw [div_neg, neg_div, div_self hK]
    ring
  refine ⟨hne, ?_⟩
  set x := (chisqTwo m cd cd' co i).1 with hx
  set y := (chisqTwo m cd cd' co i).2.1 with hy
  set z := (chisqTwo m cd cd' co i).2.2.1 with hz
  have hzv : z = ((m.B * m.dC i - m.dB i * m.C) / (m.dC i * m.dC i - m.C * cd)
      - (m.B * m.dC (i + 1) - m.dB (i + 1) * m.C) / (m.dC i * m.dC (i + 1) - m.C * co))
      / ((m.dC i * m.dC (i + 1) - m.C * co) / (m.dC i * m.dC i - m.C * cd)
        - (m.dC (i + 1) * m.dC (i + 1) - m.C * cd') / (m.dC i * m.dC (i + 1) - m.C * co)) := rfl
  have hyv : y = (m.B * m.dC i - m.dB i * m.C - z * (m.dC i * m.dC (i + 1) - m.C * co))
      / (m.dC i * m.dC i - m.C * cd) := rfl
  have hxv : x = (m.B - y * m.dC i - z * m.dC (i + 1)) / m.C := rfl
  have n1 : x * m.C = m.B - y * m.dC i - z * m.dC (i + 1) := by rw [hxv]; exact div_mul_cancel₀ _ hC0
  have k2 : y * (m.dC i * m.dC i - m.C * cd) = m.B * m.dC i - m.dB i * m.C - z * (m.dC i * m.dC (i + 1) - m.C * co) := by
    rw [hyv]; exact div_mul_cancel₀ _ hP
  have k3 : y * (m.dC i * m.dC (i + 1) - m.C * co) + z * (m.dC (i + 1) * m.dC (i + 1) - m.C * cd')
      = m.B * m.dC (i + 1) - m.dB (i + 1) * m.C := by
    have hz' : z * ((m.dC i * m.dC (i + 1) - m.C * co) / (m.dC i * m.dC i - m.C * cd)
        - (m.dC (i + 1) * m.dC (i + 1) - m.C * cd') / (m.dC i * m.dC (i + 1) - m.C * co))
        = (m.B * m.dC i - m.dB i * m.C) / (m.dC i * m.dC i - m.C * cd)
          - (m.B * m.dC (i + 1) - m.dB (i + 1) * m.C) / (m.dC i * m.dC (i + 1) - m.C * co) := by
      rw [hzv]; exact div_mul_cancel₀ _ hD
    generalize m.dC i * m.dC i - m.C * cd = P at *
    generalize m.dC i * m.dC (i + 1) - m.C * co = K at *
    generalize m.dC (i + 1) * m.dC (i + 1) - m.C * cd' = Q at *
    generalize m.B * m.dC i - m.dB i * m.C = bp at *
    generalize m.B * m.dC (i + 1) - m.dB (i + 1) * m.C = bq at *
    have hz2 : z * (K * K - Q * P) = bp * K - bq * P := by
      field_simp at hz'
      linear_combination hz'
    have : P * (y * K + z * Q - bq) = 0 := by linear_combination K * k2 - hz2
    have := (mul_eq_zero.1 this).resolve_left hP
    linear_combination this
  have n2 : m.dC i * x + cd * y + co * z = m.dB i := by
    have : m.C * (m.dC i * x + cd * y + co * z - m.dB i) = 0 := by linear_combination m.dC i * n1 - k2
    have := (mul_eq_zero.1 this).resolve_left hC0
    linear_combination this
  have n3 : m.dC (i + 1) * x + co * y + cd' * z = m.dB (i + 1) := by
    have : m.C * (m.dC (i + 1) * x + co * y + cd' * z - m.dB (i + 1)) = 0 := by
      linear_combination m.dC (i + 1) * n1 - k3
    have := (mul_eq_zero.1 this).resolve_left hC0
    linear_combination this
  have hVe : S⁻¹ *ᵥ ((fun j : Used n u => d j.1.1) - x • (fun _ => 1) - y • lkUnit n u i - z • lkUnit n u (i + 1))
      = (S⁻¹ *ᵥ fun j => d j.1.1) - x • (S⁻¹ *ᵥ fun _ => 1) - y • (S⁻¹ *ᵥ lkUnit n u i)
        - z • (S⁻¹ *ᵥ lkUnit n u (i + 1)) := by
    rw [Matrix.mulVec_sub, Matrix.mulVec_sub, Matrix.mulVec_sub, Matrix.mulVec_smul, Matrix.mulVec_smul,
      Matrix.mulVec_smul]
  have hred := reduced (u := u) (u' := u') (fun j hj => by rw [hu'] at hj; simp at hj; exact hj.1.1) h hp hs d x
    ((fun j : Used n u => d j.1.1) - x • (fun _ => 1) - y • lkUnit n u i - z • lkUnit n u (i + 1))
    (fun j hj => by
      rw [hu'] at hj
      simp at hj
      simp [lkUnit, hj.1.2, hj.2])
    (fun j hj => by
      rw [hu'] at hj
      simp only [j.2, Bool.true_and, ne_eq, Bool.and_eq_false_iff, decide_eq_false_iff_not, not_not] at hj
      rw [← hS, hVe]
      rcases hj with hj | hj
      · obtain rfl : j = I := Subtype.ext (Fin.ext hj)
        simp only [Pi.sub_apply, Pi.smul_apply, smul_eq_mul, euI, evI, e1, ed]
        show m.dB i / s - x * (m.dC i / s) - y * (cd / s) - z * (co / s) = 0
        field_simp
        linear_combination -n2
      · obtain rfl : j = J := Subtype.ext (Fin.ext hj)
        simp only [Pi.sub_apply, Pi.smul_apply, smul_eq_mul, euJ, evJ, e1, ed]
        show m.dB (i + 1) / s - x * (m.dC (i + 1) / s) - y * (co / s) - z * (cd' / s) = 0
        field_simp
        linear_combination -n3)
    (by
      rw [← hS, hVe]
      simp only [dotProduct_sub, dotProduct_smul, q11, q1u, q1v, q1d, smul_eq_mul]
      field_simp
      linear_combination -n1)
    hne
  rw [← hm'] at hred
  refine ⟨hred.1, ?_, by rw [hm']; exact C_pos d h hp hs hne⟩
  rw [hred.2, ← hS, hVe]
  simp only [dotProduct_sub, sub_dotProduct, dotProduct_smul, smul_dotProduct, q11, q1u, q1v, q1d, quu, quv, qvu, qvv, qd1,
    qdd, qdu, qdv, qu1, qv1, qud, qvd, smul_eq_mul]
  show _ = (m.A + x * x * m.C + y * y * cd + z * z * cd'
    - (2 * x * m.B + 2 * y * m.dB i + 2 * z * m.dB (i + 1))
    + (2 * x * y * m.dC i + 2 * x * z * m.dC (i + 1) + 2 * y * z * co)) / s
  ring

end

/-- **C76 (one difference).** For a used difference `i`, as long as another one is used, the jump search reports exactly
the decrease of chi-square, and the count rate, of the fit without it; the decrease is never negative. -/
theorem C76_one_omitted {n : Nat} {u : Nat → Bool} {times : Nat → List α} {q : Noise α} {s : α}
    (h : LkPattern n times) (hq : LkNoiseOk q) (hs : 0 < s) (diffs : Nat → α) (i : Nat) (hi : i < n) (hui : u i = true)
    (hne : ∃ j < n, u j = true ∧ j ≠ i) :
    ∃ r r', fitWith n (covar times) q s diffs (num u) = some r
      ∧ fitWith n (covar times) q s diffs (num fun j => u j && decide (j ≠ i)) = some r'
      ∧ (search n (covar times) q s diffs).one u i = some (r.chisq - r'.chisq)
      ∧ (search n (covar times) q s diffs).rateOne u i = some r'.countrate
      ∧ r'.chisq ≤ r.chisq := by
  have ht := lkTri q h
  have hp := cov_pos h.ordered q hq.1 hq.2.1 hq.2.2
  obtain ⟨m, hm, hC, hf⟩ := lkFit_eq h hq hs ⟨i, hi, hui⟩ diffs
  have hne' : ∃ j < n, (fun j => u j && decide (j ≠ i)) j = true := by
    obtain ⟨j, hj, h1, h2⟩ := hne
    exact ⟨j, hj, by simp [h1, h2]⟩
  obtain ⟨m', hm', hC', hf'⟩ := lkFit_eq h hq hs hne' diffs
  obtain ⟨c1, c2, c3, c4, c5⟩ := lkOne diffs ht hp hs i hi hui _ rfl hne' _ rfl m m' hm hm'
  refine ⟨_, _, hf, hf', ?_, ?_, ?_⟩
  · simp only [search]
    rw [lkFitMatrix, ← hm, if_neg hC.ne', if_pos hui, if_neg (by push Not; exact ⟨c1, c2.ne'⟩)]
    dsimp only
    rw [c4, sub_div]
  · simp only [search]
    rw [lkFitMatrix, ← hm, if_pos hui, if_neg (by push Not; exact ⟨c1, c2.ne'⟩)]
    simp only [Option.map_some]
    rw [c3, mul_one_div, mul_div_cancel_right₀ _ hC'.ne']
  · show (m'.A - m'.B * m'.B / m'.C) / s ≤ (m.A - m.B * m.B / m.C) / s
    rw [c4]
    exact div_le_div_of_nonneg_right (lkOne_le m _ i hC c1 c2) hs.le

/-- **C76 (one difference).** The search has no number for the only used difference, and an improvement of zero for a
masked one. -/
theorem C76_masked_or_last {n : Nat} {u : Nat → Bool} {times : Nat → List α} {q : Noise α} {s : α}
    (h : LkPattern n times) (hq : LkNoiseOk q) (hs : 0 < s) (diffs : Nat → α) (i : Nat) (hi : i < n)
    (hu : ∃ j < n, u j = true) :
    (u i = false → (search n (covar times) q s diffs).one u i = some 0)
    ∧ (u i = true → (∀ j < n, u j = true → j = i) → (search n (covar times) q s diffs).one u i = none) := by
  have ht := lkTri q h
  have hp := cov_pos h.ordered q hq.1 hq.2.1 hq.2.2
  obtain ⟨m, hm, hC, hf⟩ := lkFit_eq h hq hs hu diffs
  constructor
  · intro hui
    simp only [search]
    rw [lkFitMatrix, ← hm, if_neg hC.ne', if_neg (by simp [hui])]
    simp
  · intro hui hlast
    have hone : (fun _ : Used n u => (1 : α)) = lkUnit n u i := by
      funext j
      simp only [lkUnit]
      rw [if_pos (hlast _ j.1.2 j.2)]
    have hd := (Matrix.isUnit_iff_isUnit_det _).1 (usedMat_unit (u := u) ht hp)
    have e1 := inv_one (u := u) diffs ht hp hs
    have e2 := one_inv_one (u := u) diffs ht hp hs
    have e3 := lkInv_unit (u := u) ht hp hs i
    rw [← hm] at e1 e2
    have hs0 := hs.ne'
    have g1 : m.dC i = cinvDiag n (fun i => (alphaPh (covar times) q i + alphaRd (covar times) q i) / s)
        (fun i => (betaPh (covar times) q i + betaRd (covar times) q i) / s * num u (i + 1) * num u i) (num u) i := by
      rw [hone, e3] at e1
      have := congrFun e1 ⟨⟨i, hi⟩, hui⟩
      simp only at this
      rw [sol_unit_diag n _ _ i hi] at this
      have := (div_left_inj' hs0).1 this
      unfold cinvDiag
      rw [lkNum_true hui, mul_one]
      exact this.symm
    have g2 : m.C = m.dC i := by
      rw [show (fun _ : Used n u => (1 : α)) ⬝ᵥ ((usedMat n u (lkDiffCov times q))⁻¹ *ᵥ fun _ => 1)
        = lkUnit n u i ⬝ᵥ ((usedMat n u (lkDiffCov times q))⁻¹ *ᵥ fun _ => 1) from by rw [← hone]] at e2
      rw [e1] at e2
      have h3 := lkUnit_dot (u := u) ⟨⟨i, hi⟩, hui⟩ (fun j => m.dC j.1.1 / s)
      have h4 : m.dC i / s = m.C / s := h3.symm.trans e2
      exact ((div_left_inj' hs0).1 h4).symm
    simp only [search]
    rw [lkFitMatrix, ← hm, if_neg hC.ne', if_pos hui, if_pos]
    right
    rw [← g1, g2]
    ring

/-- **C76 (two differences).** Whenever the search has a number for two used adjacent differences, it is the decrease of
chi-square, with the count rate, of the fit without the two. -/
theorem C76_two_omitted {n : Nat} {u : Nat → Bool} {times : Nat → List α} {q : Noise α} {s : α}
    (h : LkPattern n times) (hq : LkNoiseOk q) (hs : 0 < s) (diffs : Nat → α) (i : Nat) (hi : i + 1 < n) (hui : u i = true)
    (hui' : u (i + 1) = true) (g : α) (hg : (search n (covar times) q s diffs).two u i = some g) :
    ∃ r r', fitWith n (covar times) q s diffs (num u) = some r
      ∧ fitWith n (covar times) q s diffs (num fun j => u j && decide (j ≠ i) && decide (j ≠ i + 1)) = some r'
      ∧ g = r.chisq - r'.chisq
      ∧ (search n (covar times) q s diffs).rateTwo u i = some r'.countrate := by
  have ht := lkTri q h
  have hp := cov_pos h.ordered q hq.1 hq.2.1 hq.2.2
  obtain ⟨m, hm, hC, hf⟩ := lkFit_eq h hq hs ⟨i, by omega, hui⟩ diffs
  simp only [search] at hg ⊢
  rw [lkFitMatrix, ← hm] at hg ⊢
  rw [if_neg hC.ne', if_neg (by simp [hui]), if_neg (by simp [hui'])] at hg
  rw [if_neg (by simp [hui]), if_neg (by simp [hui'])]
  generalize hcd : cinvDiag n (fun i => (alphaPh (covar times) q i + alphaRd (covar times) q i) / s)
    (fun i => (betaPh (covar times) q i + betaRd (covar times) q i) / s * num u (i + 1) * num u i) (num u) i = cd at *
  generalize hcd' : cinvDiag n (fun i => (alphaPh (covar times) q i + alphaRd (covar times) q i) / s)
    (fun i => (betaPh (covar times) q i + betaRd (covar times) q i) / s * num u (i + 1) * num u i) (num u) (i + 1) = cd' at *
  generalize hco : cinvOff n (fun i => (alphaPh (covar times) q i + alphaRd (covar times) q i) / s)
    (fun i => (betaPh (covar times) q i + betaRd (covar times) q i) / s * num u (i + 1) * num u i) i = co at *
  by_cases hc : m.C = 0 ∨ m.dC i * m.dC i - m.C * cd = 0 ∨ m.dC i * m.dC (i + 1) - m.C * co = 0
      ∨ (m.dC i * m.dC (i + 1) - m.C * co) / (m.dC i * m.dC i - m.C * cd)
        - (m.dC (i + 1) * m.dC (i + 1) - m.C * cd') / (m.dC i * m.dC (i + 1) - m.C * co) = 0
  · rw [if_pos hc] at hg
    simp at hg
  · rw [if_neg hc] at hg ⊢
    push Not at hc
    obtain ⟨-, d1, d2, d3⟩ := hc
    obtain ⟨hne, c3, c4, c5⟩ := lkTwo diffs ht hp hs i hi hui hui' _ rfl cd cd' co hcd.symm hcd'.symm hco.symm m _ hm rfl
      d1 d2 d3
    obtain ⟨m', hm', hC', hf'⟩ := lkFit_eq h hq hs hne diffs
    rw [← hm'] at c3 c4
    refine ⟨_, _, hf, hf', ?_, ?_⟩
    · simp only [Option.some.injEq] at hg
      rw [← hg]
      show _ = (m.A - m.B * m.B / m.C) / s - (m'.A - m'.B * m'.B / m'.C) / s
      rw [c4]
    · simp only [Option.map_some, Option.some.injEq]
      rw [c3, mul_one_div, mul_div_cancel_right₀ _ hC'.ne']

/-! ### Examples -/

/-- Four resultants of one or two reads. -/
def lkTimes : Nat → List ℚ
  | 0 => [1]
  | 1 => [2, 3]
  | 2 => [4, 5]
  | 3 => [6]
  | _ => [7]

example : LkPattern 3 lkTimes := by
  unfold LkPattern
  refine ⟨fun j hj => ?_, fun j hj => ?_⟩
  · interval_cases j <;> simp [lkTimes] <;> norm_num
  · interval_cases j <;> simp [lkTimes] <;> norm_num

example : LkNoiseOk (⟨3, 2, 1⟩ : Noise ℚ) := by unfold LkNoiseOk; norm_num

example : (fitWith 3 (covar lkTimes) ⟨3, 2, 1⟩ 2 (fun i => if i = 1 then 5 else 3) (num fun _ => true)).map
    (fun r => r.countrate) = some (313 / 79) := by decide +kernel

example : (search 3 (covar lkTimes) ⟨3, 2, 1⟩ 1 (fun i => if i = 1 then 5 else 3)).two (fun _ => true) 0
    = some (192 / 79) := by decide +kernel

/-- **C38 (finding).** The data of a masked difference change the result of a pixel: `mask_jumps` takes its rate guess from
the median of all differences (likely_fit.py:249), and the count rate it returns sets the covariance of the final fit.
Here the last group is saturated, and the value of the masked last difference moves the count rate.  (The scale is one;
results do not depend on it, see `C38_generalised_least_squares`.) -/
theorem C38_masked_data_change_the_rate :
    ∃ (gdq : Nat → Nat) (d d' : Nat → ℚ), (∀ i, diffs2use gdq i = true → d i = d' i)
      ∧ (pixelFit (fun _ _ => 1) 4 (covar fun i => [(i : ℚ) + 1]) ⟨1, 1, 0, 1000, 1000⟩ 4 gdq d).2.2.map (·.countrate)
        = some (1742 / 379)
      ∧ (pixelFit (fun _ _ => 1) 4 (covar fun i => [(i : ℚ) + 1]) ⟨1, 1, 0, 1000, 1000⟩ 4 gdq d').2.2.map (·.countrate)
        = some (2404 / 523) := by
  refine ⟨fun i => if 4 ≤ i then 2 else 0, fun i => if i = 0 then 1 else if i = 1 then 3 else if i = 2 then 10 else 0,
    fun i => if i = 0 then 1 else if i = 1 then 3 else if i = 2 then 10 else 5, ?_, by decide +kernel, by decide +kernel⟩
  intro i hi
  have : i < 3 := by
    by_contra hc
    simp only [diffs2use, Bool.and_eq_true, decide_eq_true_eq] at hi
    rw [if_pos (by omega)] at hi
    omega
  interval_cases i <;> rfl

/-- **C38 (finding).** A NaN in a masked difference destroys the result of the pixel. -/
theorem C38_masked_nan_destroys_the_fit :
    ∃ (gdq : Nat → Nat) (d : Nat → Option ℚ), (∀ i, diffs2use gdq i = true → d i ≠ none)
      ∧ (∃ i < 4, diffs2use gdq i = true)
      ∧ (pixelFitO (fun _ _ => 1) 4 (covar fun i => [(i : ℚ) + 1]) ⟨1, 1, 0, 1000, 1000⟩ 4 gdq d).2.2.isNone = true := by
  refine ⟨fun i => if 4 ≤ i then 2 else 0, fun i => if i < 3 then some 1 else none, ?_, ⟨0, by omega, by decide⟩,
    by decide +kernel⟩
  intro i hi
  have : i < 3 := by
    by_contra hc
    simp only [diffs2use, Bool.and_eq_true, decide_eq_true_eq] at hi
    rw [if_pos (by omega)] at hi
    omega
  simp [this]

end Verif.Thm
