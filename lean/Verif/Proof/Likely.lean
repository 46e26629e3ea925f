import Verif.Model.Likely
import Mathlib.Algebra.Order.BigOperators.Ring.Finset
import Mathlib.Tactic.Ring
import Mathlib.Tactic.LinearCombination
import Mathlib.Tactic.Linarith
import Mathlib.Tactic.FieldSimp

/-!
# Lemmas on the tridiagonal recursions of the likelihood fit
-/

namespace Verif.Likely

open Finset

set_option linter.unusedSectionVars false
set_option linter.unusedSimpArgs false

variable {α : Type} [Field α]

theorem sgn_succ (i : Nat) : (sgn (i + 1) : α) = -sgn i := by
  unfold sgn
  rcases Nat.mod_two_eq_zero_or_one i with h | h
  · rw [if_neg (by omega), if_pos h]; ring
  · rw [if_pos (by omega), if_neg (by omega)]

theorem sgn_sq (i : Nat) : (sgn i : α) * sgn i = 1 := by
  unfold sgn; split <;> ring

theorem sgn_zero : (sgn 0 : α) = -1 := by simp [sgn]

theorem phi_top (n : Nat) (a b : Nat → α) : phi n a b n = 1 := by simp [phi, phiR]

theorem phi_last (m : Nat) (a b : Nat → α) : phi (m + 1) a b m = a m := by
  simp [phi, phiR]

theorem phi_rec {n i : Nat} (a b : Nat → α) (h : i + 2 ≤ n) :
    phi n a b i = a i * phi n a b (i + 1) - b i * b i * phi n a b (i + 2) := by
  obtain ⟨k, rfl⟩ : ∃ k, n = i + 2 + k := ⟨n - (i + 2), by omega⟩
  unfold phi
  rw [show i + 2 + k - i = k + 2 by omega, show i + 2 + k - (i + 1) = k + 1 by omega,
    show i + 2 + k - (i + 2) = k by omega, phiR, show i + 2 + k - (k + 2) = i by omega]

theorem bigPhiD_last (n : Nat) (b ph d : Nat → α) : bigPhiD n b ph d (n - 1) = 0 := by simp [bigPhiD, bigPhiDR]

theorem bigPhiD_rec {n i : Nat} (b ph d : Nat → α) (h : i + 2 ≤ n) :
    bigPhiD n b ph d i = (bigPhiD n b ph d (i + 1) + sgn (i + 1) * d (i + 1) * ph (i + 2)) * b i := by
  obtain ⟨k, rfl⟩ : ∃ k, n = i + 2 + k := ⟨n - (i + 2), by omega⟩
  unfold bigPhiD
  rw [show i + 2 + k - 1 - i = k + 1 by omega, show i + 2 + k - 1 - (i + 1) = k by omega, bigPhiDR,
    show i + 2 + k - (k + 2) = i by omega]

theorem bigPhiR_eq (n : Nat) (b ph : Nat → α) (k : Nat) : bigPhiR n b ph k = bigPhiDR n b ph (fun _ => 1) k := by
  induction k with
  | zero => rfl
  | succ k ih => rw [bigPhiR, bigPhiDR, ih]; ring

theorem bigPhi_eq (n : Nat) (b ph : Nat → α) : bigPhi n b ph = bigPhiD n b ph fun _ => 1 := by
  funext i; exact bigPhiR_eq ..

theorem bigTheta_eq (b th : Nat → α) (i : Nat) : bigTheta b th i = bigThetaD b th (fun _ => 1) (i + 1) := by
  induction i with
  | zero => simp [bigTheta, bigThetaD]
  | succ i ih => rw [bigTheta, bigThetaD, ih]; ring

/-- Continuant identity. -/
theorem continuant {n : Nat} (a b : Nat → α) : ∀ k i, i + 2 + k = n →
    theta a b (i + 1) * phi n a b (i + 1) - b i * b i * theta a b i * phi n a b (i + 2) = theta a b n := by
  intro k
  induction k with
  | zero =>
    intro i h
    subst h
    rw [phi_top, show i + 2 + 0 = i + 1 + 1 by omega, phi_last, theta]
    ring
  | succ k ih =>
    intro i h
    have := ih (i + 1) (by omega)
    rw [phi_rec (i := i + 1) a b (by omega), ← this, theta]
    ring

theorem phi_zero {n : Nat} (a b : Nat → α) (h : 0 < n) : phi n a b 0 = theta a b n := by
  rcases Nat.lt_or_ge n 2 with h2 | h2
  · obtain rfl : n = 1 := by omega
    simp [phi, phiR, theta]
  · have := continuant (n := n) a b (n - 2) 0 (by omega)
    rw [← this, phi_rec a b (by omega)]
    simp [theta]

/-- The matrix with diagonal `a` and off-diagonal `b` times a vector. -/
def tri (n : Nat) (a b x : Nat → α) (i : Nat) : α :=
  a i * x i + (if i = 0 then 0 else b (i - 1) * x (i - 1)) + if i + 1 < n then b i * x (i + 1) else 0

/-- The numerators of the solution. -/
def solN (n : Nat) (a b r : Nat → α) (i : Nat) : α :=
  phi n a b (i + 1) * bigThetaD b (theta a b) r (i + 1) + theta a b i * bigPhiD n b (phi n a b) r i

/-- The solution of the tridiagonal system computed by the recursions. -/
def sol (n : Nat) (a b r : Nat → α) (i : Nat) : α := sgn i / theta a b n * solN n a b r i

theorem tri_sol {n : Nat} (a b r : Nat → α) (h0 : theta a b n ≠ 0) {i : Nat} (hi : i < n) :
    tri n a b (sol n a b r) i = r i := by
  have key : sgn i * (a i * solN n a b r i - (if i = 0 then 0 else b (i - 1) * solN n a b r (i - 1))
      - if i + 1 < n then b i * solN n a b r (i + 1) else 0) = r i * theta a b n := by
    have hs := sgn_sq (α := α) i
    rcases i with _ | i
    · rcases Nat.lt_or_ge 1 n with h1 | h1
      · have hk := phi_zero (n := n) a b (by omega)
        rw [phi_rec a b (by omega)] at hk
        simp only [↓reduceIte, Nat.zero_add, if_pos h1, solN, bigThetaD, theta,
          bigPhiD_rec (i := 0) b (phi n a b) r (show 0 + 2 ≤ n by omega), sgn_zero, sgn_succ]
        simp only [Nat.zero_add] at hk
        linear_combination r 0 * hk
      · obtain rfl : n = 1 := by omega
        simp [solN, bigThetaD, theta, bigPhiD, bigPhiDR, sgn_zero, phi_top]; ring
    · have hT : bigThetaD b (theta a b) r (i + 2) =
          b i * bigThetaD b (theta a b) r (i + 1) + sgn (i + 1) * r (i + 1) * theta a b (i + 1) := rfl
      have hth : theta a b (i + 2) = a (i + 1) * theta a b (i + 1) - b i * b i * theta a b i := rfl
      have hP := bigPhiD_rec (i := i) b (phi n a b) r (show i + 2 ≤ n by omega)
      have hK := continuant (n := n) a b (n - (i + 2)) i (by omega)
      rcases Nat.lt_or_ge (i + 2) n with h1 | h1
      · have hP' := bigPhiD_rec (i := i + 1) b (phi n a b) r (show i + 1 + 2 ≤ n by omega)
        have hph := phi_rec (i := i + 1) a b (show i + 1 + 2 ≤ n by omega)
        have hT' : bigThetaD b (theta a b) r (i + 3) =
          b (i + 1) * bigThetaD b (theta a b) r (i + 2) + sgn (i + 2) * r (i + 2) * theta a b (i + 2) := rfl
        simp only [Nat.succ_ne_zero, ↓reduceIte, Nat.add_sub_cancel, if_pos h1, solN, Nat.add_eq_zero_iff, one_ne_zero,
          and_false]
        simp only [show i + 1 + 1 = i + 2 by rfl, show i + 1 + 2 = i + 3 by rfl, show i + 1 + 1 + 1 = i + 3 by rfl,
          show i + 2 + 1 = i + 3 by rfl] at *
        have hs2 : (sgn (i + 2) : α) = -sgn (i + 1) := sgn_succ (i + 1)
        generalize hg1 : bigPhiD n b (phi n a b) r (i + 2) = P2 at *
        generalize hg2 : bigPhiD n b (phi n a b) r (i + 1) = P1 at *
        generalize hg3 : bigPhiD n b (phi n a b) r i = P0 at *
        generalize bigThetaD b (theta a b) r (i + 1) = T1 at *
        generalize bigThetaD b (theta a b) r (i + 2) = T2 at *
        generalize bigThetaD b (theta a b) r (i + 3) = T3 at *
        generalize phi n a b (i + 1) = f1 at *
        generalize phi n a b (i + 2) = f2 at *
        generalize phi n a b (i + 3) = f3 at *
        generalize theta a b n = tn at *
        generalize theta a b (i + 2) = t2 at *
        generalize theta a b (i + 1) = t1 at *
        generalize theta a b i = t0 at *
        generalize (sgn (i + 2) : α) = s2 at *
        generalize (sgn (i + 1) : α) = s1 at *
        subst hT' hT hP hP' hs2 hph hth
        rw [← hK]
        linear_combination (r (i + 1) * (a (i + 1) * f2 * t1 - b i * b i * t0 * f2 - b (i + 1) * b (i + 1) * f3 * t1)) * hs
      · obtain rfl : n = i + 2 := by omega
        have hP' := bigPhiD_last (i + 2) b (phi (i + 2) a b) r
        have hf : phi (i + 2) a b (i + 2) = 1 := phi_top ..
        have hf1 : phi (i + 2) a b (i + 1) = a (i + 1) := phi_last ..
        simp only [show i + 2 - 1 = i + 1 by omega] at hP'
        simp only [Nat.succ_ne_zero, ↓reduceIte, Nat.add_sub_cancel, solN, Nat.add_eq_zero_iff, one_ne_zero,
          and_false, lt_irrefl]
        simp only [show i + 1 + 1 = i + 2 by rfl] at *
        rw [hP', hf, hf1, hT, hP, hP', hf, ← hK, hf, hf1]
        linear_combination (r (i + 1) * (a (i + 1) * theta a b (i + 1) - b i * b i * theta a b i)) * hs
  have e : tri n a b (sol n a b r) i = sgn i / theta a b n * (a i * solN n a b r i
      - (if i = 0 then 0 else b (i - 1) * solN n a b r (i - 1))
      - if i + 1 < n then b i * solN n a b r (i + 1) else 0) := by
    unfold tri sol
    rw [sgn_succ]
    rcases i with _ | i
    · simp only [↓reduceIte]
      split <;> ring
    · rw [if_neg (Nat.succ_ne_zero i), if_neg (Nat.succ_ne_zero i), Nat.add_sub_cancel, sgn_succ]
      split <;> ring
  rw [e, div_mul_eq_mul_div, key, mul_div_assoc, div_self h0, mul_one]

/-- The symmetric bilinear form of the matrix. -/
def bil (n : Nat) (a b x y : Nat → α) : α :=
  (∑ i ∈ range n, a i * x i * y i) + ∑ i ∈ range (n - 1), b i * (x i * y (i + 1) + x (i + 1) * y i)

theorem sum_tri (n : Nat) (a b x y : Nat → α) : ∑ i ∈ range n, x i * tri n a b y i = bil n a b x y := by
  rcases n with _ | m
  · simp [bil]
  · have h1 : ∑ i ∈ range (m + 1), x i * (if i = 0 then 0 else b (i - 1) * y (i - 1)) =
        ∑ i ∈ range m, b i * (x (i + 1) * y i) := by
      rw [sum_range_succ']
      simp only [↓reduceIte, mul_zero, add_zero, Nat.succ_ne_zero, Nat.add_sub_cancel]
      exact sum_congr rfl fun i _ => by ring
    have h2 : ∑ i ∈ range (m + 1), x i * (if i + 1 < m + 1 then b i * y (i + 1) else 0) =
        ∑ i ∈ range m, b i * (x i * y (i + 1)) := by
      rw [sum_range_succ, if_neg (by omega), mul_zero, add_zero]
      exact sum_congr rfl fun i hi => by rw [if_pos (by have := mem_range.1 hi; omega)]; ring
    unfold tri bil
    simp only [mul_add, sum_add_distrib, h1, h2, Nat.add_sub_cancel]
    rw [show ∑ i ∈ range (m + 1), x i * (a i * y i) = ∑ i ∈ range (m + 1), a i * x i * y i from
      sum_congr rfl fun i _ => by ring]
    ring

theorem bil_comm (n : Nat) (a b x y : Nat → α) : bil n a b x y = bil n a b y x := by
  unfold bil
  congr 1
  · exact sum_congr rfl fun i _ => by ring
  · exact sum_congr rfl fun i _ => by ring

/-- `A` is the data against the solution. -/
theorem sum_A (n : Nat) (a b d : Nat → α) (u : Nat → α) :
    (matrix n a b d u).A = ∑ i ∈ range n, d i * sol n a b d i := by
  have key : ∀ k, k ≤ n → ∑ i ∈ range k, (d i * sgn i * (theta a b i * bigPhiD n b (phi n a b) d i)
      - d i * sgn i * (if i = 0 then 1 else b (i - 1)) * phi n a b (i + 1) * bigThetaD b (theta a b) d i) =
      if k = 0 then 0 else bigThetaD b (theta a b) d k * bigPhiD n b (phi n a b) d (k - 1) := by
    intro k
    induction k with
    | zero => simp
    | succ k ih =>
      intro hk
      rw [sum_range_succ, ih (by omega), if_neg (Nat.succ_ne_zero k), Nat.add_sub_cancel]
      rcases k with _ | k
      · simp [bigThetaD, theta, sgn_zero]
      · rw [if_neg (Nat.succ_ne_zero k), if_neg (Nat.succ_ne_zero k), Nat.add_sub_cancel,
          bigPhiD_rec (i := k) b (phi n a b) d (by omega)]
        have hT : bigThetaD b (theta a b) d (k + 1 + 1) =
          b k * bigThetaD b (theta a b) d (k + 1) + sgn (k + 1) * d (k + 1) * theta a b (k + 1) := rfl
        rw [hT]
        ring
  have k2 := key n le_rfl
  have hz : (if n = 0 then (0 : α) else bigThetaD b (theta a b) d n * bigPhiD n b (phi n a b) d (n - 1)) = 0 := by
    split
    · rfl
    · rw [bigPhiD_last, mul_zero]
  rw [hz, sum_sub_distrib, sub_eq_zero] at k2
  have hT : ∀ i, bigThetaD b (theta a b) d (i + 1) =
      (if i = 0 then 1 else b (i - 1)) * bigThetaD b (theta a b) d i + sgn i * d i * theta a b i := by
    intro i
    rcases i with _ | i
    · simp [bigThetaD, sgn_zero]
    · simp [bigThetaD]
  have hs : ∑ i ∈ range n, d i * sol n a b d i = (theta a b n)⁻¹ *
      ((∑ i ∈ range n, d i * sgn i * (if i = 0 then 1 else b (i - 1)) * phi n a b (i + 1) * bigThetaD b (theta a b) d i)
        + (∑ i ∈ range n, d i * sgn i * (theta a b i * bigPhiD n b (phi n a b) d i))
        + ∑ i ∈ range n, d i * d i * theta a b i * phi n a b (i + 1)) := by
    rw [← sum_add_distrib, ← sum_add_distrib, mul_sum]
    refine sum_congr rfl fun i _ => ?_
    unfold sol solN
    rw [hT]
    have := sgn_sq (α := α) i
    linear_combination (d i * d i * theta a b i * phi n a b (i + 1) * (theta a b n)⁻¹) * this
  rw [hs, k2]
  simp only [matrix]
  rw [show ∑ i ∈ range n, d i * sgn i / theta a b n * (if i = 0 then 1 else b (i - 1)) * phi n a b (i + 1)
      * bigThetaD b (theta a b) d i = (theta a b n)⁻¹ * ∑ i ∈ range n,
        d i * sgn i * (if i = 0 then 1 else b (i - 1)) * phi n a b (i + 1) * bigThetaD b (theta a b) d i from by
      rw [mul_sum]; exact sum_congr rfl fun i _ => by ring]
  rw [show ∑ i ∈ range n, d i * d i * theta a b i * phi n a b (i + 1) / theta a b n = (theta a b n)⁻¹ *
      ∑ i ∈ range n, d i * d i * theta a b i * phi n a b (i + 1) from by
      rw [mul_sum]; exact sum_congr rfl fun i _ => by ring]
  ring

theorem dB_eq (n : Nat) (a b d u : Nat → α) (i : Nat) : (matrix n a b d u).dB i = sol n a b d i := rfl

theorem dC_eq (n : Nat) (a b d u : Nat → α) (i : Nat) :
    (matrix n a b d u).dC i = sol n a b (fun _ => 1) i * u i := by
  simp only [matrix, sol, solN, bigTheta_eq, bigPhi_eq]

end Verif.Likely
