import Verif.Proof.Likely
import Mathlib.Algebra.Order.BigOperators.Group.Finset
import Mathlib.Algebra.Order.BigOperators.Group.List
import Mathlib.Algebra.BigOperators.Field
import Mathlib.Tactic.Positivity

/-!
# The covariance of the likelihood fit is positive definite
-/

namespace Verif.Likely

open Finset

set_option linter.unusedSectionVars false

variable {α : Type} [Field α]

theorem bil_succ (k : Nat) (a b x : Nat → α) :
    bil (k + 2) a b x x = bil (k + 1) a b x x + a (k + 1) * x (k + 1) * x (k + 1) + 2 * b k * x k * x (k + 1) := by
  unfold bil
  rw [show k + 2 - 1 = k + 1 by omega, show k + 1 - 1 = k by omega,
    sum_range_succ (fun i => a i * x i * x i) (k + 1),
    sum_range_succ (fun i => b i * (x i * x (i + 1) + x (i + 1) * x i)) k]
  ring

/-- The factorisation behind the recursion of `theta`. -/
theorem quad_ldl (a b x : Nat → α) : ∀ k, (∀ j ≤ k, theta a b j ≠ 0) →
    bil (k + 1) a b x x = (∑ i ∈ range k, theta a b (i + 1) / theta a b i
      * ((x i + b i * theta a b i / theta a b (i + 1) * x (i + 1)) * (x i + b i * theta a b i / theta a b (i + 1) * x (i + 1))))
      + theta a b (k + 1) / theta a b k * (x k * x k) := by
  intro k
  induction k with
  | zero => intro _; simp [bil, theta]; ring
  | succ k ih =>
    intro h
    have h0 := h k (by omega)
    have h1 := h (k + 1) le_rfl
    rw [bil_succ, ih fun j hj => h j (by omega), sum_range_succ]
    have ht : theta a b (k + 1 + 1) = a (k + 1) * theta a b (k + 1) - b k * b k * theta a b k := rfl
    rw [ht]
    field_simp
    ring

/-- Test vector for the `k`-th determinant. -/
def testV (a b : Nat → α) (k : Nat) : Nat → α
  | 0 => 1
  | j + 1 => -(b (k - 1 - j) * theta a b (k - 1 - j) / theta a b (k - j)) * testV a b k j

theorem testV_step (a b : Nat → α) (k i : Nat) (h : i < k) :
    testV a b k (k - i) + b i * theta a b i / theta a b (i + 1) * testV a b k (k - (i + 1)) = 0 := by
  obtain ⟨m, rfl⟩ : ∃ m, k = i + 1 + m := ⟨k - (i + 1), by omega⟩
  rw [show i + 1 + m - i = m + 1 by omega, show i + 1 + m - (i + 1) = m by omega, testV,
    show i + 1 + m - 1 - m = i by omega, show i + 1 + m - m = i + 1 by omega]
  ring

theorem bil_trunc (n k : Nat) (hk : k < n) (a b x : Nat → α) (hx : ∀ i, k < i → x i = 0) :
    bil n a b x x = bil (k + 1) a b x x := by
  unfold bil
  have e1 : ∑ i ∈ range n, a i * x i * x i = ∑ i ∈ range (k + 1), a i * x i * x i := by
    refine (sum_subset (range_subset_range.2 (by omega)) fun i _ hi => ?_).symm
    rw [hx i (by simp at hi; omega)]; ring
  have e2 : ∑ i ∈ range (n - 1), b i * (x i * x (i + 1) + x (i + 1) * x i)
      = ∑ i ∈ range (k + 1 - 1), b i * (x i * x (i + 1) + x (i + 1) * x i) := by
    refine (sum_subset (range_subset_range.2 (by omega)) fun i _ hi => ?_).symm
    rw [hx (i + 1) (by simp at hi; omega)]; ring
  rw [e1, e2]

variable [LinearOrder α] [IsStrictOrderedRing α]

/-- Positive definiteness of the quadratic form. -/
def PD (n : Nat) (a b : Nat → α) : Prop := ∀ x : Nat → α, (∃ i < n, x i ≠ 0) → 0 < bil n a b x x

theorem theta_pos {n : Nat} {a b : Nat → α} (h : PD n a b) : ∀ k ≤ n, 0 < theta a b k := by
  intro k
  induction k using Nat.strong_induction_on with
  | _ k ih =>
    intro hk
    rcases k with _ | k
    · simp [theta]
    · have hp : ∀ j ≤ k, theta a b j ≠ 0 := fun j hj => (ih j (by omega) (by omega)).ne'
      set x : Nat → α := fun i => if i ≤ k then testV a b k (k - i) else 0 with hx
      have hq := h x ⟨k, by omega, by simp [hx, testV]⟩
      rw [bil_trunc n k (by omega) a b x fun i hi => by simp [hx]; omega, quad_ldl a b x k hp] at hq
      have hz : ∀ i ∈ range k, theta a b (i + 1) / theta a b i
          * ((x i + b i * theta a b i / theta a b (i + 1) * x (i + 1))
            * (x i + b i * theta a b i / theta a b (i + 1) * x (i + 1))) = 0 := by
        intro i hi
        have hi := mem_range.1 hi
        have : x i + b i * theta a b i / theta a b (i + 1) * x (i + 1) = 0 := by
          simp only [hx, if_pos (show i ≤ k by omega), if_pos (show i + 1 ≤ k by omega)]
          exact testV_step a b k i hi
        rw [this]; ring
      rw [sum_eq_zero hz] at hq
      have hxk : x k = 1 := by simp [hx, testV]
      rw [hxk] at hq
      have := ih k (by omega) (by omega)
      simp only [zero_add, mul_one] at hq
      exact (div_pos_iff_of_pos_right this).1 hq

theorem bil_single (n i : Nat) (hi : i < n) (a b : Nat → α) :
    bil n a b (fun j => if j = i then 1 else 0) (fun j => if j = i then 1 else 0) = a i := by
  unfold bil
  rw [sum_eq_single i, sum_eq_zero]
  · simp
  · intro j _
    by_cases h : j = i
    · simp only [if_pos h, if_neg (show ¬ j + 1 = i by omega)]; ring
    · simp only [if_neg h]; ring
  · intro j _ h; simp only [if_neg h]; ring
  · intro h; exact absurd (mem_range.2 hi) h

theorem diag_pos {n : Nat} {a b : Nat → α} (h : PD n a b) {i : Nat} (hi : i < n) : 0 < a i := by
  have := h (fun j => if j = i then 1 else 0) ⟨i, hi, by simp⟩
  rwa [bil_single n i hi] at this

/-- Decoupling some coordinates keeps the form positive definite. -/
theorem PD_mask {n : Nat} {a b : Nat → α} (h : PD n a b) (u : Nat → Bool) :
    PD n a fun i => b i * num u (i + 1) * num u i := by
  intro x hx
  have e : bil n a (fun i => b i * num u (i + 1) * num u i) x x =
      bil n a b (fun i => num u i * x i) (fun i => num u i * x i) + ∑ i ∈ range n, (1 - num u i) * (a i * (x i * x i)) := by
    have hn : ∀ i, (num u i : α) * num u i = num u i := fun i => by unfold num; split <;> ring
    unfold bil
    rw [show (∑ i ∈ range n, a i * x i * x i) = (∑ i ∈ range n, a i * (num u i * x i) * (num u i * x i))
      + ∑ i ∈ range n, (1 - num u i) * (a i * (x i * x i)) from by
        rw [← sum_add_distrib]
        refine sum_congr rfl fun i _ => ?_
        linear_combination (-(a i * x i * x i)) * hn i]
    rw [show (∑ i ∈ range (n - 1), b i * num u (i + 1) * num u i * (x i * x (i + 1) + x (i + 1) * x i)) =
      ∑ i ∈ range (n - 1), b i * (num u i * x i * (num u (i + 1) * x (i + 1)) + num u (i + 1) * x (i + 1) * (num u i * x i))
      from sum_congr rfl fun i _ => by ring]
    ring
  have hnn : ∀ i ∈ range n, 0 ≤ (1 - num u i) * (a i * (x i * x i)) := by
    intro i hi
    have ha := diag_pos h (mem_range.1 hi)
    have := mul_self_nonneg (x i)
    unfold num
    split
    · simp
    · simp only [sub_zero, one_mul]; positivity
  rw [e]
  by_cases hc : ∃ i < n, num u i * x i ≠ 0
  · have := h (fun i => num u i * x i) hc
    have := sum_nonneg hnn
    linarith
  · obtain ⟨i, hi, hxi⟩ := hx
    have hz : num u i * x i = 0 := by by_contra hne; exact hc ⟨i, hi, hne⟩
    have hui : (num u i : α) = 0 := (mul_eq_zero.1 hz).resolve_right hxi
    have h1 : 0 < ∑ i ∈ range n, (1 - num u i) * (a i * (x i * x i)) := by
      refine sum_pos' hnn ⟨i, mem_range.2 hi, ?_⟩
      rw [hui]
      have := diag_pos h hi
      have : 0 < x i * x i := mul_self_pos.2 hxi
      simp only [sub_zero, one_mul]; positivity
    have h2 : bil n a b (fun i => num u i * x i) (fun i => num u i * x i) = 0 := by
      have hz : ∀ i, i < n → num u i * x i = 0 := fun i hi => by by_contra hne; exact hc ⟨i, hi, hne⟩
      unfold bil
      rw [sum_eq_zero fun i hi => by simp only [hz i (mem_range.1 hi)]; ring,
        sum_eq_zero fun i hi => by simp only [hz i (by have := mem_range.1 hi; omega)]; ring]
      ring
    rw [h2]; linarith

theorem PD_scale {n : Nat} {a b : Nat → α} (h : PD n a b) {s : α} (hs : 0 < s) :
    PD n (fun i => a i / s) fun i => b i / s := by
  intro x hx
  have e : bil n (fun i => a i / s) (fun i => b i / s) x x = bil n a b x x / s := by
    unfold bil
    rw [add_div, sum_div, sum_div]
    congr 1 <;> exact sum_congr rfl fun i _ => by ring
  rw [e]; exact div_pos (h x hx) hs

/-! ## Time patterns -/

/-- `Σ (2 (L - k) - 1) t_k` with `k` from zero. -/
def tauL : List α → α
  | [] => 0
  | t :: ts => (2 * (ts.length : α) + 1) * t + tauL ts

theorem tauL_eq (ts : List α) :
    (∑ k ∈ range ts.length, (2 * (ts.length : α) + 1 - 2 * ((k : α) + 1)) * ts.getD k 0) = tauL ts := by
  induction ts with
  | nil => simp [tauL]
  | cons t ts ih =>
    rw [List.length_cons, sum_range_succ', tauL, ← ih, add_comm]
    congr 1
    · rw [List.getD_cons_zero]; push_cast; ring
    · refine sum_congr rfl fun k _ => ?_
      rw [List.getD_cons_succ]
      push_cast
      ring

theorem energy (ts : List α) (t0 c q : α) (h : (t0 :: ts).Pairwise (· ≤ ·)) :
    0 ≤ c * c * tauL ts + 2 * q * c * ts.sum + (t0 :: ts).getLast (by simp) * (q * q)
      - t0 * (((ts.length : α) * c + q) * ((ts.length : α) * c + q)) := by
  induction ts generalizing t0 with
  | nil => simp [tauL]
  | cons t ts ih =>
    rw [List.pairwise_cons] at h
    have h1 := ih t h.2
    have h2 := h.1 t (by simp)
    rw [List.getLast_cons (by simp)]
    simp only [tauL, List.sum_cons, List.length_cons]
    push_cast
    have h3 : 0 ≤ (t - t0) * ((((ts.length : α) + 1) * c + q) * (((ts.length : α) + 1) * c + q)) :=
      mul_nonneg (sub_nonneg.2 h2) (mul_self_nonneg _)
    linarith [h1, h3]

/-- Read times in order: every resultant has a read, its reads do not go back in time, and the next resultant starts
after it. -/
structure Ordered (n : Nat) (times : Nat → List α) : Prop where
  ne : ∀ j ≤ n, times j ≠ []
  sorted : ∀ j ≤ n, (times j).Pairwise (· ≤ ·)
  next : ∀ j < n, ∀ s ∈ times j, ∀ t ∈ times (j + 1), s < t

theorem meanT_bounds {l : List α} (h : l ≠ []) (lo hi : α) (hl : ∀ t ∈ l, lo ≤ t ∧ t ≤ hi) :
    lo ≤ meanT l ∧ meanT l ≤ hi := by
  have hp : (0 : α) < (l.length : α) := by exact_mod_cast List.length_pos_of_ne_nil h
  unfold meanT
  have h1 : (l.length : α) * lo ≤ l.sum := by
    have := List.card_nsmul_le_sum l lo fun x hx => (hl x hx).1
    rwa [nsmul_eq_mul] at this
  have h2 : l.sum ≤ (l.length : α) * hi := by
    have := List.sum_le_card_nsmul l hi fun x hx => (hl x hx).2
    rwa [nsmul_eq_mul] at this
  constructor
  · rw [le_div_iff₀ hp]; linarith
  · rw [div_le_iff₀ hp]; linarith

theorem meanT_le_of {l : List α} (h : l ≠ []) (hi : α) (hl : ∀ t ∈ l, t ≤ hi) : meanT l ≤ hi := by
  have hp : (0 : α) < (l.length : α) := by exact_mod_cast List.length_pos_of_ne_nil h
  unfold meanT
  rw [div_le_iff₀ hp]
  have := List.sum_le_card_nsmul l hi hl
  rw [nsmul_eq_mul] at this
  linarith

theorem le_meanT_of {l : List α} (h : l ≠ []) (lo : α) (hl : ∀ t ∈ l, lo ≤ t) : lo ≤ meanT l := by
  have hp : (0 : α) < (l.length : α) := by exact_mod_cast List.length_pos_of_ne_nil h
  unfold meanT
  rw [le_div_iff₀ hp]
  have := List.card_nsmul_le_sum l lo hl
  rw [nsmul_eq_mul] at this
  linarith

theorem Ordered.delta_pos {n : Nat} {times : Nat → List α} (h : Ordered n times) {j : Nat} (hj : j < n) :
    0 < meanT (times (j + 1)) - meanT (times j) := by
  have hl := (h.sorted j (by omega))
  set l := times j with hl'
  have hne : l ≠ [] := h.ne j (by omega)
  have hne' := h.ne (j + 1) (by omega)
  have hs' := h.sorted (j + 1) (by omega)
  have h1 : meanT l ≤ l.getLast hne := by
    refine meanT_le_of hne _ fun t ht => ?_
    obtain ⟨k, hk, rfl⟩ := List.getElem_of_mem ht
    rw [List.getLast_eq_getElem]
    rcases Nat.lt_or_ge k (l.length - 1) with h2 | h2
    · exact (List.pairwise_iff_getElem.1 hl) k (l.length - 1) hk (by omega) h2
    · have : k = l.length - 1 := by omega
      subst this; exact le_refl _
  have h2 : (times (j + 1)).head hne' ≤ meanT (times (j + 1)) := by
    refine le_meanT_of hne' _ fun t ht => ?_
    generalize times (j + 1) = m at *
    cases m with
    | nil => exact absurd rfl hne'
    | cons x xs =>
      simp only [List.head_cons]
      rcases List.mem_cons.1 ht with rfl | ht
      · exact le_refl _
      · exact (List.pairwise_cons.1 hs').1 t ht
  have := h.next j hj _ (List.getLast_mem hne) _ (List.head_mem hne')
  linarith

/-- The two quadratic forms in the resultant weights. -/
theorem bil_resultants (A m dt x Z : Nat → α) (hZ0 : Z 0 = 0) (hZ : ∀ i, Z (i + 1) = x i / dt i) : ∀ k,
    bil k (fun i => (A i + A (i + 1) - 2 * m i) / (dt i * dt i)) (fun i => (m (i + 1) - A (i + 1)) / (dt (i + 1) * dt i)) x x
      = (∑ j ∈ range k, (A j * ((Z j - Z (j + 1)) * (Z j - Z (j + 1))) + 2 * m j * Z (j + 1) * (Z j - Z (j + 1))))
        + A k * (Z k * Z k) := by
  intro k
  induction k with
  | zero => simp [bil, hZ0]
  | succ k ih =>
    rcases k with _ | k
    · simp [bil, hZ0, hZ]; ring
    · rw [bil_succ, ih, sum_range_succ (n := k + 1)]
      simp only [hZ]
      ring

theorem photon_form_nonneg {n : Nat} {times : Nat → List α} (h : Ordered n times) (x : Nat → α) :
    0 ≤ bil n (covar times).alphaP (covar times).betaP x x := by
  set Z : Nat → α := fun j => match j with
    | 0 => 0
    | i + 1 => x i / (meanT (times (i + 1)) - meanT (times i)) with hZd
  have e := bil_resultants (fun i => tauT (times i)) (fun i => meanT (times i))
    (fun i => meanT (times (i + 1)) - meanT (times i)) x Z rfl (fun i => rfl) n
  have e' : bil n (covar times).alphaP (covar times).betaP x x = _ := e
  rw [e']
  have term : ∀ j, j ≤ n → ∀ p q : α, ∀ hne : times j ≠ [],
      (times j).head hne * (p * p) - (times j).getLast hne * (q * q)
        ≤ tauT (times j) * ((p - q) * (p - q)) + 2 * meanT (times j) * q * (p - q) := by
    intro j hj p q hne
    have hs := h.sorted j hj
    generalize times j = l at *
    cases l with
    | nil => exact absurd rfl hne
    | cons t ts =>
      have hp : (0 : α) < ((t :: ts).length : α) := by exact_mod_cast List.length_pos_of_ne_nil hne
      have hE := energy (t :: ts) t ((p - q) / ((t :: ts).length : α)) q (by
        rw [List.pairwise_cons]
        refine ⟨fun y hy => ?_, hs⟩
        rcases List.mem_cons.1 hy with rfl | hy
        · exact le_refl _
        · exact (List.pairwise_cons.1 hs).1 y hy)
      rw [List.getLast_cons (by simp)] at hE
      have e1 : tauT (t :: ts) = tauL (t :: ts) / (((t :: ts).length : α) * ((t :: ts).length : α)) := by
        unfold tauT; rw [tauL_eq]
      rw [e1]
      unfold meanT
      set L : α := ((t :: ts).length : α)
      have e2 : L * ((p - q) / L) + q = p := by field_simp; ring
      rw [e2] at hE
      have e3 : (p - q) / L * ((p - q) / L) * tauL (t :: ts) = tauL (t :: ts) / (L * L) * ((p - q) * (p - q)) := by
        field_simp
      have e4 : 2 * q * ((p - q) / L) * (t :: ts).sum = 2 * ((t :: ts).sum / L) * q * (p - q) := by ring
      rw [e3, e4] at hE
      simp only [List.head_cons]
      linarith
  have part : ∀ k, (hk : k < n + 1) → -((times k).getLast (h.ne k (by omega)) * (Z (k + 1) * Z (k + 1))) ≤
      ∑ j ∈ range (k + 1), (tauT (times j) * ((Z j - Z (j + 1)) * (Z j - Z (j + 1)))
        + 2 * meanT (times j) * Z (j + 1) * (Z j - Z (j + 1))) := by
    intro k
    induction k with
    | zero =>
      intro hk
      have := term 0 (by omega) (Z 0) (Z 1) (h.ne 0 (by omega))
      rw [sum_range_one]
      simp only [show Z 0 = 0 from rfl] at *
      linarith
    | succ k ih =>
      intro hk
      have i1 := ih (by omega)
      have i2 := term (k + 1) (by omega) (Z (k + 1)) (Z (k + 2)) (h.ne (k + 1) (by omega))
      have i3 := h.next k (by omega) _ (List.getLast_mem (h.ne k (by omega))) _ (List.head_mem (h.ne (k + 1) (by omega)))
      have i4 := mul_nonneg (sub_nonneg.2 i3.le) (mul_self_nonneg (Z (k + 1)))
      rw [sum_range_succ]
      linarith
  rcases n with _ | n
  · simp [hZd]
  · have p1 := part n (by omega)
    have p2 := term (n + 1) le_rfl (Z (n + 1)) 0 (h.ne (n + 1) le_rfl)
    have i3 := h.next n (by omega) _ (List.getLast_mem (h.ne n (by omega))) _ (List.head_mem (h.ne (n + 1) (by omega)))
    have i4 := mul_nonneg (sub_nonneg.2 i3.le) (mul_self_nonneg (Z (n + 1)))
    simp only [sub_zero, mul_zero, zero_mul, add_zero] at p2
    linarith

theorem read_form_pos {n : Nat} {times : Nat → List α} (h : Ordered n times) :
    PD n (covar times).alphaR (covar times).betaR := by
  intro x hx
  set Z : Nat → α := fun j => match j with
    | 0 => 0
    | i + 1 => x i / (meanT (times (i + 1)) - meanT (times i)) with hZd
  have e := bil_resultants (fun i => 1 / (((times i).length : Nat) : α)) (fun _ => 0)
    (fun i => meanT (times (i + 1)) - meanT (times i)) x Z rfl (fun i => rfl) n
  have e' : bil n (covar times).alphaR (covar times).betaR x x
      = bil n (fun i => (1 / (((times i).length : Nat) : α) + 1 / (((times (i + 1)).length : Nat) : α) - 2 * 0)
          / ((meanT (times (i + 1)) - meanT (times i)) * (meanT (times (i + 1)) - meanT (times i))))
        (fun i => (0 - 1 / (((times (i + 1)).length : Nat) : α))
          / ((meanT (times (i + 1 + 1)) - meanT (times (i + 1))) * (meanT (times (i + 1)) - meanT (times i)))) x x := by
    unfold bil covar
    congr 1
    · exact sum_congr rfl fun i _ => by simp
    · refine sum_congr rfl fun i _ => ?_
      simp only
      congr 1
      rw [mul_assoc, zero_sub, neg_div, neg_div, div_div]
  rw [e', e]
  have hN : ∀ j ≤ n, (0 : α) < 1 / (((times j).length : Nat) : α) := fun j hj => by
    have : (0 : α) < ((times j).length : α) := by exact_mod_cast List.length_pos_of_ne_nil (h.ne j hj)
    positivity
  have hnn : ∀ j ∈ range n, 0 ≤ 1 / (((times j).length : Nat) : α) * ((Z j - Z (j + 1)) * (Z j - Z (j + 1)))
      + 2 * 0 * Z (j + 1) * (Z j - Z (j + 1)) := fun j hj => by
    have := hN j (by have := mem_range.1 hj; omega)
    have := mul_self_nonneg (Z j - Z (j + 1))
    simp only [mul_zero, zero_mul, add_zero]
    positivity
  have hlast : 0 ≤ 1 / (((times n).length : Nat) : α) * (Z n * Z n) :=
    mul_nonneg (hN n le_rfl).le (mul_self_nonneg _)
  obtain ⟨i, hi, hxi⟩ := hx
  have hZi : Z (i + 1) ≠ 0 := div_ne_zero hxi (h.delta_pos hi).ne'
  have : ∃ j ≤ i, Z j ≠ Z (j + 1) := by
    by_contra hc
    push Not at hc
    have : ∀ k ≤ i + 1, Z k = 0 := by
      intro k
      induction k with
      | zero => intro _; rfl
      | succ k ih => intro hk; rw [← hc k (by omega)]; exact ih (by omega)
    exact hZi (this (i + 1) le_rfl)
  obtain ⟨j, hj, hZj⟩ := this
  have hp : 0 < ∑ j ∈ range n, (1 / (((times j).length : Nat) : α) * ((Z j - Z (j + 1)) * (Z j - Z (j + 1)))
      + 2 * 0 * Z (j + 1) * (Z j - Z (j + 1))) := by
    refine sum_pos' hnn ⟨j, mem_range.2 (by omega), ?_⟩
    have := hN j (by omega)
    have : 0 < (Z j - Z (j + 1)) * (Z j - Z (j + 1)) := mul_self_pos.2 (sub_ne_zero.2 hZj)
    simp only [mul_zero, zero_mul, add_zero]
    positivity
  linarith

theorem bil_lin (n : Nat) (s t : α) (a1 b1 a2 b2 x y : Nat → α) :
    bil n (fun i => s * a1 i + t * a2 i) (fun i => s * b1 i + t * b2 i) x y
      = s * bil n a1 b1 x y + t * bil n a2 b2 x y := by
  unfold bil
  rw [mul_add, mul_add, mul_sum, mul_sum, mul_sum, mul_sum]
  rw [show ∀ p q r s : α, p + q + (r + s) = (p + r) + (q + s) from fun p q r s => by ring, ← sum_add_distrib,
    ← sum_add_distrib]
  congr 1 <;> exact sum_congr rfl fun i _ => by ring

/-- The covariance of the group differences is positive definite. -/
theorem cov_pos {n : Nat} {times : Nat → List α} (h : Ordered n times) (q : Noise α) (hg : 0 ≤ q.guess) (hgain : 0 < q.gain)
    (hr : q.rnoise ≠ 0) :
    PD n (fun i => alphaPh (covar times) q i + alphaRd (covar times) q i)
      fun i => betaPh (covar times) q i + betaRd (covar times) q i := by
  intro x hx
  have e := bil_lin n (q.guess / q.gain) (q.rnoise * q.rnoise) (covar times).alphaP (covar times).betaP
    (covar times).alphaR (covar times).betaR x x
  have e' : bil n (fun i => alphaPh (covar times) q i + alphaRd (covar times) q i)
      (fun i => betaPh (covar times) q i + betaRd (covar times) q i) x x = _ := e
  rw [e']
  have h1 := photon_form_nonneg h x
  have h2 := read_form_pos h x hx
  have h3 : 0 < q.rnoise * q.rnoise := mul_self_pos.2 hr
  have h4 : 0 ≤ q.guess / q.gain := div_nonneg hg hgain.le
  have := mul_nonneg h4 h1
  have := mul_pos h3 h2
  linarith

end Verif.Likely
