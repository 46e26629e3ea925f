import Verif.Proof.LikelyCov
import Mathlib.LinearAlgebra.Matrix.NonsingularInverse
import Mathlib.LinearAlgebra.Matrix.ToLin
import Mathlib.Data.Fintype.BigOperators
import Mathlib.Algebra.BigOperators.Fin

/-!
# The recursions of the likelihood fit and the inverse of the covariance of the used differences
-/

namespace Verif.Likely

open Finset Matrix

set_option linter.unusedSectionVars false

variable {α : Type} [Field α] [LinearOrder α] [IsStrictOrderedRing α]

/-- The used differences. -/
abbrev Used (n : Nat) (u : Nat → Bool) := { i : Fin n // u i.1 = true }

theorem sum_used (n : Nat) (u : Nat → Bool) (f : Nat → α) :
    ∑ i : Used n u, f i.1.1 = ∑ i ∈ range n, num u i * f i := by
  rw [← Fin.sum_univ_eq_sum_range (fun i => num u i * f i) n]
  have := Finset.sum_subtype (p := fun i : Fin n => u i.1 = true) (F := inferInstance) (univ.filter fun i : Fin n => u i.1 = true)
    (fun x => by simp) fun i => f i.1
  rw [← this, sum_filter]
  refine sum_congr rfl fun i _ => ?_
  unfold num
  split <;> simp

/-- A matrix with the given diagonal and off-diagonal, zero elsewhere. -/
structure IsTri (n : Nat) (M : Nat → Nat → α) (a b : Nat → α) : Prop where
  diag : ∀ i < n, M i i = a i
  up : ∀ i, i + 1 < n → M i (i + 1) = b i
  low : ∀ i, i + 1 < n → M (i + 1) i = b i
  far : ∀ i j, i < n → j < n → i + 1 < j ∨ j + 1 < i → M i j = 0

theorem IsTri.sum {n : Nat} {M : Nat → Nat → α} {a b : Nat → α} (h : IsTri n M a b) (y : Nat → α) {i : Nat} (hi : i < n) :
    ∑ j ∈ range n, M i j * y j = tri n a b y i := by
  have e : ∀ j ∈ range n, M i j * y j = (if j = i then a i * y i else 0)
      + (if j = i - 1 then (if i = 0 then 0 else b (i - 1) * y (i - 1)) else 0)
      + (if j = i + 1 then (if i + 1 < n then b i * y (i + 1) else 0) else 0) := by
    intro j hj
    have hj := mem_range.1 hj
    rcases lt_trichotomy j i with hji | rfl | hji
    · rcases Nat.lt_or_ge (j + 1) i with h1 | h1
      · rw [h.far i j hi hj (Or.inr h1), if_neg (by omega), if_neg (by omega), if_neg (by omega)]; ring
      · obtain rfl : i = j + 1 := by omega
        rw [h.low j hi, if_neg (by omega), if_pos (by omega), if_neg (by omega), if_neg (by omega), Nat.add_sub_cancel]
        ring
    · rw [h.diag j hj, if_pos rfl]
      rcases j with _ | j
      · simp
      · rw [if_neg (by omega), if_neg (by omega)]; ring
    · rcases Nat.lt_or_ge (i + 1) j with h1 | h1
      · rw [h.far i j hi hj (Or.inl h1), if_neg (by omega), if_neg (by omega), if_neg (by omega)]; ring
      · obtain rfl : j = i + 1 := by omega
        rw [h.up i hj, if_neg (by omega), if_neg (by omega), if_pos rfl, if_pos hj]; ring
  rw [sum_congr rfl e, sum_add_distrib, sum_add_distrib, sum_ite_eq' (range n) i, sum_ite_eq' (range n) (i - 1),
    sum_ite_eq' (range n) (i + 1), if_pos (mem_range.2 hi), if_pos (mem_range.2 (by omega))]
  unfold tri
  congr 1
  split
  · rfl
  · next h1 => rw [if_neg (by simpa using h1)]

/-- Restriction of a matrix to the used differences. -/
def usedMat (n : Nat) (u : Nat → Bool) (M : Nat → Nat → α) : Matrix (Used n u) (Used n u) α :=
  Matrix.of fun i j => M i.1.1 j.1.1

theorem usedMat_mulVec {n : Nat} {u : Nat → Bool} {M : Nat → Nat → α} {a b : Nat → α} (h : IsTri n M a b) (y : Nat → α)
    (i : Used n u) : (usedMat n u M *ᵥ fun j => y j.1.1) i = tri n a b (fun j => num u j * y j) i.1.1 := by
  rw [← h.sum _ i.1.2]
  show ∑ j : Used n u, M i.1.1 j.1.1 * y j.1.1 = _
  rw [sum_used n u fun j => M i.1.1 j * y j]
  exact sum_congr rfl fun j _ => by ring

/-- Extension of a vector on the used differences. -/
def ext {n : Nat} {u : Nat → Bool} (v : Used n u → α) (i : Nat) : α :=
  if h : i < n ∧ u i = true then v ⟨⟨i, h.1⟩, h.2⟩ else 0

theorem ext_val {n : Nat} {u : Nat → Bool} (v : Used n u → α) (i : Used n u) : ext v i.1.1 = v i := by
  unfold ext; rw [dif_pos ⟨i.1.2, i.2⟩]

theorem num_ext {n : Nat} {u : Nat → Bool} (v : Used n u → α) (i : Nat) : num u i * ext v i = ext v i := by
  unfold num ext
  by_cases h : u i = true
  · rw [if_pos h, one_mul]
  · rw [if_neg h, dif_neg fun hh => h hh.2, zero_mul]

theorem dot_used {n : Nat} {u : Nat → Bool} (v w : Used n u → α) :
    v ⬝ᵥ w = ∑ i ∈ range n, ext v i * ext w i := by
  have e : v ⬝ᵥ w = ∑ i : Used n u, (fun i => ext v i * ext w i) i.1.1 :=
    sum_congr rfl fun i _ => by simp only [ext_val]
  rw [e, sum_used n u fun i => ext v i * ext w i]
  exact sum_congr rfl fun i _ => by rw [← mul_assoc, num_ext]

theorem usedMat_quad {n : Nat} {u : Nat → Bool} {M : Nat → Nat → α} {a b : Nat → α} (h : IsTri n M a b)
    (v w : Used n u → α) : v ⬝ᵥ (usedMat n u M *ᵥ w) = bil n a b (ext v) (ext w) := by
  have e : (usedMat n u M *ᵥ w) = fun i => tri n a b (ext w) i.1.1 := by
    funext i
    have := usedMat_mulVec (u := u) h (ext w) i
    rw [show (fun j : Used n u => ext w j.1.1) = w from funext fun j => ext_val w j] at this
    rw [this]
    congr 1
    funext j
    exact num_ext w j
  have e2 : v ⬝ᵥ (usedMat n u M *ᵥ w) = ∑ i : Used n u, (fun i => ext v i * tri n a b (ext w) i) i.1.1 := by
    rw [e]
    exact sum_congr rfl fun i _ => by simp only [ext_val]
  rw [e2, sum_used n u fun i => ext v i * tri n a b (ext w) i, ← sum_tri]
  exact sum_congr rfl fun i _ => by rw [← mul_assoc, num_ext]

theorem usedMat_pos {n : Nat} {u : Nat → Bool} {M : Nat → Nat → α} {a b : Nat → α} (h : IsTri n M a b) (hp : PD n a b)
    {v : Used n u → α} (hv : v ≠ 0) : 0 < v ⬝ᵥ (usedMat n u M *ᵥ v) := by
  rw [usedMat_quad h]
  refine hp _ ?_
  by_contra hc
  push Not at hc
  refine hv (funext fun i => ?_)
  rw [← ext_val v i]
  exact hc _ i.1.2

theorem usedMat_unit {n : Nat} {u : Nat → Bool} {M : Nat → Nat → α} {a b : Nat → α} (h : IsTri n M a b) (hp : PD n a b) :
    IsUnit (usedMat n u M) := by
  rw [← mulVec_injective_iff_isUnit]
  intro v w hvw
  by_contra hne
  have := usedMat_pos (u := u) h hp (sub_ne_zero.2 hne)
  rw [Matrix.mulVec_sub, show usedMat n u M *ᵥ v = usedMat n u M *ᵥ w from hvw, sub_self] at this
  simp at this

theorem usedMat_inv {n : Nat} {u : Nat → Bool} {M : Nat → Nat → α} {a b : Nat → α} (h : IsTri n M a b) (hp : PD n a b)
    {y v : Used n u → α} (hy : usedMat n u M *ᵥ y = v) : (usedMat n u M)⁻¹ *ᵥ v = y := by
  have hd := (Matrix.isUnit_iff_isUnit_det _).1 (usedMat_unit (u := u) h hp)
  rw [← hy, Matrix.mulVec_mulVec, Matrix.nonsing_inv_mul _ hd, Matrix.one_mulVec]

theorem usedMat_symm {n : Nat} {u : Nat → Bool} {M : Nat → Nat → α} {a b : Nat → α} (h : IsTri n M a b) (hp : PD n a b)
    (v w : Used n u → α) : v ⬝ᵥ ((usedMat n u M)⁻¹ *ᵥ w) = w ⬝ᵥ ((usedMat n u M)⁻¹ *ᵥ v) := by
  have hd := (Matrix.isUnit_iff_isUnit_det _).1 (usedMat_unit (u := u) h hp)
  set S := usedMat n u M
  have ev : S *ᵥ (S⁻¹ *ᵥ v) = v := by rw [Matrix.mulVec_mulVec, Matrix.mul_nonsing_inv _ hd, Matrix.one_mulVec]
  have ew : S *ᵥ (S⁻¹ *ᵥ w) = w := by rw [Matrix.mulVec_mulVec, Matrix.mul_nonsing_inv _ hd, Matrix.one_mulVec]
  conv_lhs => rw [← ev]
  conv_rhs => rw [← ew]
  rw [dotProduct_comm, usedMat_quad h, dotProduct_comm, usedMat_quad h, bil_comm]

theorem tri_masked {n : Nat} (a b y : Nat → α) (u : Nat → Bool) (s : α) {i : Nat} (hu : u i = true) :
    tri n a b (fun j => num u j * (y j / s)) i
      = tri n (fun i => a i / s) (fun i => b i / s * num u (i + 1) * num u i) y i := by
  have h1 : (num u i : α) = 1 := by unfold num; rw [if_pos hu]
  unfold tri
  rcases i with _ | i
  · simp only [↓reduceIte, h1]
    split <;> ring
  · rw [if_neg (Nat.succ_ne_zero i), if_neg (Nat.succ_ne_zero i), Nat.add_sub_cancel]
    simp only [h1]
    split <;> ring

/-- The solution computed by the recursions, up to the scale, is the inverse of the covariance of the used differences
applied to the vector. -/
theorem inv_eq_sol {n : Nat} {u : Nat → Bool} {M : Nat → Nat → α} {a b : Nat → α} (h : IsTri n M a b) (hp : PD n a b)
    {s : α} (hs : 0 < s) (r : Nat → α) :
    (usedMat n u M)⁻¹ *ᵥ (fun i => r i.1.1) = fun i =>
      sol n (fun i => a i / s) (fun i => b i / s * num u (i + 1) * num u i) r i.1.1 / s := by
  refine usedMat_inv h hp (funext fun i => ?_)
  rw [usedMat_mulVec h (fun i => sol n (fun i => a i / s) (fun i => b i / s * num u (i + 1) * num u i) r i / s),
    tri_masked a b _ u s i.2, tri_sol _ _ _ _ i.1.2]
  exact (theta_pos (PD_mask (PD_scale hp hs) u) n le_rfl).ne'

/-! ## The sums of the fit -/

section
variable {n : Nat} {u : Nat → Bool} {M : Nat → Nat → α} {a b : Nat → α} {s : α} (d : Nat → α)

/-- The matrix quantities for a scaled, masked covariance. -/
def scaledMat (n : Nat) (u : Nat → Bool) (a b : Nat → α) (s : α) (d : Nat → α) : Mat α :=
  matrix n (fun i => a i / s) (fun i => b i / s * num u (i + 1) * num u i) (fun i => d i * num u i) (num u)

theorem inv_one (h : IsTri n M a b) (hp : PD n a b) (hs : 0 < s) :
    (usedMat n u M)⁻¹ *ᵥ (fun _ => 1) = fun i => (scaledMat n u a b s d).dC i.1.1 / s := by
  rw [inv_eq_sol (u := u) h hp hs fun _ => 1]
  funext i
  simp only [scaledMat, dC_eq]
  rw [show (num u i.1.1 : α) = 1 from by unfold num; rw [if_pos i.2], mul_one]

theorem inv_data (h : IsTri n M a b) (hp : PD n a b) (hs : 0 < s) :
    (usedMat n u M)⁻¹ *ᵥ (fun i => d i.1.1) = fun i => (scaledMat n u a b s d).dB i.1.1 / s := by
  rw [show (fun i : Used n u => d i.1.1) = fun i => (fun i => d i * num u i) i.1.1 from funext fun i => by
      show d _ = d _ * num u _
      rw [show (num u i.1.1 : α) = 1 from by unfold num; rw [if_pos i.2], mul_one],
    inv_eq_sol (u := u) h hp hs fun i => d i * num u i]
  rfl

theorem one_inv_one (h : IsTri n M a b) (hp : PD n a b) (hs : 0 < s) :
    (fun _ => 1) ⬝ᵥ ((usedMat n u M)⁻¹ *ᵥ fun _ => 1) = (scaledMat n u a b s d).C / s := by
  rw [inv_one d h hp hs]
  show ∑ i : Used n u, 1 * ((scaledMat n u a b s d).dC i.1.1 / s) = _
  rw [sum_used n u fun i => 1 * ((scaledMat n u a b s d).dC i / s),
    show (scaledMat n u a b s d).C = ∑ i ∈ range n, (scaledMat n u a b s d).dC i from rfl, sum_div]
  refine sum_congr rfl fun i _ => ?_
  have hn : (num u i : α) * num u i = num u i := by unfold num; split <;> ring
  simp only [scaledMat, dC_eq]
  linear_combination (sol n (fun i => a i / s) (fun i => b i / s * num u (i + 1) * num u i) (fun _ => 1) i / s) * hn

theorem data_inv_one (h : IsTri n M a b) (hp : PD n a b) (hs : 0 < s) :
    (fun i => d i.1.1) ⬝ᵥ ((usedMat n u M)⁻¹ *ᵥ fun _ => 1) = (scaledMat n u a b s d).B / s := by
  rw [inv_one d h hp hs]
  show ∑ i : Used n u, d i.1.1 * ((scaledMat n u a b s d).dC i.1.1 / s) = _
  rw [sum_used n u fun i => d i * ((scaledMat n u a b s d).dC i / s),
    show (scaledMat n u a b s d).B = ∑ i ∈ range n, d i * num u i * (scaledMat n u a b s d).dC i from rfl, sum_div]
  exact sum_congr rfl fun i _ => by ring

theorem data_inv_data (h : IsTri n M a b) (hp : PD n a b) (hs : 0 < s) :
    (fun i => d i.1.1) ⬝ᵥ ((usedMat n u M)⁻¹ *ᵥ fun i => d i.1.1) = (scaledMat n u a b s d).A / s := by
  rw [inv_data d h hp hs]
  show ∑ i : Used n u, d i.1.1 * ((scaledMat n u a b s d).dB i.1.1 / s) = _
  rw [sum_used n u fun i => d i * ((scaledMat n u a b s d).dB i / s),
    show (scaledMat n u a b s d).A = _ from sum_A .., sum_div]
  exact sum_congr rfl fun i _ => by simp only [scaledMat, dB_eq]; ring

theorem C_pos (h : IsTri n M a b) (hp : PD n a b) (hs : 0 < s) (hu : ∃ i < n, u i = true) :
    0 < (scaledMat n u a b s d).C := by
  obtain ⟨i, hi, hui⟩ := hu
  have hd := (Matrix.isUnit_iff_isUnit_det _).1 (usedMat_unit (u := u) h hp)
  have hq := one_inv_one (u := u) d h hp hs
  set S := usedMat n u M with hS
  have ev : S *ᵥ (S⁻¹ *ᵥ fun _ => 1) = fun _ => 1 := by
    rw [Matrix.mulVec_mulVec, Matrix.mul_nonsing_inv _ hd, Matrix.one_mulVec]
  have hne : S⁻¹ *ᵥ (fun _ => (1 : α)) ≠ 0 := by
    intro hz
    rw [hz, Matrix.mulVec_zero] at ev
    exact zero_ne_one (congrFun ev ⟨⟨i, hi⟩, hui⟩)
  have hpos := usedMat_pos (u := u) h hp hne
  rw [← hS, ev, dotProduct_comm, hq] at hpos
  exact (div_pos_iff_of_pos_right hs).1 hpos

theorem C_zero (hu : ∀ i < n, u i = false) : (scaledMat n u a b s d).C = 0 := by
  show ∑ i ∈ range n, (scaledMat n u a b s d).dC i = 0
  refine sum_eq_zero fun i hi => ?_
  simp only [scaledMat, dC_eq]
  rw [show (num u i : α) = 0 from by unfold num; rw [if_neg (by rw [hu i (mem_range.1 hi)]; simp)], mul_zero]

/-- Chi-square of a rate as a quadratic function. -/
theorem chi_eq (h : IsTri n M a b) (hp : PD n a b) (hs : 0 < s) (x : α) :
    (fun i => d i.1.1 - x) ⬝ᵥ ((usedMat n u M)⁻¹ *ᵥ fun i => d i.1.1 - x)
      = ((scaledMat n u a b s d).A - 2 * x * (scaledMat n u a b s d).B + x * x * (scaledMat n u a b s d).C) / s := by
  have e : (fun i : Used n u => d i.1.1 - x) = (fun i => d i.1.1) - x • (fun _ => 1) := by
    funext i; simp
  rw [e, Matrix.mulVec_sub, Matrix.mulVec_smul, sub_dotProduct, dotProduct_sub, dotProduct_sub, smul_dotProduct,
    smul_dotProduct, dotProduct_smul, dotProduct_smul, usedMat_symm h hp (fun _ => 1) (fun i => d i.1.1),
    data_inv_data d h hp hs, data_inv_one d h hp hs, one_inv_one d h hp hs]
  simp only [smul_eq_mul]
  ring

end

/-! ## Rescaling -/

theorem theta_scale (a b : Nat → α) (f : α) (hf : f ≠ 0) : ∀ i, theta (fun i => a i / f) (fun i => b i / f) i =
    theta a b i / f ^ i
  | 0 => by simp [theta]
  | 1 => by simp [theta]
  | i + 2 => by
    rw [theta, theta, theta_scale a b f hf (i + 1), theta_scale a b f hf i]
    field_simp
    ring

/-- What the code needs of the fractional power. -/
def RootOk (root : α → Nat → α) : Prop := ∀ x i, 0 < x → 0 < i → 0 < root x i ∧ root x i ^ i = x

theorem rescale_inv {root : α → Nat → α} (hr : RootOk root) {n : Nat} (dn : Nat) {a b : Nat → α} (hp : PD n a b) :
    ∀ k, k + 1 ≤ n →
      let st := (List.range' 2 k).foldl (rescStep root n dn a b) ⟨1, a 0, 1⟩
      0 < st.scale
      ∧ st.prev = theta (fun i => a i / st.scale) (fun i => b i / st.scale) k
      ∧ st.cur = theta (fun i => a i / st.scale) (fun i => b i / st.scale) (k + 1)
      ∧ (k + 1 = n → 1 ≤ k → st.cur = 1) := by
  intro k
  induction k with
  | zero => intro _; simp [theta]
  | succ k ih =>
    intro hk
    obtain ⟨i1, i2, i3, -⟩ := ih (by omega)
    dsimp only
    rw [List.range'_concat, List.foldl_append]
    simp only [List.foldl_cons, List.foldl_nil, Nat.one_mul]
    set st := (List.range' 2 k).foldl (rescStep root n dn a b) ⟨1, a 0, 1⟩ with hst
    have ht : a (2 + k - 1) / st.scale * st.cur - b (2 + k - 2) * b (2 + k - 2) / (st.scale * st.scale) * st.prev
        = theta (fun i => a i / st.scale) (fun i => b i / st.scale) (k + 2) := by
      rw [theta, i2, i3, show 2 + k - 1 = k + 1 by omega, show 2 + k - 2 = k by omega]
      ring
    have hpos : 0 < theta (fun i => a i / st.scale) (fun i => b i / st.scale) (k + 2) :=
      theta_pos (PD_scale hp i1) (k + 2) (by omega)
    unfold rescStep
    dsimp only
    rw [ht]
    set t := theta (fun i => a i / st.scale) (fun i => b i / st.scale) (k + 2) with htd
    by_cases hc : (2 + k) % dn = 0 ∨ 2 + k = n
    · rw [if_pos hc]
      obtain ⟨f0, f1⟩ := hr t (2 + k) hpos (by omega)
      set f := root t (2 + k) with hf
      have ea : ∀ c : Nat → α, (fun i => c i / (st.scale * f)) = fun i => c i / st.scale / f := fun c => by
        funext i; rw [div_div]
      refine ⟨mul_pos i1 f0, ?_, ?_, fun _ _ => rfl⟩
      · show st.cur / (t / f) = _
        rw [ea a, ea b, theta_scale _ _ f f0.ne', i3]
        have : t / f = f ^ (k + 1) := by
          rw [← f1, show 2 + k = (k + 1) + 1 by omega, pow_succ]; field_simp
        rw [this]
      · show 1 = _
        rw [ea a, ea b, theta_scale _ _ f f0.ne', ← htd, ← f1, show 2 + k = k + 1 + 1 by omega,
          div_self (pow_pos f0 _).ne']
    · rw [if_neg hc]
      refine ⟨i1, ?_, rfl, fun h _ => absurd (Or.inr (by omega)) hc⟩
      exact i3

theorem rescale_spec {root : α → Nat → α} (hr : RootOk root) {n : Nat} (dn : Nat) {a b : Nat → α} (hp : PD n a b)
    (hn : 1 ≤ n) :
    0 < rescale root n dn a b
    ∧ (2 ≤ n → theta (fun i => a i / rescale root n dn a b) (fun i => b i / rescale root n dn a b) n = 1) := by
  obtain ⟨i1, i2, i3, i4⟩ := rescale_inv hr dn hp (n - 1) (by omega)
  refine ⟨i1, fun h2 => ?_⟩
  rw [show n - 1 + 1 = n by omega] at i3
  unfold rescale
  rw [← i3]
  exact i4 (by omega) (by omega)

/-! ## Removing differences -/

theorem usedMat_mulVec_ext {n : Nat} {u : Nat → Bool} {M : Nat → Nat → α} {a b : Nat → α} (h : IsTri n M a b)
    (w : Used n u → α) (i : Used n u) : (usedMat n u M *ᵥ w) i = tri n a b (ext w) i.1.1 := by
  have := usedMat_mulVec (u := u) h (ext w) i
  rw [show (fun j : Used n u => ext w j.1.1) = w from funext fun j => ext_val w j] at this
  rw [this]
  congr 1
  funext j
  exact num_ext w j

/-- A residual vector whose weighted form vanishes on the removed differences and sums to zero gives the fit of the
remaining differences. -/
theorem reduced {n : Nat} {u u' : Nat → Bool} (huu : ∀ i, u' i = true → u i = true) {M : Nat → Nat → α} {a b : Nat → α}
    (h : IsTri n M a b) (hp : PD n a b) {s : α} (hs : 0 < s) (d : Nat → α) (x : α) (v : Used n u → α)
    (hv : ∀ i : Used n u, u' i.1.1 = true → v i = d i.1.1 - x)
    (hV : ∀ i : Used n u, u' i.1.1 = false → ((usedMat n u M)⁻¹ *ᵥ v) i = 0)
    (hsum : (fun _ => 1) ⬝ᵥ ((usedMat n u M)⁻¹ *ᵥ v) = 0) (hne : ∃ i < n, u' i = true) :
    (scaledMat n u' a b s d).B = x * (scaledMat n u' a b s d).C
    ∧ ((scaledMat n u' a b s d).A - (scaledMat n u' a b s d).B * (scaledMat n u' a b s d).B
        / (scaledMat n u' a b s d).C) / s = v ⬝ᵥ ((usedMat n u M)⁻¹ *ᵥ v) := by
  have hd := (Matrix.isUnit_iff_isUnit_det _).1 (usedMat_unit (u := u) h hp)
  set V := (usedMat n u M)⁻¹ *ᵥ v with hVd
  have hSV : usedMat n u M *ᵥ V = v := by
    rw [hVd, Matrix.mulVec_mulVec, Matrix.mul_nonsing_inv _ hd, Matrix.one_mulVec]
  set W : Used n u' → α := fun i => V ⟨i.1, huu _ i.2⟩ with hW
  have hext : ext W = ext V := by
    funext j
    unfold ext
    by_cases h1 : j < n ∧ u' j = true
    · rw [dif_pos h1, dif_pos ⟨h1.1, huu _ h1.2⟩]
    · rw [dif_neg h1]
      split
      · next h2 => exact (hV ⟨⟨j, h2.1⟩, h2.2⟩ (by
          rcases hb : u' j with _ | _
          · rfl
          · exact absurd ⟨h2.1, hb⟩ h1)).symm
      · rfl
  have hSW : usedMat n u' M *ᵥ W = fun i => d i.1.1 - x := by
    funext i
    rw [usedMat_mulVec_ext h, hext, ← usedMat_mulVec_ext (u := u) h V ⟨i.1, huu _ i.2⟩, hSV]
    exact hv _ i.2
  have hinv := usedMat_inv h hp hSW
  have h1W : (fun _ => 1) ⬝ᵥ W = 0 := by
    rw [← hsum, dot_used, dot_used, hext]
    refine sum_congr rfl fun j _ => ?_
    by_cases h1 : j < n ∧ u' j = true
    · congr 1; unfold ext; rw [dif_pos h1, dif_pos ⟨h1.1, huu _ h1.2⟩]
    · have : ext V j = 0 := by rw [← hext]; unfold ext; rw [dif_neg h1]
      rw [this]; ring
  have hB : (scaledMat n u' a b s d).B = x * (scaledMat n u' a b s d).C := by
    have e : (fun i : Used n u' => d i.1.1 - x) = (fun i => d i.1.1) - x • (fun _ => 1) := by
      funext i; simp
    rw [← hinv, e, Matrix.mulVec_sub, Matrix.mulVec_smul, dotProduct_sub, dotProduct_smul,
      usedMat_symm h hp (fun _ => 1) (fun i => d i.1.1), data_inv_one d h hp hs, one_inv_one d h hp hs,
      smul_eq_mul] at h1W
    have := hs.ne'
    field_simp at h1W
    linarith
  refine ⟨hB, ?_⟩
  have hC := C_pos d h hp hs hne
  have hchi := chi_eq (u := u') d h hp hs x
  rw [hinv] at hchi
  have e2 : (fun i : Used n u' => d i.1.1 - x) ⬝ᵥ W = v ⬝ᵥ V := by
    rw [dot_used, dot_used, hext]
    refine sum_congr rfl fun j _ => ?_
    by_cases h1 : j < n ∧ u' j = true
    · congr 1
      unfold ext
      rw [dif_pos h1, dif_pos ⟨h1.1, huu _ h1.2⟩, hv ⟨⟨j, h1.1⟩, huu _ h1.2⟩ h1.2]
    · have : ext V j = 0 := by rw [← hext]; unfold ext; rw [dif_neg h1]
      rw [this]; ring
  rw [← e2, hchi, hB]
  have := hC.ne'
  have := hs.ne'
  field_simp
  ring

/-- Unit vector. -/
def unit (i j : Nat) : α := if j = i then 1 else 0

theorem bigThetaD_unit_lt (b th : Nat → α) (i : Nat) : ∀ k ≤ i, bigThetaD b th (unit i) k = 0
  | 0, _ => rfl
  | 1, h => by
    simp only [bigThetaD, unit]; rw [if_neg (by omega)]; ring
  | k + 2, h => by
    rw [bigThetaD, bigThetaD_unit_lt b th i (k + 1) (by omega)]
    simp only [unit]; rw [if_neg (by omega)]; ring

theorem bigThetaD_unit (b th : Nat → α) (i : Nat) : bigThetaD b th (unit i) (i + 1) = sgn i * th i := by
  rcases i with _ | i
  · simp [bigThetaD, unit, sgn_zero]
  · rw [bigThetaD, bigThetaD_unit_lt b th (i + 1) (i + 1) le_rfl]
    simp [unit]

theorem bigPhiDR_unit (n i : Nat) (b ph : Nat → α) : ∀ k, i + k + 1 ≤ n → bigPhiDR n b ph (unit i) k = 0 := by
  intro k
  induction k with
  | zero => intro _; rfl
  | succ k ih =>
    intro h
    rw [bigPhiDR, ih (by omega)]
    simp only [unit]
    rw [if_neg (by omega)]
    ring

theorem bigPhiD_unit (n i j : Nat) (b ph : Nat → α) (hj : i ≤ j) (hjn : j < n) : bigPhiD n b ph (unit i) j = 0 :=
  bigPhiDR_unit n i b ph _ (by omega)

theorem sol_unit_diag (n : Nat) (a b : Nat → α) (i : Nat) (hi : i < n) :
    sol n a b (unit i) i = theta a b i * phi n a b (i + 1) / theta a b n := by
  unfold sol solN
  rw [bigThetaD_unit, bigPhiD_unit n i i _ _ le_rfl hi]
  have := sgn_sq (α := α) i
  linear_combination (theta a b i * phi n a b (i + 1) / theta a b n) * this

theorem sol_unit_off (n : Nat) (a b : Nat → α) (i : Nat) (hi : i + 1 < n) :
    sol n a b (unit i) (i + 1) = -b i * theta a b i * phi n a b (i + 2) / theta a b n := by
  unfold sol solN
  rw [bigThetaD, bigThetaD_unit, bigPhiD_unit n i (i + 1) _ _ (by omega) hi, sgn_succ]
  simp only [unit]
  rw [if_neg (by omega)]
  have := sgn_sq (α := α) i
  linear_combination (-b i * theta a b i * phi n a b (i + 2) / theta a b n) * this

end Verif.Likely
