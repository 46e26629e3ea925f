import Verif.Thm.LikelyDriver

/-!
# The likelihood fit finds a lone jump: property C131
-/

namespace Verif.Thm

open Verif Verif.Likely Verif.LikelyDriver Finset Matrix

set_option linter.unusedSectionVars false

variable {α : Type} [Field α] [LinearOrder α] [IsStrictOrderedRing α]

/-! ## Chi-square is positive unless the data are exact -/

theorem lj_chi_pos {n : Nat} {u : Nat → Bool} {times : Nat → List α} {q : Noise α} (h : LkPattern n times)
    (hq : LkNoiseOk q) (diffs : Nat → α) (x : α) (i : Nat) (hi : i < n) (hui : u i = true) (hx : diffs i ≠ x) :
    0 < lkChi2 n u times q diffs x := by
  have ht := lkTri q h
  have hp := cov_pos h.ordered q hq.1 hq.2.1 hq.2.2
  have hd := (Matrix.isUnit_iff_isUnit_det _).1 (usedMat_unit (u := u) ht hp)
  unfold lkChi2
  rw [lkCov_eq]
  generalize hv : (fun i : { i : Fin n // u i.1 = true } => diffs i.1.1 - x) = v
  have hv0 : v ≠ 0 := by
    intro h0
    rw [h0] at hv
    have := congrFun hv ⟨⟨i, hi⟩, hui⟩
    exact hx (sub_eq_zero.1 this)
  set w := (usedMat n u (lkDiffCov times q))⁻¹ *ᵥ v with hw
  have hMw : usedMat n u (lkDiffCov times q) *ᵥ w = v := by
    rw [hw, Matrix.mulVec_mulVec, Matrix.mul_nonsing_inv _ hd, Matrix.one_mulVec]
  have hw0 : w ≠ 0 := by
    intro h0
    rw [h0, Matrix.mulVec_zero] at hMw
    exact hv0 hMw.symm
  have := usedMat_pos (u := u) ht hp hw0
  rw [hMw, dotProduct_comm] at this
  exact this

theorem lj_chi_nonneg {n : Nat} {u : Nat → Bool} {times : Nat → List α} {q : Noise α} (h : LkPattern n times)
    (hq : LkNoiseOk q) (diffs : Nat → α) (x : α) : 0 ≤ lkChi2 n u times q diffs x := by
  by_cases hx : ∃ i < n, u i = true ∧ diffs i ≠ x
  · obtain ⟨i, hi, hu, hne⟩ := hx
    exact (lj_chi_pos h hq diffs x i hi hu hne).le
  · push Not at hx
    unfold lkChi2
    have : (fun i : { i : Fin n // u i.1 = true } => diffs i.1.1 - x) = 0 := by
      funext i
      rw [hx i.1.1 i.1.2 i.2]
      simp
    rw [this]
    simp

/-- The chi-square of a fit is never negative, and positive if two used differences are unequal. -/
theorem lj_fit {n : Nat} {u : Nat → Bool} {times : Nat → List α} {q : Noise α} {s : α} (h : LkPattern n times)
    (hq : LkNoiseOk q) (hs : 0 < s) (diffs : Nat → α) (hu : ∃ i < n, u i = true) (r : Result α)
    (hr : fitWith n (covar times) q s diffs (num u) = some r) :
    (∃ x, r.chisq = lkChi2 n u times q diffs x) ∧ 0 ≤ r.chisq
    ∧ ∀ i j, i < n → j < n → u i = true → u j = true → diffs i ≠ diffs j → 0 < r.chisq := by
  obtain ⟨r', hr', -, -, h3, -⟩ := C38_generalised_least_squares h hq hs hu diffs
  rw [hr] at hr'
  obtain rfl := Option.some.inj hr'
  refine ⟨⟨_, h3⟩, by rw [h3]; exact lj_chi_nonneg h hq diffs _, fun i j hi hj hui huj hne => ?_⟩
  rw [h3]
  by_cases hx : diffs i = r.countrate
  · exact lj_chi_pos h hq diffs _ j hj huj fun e => hne (hx.trans e.symm)
  · exact lj_chi_pos h hq diffs _ i hi hui hx

/-! ## When the search has a number for two differences -/

/-- The determinant of the fit with two jumps is positive as long as a third difference is used. -/
theorem lj_det {n : Nat} {u : Nat → Bool} {M : Nat → Nat → α} {a b : Nat → α} {s : α} (d : Nat → α) (h : IsTri n M a b)
    (hp : PD n a b) (hs : 0 < s) (i : Nat) (hi : i + 1 < n) (hui : u i = true) (hui' : u (i + 1) = true)
    (l : Nat) (hl : l < n) (hul : u l = true) (hli : l ≠ i) (hli' : l ≠ i + 1) (cd cd' co : α)
    (hcd : cd = cinvDiag n (fun i => a i / s) (fun i => b i / s * num u (i + 1) * num u i) (num u) i)
    (hcd' : cd' = cinvDiag n (fun i => a i / s) (fun i => b i / s * num u (i + 1) * num u i) (num u) (i + 1))
    (hco : co = cinvOff n (fun i => a i / s) (fun i => b i / s * num u (i + 1) * num u i) i)
    (m : Mat α) (hm : m = scaledMat n u a b s d) :
    (((usedMat n u M)⁻¹ *ᵥ fun _ => 1) ⟨⟨i, by omega⟩, hui⟩ = m.dC i / s ∧
      ((usedMat n u M)⁻¹ *ᵥ fun _ => 1) ⟨⟨i + 1, hi⟩, hui'⟩ = m.dC (i + 1) / s ∧
      (fun _ => 1) ⬝ᵥ ((usedMat n u M)⁻¹ *ᵥ fun _ => 1) = m.C / s ∧
      (usedMat n u M)⁻¹ ⟨⟨i + 1, hi⟩, hui'⟩ ⟨⟨i, by omega⟩, hui⟩ = co / s) ∧
    0 < m.C ∧ 0 < m.C * cd - m.dC i * m.dC i ∧
    (m.C * co - m.dC i * m.dC (i + 1)) * (m.C * co - m.dC i * m.dC (i + 1))
      < (m.C * cd - m.dC i * m.dC i) * (m.C * cd' - m.dC (i + 1) * m.dC (i + 1)) := by
  have hs0 := hs.ne'
  have hd := (Matrix.isUnit_iff_isUnit_det _).1 (usedMat_unit (u := u) h hp)
  have hCpos : 0 < m.C := by rw [hm]; exact C_pos d h hp hs ⟨i, by omega, hui⟩
  have hP : 0 < m.C * cd - m.dC i * m.dC i :=
    (lkOne d h hp hs i (by omega) hui _ rfl ⟨l, hl, by simp [hul, hli]⟩ cd hcd m _ hm rfl).2.1
  set S := usedMat n u M with hS
  set I : Used n u := ⟨⟨i, by omega⟩, hui⟩ with hI
  set J : Used n u := ⟨⟨i + 1, hi⟩, hui'⟩ with hJ
  set L : Used n u := ⟨⟨l, hl⟩, hul⟩ with hL
  have e1 : S⁻¹ *ᵥ (fun _ => 1) = fun j => m.dC j.1.1 / s := by rw [hm]; exact inv_one d h hp hs
  have euI : (S⁻¹ *ᵥ lkUnit n u i) I = cd / s := by
    rw [lkInv_unit h hp hs i, hcd]
    show sol _ _ _ _ i / s = _
    rw [sol_unit_diag n _ _ i (by omega)]
    unfold cinvDiag
    rw [lkNum_true hui, mul_one]
  have euJ : (S⁻¹ *ᵥ lkUnit n u i) J = co / s := by
    rw [lkInv_unit h hp hs i, hco]
    show sol _ _ _ _ (i + 1) / s = _
    rw [sol_unit_off n _ _ i hi]
    rfl
  have evJ : (S⁻¹ *ᵥ lkUnit n u (i + 1)) J = cd' / s := by
    rw [lkInv_unit h hp hs (i + 1), hcd']
    show sol _ _ _ _ (i + 1) / s = _
    rw [sol_unit_diag n _ _ (i + 1) hi]
    unfold cinvDiag
    rw [lkNum_true hui', mul_one]
  have q11 : (fun _ => 1) ⬝ᵥ (S⁻¹ *ᵥ fun _ => 1) = m.C / s := by rw [hm]; exact one_inv_one d h hp hs
  have quu : lkUnit n u i ⬝ᵥ (S⁻¹ *ᵥ lkUnit n u i) = cd / s := by rw [lkUnit_dot I, euI]
  have qvv : lkUnit n u (i + 1) ⬝ᵥ (S⁻¹ *ᵥ lkUnit n u (i + 1)) = cd' / s := by rw [lkUnit_dot J, evJ]
  have qvu : lkUnit n u (i + 1) ⬝ᵥ (S⁻¹ *ᵥ lkUnit n u i) = co / s := by rw [lkUnit_dot J, euJ]
  have quv : lkUnit n u i ⬝ᵥ (S⁻¹ *ᵥ lkUnit n u (i + 1)) = co / s := by rw [usedMat_symm h hp, ← hS, qvu]
  have qu1 : lkUnit n u i ⬝ᵥ (S⁻¹ *ᵥ fun _ => 1) = m.dC i / s := by rw [lkUnit_dot I, e1]
  have qv1 : lkUnit n u (i + 1) ⬝ᵥ (S⁻¹ *ᵥ fun _ => 1) = m.dC (i + 1) / s := by rw [lkUnit_dot J, e1]
  have q1u : (fun _ => 1) ⬝ᵥ (S⁻¹ *ᵥ lkUnit n u i) = m.dC i / s := by rw [usedMat_symm h hp, ← hS, qu1]
  have q1v : (fun _ => 1) ⬝ᵥ (S⁻¹ *ᵥ lkUnit n u (i + 1)) = m.dC (i + 1) / s := by rw [usedMat_symm h hp, ← hS, qv1]
  have hent : S⁻¹ J I = co / s := by
    rw [← euJ]
    show _ = ∑ x, S⁻¹ J x * lkUnit n u i x
    rw [sum_eq_single I]
    · simp [lkUnit, hI]
    · intro j _ hj
      simp only [lkUnit]
      rw [if_neg fun h => hj (Subtype.ext (Fin.ext h)), mul_zero]
    · intro hn; exact absurd (mem_univ _) hn
  refine ⟨⟨by rw [e1], by rw [e1], q11, hent⟩, hCpos, hP, ?_⟩
  set P := m.C * cd - m.dC i * m.dC i with hPd
  set K := m.C * co - m.dC i * m.dC (i + 1) with hKd
  set G := -(K * m.dC i - P * m.dC (i + 1)) / m.C with hG
  set v : Used n u → α := K • lkUnit n u i - P • lkUnit n u (i + 1) + G • (fun _ => 1) with hv
  have hv0 : v ≠ 0 := by
    intro h0
    have hL0 : v L = 0 := by rw [h0]; rfl
    have hJ0 : v J = 0 := by rw [h0]; rfl
    have c1 : lkUnit n u i L = (0 : α) := by simp only [lkUnit, hL]; rw [if_neg hli]
    have c2 : lkUnit n u (i + 1) L = (0 : α) := by simp only [lkUnit, hL]; rw [if_neg hli']
    have c3 : lkUnit n u i J = (0 : α) := by simp only [lkUnit, hJ]; rw [if_neg (by omega)]
    have c4 : lkUnit n u (i + 1) J = (1 : α) := by simp [lkUnit, hJ]
    simp only [hv, Pi.add_apply, Pi.sub_apply, Pi.smul_apply, smul_eq_mul, c1, c2, c3, c4, mul_zero, mul_one, sub_zero,
      zero_sub, zero_add] at hL0 hJ0
    rw [hL0] at hJ0
    have : P = 0 := by linarith
    exact hP.ne' this
  have hw0 : S⁻¹ *ᵥ v ≠ 0 := by
    intro hz
    have ev : S *ᵥ (S⁻¹ *ᵥ v) = v := by rw [Matrix.mulVec_mulVec, Matrix.mul_nonsing_inv _ hd, Matrix.one_mulVec]
    rw [hz, Matrix.mulVec_zero] at ev
    exact hv0 ev.symm
  have hpos := usedMat_pos (u := u) h hp hw0
  rw [← hS, Matrix.mulVec_mulVec, Matrix.mul_nonsing_inv _ hd, Matrix.one_mulVec, dotProduct_comm] at hpos
  have hquad : v ⬝ᵥ (S⁻¹ *ᵥ v) = P * (P * (m.C * cd' - m.dC (i + 1) * m.dC (i + 1)) - K * K) / (m.C * s) := by
    rw [hv]
    simp only [Matrix.mulVec_add, Matrix.mulVec_sub, Matrix.mulVec_smul, add_dotProduct, sub_dotProduct, dotProduct_add,
      dotProduct_sub, smul_dotProduct, dotProduct_smul, smul_eq_mul, q11, quu, qvv, qvu, quv, qu1, qv1, q1u, q1v]
    rw [hG]
    have hC0 := hCpos.ne'
    field_simp
    rw [hPd, hKd]
    ring
  rw [hquad] at hpos
  have hden : 0 < m.C * s := mul_pos hCpos hs
  have := (div_pos_iff_of_pos_right hden).1 hpos
  have := (mul_pos_iff_of_pos_left hP).1 this
  linarith

/-- C76 (two differences, when there is a number).  The search has a number for two used adjacent differences exactly if a
third difference is used and the two estimates of a jump in them are correlated: with `S` the covariance of the used
differences, `(S⁻¹ 1)_i (S⁻¹ 1)_{i+1} ≠ (1ᵀ S⁻¹ 1) (S⁻¹)_{i,i+1}`. -/
theorem C76_two_defined {n : Nat} {u : Nat → Bool} {times : Nat → List α} {q : Noise α} {s : α}
    (h : LkPattern n times) (hq : LkNoiseOk q) (hs : 0 < s) (diffs : Nat → α) (i : Nat) (hi : i + 1 < n) (hui : u i = true)
    (hui' : u (i + 1) = true) :
    ((search n (covar times) q s diffs).two u i).isSome = true ↔
      (∃ l < n, u l = true ∧ l ≠ i ∧ l ≠ i + 1) ∧
      ((lkCov n u times q)⁻¹ *ᵥ fun _ => 1) ⟨⟨i, by omega⟩, hui⟩ * ((lkCov n u times q)⁻¹ *ᵥ fun _ => 1) ⟨⟨i + 1, hi⟩, hui'⟩
        ≠ ((fun _ => 1) ⬝ᵥ ((lkCov n u times q)⁻¹ *ᵥ fun _ => 1)) * (lkCov n u times q)⁻¹ ⟨⟨i + 1, hi⟩, hui'⟩ ⟨⟨i, by omega⟩, hui⟩ := by
  have ht := lkTri q h
  have hp := cov_pos h.ordered q hq.1 hq.2.1 hq.2.2
  by_cases hl : ∃ l < n, u l = true ∧ l ≠ i ∧ l ≠ i + 1
  · rw [and_iff_right hl]
    obtain ⟨l, hl, hul, hli, hli'⟩ := hl
    obtain ⟨m, hm, hC, hf⟩ := lkFit_eq h hq hs ⟨i, by omega, hui⟩ diffs
    obtain ⟨⟨g1, g2, g3, g4⟩, hCp, hP, hD⟩ := lj_det diffs ht hp hs i hi hui hui' l hl hul hli hli' _ _ _ rfl rfl rfl m hm
    rw [lkCov_eq, g1, g2, g3, g4]
    simp only [search]
    rw [lkFitMatrix, ← hm, if_neg hC.ne', if_neg (by simp [hui]), if_neg (by simp [hui'])]
    generalize hcd : cinvDiag n (fun i => (alphaPh (covar times) q i + alphaRd (covar times) q i) / s)
      (fun i => (betaPh (covar times) q i + betaRd (covar times) q i) / s * num u (i + 1) * num u i) (num u) i = cd at *
    generalize hcd' : cinvDiag n (fun i => (alphaPh (covar times) q i + alphaRd (covar times) q i) / s)
      (fun i => (betaPh (covar times) q i + betaRd (covar times) q i) / s * num u (i + 1) * num u i) (num u) (i + 1) = cd' at *
    generalize hco : cinvOff n (fun i => (alphaPh (covar times) q i + alphaRd (covar times) q i) / s)
      (fun i => (betaPh (covar times) q i + betaRd (covar times) q i) / s * num u (i + 1) * num u i) i = co at *
    have hs0 := hs.ne'
    by_cases hK : m.dC i * m.dC (i + 1) - m.C * co = 0
    · rw [if_pos (Or.inr (Or.inr (Or.inl hK)))]
      simp only [Option.isSome_none, Bool.false_eq_true, false_iff, not_not]
      have : m.dC i * m.dC (i + 1) = m.C * co := sub_eq_zero.1 hK
      field_simp
      exact this
    · have hP' : m.dC i * m.dC i - m.C * cd ≠ 0 := by
        intro h0
        have : m.C * cd - m.dC i * m.dC i = 0 := by linarith
        exact hP.ne' this
      rw [if_neg]
      · simp only [Option.isSome_some, true_iff, ne_eq]
        intro he
        apply hK
        field_simp at he
        exact sub_eq_zero.2 he
      · rintro (h0 | h0 | h0 | h0)
        · exact hC.ne' h0
        · exact hP' h0
        · exact hK h0
        · rw [sub_eq_zero, div_eq_div_iff hP' hK] at h0
          nlinarith
  · refine ⟨fun hsome => ?_, fun hh => absurd hh.1 hl⟩
    exfalso
    obtain ⟨g, e⟩ := Option.isSome_iff_exists.1 hsome
    obtain ⟨r, r', -, g2, -⟩ := C76_two_omitted h hq hs diffs i hi hui hui' g e
    push Not at hl
    rw [C38_no_used_difference _ _ _ _ (fun j hj => by
      rcases hj' : u j with _ | _
      · simp
      · by_cases hji : j = i
        · simp [hji]
        · simp [hl j hj hj' hji])] at g2
    cases g2

/-! ## One pass -/

/-- A strictly best single difference is the one dropped. -/
theorem lj_drops (n : Nat) (hn : 2 ≤ n) (okTwo : Nat → Bool) (t1 t2 : α) (h1 : 0 ≤ t1) (h12 : t1 < t2)
    (one two : Nat → Option α) (k : Nat) (hk : k < n) (X : α) (hX : t1 < X) (hone : one k = some X)
    (hother : ∀ i < n, i ≠ k → ∃ g, one i = some g ∧ g < X) (htwo : ∀ i, i + 1 < n → ∃ g, two i = some g ∧ g ≤ X) :
    dropsO n okTwo t1 t2 one two = (fun i => decide (i = k), fun _ => false) := by
  have hsome : ((List.range n).all (fun i => (one i).isSome) && (List.range (n - 1)).all (fun i => (two i).isSome)) = true := by
    simp only [Bool.and_eq_true, List.all_eq_true, List.mem_range]
    refine ⟨fun i hi => ?_, fun i hi => ?_⟩
    · by_cases hik : i = k
      · rw [hik, hone]; rfl
      · obtain ⟨g, e, -⟩ := hother i hi hik
        rw [e]; rfl
    · obtain ⟨g, e, -⟩ := htwo i (by omega)
      rw [e]; rfl
  unfold dropsO
  rw [if_pos hsome]
  have b1 : amax n (fun i => (one i).getD 0) = X := by
    obtain ⟨i, hi, e⟩ := amax_mem n (by omega) fun i => (one i).getD 0
    have hge := le_amax n (fun i => (one i).getD 0) k hk
    simp only [hone, Option.getD_some] at hge
    by_cases hik : i = k
    · rw [e, hik, hone]; rfl
    · obtain ⟨g, eg, hg⟩ := hother i hi hik
      rw [eg] at e
      rw [e] at hge
      exact absurd hge (not_le.2 hg)
  have b2 : amax (n - 1) (fun i => if okTwo i = true then (two i).getD 0 else 0) ≤ X := by
    obtain ⟨i, hi, e⟩ := amax_mem (n - 1) (by omega) fun i => if okTwo i = true then (two i).getD 0 else 0
    rw [e]
    split
    · obtain ⟨g, eg, hg⟩ := htwo i (by omega)
      rw [eg]; exact hg
    · exact (h1.trans_lt hX).le
  simp only [drops, b1]
  generalize amax (n - 1) (fun i => if okTwo i = true then (two i).getD 0 else 0) = B at *
  have ho : X - t1 > B - t2 := by linarith
  have hX0 : X ≠ 0 := (h1.trans_lt hX).ne'
  simp only [ho, decide_true, and_true, Bool.true_eq_false, and_false, if_false, add_zero, if_pos hX, if_neg hX0,
    Bool.and_true, Bool.not_true, Bool.and_false]
  refine Prod.ext (funext fun i => ?_) rfl
  show decide _ = decide _
  rw [decide_eq_decide]
  constructor
  · rintro ⟨hi, e⟩
    by_contra hik
    obtain ⟨g, eg, hg⟩ := hother i hi hik
    rw [eg] at e
    exact hg.ne e
  · rintro rfl
    exact ⟨hk, by rw [hone]; rfl⟩

/-- On exact data nothing is dropped. -/
theorem lj_quiet {n : Nat} {v : Nat → Bool} {times : Nat → List α} {q : Noise α} {s : α} (h : LkPattern n times)
    (hq : LkNoiseOk q) (hs : 0 < s) (diffs : Nat → α) (b : α) (hb : ∀ i < n, v i = true → diffs i = b)
    (okTwo : Nat → Bool) (t1 t2 : α) (i : Nat) :
    let d := dropsO n okTwo t1 t2 ((search n (covar times) q s diffs).one v) ((search n (covar times) q s diffs).two v)
    d.1 i = false ∧ d.2 i = false := by
  intro d
  obtain ⟨s1, s2⟩ := dropsO_sound n okTwo t1 t2 ((search n (covar times) q s diffs).one v)
    ((search n (covar times) q s diffs).two v) i
  obtain ⟨z1, z2⟩ := search_maskedZero n (covar times) q s diffs
  constructor
  · by_contra hd
    obtain ⟨hi, g, e, -, hne⟩ := s1 (by simpa using hd)
    rcases hv : v i with _ | _
    · exact hne (z1 v i g hv e)
    · exact hne (ld_one h hq hs diffs b hb i hi hv g e)
  · by_contra hd
    obtain ⟨hi, g, e, -, hne⟩ := s2 (by simpa using hd)
    by_cases hv : v i = true ∨ v (i + 1) = true
    · exact hne (ld_two h hq hs diffs b hb i hi hv g e)
    · simp only [not_or, Bool.not_eq_true] at hv
      exact hne (z2 v i g hv.1 hv.2 e)

/-- Specification: one used difference `k` is off, at least two others are used and all of those agree. -/
def LjLone (n : Nat) (u : Nat → Bool) (diffs : Nat → α) (b : α) (k : Nat) : Prop :=
  k < n ∧ u k = true ∧ diffs k ≠ b ∧ (∀ i < n, u i = true → i ≠ k → diffs i = b) ∧
  ∃ i < n, ∃ j < n, i ≠ j ∧ i ≠ k ∧ j ≠ k ∧ u i = true ∧ u j = true

/-- The masking drops the difference that is off and nothing else. -/
theorem lj_mask {n : Nat} {u : Nat → Bool} {times : Nat → List α} {q : Noise α} {s : α} (h : LkPattern n times)
    (hq : LkNoiseOk q) (hs : 0 < s) (diffs : Nat → α) (b : α) (k : Nat) (hl : LjLone n u diffs b k)
    (okTwo : Nat → Bool) (t1 t2 : α) (h1 : 0 ≤ t1) (h12 : t1 < t2) (hbig : ∀ x, t1 < lkChi2 n u times q diffs x)
    (htwo : ∀ i, i + 1 < n → u i = true → u (i + 1) = true → ((search n (covar times) q s diffs).two u i).isSome = true) :
    (maskJumps n okTwo t1 t2 (search n (covar times) q s diffs) u).use = (fun i => u i && decide (i ≠ k))
    ∧ (maskJumps n okTwo t1 t2 (search n (covar times) q s diffs) u).rate = some b := by
  obtain ⟨hk, huk, hkb, hb, i1, hi1, i2, hi2, h12', h1k, h2k, hu1, hu2⟩ := hl
  have hn : 2 ≤ n := by omega
  set S := search n (covar times) q s diffs with hS
  -- dropping the outlier
  obtain ⟨r, r0, f1, f2, f3, f4, -⟩ := C76_one_omitted h hq hs diffs k hk huk ⟨i1, hi1, hu1, h1k⟩
  obtain ⟨r1, e1, c1, c2⟩ := ld_exact (u := fun j => u j && decide (j ≠ k)) h hq hs ⟨i1, hi1, by simp [hu1, h1k]⟩ diffs b
    (fun i hi hv => by
      simp only [Bool.and_eq_true, decide_eq_true_eq] at hv
      exact hb i hi hv.1 hv.2)
  rw [f2] at e1
  obtain rfl := Option.some.inj e1
  rw [c2, sub_zero] at f3
  rw [c1] at f4
  obtain ⟨⟨x, hx⟩, -⟩ := lj_fit h hq hs diffs ⟨k, hk, huk⟩ r f1
  have hX : t1 < r.chisq := by rw [hx]; exact hbig x
  have hX0 : 0 < r.chisq := h1.trans_lt hX
  -- dropping another one
  have hother : ∀ i < n, i ≠ k → ∃ g, S.one u i = some g ∧ g < r.chisq := by
    intro i hi hik
    rcases hui : u i with _ | _
    · exact ⟨0, (C76_masked_or_last h hq hs diffs i hi ⟨k, hk, huk⟩).1 hui, hX0⟩
    · obtain ⟨r', r'', g1, g2, g3, -, -⟩ := C76_one_omitted h hq hs diffs i hi hui ⟨k, hk, huk, fun e => hik e.symm⟩
      rw [f1] at g1
      obtain rfl := Option.some.inj g1
      refine ⟨_, g3, ?_⟩
      obtain ⟨j, hj, hji, hjk, huj⟩ : ∃ j < n, j ≠ i ∧ j ≠ k ∧ u j = true := by
        by_cases h : i1 = i
        · exact ⟨i2, hi2, by omega, h2k, hu2⟩
        · exact ⟨i1, hi1, h, h1k, hu1⟩
      have := (lj_fit h hq hs diffs ⟨k, hk, by simp [huk, Ne.symm hik]⟩ r'' g2).2.2 k j hk hj
        (by simp [huk, Ne.symm hik]) (by simp [huj, hji]) (by rw [hb j hj huj hjk]; exact hkb)
      linarith
  have hle : ∀ i < n, ∃ g, S.one u i = some g ∧ g ≤ r.chisq := by
    intro i hi
    by_cases hik : i = k
    · exact ⟨_, by rw [hik]; exact f3, le_refl _⟩
    · obtain ⟨g, e, hg⟩ := hother i hi hik
      exact ⟨g, e, hg.le⟩
  have htwo' : ∀ i, i + 1 < n → ∃ g, S.two u i = some g ∧ g ≤ r.chisq := by
    intro i hi
    rcases h1 : u i with _ | _
    · obtain ⟨g, e, hg⟩ := hle (i + 1) hi
      refine ⟨g, ?_, hg⟩
      rw [← e]
      simp only [hS, search, h1, if_true]
    · rcases h2 : u (i + 1) with _ | _
      · obtain ⟨g, e, hg⟩ := hle i (by omega)
        refine ⟨g, ?_, hg⟩
        rw [← e]
        simp only [hS, search, h1, h2, if_true]
        simp
      · obtain ⟨g, e⟩ := Option.isSome_iff_exists.1 (htwo i hi h1 h2)
        refine ⟨g, e, ?_⟩
        obtain ⟨r', r'', g1, g2, g3, -⟩ := C76_two_omitted h hq hs diffs i hi h1 h2 g e
        rw [f1] at g1
        obtain rfl := Option.some.inj g1
        by_cases hne : ∃ j < n, (u j && decide (j ≠ i) && decide (j ≠ i + 1)) = true
        · have := (lj_fit h hq hs diffs hne r'' g2).2.1
          linarith
        · push Not at hne
          rw [C38_no_used_difference _ _ _ _ (fun j hj => by simpa using hne j hj)] at g2
          cases g2
  have hd := lj_drops n hn okTwo t1 t2 h1 h12 (S.one u) (S.two u) k hk r.chisq hX f3 hother htwo'
  -- the first pass
  have hrates : ∀ i < n, (S.rateOne u i).isSome = true := fun i hi => by
    obtain ⟨g, e, -⟩ := hle i hi
    exact (search_ratesThere n (covar times) q s diffs).1 u i (by rw [← hS, e]; rfl)
  have hsum : sumRates n (S.rateOne u) (fun i => decide (i = k)) = some b := by
    unfold sumRates
    rw [if_pos (by simpa using hrates)]
    congr 1
    have : ((List.range n).map fun i => if decide (i = k) = true then (S.rateOne u i).getD 0 else 0).sum
        = ∑ i ∈ range n, if decide (i = k) = true then (S.rateOne u i).getD 0 else 0 := by
      rfl
    rw [this, sum_eq_single k]
    · rw [if_pos (by simp), f4]; rfl
    · intro j _ hjk
      rw [if_neg (by simpa using hjk)]
    · intro hk'
      exact absurd (mem_range.2 hk) hk'
  have hp1 : passes n okTwo t1 t2 S u 1 = ⟨fun i => u i && decide (i ≠ k), decide (3 < count n fun i => u i && decide (i ≠ k)),
      some b⟩ := by
    show maskPass n okTwo t1 t2 S ⟨u, true, S.rate u⟩ 0 = _
    have hany1 : ((List.range n).any fun i => decide (i = k)) = true := by
      simp only [List.any_eq_true, List.mem_range, decide_eq_true_eq]
      exact ⟨k, hk, rfl⟩
    have hany2 : ((List.range n).any fun _ => false) = false := by simp
    have hfun : (fun i => u i && !decide (i = k) && !false && !(decide (0 < i) && false)) = fun i => u i && decide (i ≠ k) := by
      funext i
      simp
    simp only [maskPass, if_true, hd, hany1, hany2, hfun, Bool.or_false, Bool.false_eq_true, if_false, hsum]
  have hpj : ∀ j, (passes n okTwo t1 t2 S u (j + 1)).use = (fun i => u i && decide (i ≠ k))
      ∧ (passes n okTwo t1 t2 S u (j + 1)).rate = some b := by
    intro j
    induction j with
    | zero => rw [hp1]; exact ⟨rfl, rfl⟩
    | succ j ih =>
      obtain ⟨ih1, ih2⟩ := ih
      show (maskPass n okTwo t1 t2 S (passes n okTwo t1 t2 S u (j + 1)) (j + 1)).use = _
        ∧ (maskPass n okTwo t1 t2 S (passes n okTwo t1 t2 S u (j + 1)) (j + 1)).rate = _
      simp only [maskPass]
      split
      · have hz := lj_quiet (v := fun i => u i && decide (i ≠ k)) h hq hs diffs b (fun i hi hv => by
          simp only [Bool.and_eq_true, decide_eq_true_eq] at hv
          exact hb i hi hv.1 hv.2) okTwo t1 t2
        rw [if_neg]
        · exact ⟨ih1, ih2⟩
        · rw [ih1]
          simp only [Bool.or_eq_true, List.any_eq_true, not_or, not_exists, not_and, Bool.not_eq_true]
          exact ⟨fun i _ => (hz i).1, fun i _ => (hz i).2⟩
      · exact ⟨ih1, ih2⟩
  rw [maskJumps_eq]
  obtain ⟨m, rfl⟩ : ∃ m, n = m + 1 := ⟨n - 1, by omega⟩
  exact hpj m

/-! ## C131 -/

/-- Specification: the jumps fitted to any two adjacent used differences are correlated (`S`: covariance of the used
differences): `(S⁻¹ 1)_i (S⁻¹ 1)_{i+1} ≠ (1ᵀ S⁻¹ 1) (S⁻¹)_{i,i+1}`. -/
def LjPairs (n : Nat) (u : Nat → Bool) (times : Nat → List α) (q : Noise α) : Prop :=
  ∀ i (hi : i + 1 < n) (hui : u i = true) (hui' : u (i + 1) = true),
    ((lkCov n u times q)⁻¹ *ᵥ fun _ => 1) ⟨⟨i, by omega⟩, hui⟩ * ((lkCov n u times q)⁻¹ *ᵥ fun _ => 1) ⟨⟨i + 1, hi⟩, hui'⟩
      ≠ ((fun _ => 1) ⬝ᵥ ((lkCov n u times q)⁻¹ *ᵥ fun _ => 1)) * (lkCov n u times q)⁻¹ ⟨⟨i + 1, hi⟩, hui'⟩ ⟨⟨i, by omega⟩, hui⟩

/-- Specification: the noise model of the jump search: the rate guess is the median of the differences, or zero. -/
def ljNoise (n : Nat) (c : Cfg α) (diffs : Nat → α) : Noise α :=
  ⟨max 0 ((Verif.Jump.nanmedian ((List.range n).map fun i => some (diffs i))).getD 0), c.gain, c.rnoise⟩

theorem lj_pos (x : α) : pos x = max 0 x := by
  unfold pos
  split
  · rename_i h; rw [max_eq_right h.le]
  · rename_i h; rw [max_eq_left (not_lt.1 h)]

/-- Specification: settings that make sense, with the threshold for two differences above that for one. -/
def LjCfg (c : Cfg α) : Prop := 0 < c.gain ∧ c.rnoise ≠ 0 ∧ 0 ≤ c.dark ∧ 0 ≤ c.t1 ∧ c.t1 < c.t2

/-- C131 (one pixel).  Group differences that agree but for one: if no count rate explains them within the threshold, and
the jumps fitted to adjacent differences are correlated, then exactly the odd difference is dropped, the group after
it is flagged, and the fit gives the common difference with chi-square zero. -/
theorem C131_lone_jump {root : α → Nat → α} (hr : RootOk root) {n : Nat} {times : Nat → List α}
    (h : LkPattern n times) (c : Cfg α) (hc : LjCfg c) (jump : Nat) (gdq : Nat → Nat) (diffs : Nat → α) (b : α) (k : Nat)
    (hl : LjLone n (diffs2use gdq) diffs b k)
    (hbig : ∀ x, c.t1 < lkChi2 n (diffs2use gdq) times (ljNoise n c diffs) diffs x)
    (hpair : LjPairs n (diffs2use gdq) times (ljNoise n c diffs)) :
    let p := pixelFit root n (covar times) c jump gdq diffs
    (∀ i, p.1 i = true ↔ diffs2use gdq i = true ∧ i ≠ k) ∧ p.2.1 (k + 1) = gdq (k + 1) ||| jump ∧
      (∀ g, g ≠ k + 1 → p.2.1 g = gdq g) ∧
      ∃ r, p.2.2 = some r ∧ r.countrate = b ∧ r.chisq = 0 ∧ 0 ≤ r.varP ∧ 0 < r.varR := by
  intro p
  obtain ⟨c1, c2, c3, c4, c5⟩ := hc
  have hn : 1 ≤ n := by have := hl.1; omega
  have hq0 : (⟨pos ((Verif.Jump.nanmedian ((List.range n).map fun i => some (diffs i))).getD 0), c.gain, c.rnoise⟩ : Noise α)
      = ljNoise n c diffs := by
    rw [lj_pos]; rfl
  have hq : LkNoiseOk (ljNoise n c diffs) := ⟨le_max_left _ _, c1, c2⟩
  have hs := (C38_rescaled_determinant hr h hq hn).1
  have htwo : ∀ i, i + 1 < n → diffs2use gdq i = true → diffs2use gdq (i + 1) = true →
      ((search n (covar times) (ljNoise n c diffs) (scaleOf root n (covar times) (ljNoise n c diffs)) diffs).two
        (diffs2use gdq) i).isSome = true := by
    intro i hi hu hu'
    refine (C76_two_defined h hq hs diffs i hi hu hu').2 ⟨?_, hpair i hi hu hu'⟩
    obtain ⟨hk, huk, -, -, i1, hi1, i2, hi2, h12, h1k, h2k, hu1, hu2⟩ := hl
    by_cases ha : i1 ≠ i ∧ i1 ≠ i + 1
    · exact ⟨i1, hi1, hu1, ha.1, ha.2⟩
    · by_cases hb : i2 ≠ i ∧ i2 ≠ i + 1
      · exact ⟨i2, hi2, hu2, hb.1, hb.2⟩
      · exact ⟨k, hk, huk, by omega, by omega⟩
  obtain ⟨m1, m2⟩ := lj_mask h hq hs diffs b k hl (fun i => decide (1 < (covar times).nreads (i + 1))) c.t1 c.t2 c4 c5 hbig htwo
  have hp1 : p.1 = fun i => diffs2use gdq i && decide (i ≠ k) := by
    rw [← m1, ← hq0]
    rfl
  have hp2 : p.2.1 = flagJumps jump gdq (diffs2use gdq) p.1 := rfl
  have hp3 : p.2.2 = fitWith n (covar times) ⟨pos b + c.dark, c.gain, c.rnoise⟩
      (scaleOf root n (covar times) ⟨pos b + c.dark, c.gain, c.rnoise⟩) diffs (num p.1) := by
    rw [hp1]
    rw [← hq0] at m1 m2
    show (pixelFit root n (covar times) c jump gdq diffs).2.2 = _
    simp only [pixelFit, m1, m2]
  have huk := hl.2.1
  refine ⟨fun i => by rw [hp1]; simp, ?_, fun g hg => ?_, ?_⟩
  · rw [hp2, hp1]
    simp [flagJumps, huk]
  · rw [hp2, hp1]
    unfold flagJumps
    split
    · rename_i h0; rw [h0]
    · have : g - 1 ≠ k := by omega
      simp [this]
  · obtain ⟨-, -, -, hb, i1, hi1, i2, hi2, -, h1k, -, hu1, -⟩ := hl
    have hu : ∃ i < n, p.1 i = true := ⟨i1, hi1, by rw [hp1]; simp [hu1, h1k]⟩
    have hq' : LkNoiseOk (⟨pos b + c.dark, c.gain, c.rnoise⟩ : Noise α) := ⟨add_nonneg (ld_pos b) c3, c1, c2⟩
    have hs' := (C38_rescaled_determinant hr h hq' hn).1
    obtain ⟨r, e1, e2, e3⟩ := ld_exact (u := p.1) h hq' hs' hu diffs b (fun i hi hv => by
      rw [hp1] at hv
      simp only [Bool.and_eq_true, decide_eq_true_eq] at hv
      exact hb i hi hv.1 hv.2)
    obtain ⟨r', g1, -, -, -, -, -, -, -, -, -, -, g2, g3, -⟩ := C38_generalised_least_squares h hq' hs' hu diffs
    rw [e1] at g1
    obtain rfl := Option.some.inj g1
    exact ⟨r, hp3.trans e1, e2, e3, g2, g3⟩

/-- Specification: a ramp of slope `b` with a step of height `d` between groups `h - 1` and `h`; the zero frame comes
before the step.  Flagged groups hold any numbers. -/
def LjStep (ng : Nat) (times : List (List α)) (a b d : α) (h : Nat) (zero : Bool) (e : IntIn α) : Prop :=
  (∀ g < ng, ∃ x, e.data g = some x ∧ (LdClean (e.gdq g) →
    x = ((times.getD g []).map fun t => a + b * t + if h ≤ g then d else 0).sum / ((times.getD g []).length : α))) ∧
  (zero = true → ∃ z, e.zf = some z ∧ (LdClean (e.gdq 0) → z = a + b * (times.getD 0 []).headD 0))

/-- The same ramp without the step. -/
def ljFlat (d : α) (h : Nat) (e : IntIn α) : IntIn α :=
  { e with data := fun g => (e.data g).map fun x => if h ≤ g then x - d else x }

theorem lj_sum_add (l : List α) (f : α → α) (d : α) : (l.map fun t => f t + d).sum = (l.map f).sum + (l.length : α) * d := by
  induction l with
  | nil => simp
  | cons x l ih =>
    simp only [List.map_cons, List.sum_cons, ih, List.length_cons]
    push_cast
    ring

theorem lj_flat {ng : Nat} {times : List (List α)} (ht : LdTimes ng times) {a b d : α} {h : Nat} {zero : Bool} {e : IntIn α}
    (hs : LjStep ng times a b d h zero e) : LdStraight ng times a b zero (ljFlat d h e) := by
  obtain ⟨h1, h2⟩ := hs
  refine ⟨fun g hg => ?_, h2⟩
  obtain ⟨x, ex, hx⟩ := h1 g hg
  refine ⟨if h ≤ g then x - d else x, by simp [ljFlat, ex], fun hcl => ?_⟩
  rw [hx hcl, lj_sum_add]
  have hlen : ((times.getD g []).length : α) ≠ 0 := by
    have hg' : g < times.length := by rw [ht.1]; exact hg
    have e : times.getD g [] = times[g] := by simp [List.getD_eq_getElem?_getD, hg']
    have := List.length_pos_of_ne_nil (ht.2.1 _ (List.getElem_mem hg'))
    rw [e]
    positivity
  split
  · field_simp
    ring
  · simp

/-- The prepared samples of a ramp with a step. -/
theorem lj_prepared (ng nframes : Nat) (pattern : Option (List (List α))) (default : List (List α)) (hasZero : Bool)
    (hng : 4 ≤ ng) (p : List (List α)) (hp : pattern.getD default = p) (ht : LdTimes ng p)
    (hfr : hasZero = true → (p.getD 0 []).length = nframes) (a b d : α) (h : Nat) (hh : 1 ≤ h) (e : IntIn α)
    (hs : LjStep ng p a b d h hasZero e) (useZero : Bool) (times : List (List α))
    (hrt : (readTimes pattern default hasZero).2 = (times, useZero)) :
    LkPattern (ng + (if useZero then 1 else 0) - 1) (fun j => times.getD j []) ∧
    ∀ g < ng + (if useZero then 1 else 0), ∃ x, (if useZero then splitZero nframes e.zf e.data else e.data) g = some x ∧
      (LdClean ((if useZero then shiftDq e.gdq else e.gdq) g) →
        x = a + b * meanT (times.getD g []) + if h + (if useZero then 1 else 0) ≤ g then d else 0) := by
  obtain ⟨-, k2, k3⟩ := ld_prepared ng nframes pattern default hasZero hng p hp ht hfr a b (ljFlat d h e) (lj_flat ht hs)
  rw [hrt] at k2 k3
  refine ⟨k2, fun g hg => ?_⟩
  obtain ⟨x', e1, e2⟩ := k3 g hg
  cases useZero with
  | true =>
    simp only [if_true] at e1 e2 ⊢
    match g with
    | 0 => exact ⟨x', e1, fun hc => by rw [e2 hc, if_neg (by omega), add_zero]⟩
    | 1 =>
      refine ⟨x', ?_, fun hc => by rw [e2 hc, if_neg (by omega), add_zero]⟩
      rw [← e1]
      have : (ljFlat d h e).data 0 = e.data 0 := by
        have h0 : ¬ h ≤ 0 := by omega
        simp only [ljFlat, if_neg h0, Option.map_id']
      simp only [splitZero, this]
      rfl
    | g + 2 =>
      have e1' : (e.data (g + 1)).map (fun x => if h ≤ g + 1 then x - d else x) = some x' := e1
      obtain ⟨x, ex, hx⟩ := Option.map_eq_some_iff.1 e1'
      refine ⟨x, ex, fun hc => ?_⟩
      have := e2 hc
      rw [← hx] at this
      by_cases hgh : h ≤ g + 1
      · rw [if_pos hgh] at this
        rw [if_pos (by omega), ← this]
        ring
      · rw [if_neg hgh] at this
        rw [if_neg (by omega), ← this]
        ring
  | false =>
    simp only [Bool.false_eq_true, if_false, Nat.add_zero] at e1 e2 ⊢
    have e1' : (e.data g).map (fun x => if h ≤ g then x - d else x) = some x' := e1
    obtain ⟨x, ex, hx⟩ := Option.map_eq_some_iff.1 e1'
    refine ⟨x, ex, fun hc => ?_⟩
    have := e2 hc
    rw [← hx] at this
    by_cases hgh : h ≤ g
    · rw [if_pos hgh] at this
      rw [if_pos hgh, ← this]
      ring
    · rw [if_neg hgh] at this
      rw [if_neg hgh, ← this]
      ring

/-- The group differences of one integration as the fit sees them. -/
def ljDiffs (nframes : Nat) (useZero : Bool) (times : List (List α)) (e : IntIn α) (i : Nat) : α :=
  (diffsOf (covar fun j => times.getD j []) (if useZero then splitZero nframes e.zf e.data else e.data) i).getD 0

/-- C131 (one integration).  A ramp of slope `b` with one step, between two clean groups, of a height that no count rate
explains within the threshold: the group after the step is flagged as a jump and no other, and the fit gives slope `b`
with chi-square zero. -/
theorem C131_integration {root : α → Nat → α} (hr : RootOk root) (fl : LikelyDriver.Flags) (ng nframes : Nat)
    (pattern : Option (List (List α))) (default : List (List α)) (hasZero : Bool) (c : Cfg α) (hc : LjCfg c) (pixeldq : Nat)
    (hng : 4 ≤ ng) (ht : LdTimes ng (pattern.getD default))
    (hfr : hasZero = true → ((pattern.getD default).getD 0 []).length = nframes) (a b d : α) (hd : d ≠ 0) (h : Nat)
    (hh : 1 ≤ h) (hhn : h < ng) (e : IntIn α) (hs : LjStep ng (pattern.getD default) a b d h hasZero e)
    (hc0 : LdClean (e.gdq (h - 1))) (hc1 : LdClean (e.gdq h)) (useZero : Bool) (times : List (List α))
    (hrt : (readTimes pattern default hasZero).2 = (times, useZero)) (n : Nat) (hn : n = ng + (if useZero then 1 else 0) - 1)
    (dq : Nat → Nat) (hdq : dq = if useZero then shiftDq e.gdq else e.gdq) (k : Nat)
    (hk : k = h - 1 + if useZero then 1 else 0)
    (hmore : ∃ i < n, ∃ j < n, i ≠ j ∧ i ≠ k ∧ j ≠ k ∧ (LdClean (dq i) ∧ LdClean (dq (i + 1))) ∧
      LdClean (dq j) ∧ LdClean (dq (j + 1)))
    (hbig : ∀ x, c.t1 < lkChi2 n (diffs2use dq) (fun j => times.getD j [])
      (ljNoise n c (ljDiffs nframes useZero times e)) (ljDiffs nframes useZero times e) x)
    (hpair : LjPairs n (diffs2use dq) (fun j => times.getD j []) (ljNoise n c (ljDiffs nframes useZero times e))) :
    let o := fitInt root fl ng nframes useZero times c none pixeldq e
    o.gdq h = e.gdq h ||| fl.jump ∧ (∀ g < ng, g ≠ h → o.gdq g = e.gdq g) ∧
    ∃ r, o.fit = some r ∧ r.countrate = b ∧ r.chisq = 0 ∧ 0 ≤ r.varP ∧ 0 < r.varR := by
  intro o
  obtain ⟨hT, hx⟩ := lj_prepared ng nframes pattern default hasZero hng _ rfl ht hfr a b d h hh e hs useZero times hrt
  rw [← hn] at hT
  rw [← hdq] at hx
  have hrows : ng + (if useZero then 1 else 0) = n + 1 := by omega
  rw [hrows] at hx
  set data := if useZero then splitZero nframes e.zf e.data else e.data with hdata
  set cv := covar fun j => times.getD j [] with hcv
  have hsome : ∀ i < n, (diffsOf cv data i).isSome = true := by
    intro i hi
    obtain ⟨x, e1, -⟩ := hx i (by omega)
    obtain ⟨y, e2, -⟩ := hx (i + 1) (by omega)
    simp [diffsOf, e1, e2]
  have hclk : LdClean (dq k) ∧ LdClean (dq (k + 1)) := by
    rw [hdq, hk]
    cases useZero with
    | true =>
      obtain ⟨h', rfl⟩ : ∃ h', h = h' + 1 := ⟨h - 1, by omega⟩
      exact ⟨hc0, hc1⟩
    | false =>
      simp only [Bool.false_eq_true, if_false, Nat.add_zero]
      rw [Nat.sub_add_cancel hh]
      exact ⟨hc0, hc1⟩
  have hkn : k < n := by omega
  have hval : ∀ i < n, LdClean (dq i) → LdClean (dq (i + 1)) →
      ljDiffs nframes useZero times e i = b + if i = k then d / cv.delta k else 0 := by
    intro i hi u1 u2
    obtain ⟨x, e1, hx1⟩ := hx i (by omega)
    obtain ⟨y, e2, hx2⟩ := hx (i + 1) (by omega)
    have hdel : 0 < meanT (times.getD (i + 1) []) - meanT (times.getD i []) := hT.ordered.delta_pos hi
    show (diffsOf cv data i).getD 0 = _
    simp only [diffsOf, e1, e2, hcv, covar, Option.getD_some]
    rw [hx1 u1, hx2 u2, div_eq_iff hdel.ne']
    by_cases hik : i = k
    · subst hik
      rw [if_pos rfl, if_pos (by omega), if_neg (by omega)]
      field_simp
      ring
    · rw [if_neg hik]
      by_cases hgt : k < i
      · rw [if_pos (by omega), if_pos (by omega)]
        ring
      · rw [if_neg (by omega), if_neg (by omega)]
        ring
  have hdelk : cv.delta k ≠ 0 := (hT.ordered.delta_pos hkn).ne'
  have hlone : LjLone n (diffs2use dq) (ljDiffs nframes useZero times e) b k := by
    refine ⟨hkn, (ld_use dq k).2 hclk, ?_, fun i hi hu hik => ?_, ?_⟩
    · rw [hval k hkn hclk.1 hclk.2, if_pos rfl]
      intro he
      have : d / cv.delta k = 0 := by linarith
      rcases div_eq_zero_iff.1 this with h0 | h0
      · exact hd h0
      · exact hdelk h0
    · obtain ⟨u1, u2⟩ := (ld_use dq i).1 hu
      rw [hval i hi u1 u2, if_neg hik, add_zero]
    · obtain ⟨i, hi, j, hj, q1, q2, q3, q4, q5⟩ := hmore
      exact ⟨i, hi, j, hj, q1, q2, q3, (ld_use dq i).2 q4, (ld_use dq j).2 q5⟩
  obtain ⟨-, f2, f3, f4⟩ := C131_lone_jump hr hT c hc fl.jump dq _ b k hlone hbig hpair
  have hpix : pixelFitE root n cv c fl.jump none dq (diffsOf cv data)
      = pixelFit root n cv c fl.jump dq (ljDiffs nframes useZero times e) := by
    rw [ld_fitE, pixelFitO, if_pos]
    · rfl
    · simp only [List.all_eq_true, List.mem_range]
      exact hsome
  have ho : o.fit = (pixelFitE root n cv c fl.jump none dq (diffsOf cv data)).2.2 := by
    rw [hn, hdq]; rfl
  have hog : ∀ g, o.gdq g = e.gdq g ||| (pixelFitE root n cv c fl.jump none dq (diffsOf cv data)).2.1
      (g + if useZero then 1 else 0) := by
    intro g
    rw [hn, hdq]; rfl
  rw [hpix] at ho
  have hsh : ∀ g, dq (g + if useZero then 1 else 0) = e.gdq g := by
    intro g
    rw [hdq]
    cases useZero <;> rfl
  refine ⟨?_, fun g hg hgh => ?_, ?_⟩
  · rw [hog, hpix]
    have hkh : h + (if useZero then 1 else 0) = k + 1 := by omega
    rw [hkh, f2, ← hkh, hsh, ← Nat.or_assoc, Nat.or_self]
  · rw [hog, hpix, f3 _ (by omega), hsh, Nat.or_self]
  · rw [ho]
    exact f4

/-! ## Findings and examples -/

/-- Ten groups of two reads, slope three, a hit of 50 between the fourth and the fifth; the last group is flagged. -/
def ljEx : IntIn ℚ := ⟨fun g => some (if g = 9 then 0 else 9 * (g : ℚ) + 5 + if 4 ≤ g then 50 else 0), fun g => if g = 9 then 1 else 0,
  none⟩

def ljTimes : List (List ℚ) := (List.range 10).map fun g => [3 * (g : ℚ) + 1, 3 * (g : ℚ) + 2]

example : LdTimes 10 ljTimes := by refine ⟨rfl, by decide +kernel, by decide +kernel⟩

example : LjStep 10 ljTimes (1 / 2) 3 50 4 false ljEx := by
  refine ⟨fun g hg => ⟨_, rfl, fun hcl => ?_⟩, fun h => by cases h⟩
  interval_cases g <;> simp [List.range, List.range.loop, ljTimes, ljEx, LdClean] at hcl ⊢ <;> norm_num

example : LjCfg (⟨1, 3, 0, 16, 20⟩ : Cfg ℚ) := by refine ⟨?_, ?_, ?_, ?_, ?_⟩ <;> norm_num

example : LjLone 9 (diffs2use ljEx.gdq) (ljDiffs 2 false ljTimes ljEx) 3 3 := by
  refine ⟨by decide, by decide, by decide +kernel, by decide +kernel, 0, by decide, 1, by decide, ?_⟩
  decide

example : ∀ x, 16 < lkChi2 9 (diffs2use ljEx.gdq) (fun j => ljTimes.getD j [])
    (ljNoise 9 ⟨1, 3, 0, 16, 20⟩ (ljDiffs 2 false ljTimes ljEx)) (ljDiffs 2 false ljTimes ljEx) x := by
  intro x
  have hp : LkPattern 9 fun j => ljTimes.getD j [] := ld_times (ng := 10) ⟨rfl, by decide +kernel, by decide +kernel⟩ (by decide)
  obtain ⟨r, h1, h2, -, h3, -⟩ := C38_generalised_least_squares (s := 1) (u := diffs2use ljEx.gdq) hp
    (q := ljNoise 9 ⟨1, 3, 0, 16, 20⟩ (ljDiffs 2 false ljTimes ljEx)) ⟨le_max_left _ _, by decide +kernel, by decide +kernel⟩
    one_pos ⟨0, by decide, by decide⟩ (ljDiffs 2 false ljTimes ljEx)
  refine lt_of_lt_of_le ?_ (h2 x)
  rw [← h3]
  have : ((fitWith 9 (covar fun j => ljTimes.getD j []) (ljNoise 9 ⟨1, 3, 0, 16, 20⟩ (ljDiffs 2 false ljTimes ljEx)) 1
    (ljDiffs 2 false ljTimes ljEx) (num (diffs2use ljEx.gdq))).map fun r => decide (16 < r.chisq)) = some true := by decide +kernel
  rw [h1] at this
  simpa using this

example : LjPairs 9 (diffs2use ljEx.gdq) (fun j => ljTimes.getD j [])
    (ljNoise 9 ⟨1, 3, 0, 16, 20⟩ (ljDiffs 2 false ljTimes ljEx)) := by
  intro i hi hu hu'
  have hp : LkPattern 9 fun j => ljTimes.getD j [] := ld_times (ng := 10) ⟨rfl, by decide +kernel, by decide +kernel⟩ (by decide)
  have hall : ∀ i < 8, (((search 9 (covar fun j => ljTimes.getD j []) (ljNoise 9 ⟨1, 3, 0, 16, 20⟩ (ljDiffs 2 false ljTimes ljEx)) 1
    (ljDiffs 2 false ljTimes ljEx)).two (diffs2use ljEx.gdq) i).isSome = true) := by
    decide +kernel
  exact ((C76_two_defined hp ⟨le_max_left _ _, by decide +kernel, by decide +kernel⟩ one_pos _ i hi hu hu').1
    (hall i (by omega))).2

example : let o := fitInt (fun _ _ => 1) ⟨1, 2, 4⟩ 10 2 false ljTimes (⟨1, 3, 0, 16, 20⟩ : Cfg ℚ) none 0 ljEx
    ((List.range 10).map o.gdq, o.fit.map fun r => (r.countrate, r.chisq))
      = ([0, 0, 0, 0, 4, 0, 0, 0, 0, 1], some (3, 0)) := by
  decide +kernel

/-- C131 (finding).  Five evenly spaced groups of one read without signal and a hit of a million times the read noise:
in exact arithmetic the chi-square of leaving out the first two differences is NaN (`cjck_fac` vanishes), so nothing is
dropped, no jump is flagged, and the hit becomes the slope. -/
theorem C131_hit_not_found :
    ∃ e : IntIn ℚ, LjStep 5 [[1], [2], [3], [4], [5]] 0 0 1000000 2 false e ∧ (∀ g, e.gdq g = 0) ∧
      let o := fitInt (fun _ _ => 1) ⟨1, 2, 4⟩ 5 1 false [[1], [2], [3], [4], [5]] (⟨1, 1, 0, 16, 20⟩ : Cfg ℚ) none 0 e
      (List.range 5).map o.gdq = [0, 0, 0, 0, 0] ∧ o.fit.map (fun r => decide (200000 < r.countrate)) = some true := by
  refine ⟨⟨fun g => some (if 2 ≤ g then 1000000 else 0), fun _ => 0, none⟩, ⟨fun g hg => ⟨_, rfl, fun _ => ?_⟩, fun h => by cases h⟩,
    fun _ => rfl, by decide +kernel, by decide +kernel⟩
  interval_cases g <;> norm_num

end Verif.Thm
