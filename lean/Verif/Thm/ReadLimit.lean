import Verif.Thm.PhotonLimit
import Verif.Thm.OlsLess
import Mathlib.Algebra.Order.BigOperators.Ring.Finset

/-! # No fit claims less read noise than the straight line through all reads has (C189) -/

set_option linter.unusedSectionVars false

namespace Verif.Thm

variable {α : Type} [Field α] [LinearOrder α] [IsStrictOrderedRing α]

/-! ## Specification -/

/-- Specification: the sum of the squared distances of the mean times of the resultants from the time `m`, each counted as often as the
resultant has reads.  The straight line fitted to resultants with read noise `σ` only has a slope of the variance `σ² / bdSpread` for the
`m` for which this is smallest, and no other unbiased linear combination has a smaller one. -/
def bdSpread (rt : α) (pattern : List (List α)) (m : α) : α :=
  (pattern.map fun l => (l.length : α) * (rt * (l.sum / (l.length : α)) - m) ^ 2).sum

/-! ## Lemmas -/

/-- Coefficients of sum zero that give one for a line of slope one leave at least the noise of the straight-line fit. -/
theorem bd_limit (s : Finset Nat) (c t n : Nat → α) (hn : ∀ i ∈ s, 0 < n i) (m : α) (h0 : ∑ i ∈ s, c i = 0)
    (h1 : ∑ i ∈ s, c i * t i = 1) : 1 ≤ (∑ i ∈ s, c i ^ 2 / n i) * ∑ i ∈ s, n i * (t i - m) ^ 2 := by
  have h := Finset.sum_sq_le_sum_mul_sum_of_sq_le_mul s (r := fun i => c i * (t i - m)) (f := fun i => c i ^ 2 / n i)
    (g := fun i => n i * (t i - m) ^ 2) (fun i hi => div_nonneg (sq_nonneg _) (hn i hi).le)
    (fun i hi => mul_nonneg (hn i hi).le (sq_nonneg _)) fun i hi => by
      have := (hn i hi).ne'
      refine le_of_eq ?_
      field_simp
  have e : ∑ i ∈ s, c i * (t i - m) = 1 := by
    simp only [mul_sub, Finset.sum_sub_distrib, ← Finset.sum_mul, h0, h1]
    ring
  rw [e, one_pow] at h
  exact h

theorem bd_pattern (rt : α) (pattern : List (List α)) (m : α) :
    bdSpread rt pattern m = ∑ i ∈ Finset.range pattern.length,
      ((pattern.getD i []).length : α) * (rt * ((pattern.getD i []).sum / ((pattern.getD i []).length : α)) - m) ^ 2 := by
  unfold bdSpread
  rw [← rt_listSum]
  congr 1
  refine List.ext_getElem (by simp) fun i h1 h2 => ?_
  simp only [List.length_map] at h1
  simp [h1]

/-! ## Casertano et al. -/

section Cas22
open Verif.Cas22 Finset

/-- **C189**, one ramp of `fit_ramps_casertano`, whatever weights the power gives the resultants. -/
theorem C189_ramp (cfg : Cfg α) (hp : Cas22PowOk cfg.pow) (p : Pix α) (r : Ramp) (hr : r.start < r.stop)
    (ht : p.tbar r.start ≠ p.tbar r.stop) (hn : ∀ i, r.start ≤ i → i ≤ r.stop → 0 < p.nreads i) (m : α) :
    ∃ f, fitRamp cfg p r = some f
      ∧ p.readNoise ^ 2 ≤ f.readVar * ∑ i ∈ Finset.Icc r.start r.stop, (p.nreads i : α) * (p.tbar i - m) ^ 2 := by
  obtain ⟨c, h1, h2, h3, -⟩ := fitRamp_some cfg hp p r hr ht hn
  refine ⟨_, h1, ?_⟩
  rw [(foldl_fitStep p c r.idx (⟨0, 0, 0⟩, 0)).2, ca_sum, zero_add]
  rw [ca_sum] at h2 h3
  have h := bd_limit (Finset.Icc r.start r.stop) c p.tbar (fun i => (p.nreads i : α))
    (fun i hi => by
      rw [Finset.mem_Icc] at hi
      exact_mod_cast hn i hi.1 hi.2) m h2 h3
  have h' := mul_le_mul_of_nonneg_left h (sq_nonneg p.readNoise)
  rw [mul_one, ← mul_assoc] at h'
  refine h'.trans (le_of_eq ?_)
  rw [mul_sum (f := fun i => c i ^ 2 / (p.nreads i : α))]
  congr 1
  exact sum_congr rfl fun i _ => by ring

/-- **C189**, one pixel: slope and variances are all zero, or the read-noise variance is at least that of the straight line through all
resultants, whatever is flagged and wherever jumps are found. -/
theorem C189_pixel (cfg : Cfg α) (hp : Cas22PowOk cfg.pow) (p : Pix α) (dq : Nat → Nat) (n : Nat)
    (hn : ∀ i, i < n → 0 < p.nreads i) (ht : ∀ i j, i < j → j < n → p.tbar i < p.tbar j) (hrn : p.readNoise ≠ 0) (m : α) :
    ∃ dq' ramps avg, (∀ fuel, n + 1 ≤ fuel → fitPixel cfg p dq n fuel = some (dq', ramps, avg))
      ∧ (avg = ⟨0, 0, 0⟩ ∨ 0 < avg.readVar
        ∧ p.readNoise ^ 2 ≤ avg.readVar * ∑ i ∈ range n, (p.nreads i : α) * (p.tbar i - m) ^ 2) := by
  obtain ⟨dq', ramps, avg, h1, h2, -⟩ := C36_pixel cfg p dq n
  have hdis := qt_pairwise cfg p dq dq' n _ ramps avg (h1 _ le_rfl) le_rfl
  refine ⟨dq', ramps, avg, h1, ?_⟩
  have hav : avg = average (ramps.map (fitRamp cfg p)) := by
    have := h1 (n + 1) le_rfl
    unfold fitPixel at this
    cases hl : runLoop (detect cfg p) (n + 1) ⟨(initRamps dq n).reverse, dq, []⟩ with
    | none => rw [hl] at this; simp at this
    | some s =>
      rw [hl] at this
      simp only [Option.map_some, Option.some.injEq, Prod.mk.injEq] at this
      rw [← this.2.2, this.2.1]
  have hv := C73_pixel_variances_positive cfg hp p n ht hn hrn ramps fun r hr => (h2 r hr).2
  obtain ⟨a1, a2⟩ := C73_average (ramps.map (fitRamp cfg p)) _ rfl hv
  by_cases hF : (ramps.map (fitRamp cfg p)).filterMap id = []
  · exact Or.inl (hav.trans (a1 hF))
  obtain ⟨-, b2, -, -⟩ := a2 hF
  have hpos : 0 < (((ramps.map (fitRamp cfg p)).filterMap id).map fun f => 1 / f.readVar).sum :=
    Verif.Ols.sum_pos_of_mem _ _ (fun x hx => by have := hv x hx; positivity) hF
  refine Or.inr ⟨by rw [hav, b2]; exact one_div_pos.2 hpos, ?_⟩
  set h : Nat → α := fun i => (p.nreads i : α) * (p.tbar i - m) ^ 2 with hh
  have hnn : ∀ i, 0 ≤ h i := fun i => mul_nonneg (Nat.cast_nonneg _) (sq_nonneg _)
  have hsum : ∀ l : List Ramp, (∀ r ∈ l, r ∈ ramps) →
      p.readNoise ^ 2 * (((l.map (fitRamp cfg p)).filterMap id).map fun f => 1 / f.readVar).sum
        ≤ (l.map fun r => ∑ i ∈ Finset.Icc r.start r.stop, h i).sum := by
    intro l
    induction l with
    | nil => intro _; simp
    | cons r l ih =>
      intro hl
      have i1 := ih fun y hy => hl y (by simp [hy])
      have hr := h2 r (hl r (by simp))
      have hr0 : 0 ≤ ∑ i ∈ Finset.Icc r.start r.stop, h i := sum_nonneg fun i _ => hnn i
      rw [List.map_cons, List.map_cons, List.sum_cons]
      by_cases hs : r.stop ≤ r.start
      · rw [(C37_short_ramps cfg p r).2 hs, List.filterMap_cons_none (by simp)]
        linarith
      · obtain ⟨f, hf, hb⟩ := C189_ramp cfg hp p r (by omega) (ht _ _ (by omega) hr.2).ne (fun i _ hi => hn i (by omega)) m
        have hfp : 0 < f.readVar := hv f (List.mem_filterMap.2 ⟨some f, List.mem_map.2 ⟨r, hl r (by simp), hf⟩, rfl⟩)
        rw [hf, List.filterMap_cons_some (b := f) (by simp), List.map_cons, List.sum_cons, mul_add]
        refine add_le_add ?_ i1
        rw [mul_one_div, div_le_iff₀ hfp, mul_comm]
        exact hb
  have htot := (hsum ramps fun r hr => hr).trans (qt_disjoint h ramps (range n) (fun i _ => hnn i) hdis fun r hr i hi => by
    have := h2 r hr
    rw [Finset.mem_Icc] at hi
    exact Finset.mem_range.2 (by omega))
  rw [hav, b2, one_div, inv_mul_eq_div, le_div_iff₀ hpos]
  exact htot

/-- **C189**, `fit_ramps_casertano` on an array. -/
theorem C189_cas22 (cfg : Cfg α) (hp : Cas22PowOk cfg.pow) (readTime : α) (h0 : 0 < readTime) (pattern : List (List α))
    (hn : pattern ≠ []) (hpat : RbPattern pattern) (shape : List Nat) (hs : shape ≠ [])
    (res : Nat → α) (dq : Nat → Nat) (noise : Verif.Cas22Driver.Noise α) (rn : Nat → α)
    (hrn : Verif.Cas22Driver.spread shape noise = some rn) (hpos : ∀ k, k < shape.prod → rn k ≠ 0)
    (f0 : Verif.Cas22Driver.Fixed α) (s0 : Verif.Cas22Driver.Scratch α) (m : α) :
    ∃ o, Verif.Cas22Driver.casertano cfg readTime pattern pattern.length shape res dq noise none f0 s0 = some o
      ∧ ∀ k, k < shape.prod →
        (o.par[2 * k + 1]? = some 0 ∧ o.var[3 * k]? = some 0 ∧ o.var[3 * k + 1]? = some 0 ∧ o.var[3 * k + 2]? = some 0)
        ∨ ∃ v, o.var[3 * k]? = some v ∧ 0 < v ∧ rn k ^ 2 ≤ v * bdSpread readTime pattern m := by
  obtain ⟨o, h1, -, -, -, h2⟩ := C104_array cfg readTime pattern hn shape hs res dq noise rn hrn f0 s0
  refine ⟨o, h1, fun k hk => ?_⟩
  obtain ⟨dq', ramps, avg, g1, -, g3, g4, g5, g6, -⟩ := h2 k hk
  have hne : ∀ i < pattern.length, pattern.getD i [] ≠ [] := by
    intro i hi
    rw [List.getD_eq_getElem _ _ hi]
    exact hpat.1 _ (List.getElem_mem hi)
  obtain ⟨dq2, ramps2, avg2, e1, e2⟩ := C189_pixel cfg hp
    (Verif.Cas22Driver.pixelOf readTime pattern (fun k i => res (i * shape.prod + k)) rn k)
    (fun i => dq (i * shape.prod + k)) pattern.length (fun i hi => List.length_pos_of_ne_nil (hne i hi))
    (fun i j hij hj => rb_times readTime h0 pattern hpat i j hij hj) (hpos k hk) m
  rw [e1 _ le_rfl] at g1
  simp only [Option.some.injEq, Prod.mk.injEq] at g1
  obtain ⟨-, -, rfl⟩ := g1
  rcases e2 with e2 | ⟨c1, c2⟩
  · subst e2
    exact Or.inl ⟨g3, g4, g5, by rw [g6]; simp⟩
  · refine Or.inr ⟨_, g4, c1, ?_⟩
    rw [bd_pattern]
    exact c2

end Cas22

/-! ## Likelihood -/

section Likely
open Verif.Likely Verif.LikelyDriver Finset

/-- The read-noise part of the variance of a combination of differences with weights of sum one. -/
theorem bd_bil {n : Nat} {times : Nat → List α} (h : LkPattern n times) (R : α) (w : Nat → α)
    (hw : ∑ i ∈ range n, w i = 1) (m : α) :
    R * R ≤ ((∑ i ∈ range n, w i * w i * (R * R * (covar times).alphaR i))
      + 2 * ∑ i ∈ range (n - 1), w (i + 1) * w i * (R * R * (covar times).betaR i))
        * ∑ i ∈ range (n + 1), ((times i).length : α) * (meanT (times i) - m) ^ 2 := by
  have hn : n ≠ 0 := by rintro rfl; simp at hw
  obtain ⟨n, rfl⟩ : ∃ m, n = m + 1 := ⟨n - 1, by omega⟩
  set N := n + 1 with hN
  have hdt : ∀ i < N, 0 < meanT (times (i + 1)) - meanT (times i) := fun i hi => h.ordered.delta_pos hi
  set t : Nat → α := fun i => meanT (times i) with ht
  set X : Nat → α := fun i => if i = 0 then 0 else if i ≤ N then w (i - 1) / (t i - t (i - 1)) else 0 with hX
  have hX0 : X 0 = 0 := by simp [hX]
  have hXN : X (N + 1) = 0 := by simp [hX]
  have hXs : ∀ i < N, w i = X (i + 1) * (t (i + 1) - t i) := by
    intro i hi
    have := (hdt i hi).ne'
    simp only [hX]
    rw [if_neg (by omega), if_pos (by omega), Nat.add_sub_cancel, div_mul_cancel₀ _ this]
  have hsum1 : ∑ i ∈ range N, X (i + 1) * (t (i + 1) - t i) = 1 := by
    rw [← hw]
    exact sum_congr rfl fun i hi => (hXs i (mem_range.1 hi)).symm
  have hl : ∀ i ≤ N, (0 : α) < ((times i).length : α) := fun i hi => by
    exact_mod_cast List.length_pos_of_ne_nil (h.1 i hi).1
  have hlim := bd_limit (range (N + 1)) (fun j => X j - X (j + 1)) t (fun i => ((times i).length : α))
    (fun i hi => hl i (by have := mem_range.1 hi; omega)) m (by rw [sum_range_sub', hX0, hXN]; simp)
    (by
      have e : ∀ k, ∑ j ∈ range k, (X j - X (j + 1)) * t j = (∑ k ∈ range k, X (k + 1) * (t (k + 1) - t k)) - X k * t k := by
        intro k
        induction k with
        | zero => simp [hX0]
        | succ k ih => rw [sum_range_succ, sum_range_succ, ih]; ring
      rw [e, sum_range_succ, hXN, hsum1]
      ring)
  have hsq := qt_square X (fun j => 1 / ((times j).length : α)) hX0 N
  have hlast : ∑ i ∈ range N, 1 / ((times (i + 1)).length : α) * (X (i + 1) * X (i + 2))
      = ∑ i ∈ range n, 1 / ((times (i + 1)).length : α) * (X (i + 1) * X (i + 2)) := by
    rw [hN, sum_range_succ, ← hN]
    have : X (n + 2) = 0 := hXN
    rw [this]; ring
  rw [hXN, hlast] at hsq
  have e0 : ∑ i ∈ range (N + 1), (X i - X (i + 1)) ^ 2 / ((times i).length : α)
      = ∑ i ∈ range (N + 1), 1 / ((times i).length : α) * (X i - X (i + 1)) ^ 2 := sum_congr rfl fun i _ => by ring
  rw [e0, hsq] at hlim
  have eA : ∑ i ∈ range N, w i * w i * (R * R * (covar times).alphaR i)
      = R * R * ∑ i ∈ range N, (1 / ((times i).length : α) + 1 / ((times (i + 1)).length : α)) * X (i + 1) ^ 2 := by
    rw [mul_sum]
    refine sum_congr rfl fun i hi => ?_
    have d0 := (hdt i (mem_range.1 hi)).ne'
    rw [hXs i (mem_range.1 hi)]
    simp only [covar]
    simp only [ht] at d0 ⊢
    generalize meanT (times (i + 1)) - meanT (times i) = B at *
    generalize 1 / ((times i).length : α) + 1 / ((times (i + 1)).length : α) = C
    field_simp
  have eB : ∑ i ∈ range (N - 1), w (i + 1) * w i * (R * R * (covar times).betaR i)
      = -(R * R * ∑ i ∈ range n, 1 / ((times (i + 1)).length : α) * (X (i + 1) * X (i + 2))) := by
    rw [mul_sum, ← sum_neg_distrib, hN, Nat.add_sub_cancel]
    refine sum_congr rfl fun i hi => ?_
    have hi := mem_range.1 hi
    have d0 := (hdt i (by omega)).ne'
    have d1 := (hdt (i + 1) (by omega)).ne'
    have d2 := (hl (i + 1) (by omega)).ne'
    rw [hXs i (by omega), hXs (i + 1) (by omega)]
    simp only [covar]
    simp only [ht] at d0 d1 ⊢
    generalize meanT (times (i + 1 + 1)) - meanT (times (i + 1)) = A at *
    generalize meanT (times (i + 1)) - meanT (times i) = B at *
    field_simp
  rw [eA, eB]
  have := mul_le_mul_of_nonneg_left hlim (mul_self_nonneg R)
  rw [mul_one] at this
  refine this.trans (le_of_eq ?_)
  ring

/-- **C189**, one likelihood fit, for every read pattern, mask, data and rate assumed for the photon noise. -/
theorem C189_likely_fit {n : Nat} {u : Nat → Bool} {times : Nat → List α} {q : Noise α} {s : α} (h : LkPattern n times)
    (hq : LkNoiseOk q) (hs : 0 < s) (hu : ∃ i < n, u i = true) (diffs : Nat → α) (m : α) :
    ∃ r, fitWith n (covar times) q s diffs (num u) = some r
      ∧ q.rnoise ^ 2 ≤ r.varR * ∑ i ∈ range (n + 1), ((times i).length : α) * ((times i).sum / ((times i).length : α) - m) ^ 2 := by
  obtain ⟨r, e1, -, -, -, -, -, -, e8, -⟩ := C38_generalised_least_squares h hq hs hu diffs
  refine ⟨r, e1, ?_⟩
  obtain ⟨k, hk, hC, hf⟩ := lkFit_eq h hq hs hu diffs
  rw [e1] at hf
  have hr := Option.some.inj hf
  have := bd_bil h q.rnoise r.weights e8 m
  rw [hr] at this ⊢
  rw [pow_two]
  exact this

/-- Both bounds for one integration of one pixel. -/
theorem bd_core {root : α → Nat → α} (hr : RootOk root) (jump rows : Nat) (hrows : 2 ≤ rows) (ts : List (List α))
    (hT : LdTimes rows ts) (c : Cfg α) (hg : 0 < c.gain) (hrn : c.rnoise ≠ 0) (hdk : 0 ≤ c.dark)
    (grow : Option ((Nat → Nat) → Nat → Nat)) (gdq : Nat → Nat) (diffs : Nat → Option α) (r : Result α)
    (hfit : (pixelFitE root (rows - 1) (covar fun j => ts.getD j []) c jump grow gdq diffs).2.2 = some r) :
    0 ≤ r.varP ∧ 0 < r.varR ∧ (∀ m, c.rnoise ^ 2 ≤ r.varR * bdSpread 1 ts m)
      ∧ ∃ v, (masked root (rows - 1) (covar fun j => ts.getD j []) c gdq fun i => (diffs i).getD 0).rate = some v
        ∧ ∀ a b, (∀ l ∈ ts, ∀ t ∈ l, a ≤ t ∧ t ≤ b) → (max v 0 + c.dark) / c.gain ≤ r.varP * (b - a) := by
  have hP := ld_times hT (by omega)
  unfold pixelFitE at hfit
  split at hfit
  · set times : Nat → List α := fun j => ts.getD j [] with htimes
    set d : Nat → α := fun i => (diffs i).getD 0 with hd
    dsimp only at hfit
    generalize expandMask jump grow _ _ = u at hfit
    cases hv : (masked root (rows - 1) (covar times) c gdq d).rate with
    | none => rw [hv] at hfit; cases hfit
    | some v =>
      rw [hv] at hfit
      simp only [finalFit] at hfit
      have hq : LkNoiseOk (⟨pos v + c.dark, c.gain, c.rnoise⟩ : Noise α) := ⟨add_nonneg (ld_pos _) hdk, hg, hrn⟩
      have hsc := (C38_rescaled_determinant hr hP hq (by omega)).1
      by_cases hex : ∃ i < rows - 1, u i = true
      · obtain ⟨r1, g1, -, -, -, -, -, -, -, -, -, -, g12, g13, -⟩ := C38_generalised_least_squares hP hq hsc hex d
        rw [g1] at hfit
        obtain rfl := Option.some.inj hfit
        refine ⟨g12, g13, fun m => ?_, v, rfl, fun a b hab => ?_⟩
        · obtain ⟨r', f1, f2⟩ := C189_likely_fit hP hq hsc hex d m
          rw [f1] at g1
          obtain rfl := Option.some.inj g1
          rw [bd_pattern, hT.1]
          simp only [one_mul]
          rw [show rows - 1 + 1 = rows by omega] at f2
          exact f2
        · obtain ⟨r', f1, f2⟩ := C188_likely_fit hP hq hsc hex d a b fun i hi => by
            have hl : i < ts.length := by have := hT.1; omega
            simp only [htimes]
            rw [List.getD_eq_getElem _ _ hl]
            exact hab _ (List.getElem_mem hl)
          rw [f1] at g1
          obtain rfl := Option.some.inj g1
          have hpos : pos v = max v 0 := by
            unfold pos
            rcases le_total v 0 with h | h
            · rw [max_eq_right h]; split <;> [linarith; rfl]
            · rw [max_eq_left h]; split <;> [rfl; linarith]
          simp only [hpos] at f2
          exact f2
      · rw [C38_no_used_difference _ _ _ _ fun i hi => by
          rw [← Bool.not_eq_true]
          exact fun hc => hex ⟨i, hi, hc⟩] at hfit
        cases hfit
  · cases hfit

/-- The weighted mean of the integrations has at least the read noise of all of them together. -/
theorem bd_image (fl : LikelyDriver.Flags) (outs : List (IntOut α)) (R2 D : α) (hR : 0 < R2)
    (hall : ∀ o ∈ outs, ∀ r, o.fit = some r → 0 ≤ r.varP ∧ 0 < r.varR ∧ R2 ≤ r.varR * D) (v : α)
    (hv : (imageInfo fl outs).comb.data = some v) :
    ∃ x, (imageInfo fl outs).comb.varR = some x ∧ R2 ≤ x * ((outs.length : α) * D) := by
  have hcomb : (imageInfo fl outs).comb = combine (outs.map toInt1) := by
    unfold imageInfo
    split <;> rfl
  rw [hcomb] at hv ⊢
  have hl : LkInts (outs.map toInt1) := by
    intro i hi
    obtain ⟨o, ho, rfl⟩ := List.mem_map.1 hi
    cases hof : o.fit with
    | none => exact Or.inl ⟨by simp [toInt1, hof], by simp [toInt1, hof], by simp [toInt1, hof]⟩
    | some r =>
      obtain ⟨k3, k4, -⟩ := hall o ho r hof
      exact Or.inr ⟨r.countrate, r.varP, r.varR, by simp [toInt1, hof], by simp [toInt1, hof], by simp [toInt1, hof], k3, k4⟩
  obtain ⟨-, w2⟩ := C41_weighted_mean _ hl
  obtain ⟨w, -, -, -, -, hsum, -, -, hvr, -⟩ := w2 v hv
  refine ⟨_, hvr, ?_⟩
  -- Cauchy–Schwarz over the integrations with a rate
  have key : ∀ l : List (Int1 α), (∀ i ∈ l, i ∈ outs.map toInt1) →
      0 ≤ ((l.filter fun i => i.data.isSome).map fun i => w i * w i * i.varR.getD 0).sum ∧ 0 ≤ (l.length : α) * D
      ∧ R2 * ((l.filter fun i => i.data.isSome).map w).sum ^ 2
        ≤ ((l.filter fun i => i.data.isSome).map fun i => w i * w i * i.varR.getD 0).sum * ((l.length : α) * D) := by
    have hD : outs = [] ∨ 0 ≤ D := by
      by_cases hex : ∃ o ∈ outs, ∃ r, o.fit = some r
      · obtain ⟨o, ho, r, hof⟩ := hex
        obtain ⟨-, k2, k3⟩ := hall o ho r hof
        exact Or.inr ((mul_pos_iff_of_pos_left k2).1 (lt_of_lt_of_le hR k3)).le
      · exfalso
        have hnil : ((outs.map toInt1).filter fun i => i.data.isSome) = [] := by
          rw [List.filter_eq_nil_iff]
          intro i hi
          obtain ⟨o, ho, rfl⟩ := List.mem_map.1 hi
          cases hof : o.fit with
          | none => simp [toInt1, hof]
          | some r => exact absurd ⟨o, ho, r, hof⟩ hex
        rw [hnil] at hsum
        simp at hsum
    intro l
    induction l with
    | nil => intro _; simp
    | cons i l ih =>
      intro hm
      obtain ⟨i0, i1, i2⟩ := ih fun j hj => hm j (by simp [hj])
      obtain ⟨o, ho, rfl⟩ := List.mem_map.1 (hm i (by simp))
      have hD0 : 0 ≤ D := by
        rcases hD with h | h
        · rw [h] at ho; simp at ho
        · exact h
      rw [List.length_cons]
      push_cast
      rw [add_mul, one_mul]
      cases hof : o.fit with
      | none =>
        have hn : (toInt1 o).data.isSome = false := by simp [toInt1, hof]
        rw [List.filter_cons_of_neg (by simp [hn])]
        exact ⟨i0, add_nonneg i1 hD0, i2.trans (mul_le_mul_of_nonneg_left (by linarith) i0)⟩
      | some r =>
        obtain ⟨-, k2, k3⟩ := hall o ho r hof
        have hn : (toInt1 o).data.isSome = true := by simp [toInt1, hof]
        have hvR : (toInt1 o).varR.getD 0 = r.varR := by simp [toInt1, hof]
        rw [List.filter_cons_of_pos (by simp [hn]), List.map_cons, List.sum_cons, List.map_cons, List.sum_cons, hvR]
        have hw := mul_nonneg (mul_self_nonneg (w (toInt1 o))) k2.le
        refine ⟨add_nonneg hw i0, add_nonneg i1 hD0, ?_⟩
        generalize w (toInt1 o) = x at *
        generalize ((l.filter fun i => i.data.isSome).map fun i => w i * w i * i.varR.getD 0).sum = V at *
        generalize ((l.filter fun i => i.data.isSome).map w).sum = W at *
        generalize (l.length : α) * D = E at *
        have h1 : x ^ 2 ≤ x * x * r.varR * (D / R2) := by
          have := mul_le_mul_of_nonneg_left k3 (mul_self_nonneg x)
          rw [mul_div_assoc', le_div_iff₀ hR]
          nlinarith [this]
        have h2 : W ^ 2 ≤ V * (E / R2) := by
          rw [mul_div_assoc', le_div_iff₀ hR]
          linarith
        have h3 := qt_add hw i0 (div_nonneg hD0 hR.le) (div_nonneg i1 hR.le) h1 h2
        have h4 := mul_le_mul_of_nonneg_left h3 hR.le
        refine h4.trans (le_of_eq ?_)
        have := hR.ne'
        field_simp
        ring
  obtain ⟨-, -, h⟩ := key _ fun i hi => hi
  rw [hsum] at h
  simpa using h

/-- **C189**, likelihood fitting of a pixel: the read-noise variance of every integration with a rate is at least that of the straight line
through all groups, that of the exposure at least that of the lines of all integrations together, whatever is flagged and wherever jumps are
found, with and without snowball expansion. -/
theorem C189_likely {root : α → Nat → α} (hr : RootOk root) (fl : LikelyDriver.Flags) (ng nframes : Nat) (hng : 4 ≤ ng)
    (pattern : Option (List (List α))) (default : List (List α)) (hT : LdTimes ng (pattern.getD default)) (c : Cfg α) (hg : 0 < c.gain)
    (hrn : c.rnoise ≠ 0) (hdk : 0 ≤ c.dark) (grow : Nat → Option ((Nat → Nat) → Nat → Nat)) (pixeldq : Nat) (ints : List (IntIn α))
    (m : α) :
    ∃ outs img, likelyPixel root fl ng nframes pattern default false c grow pixeldq ints = some (outs, img)
      ∧ (∀ o ∈ outs, ∀ r, o.fit = some r → c.rnoise ^ 2 ≤ r.varR * bdSpread 1 (pattern.getD default) m)
      ∧ ∀ v, img.comb.data = some v →
        ∃ x, img.comb.varR = some x ∧ c.rnoise ^ 2 ≤ x * ((ints.length : α) * bdSpread 1 (pattern.getD default) m) := by
  set outs := ints.zipIdx.map fun e => fitInt root fl ng nframes false (pattern.getD default) c (grow e.2) pixeldq e.1 with houts
  have hall : ∀ o ∈ outs, ∀ r, o.fit = some r → 0 ≤ r.varP ∧ 0 < r.varR ∧ c.rnoise ^ 2 ≤ r.varR * bdSpread 1 (pattern.getD default) m := by
    intro o ho r hor
    obtain ⟨x, -, rfl⟩ := List.mem_map.1 ho
    obtain ⟨a1, a2, a3, -⟩ := bd_core hr fl.jump ng (by omega) _ hT c hg hrn hdk (grow x.2) x.1.gdq
      (diffsOf (covar fun j => (pattern.getD default).getD j []) x.1.data) r hor
    exact ⟨a1, a2, a3 m⟩
  refine ⟨outs, imageInfo fl outs, ?_, fun o ho r hor => (hall o ho r hor).2.2, fun v hv => ?_⟩
  · unfold likelyPixel
    rw [if_neg (by omega)]
    rfl
  · have := bd_image fl outs _ _ (by positivity) hall v hv
    have hlen : outs.length = ints.length := by simp [houts]
    rwa [hlen] at this

/-- **C189** with a zero frame, which becomes a sample of its own: the times are those of the reads, the first group being
split. -/
theorem C189_likely_zero {root : α → Nat → α} (hr : RootOk root) (fl : LikelyDriver.Flags) (ng nframes : Nat) (hng : 4 ≤ ng)
    (pattern : Option (List (List α))) (default : List (List α)) (t0 t1 : α) (ts : List α) (rest : List (List α))
    (hp : pattern.getD default = (t0 :: t1 :: ts) :: rest) (hT : LdTimes ng (pattern.getD default)) (c : Cfg α) (hg : 0 < c.gain)
    (hrn : c.rnoise ≠ 0) (hdk : 0 ≤ c.dark) (grow : Nat → Option ((Nat → Nat) → Nat → Nat)) (pixeldq : Nat) (ints : List (IntIn α))
    (m : α) :
    ∃ outs img, likelyPixel root fl ng nframes pattern default true c grow pixeldq ints = some (outs, img)
      ∧ (∀ o ∈ outs, ∀ r, o.fit = some r → c.rnoise ^ 2 ≤ r.varR * bdSpread 1 ([t0] :: (t1 :: ts) :: rest) m)
      ∧ ∀ v, img.comb.data = some v →
        ∃ x, img.comb.varR = some x ∧ c.rnoise ^ 2 ≤ x * ((ints.length : α) * bdSpread 1 ([t0] :: (t1 :: ts) :: rest) m) := by
  have hT' : LdTimes (ng + 1) ([t0] :: (t1 :: ts) :: rest) := by
    rw [hp] at hT
    obtain ⟨a1, a2, a3⟩ := hT
    refine ⟨by simpa using a1, ?_, by simpa using a3⟩
    intro l hl
    simp only [List.mem_cons] at hl
    rcases hl with rfl | rfl | hl
    · simp
    · simp
    · exact a2 l (by simp [hl])
  set outs := ints.zipIdx.map fun e => fitInt root fl ng nframes true ([t0] :: (t1 :: ts) :: rest) c (grow e.2) pixeldq e.1 with houts
  have hall : ∀ o ∈ outs, ∀ r, o.fit = some r → 0 ≤ r.varP ∧ 0 < r.varR
      ∧ c.rnoise ^ 2 ≤ r.varR * bdSpread 1 ([t0] :: (t1 :: ts) :: rest) m := by
    intro o ho r hor
    obtain ⟨x, -, rfl⟩ := List.mem_map.1 ho
    obtain ⟨a1, a2, a3, -⟩ := bd_core hr fl.jump (ng + 1) (by omega) _ hT' c hg hrn hdk (grow x.2) (shiftDq x.1.gdq)
      (diffsOf (covar fun j => ([t0] :: (t1 :: ts) :: rest).getD j []) (splitZero nframes x.1.zf x.1.data)) r hor
    exact ⟨a1, a2, a3 m⟩
  refine ⟨outs, imageInfo fl outs, ?_, fun o ho r hor => (hall o ho r hor).2.2, fun v hv => ?_⟩
  · unfold likelyPixel
    rw [if_neg (by omega)]
    have : (readTimes pattern default true).2 = ([t0] :: (t1 :: ts) :: rest, true) := by
      unfold readTimes
      simp only [hp]
      rfl
    simp only [this, houts]
  · have := bd_image fl outs _ _ (by positivity) hall v hv
    have hlen : outs.length = ints.length := by simp [houts]
    rwa [hlen] at this

/-- **C188** with a zero frame, which becomes a sample of its own. -/
theorem C188_likely_zero {root : α → Nat → α} (hr : RootOk root) (fl : LikelyDriver.Flags) (ng nframes : Nat) (hng : 4 ≤ ng)
    (pattern : Option (List (List α))) (default : List (List α)) (t0 t1 : α) (ts : List α) (rest : List (List α))
    (hp : pattern.getD default = (t0 :: t1 :: ts) :: rest) (hT : LdTimes ng (pattern.getD default)) (c : Cfg α) (hg : 0 < c.gain)
    (hrn : c.rnoise ≠ 0) (hdk : 0 ≤ c.dark) (grow : Nat → Option ((Nat → Nat) → Nat → Nat)) (pixeldq : Nat) (ints : List (IntIn α))
    (a b : α) (hab : ∀ l ∈ pattern.getD default, ∀ t ∈ l, a ≤ t ∧ t ≤ b) :
    ∃ outs img, likelyPixel root fl ng nframes pattern default true c grow pixeldq ints = some (outs, img)
      ∧ ∀ (j : Nat) o r, outs[j]? = some o → o.fit = some r →
        c.dark / c.gain ≤ r.varP * (b - a)
        ∧ ∃ e v, ints[j]? = some e
          ∧ (masked root ng (covar fun i => ([t0] :: (t1 :: ts) :: rest).getD i []) c (shiftDq e.gdq) fun i =>
            (diffsOf (covar fun i => ([t0] :: (t1 :: ts) :: rest).getD i []) (splitZero nframes e.zf e.data) i).getD 0).rate = some v
          ∧ (max v 0 + c.dark) / c.gain ≤ r.varP * (b - a) := by
  have hT' : LdTimes (ng + 1) ([t0] :: (t1 :: ts) :: rest) := by
    rw [hp] at hT
    obtain ⟨a1, a2, a3⟩ := hT
    refine ⟨by simpa using a1, ?_, by simpa using a3⟩
    intro l hl
    simp only [List.mem_cons] at hl
    rcases hl with rfl | rfl | hl
    · simp
    · simp
    · exact a2 l (by simp [hl])
  have hab' : ∀ l ∈ [t0] :: (t1 :: ts) :: rest, ∀ t ∈ l, a ≤ t ∧ t ≤ b := by
    rw [hp] at hab
    intro l hl t ht
    simp only [List.mem_cons] at hl
    rcases hl with rfl | rfl | hl
    · exact hab (t0 :: t1 :: ts) (by simp) t (by simp at ht; simp [ht])
    · exact hab (t0 :: t1 :: ts) (by simp) t (by simp at ht; rcases ht with rfl | ht <;> simp [*])
    · exact hab l (by simp [hl]) t ht
  refine ⟨ints.zipIdx.map fun e => fitInt root fl ng nframes true ([t0] :: (t1 :: ts) :: rest) c (grow e.2) pixeldq e.1,
    imageInfo fl (ints.zipIdx.map fun e => fitInt root fl ng nframes true ([t0] :: (t1 :: ts) :: rest) c (grow e.2) pixeldq e.1), ?_, ?_⟩
  · unfold likelyPixel
    rw [if_neg (by omega)]
    have : (readTimes pattern default true).2 = ([t0] :: (t1 :: ts) :: rest, true) := by
      unfold readTimes
      simp only [hp]
      rfl
    simp only [this]
  · intro j o r ho hor
    simp only [List.getElem?_map, List.getElem?_zipIdx, Option.map_eq_some_iff] at ho
    obtain ⟨y, ⟨e, he, rfl⟩, rfl⟩ := ho
    obtain ⟨-, -, -, v, a3, a4⟩ := bd_core hr fl.jump (ng + 1) (by omega) _ hT' c hg hrn hdk (grow _) (shiftDq e.gdq)
      (diffsOf (covar fun j => ([t0] :: (t1 :: ts) :: rest).getD j []) (splitZero nframes e.zf e.data)) r hor
    refine ⟨le_trans (div_le_div_of_nonneg_right ?_ hg.le) (a4 a b hab'), e, v, he, a3, a4 a b hab'⟩
    have := le_max_right v 0
    linarith

theorem bd_median_opposite (d : α) : Verif.Jump.nanmedian [some d, some (-d)] = some 0 := by
  simp only [Verif.Jump.nanmedian, Verif.Jump.finite, List.filterMap_cons, List.filterMap_nil, List.insertionSort, List.foldr_cons,
    List.foldr_nil, List.orderedInsert, Verif.Jump.medianSorted]
  by_cases h : d ≤ -d <;> simp [h]

theorem bd_rateScale_zero (x : Option α) : rateScale (some 0) x = 0 := by
  cases x <;> simp [rateScale]

/-- **C188** (finding): the bound does not hold for the exposure.  The Poisson variances of the integrations are scaled with the rate of
the exposure: for two integrations with the same variances and opposite rates nothing is left of them, however large they are. -/
theorem C188_likely_exposure (d p r : α) (_hr : 0 < r) :
    (combine [⟨some d, some p, some r⟩, ⟨some (-d), some p, some r⟩]).varP = some 0 := by
  have h1 : combineRound [⟨some d, some p, some r⟩, ⟨some (-d), some p, some r⟩] (some (0 : α)) = some 0 := by
    simp [combineRound, sumOrNan, nansum, omul, normWeight, rawWeight, bd_rateScale_zero]
  simp only [combine, List.map_cons, List.map_nil, bd_median_opposite, h1]
  simp [sumOrNan, nansum, omul, normWeight, rawWeight, bd_rateScale_zero]

end Likely

/-! ## Least squares of the C extension -/

section Ols
open Verif.Ols Verif.Dq

theorem bd_even (n : Nat) (T m : α) :
    bdSpread T ((List.range n).map fun k : Nat => [(k : α)]) (T * m)
      = T ^ 2 * (n * m ^ 2 - n * ((n : α) - 1) * m + ((n : α) - 1) * n * (2 * n - 1) / 6) := by
  unfold bdSpread
  induction n with
  | zero => simp
  | succ n ih =>
    rw [List.range_succ, List.map_append, List.map_append, List.sum_append, ih]
    simp only [List.map_cons, List.map_nil, List.sum_cons, List.sum_nil, List.length_singleton]
    push_cast
    ring

/-- The `n³ - n` of the formula for the read noise: twelve times the smallest spread of `n` evenly spaced groups. -/
theorem bd_cube (n : Nat) (T m : α) (hT : T ≠ 0) :
    lxW n * T ^ 2 ≤ 12 * bdSpread T ((List.range n).map fun k : Nat => [(k : α)]) m := by
  have e := bd_even n T (m / T)
  rw [mul_div_cancel₀ _ hT] at e
  rw [e, lxW]
  have h : 0 ≤ T ^ 2 * ((n : α) * (2 * (m / T) - ((n : α) - 1)) ^ 2) :=
    mul_nonneg (sq_nonneg _) (mul_nonneg (Nat.cast_nonneg _) (sq_nonneg _))
  nlinarith [h]

/-- The information of the segments of an integration is at most that of the whole ramp. -/
theorem bd_integ {cfg : Verif.Ols.Cfg α} {px : Verif.Ols.Pix α} (hk : LxOk cfg px) (fl : Verif.Ols.Flags) (med : Option α) (ng : Nat)
    (hng : 2 ≤ ng) (i : Integ α) (hi : i.gdq.length = ng) (hne : usedFits fl cfg px med ng i ≠ []) :
    0 < (accSegs (usedFits fl cfg px med ng i)).invR
      ∧ (accSegs (usedFits fl cfg px med ng i)).invR ≤ lxW ng * (lxK px * cfg.groupTime ^ 2) := by
  obtain ⟨hal, hfs⟩ := usedFits_alive _ _ _ _ _ _ hne
  have hu : usedFits fl cfg px med ng i
      = (computeSegs fl i.gdq).segs.map (fitSeg cfg px med i.is0th i.isZframe fun k => (i.data[k]?).join) := by
    rw [usedFits, if_neg hal, fitSegs, hfs]; rfl
  have hinf : (accSegs (usedFits fl cfg px med ng i)).invR
      = lxInfo cfg px med i.is0th i.isZframe (fun k => (i.data[k]?).join) (computeSegs fl i.gdq).segs := by
    rw [hu, cl_invR, List.map_map]; rfl
  have hsne : (computeSegs fl i.gdq).segs ≠ [] := by
    intro h0; apply hne; rw [hu, h0]; rfl
  have hex := lx_exists hsne
  rw [hinf]
  refine ⟨lx_info_pos hk med _ _ _ fl _ hex, ?_⟩
  have hkp := (lx_k_pos px hk.gain hk.rnoise).le
  by_cases h : ∃ a e, NatSeg fl i.gdq a e ∧ 2 ≤ e - a
  · rw [(lx_long hk med _ _ _ fl _ h).1]
    refine mul_le_mul_of_nonneg_right ?_ (mul_nonneg hkp (sq_nonneg _))
    obtain ⟨c1, c2⟩ := C27_segments_sound fl i.gdq
    have := lx_inside (α := α) (computeSegs fl i.gdq).segs c1 0 ng fun s hs => by
      have := c2 s hs
      rw [hi] at this
      exact ⟨Nat.zero_le _, this.1.le, this.2.1⟩
    simpa using this
  · rw [(lx_short hk med _ _ _ fl _ h hex).1]
    have ht := lx_t1 hk i.is0th i.isZframe
    refine (lx_mono_t hk (lt_of_lt_of_le hk.frame ht.1) ht.2 _ (lx_w_nonneg 2)).trans ?_
    exact mul_le_mul_of_nonneg_right (lx_w_mono hng) (mul_nonneg hkp (sq_nonneg _))

/-- **C189**, ramp fitting of the C extension: the read-noise variance of an integration is zero (unusable, or above the limit of a million)
or at least that of the straight line through all its groups; that of the exposure likewise with all integrations. -/
theorem C189_ols (fl : Verif.Ols.Flags) (cfg : Verif.Ols.Cfg α) (ngroups : Nat) (hng : 2 ≤ ngroups) (p : PixIn α) (hk : LxOk cfg p.px)
    (hlen : ∀ x ∈ p.ints, x.2.1.length = ngroups) (m : α) :
    (∀ r ∈ (fitPixel fl cfg ngroups p).1, r.varR = 0 ∨ 0 < r.varR
      ∧ (p.px.rnoise / p.px.gain) ^ 2 ≤ r.varR * bdSpread cfg.groupTime ((List.range ngroups).map fun k : Nat => [(k : α)]) m)
    ∧ ((fitPixel fl cfg ngroups p).2.varR = 0 ∨ 0 < (fitPixel fl cfg ngroups p).2.varR
      ∧ (p.px.rnoise / p.px.gain) ^ 2 ≤ (fitPixel fl cfg ngroups p).2.varR
        * ((p.ints.length : α) * bdSpread cfg.groupTime ((List.range ngroups).map fun k : Nat => [(k : α)]) m)) := by
  have hT : 0 < cfg.groupTime := lt_of_lt_of_le hk.frame (hk.one.trans hk.group)
  have hcube := bd_cube ngroups cfg.groupTime m hT.ne'
  set D := bdSpread cfg.groupTime ((List.range ngroups).map fun k : Nat => [(k : α)]) m with hD
  set med := medianRate fl cfg ngroups (loadPixel fl cfg p) with hmed
  have hg := hk.gain
  have hr2 : 0 < p.px.rnoise ^ 2 := by have := hk.rnoise; positivity
  -- information in units of the straight line
  have hinf : lxW ngroups * (lxK p.px * cfg.groupTime ^ 2) ≤ (p.px.gain / p.px.rnoise) ^ 2 * D := by
    have e : lxW ngroups * (lxK p.px * cfg.groupTime ^ 2)
        = (p.px.gain / p.px.rnoise) ^ 2 / 12 * (lxW ngroups * cfg.groupTime ^ 2) := by
      have := hk.rnoise
      unfold lxK
      field_simp
    rw [e]
    refine (mul_le_mul_of_nonneg_left hcube (by positivity)).trans (le_of_eq ?_)
    ring
  have hfin : ∀ s E : α, 0 < s → s ≤ (p.px.gain / p.px.rnoise) ^ 2 * E → (p.px.rnoise / p.px.gain) ^ 2 ≤ 1 / s * E := by
    intro s E hs h
    rw [one_div, inv_mul_eq_div, le_div_iff₀ hs]
    refine (mul_le_mul_of_nonneg_left h (sq_nonneg _)).trans (le_of_eq ?_)
    have := hk.rnoise
    field_simp
  have hi : ∀ x ∈ p.ints, (loadInteg fl cfg.suppress1g x.1 x.2.1 x.2.2).gdq.length = ngroups := fun x hx => by
    rw [qt_gdq, hlen x hx]
  constructor
  · intro r hr
    simp only [Verif.Ols.fitPixel, pixelInts, loadPixel, List.map_map] at hr
    obtain ⟨x, hx, rfl⟩ := List.mem_map.1 hr
    simp only [Function.comp_apply, postInteg]
    by_cases h0 : (fitInteg fl cfg p.px med ngroups (loadInteg fl cfg.suppress1g x.1 x.2.1 x.2.2)
      (metaDq fl p ||| statBits fl (loadInteg fl cfg.suppress1g x.1 x.2.1 x.2.2).st)).1.varR = 0
    · exact Or.inl h0
    · obtain ⟨u1, -, u3⟩ := (lx_varR fl cfg p.px med ngroups _ _).1 h0
      obtain ⟨v1, v2⟩ := bd_integ hk fl med ngroups hng _ (hi x hx) u1
      have e := hfin _ D v1 (v2.trans hinf)
      have e0 := one_div_pos.2 v1
      rw [← u3] at e e0
      exact Or.inr ⟨e0, e⟩
  · have hS : ∀ l : List (List (Option α) × List Nat × Option (Option α)), (∀ x ∈ l, x ∈ p.ints) →
        (l.map fun x => lxAdd fl cfg p.px med ngroups (loadInteg fl cfg.suppress1g x.1 x.2.1 x.2.2)).sum
          ≤ (p.px.gain / p.px.rnoise) ^ 2 * ((l.length : α) * D) := by
      intro l
      induction l with
      | nil => intro _; simp
      | cons x l ih =>
        intro hl
        have i1 := ih fun y hy => hl y (by simp [hy])
        rw [List.map_cons, List.sum_cons, List.length_cons]
        have hx : lxAdd fl cfg p.px med ngroups (loadInteg fl cfg.suppress1g x.1 x.2.1 x.2.2) ≤ (p.px.gain / p.px.rnoise) ^ 2 * D := by
          unfold lxAdd
          split
          · refine le_trans ?_ hinf
            exact mul_nonneg (lx_w_nonneg _) (mul_nonneg (lx_k_pos p.px hg hk.rnoise).le (sq_nonneg _))
          · rename_i hne
            exact (bd_integ hk fl med ngroups hng _ (hi x (hl x (by simp))) (by simpa [List.isEmpty_iff] using hne)).2.trans hinf
        push_cast
        linarith
    have hsum := hS p.ints fun x hx => hx
    have h1 := lx_rate fl cfg ngroups p _ rfl
    have e : ((loadPixel fl cfg p).map (lxAdd fl cfg p.px (medianRate fl cfg ngroups (loadPixel fl cfg p)) ngroups)).sum
        = (p.ints.map fun x => lxAdd fl cfg p.px med ngroups (loadInteg fl cfg.suppress1g x.1 x.2.1 x.2.2)).sum := by
      simp only [loadPixel, List.map_map]
      rfl
    rw [e] at h1
    have hS0 : 0 ≤ (p.ints.map fun x => lxAdd fl cfg p.px med ngroups (loadInteg fl cfg.suppress1g x.1 x.2.1 x.2.2)).sum := by
      refine List.sum_nonneg fun x hx => ?_
      obtain ⟨i, -, rfl⟩ := List.mem_map.1 hx
      exact lx_add_nonneg _ _ _ _ _ _
    generalize (p.ints.map fun x => lxAdd fl cfg p.px med ngroups (loadInteg fl cfg.suppress1g x.1 x.2.1 x.2.2)).sum = S at *
    rcases h1 with ⟨q, -⟩ | q
    · exact Or.inl q
    · by_cases hpos : 0 < S
      · rw [if_pos hpos] at q
        by_cases hl : large ≤ 1 / S
        · rw [if_pos hl] at q; exact Or.inl q
        · rw [if_neg hl] at q
          rw [q]
          exact Or.inr ⟨one_div_pos.2 hpos, hfin _ _ hpos hsum⟩
      · have : S = 0 := le_antisymm (not_lt.1 hpos) hS0
        left
        rw [q, this]
        simp

end Ols

/-! ## Examples -/

section Examples
open Verif.Likely Verif.LikelyDriver

/-- Non-vacuity of `C189_ramp`: two resultants of one read and one of two. -/
def bdPix : Verif.Cas22.Pix ℚ := ⟨fun i => i, fun i => i, fun i => if i = 1 then 2 else 1, fun i => 3 * i, 2⟩

example : bdPix.tbar 0 ≠ bdPix.tbar 2 ∧ ∀ i, 0 ≤ i → i ≤ 2 → 0 < bdPix.nreads i :=
  ⟨by decide +kernel, fun i _ _ => by unfold bdPix; dsimp only; split <;> norm_num⟩

/-- The bound is smallest at the mean time, and is reached by two reads. -/
example : bdSpread (1 : ℚ) [[1], [2, 3], [6]] 3 = 27 / 2 ∧ bdSpread (1 : ℚ) [[1], [2, 3], [6]] 4 = 35 / 2
    ∧ (1 : ℚ) = (1 / (5 : ℚ)) ^ 2 * 2 * bdSpread (1 : ℚ) [[1], [6]] (7 / 2) := by
  decide +kernel

/-- Non-vacuity of `C189_likely`: the last two groups are flagged. -/
example : ((likelyPixel (fun _ _ => 1) ⟨1, 2, 4⟩ 5 2 none rtTimes false ⟨1, 1, 0, 16, 20⟩ (fun _ => none) 0 [rtInt]).map
      fun o => o.1.all fun i => i.fit.isSome && i.fit.all fun r => decide (1 ≤ r.varR * bdSpread 1 rtTimes 75)) = some true := by
  decide +kernel

/-- Two integrations together: the bound of the exposure, and the bound of one integration with a zero frame. -/
example : ((likelyPixel (fun _ _ => 1) ⟨1, 2, 4⟩ 5 2 none rtTimes false ⟨1, 1, 0, 16, 20⟩ (fun _ => none) 0 [rtInt, rtInt]).map
      fun o => o.2.comb.varR.isSome && o.2.comb.varR.all fun x => decide (1 ≤ x * (2 * bdSpread 1 rtTimes 75))) = some true
    ∧ ((likelyPixel (fun _ _ => 1) ⟨1, 2, 4⟩ 5 2 none rtTimes true ⟨1, 1, 1, 16, 20⟩ (fun _ => none) 0
        [rtInt]).map
      fun o => o.1.all fun i => i.fit.isSome && i.fit.all fun r => decide (1 ≤ r.varP * (140 - 10))) = some true := by
  decide +kernel

/-- Non-vacuity of `C189_ols`: a jump in the third group, the last one unusable. -/
example : LxOk exCfg exPix ∧ (Verif.Ols.fitPixel exFlags exCfg 6 ⟨false, exPix, 0,
        [([some 1, some 4, some 1007, some 1012, some 1014, some (-5)], [0, 0, 4, 0, 0, 1], none)]⟩).2.varR ≠ 0 :=
  ⟨by constructor <;> norm_num [exCfg, exPix], by decide +kernel⟩

end Examples

end Verif.Thm
