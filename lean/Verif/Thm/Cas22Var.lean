import Verif.Thm.Cas22
import Verif.Thm.OlsVar

/-! # Casertano+22: optimal weights, variances and the jump statistic (C75, C92, C93) -/

namespace Verif.Thm

open Verif.Cas22

set_option linter.unusedSectionVars false

section
variable {α : Type*} [Field α] [LinearOrder α] [IsStrictOrderedRing α]

/-! ## C92: the slope of a ramp is that of the optimally weighted line -/

/-- Signal-to-noise ratio of a ramp that rises by `d` (Casertano 2022, equation 44): none if it does not rise. -/
def caSnr (sqrt : α → α) (readNoise d : α) : α := if d ≤ 0 then 0 else d / sqrt (readNoise ^ 2 + d)

/-- Weight of a resultant of `n` reads at the time `t` in a ramp from `t0` to `t1` (Casertano 2022, equation 45). -/
def caWeight (pow : α → α → α) (P : α) (n : Nat) (t0 t1 t : α) : α :=
  (1 + P) * n / (1 + P * n) * pow (|2 * t - (t0 + t1)| / |t1 - t0|) P

/-- Weighted sum of the squared residuals of the resultants `i = a … b` from the line `c + m t`. -/
def caChi (a b : Nat) (w t y : Nat → α) (m c : α) : α :=
  ∑ i ∈ Finset.Icc a b, w i * (y i - c - m * t i) ^ 2

theorem ca_sum (r : Ramp) (f : Nat → α) : (r.idx.map f).sum = ∑ i ∈ Finset.Icc r.start r.stop, f i := by
  have hnd : r.idx.Nodup := by
    unfold Ramp.idx
    exact List.nodup_range'
  rw [← List.sum_toFinset f hnd]
  apply Finset.sum_congr _ fun _ _ => rfl
  ext i
  rw [List.mem_toFinset, mem_idx, Finset.mem_Icc]

theorem ca_power (x : α) : getPower x = ovExponent x := by
  simp only [getPower, ovExponent, ovTable]
  by_cases h1 : x < 5
  · simp [h1]
  by_cases h2 : x < 10
  · simp [h1, h2]
  by_cases h3 : x < 20
  · simp [h1, h2, h3]
  by_cases h4 : x < 50
  · simp [h1, h2, h3, h4]
  by_cases h5 : x < 100
  · simp [h1, h2, h3, h4, h5]
  · simp [h1, h2, h3, h4, h5]

theorem ca_weight (cfg : Cfg α) (p : Pix α) (r : Ramp) (ht : p.tbar r.start ≠ p.tbar r.stop) (i : Nat) :
    weight cfg p r i = caWeight cfg.pow (ovExponent (caSnr cfg.sqrt p.readNoise (p.res r.stop - p.res r.start)))
      (p.nreads i) (p.tbar r.start) (p.tbar r.stop) (p.tbar i) := by
  have hP : rampPower cfg p r = ovExponent (caSnr cfg.sqrt p.readNoise (p.res r.stop - p.res r.start)) := by
    simp only [rampPower]
    rw [ca_power, caSnr]
    by_cases h : p.res r.stop - p.res r.start ≤ 0
    · rw [if_pos h, max_eq_right h, zero_div]
    · rw [if_neg h, max_eq_left (not_le.1 h).le, pow_two]
  have hne : (p.tbar r.stop - p.tbar r.start) / 2 ≠ 0 := by
    intro h; apply ht; linarith
  have hne' : p.tbar r.stop - p.tbar r.start ≠ 0 := by
    intro h; apply ht; linarith
  simp only [weight, caWeight, hP]
  rw [if_neg hne, ← abs_div]
  congr 3
  field_simp

/-- The slope reported for a ramp of two or more resultants is that of the weighted least-squares line with the
weights of Casertano (2022): no other line has a smaller weighted sum of squared residuals, and no line with another
slope an equal one.  The exponent of the weights is 0, 0.4, 1, 3, 6 or 10 for signal-to-noise ratios up to 5, 10,
20, 50, 100 or above. -/
theorem C92_optimal_line (cfg : Cfg α) (hp : Cas22PowOk cfg.pow) (p : Pix α) (r : Ramp) (hr : r.start < r.stop)
    (ht : p.tbar r.start ≠ p.tbar r.stop) (hn : ∀ i, r.start ≤ i → i ≤ r.stop → 0 < p.nreads i) :
    ∀ P, P = ovExponent (caSnr cfg.sqrt p.readNoise (p.res r.stop - p.res r.start)) →
    ∀ w, w = (fun i => caWeight cfg.pow P (p.nreads i) (p.tbar r.start) (p.tbar r.stop) (p.tbar i)) →
    ∃ f, fitRamp cfg p r = some f ∧ ∃ b, ∀ m' b',
      caChi r.start r.stop w p.tbar p.res f.slope b ≤ caChi r.start r.stop w p.tbar p.res m' b'
      ∧ (m' ≠ f.slope →
        caChi r.start r.stop w p.tbar p.res f.slope b < caChi r.start r.stop w p.tbar p.res m' b') := by
  rintro P hP w hw
  have hw' : weight cfg p r = w := by
    funext i
    rw [hw, ca_weight cfg p r ht i, hP]
  obtain ⟨c, h1, -, -, h4⟩ := fitRamp_some cfg hp p r hr ht hn
  have hd := det_pos r.idx (weight cfg p r) p.tbar (fun i _ => weight_nonneg cfg hp p r i) r.start r.stop
    (mem_idx.2 ⟨le_rfl, by omega⟩) (mem_idx.2 ⟨by omega, le_rfl⟩)
    (weight_end_pos cfg hp p r _ ht (Or.inl rfl) (hn _ le_rfl (by omega)))
    (weight_end_pos cfg hp p r _ ht (Or.inr rfl) (hn _ (by omega) le_rfl)) ht
  have hw0 : ∀ i, 0 ≤ w i := fun i => by rw [← hw']; exact weight_nonneg cfg hp p r i
  have hwa : 0 < w r.start := by
    rw [← hw']; exact weight_end_pos cfg hp p r _ ht (Or.inl rfl) (hn _ le_rfl (by omega))
  have hwb : 0 < w r.stop := by
    rw [← hw']; exact weight_end_pos cfg hp p r _ ht (Or.inr rfl) (hn _ (by omega) le_rfl)
  have s1 := (foldl_fitStep p c r.idx (⟨0, 0, 0⟩, 0)).1
  simp only [zero_add] at s1
  refine ⟨_, h1, ?_⟩
  set m := (r.idx.foldl (fitStep p c) (⟨0, 0, 0⟩, 0)).1.slope
  rw [hw'] at h4 hd
  simp only [ca_sum] at h4 hd s1
  set I := Finset.Icc r.start r.stop with hI
  set W := ∑ i ∈ I, w i
  set X := ∑ i ∈ I, w i * p.tbar i
  set XX := ∑ i ∈ I, w i * (p.tbar i * p.tbar i)
  set Y := ∑ i ∈ I, w i * p.res i
  set XY := ∑ i ∈ I, w i * (p.tbar i * p.res i)
  have hWpos : 0 < W := by
    refine lt_of_lt_of_le hwa (Finset.single_le_sum (fun i _ => hw0 i) (Finset.mem_Icc.2 ⟨le_rfl, hr.le⟩))
  have hm : m * (XX * W - X * X) = W * XY - X * Y := by
    have : m = (W * XY - X * Y) / (XX * W - X * X) := by
      rw [s1, Finset.mul_sum, Finset.mul_sum, ← Finset.sum_sub_distrib, Finset.sum_div]
      refine Finset.sum_congr rfl fun i _ => ?_
      rw [h4]; ring
    rw [this, div_mul_cancel₀ _ hd.ne']
  obtain ⟨b, hb⟩ : ∃ b, b = (Y - m * X) / W := ⟨_, rfl⟩
  have n1 : ∑ i ∈ I, w i * (p.res i - b - m * p.tbar i) = 0 := by
    have e : ∑ i ∈ I, w i * (p.res i - b - m * p.tbar i) = Y - b * W - m * X := by
      simp only [Y, W, X, Finset.mul_sum, ← Finset.sum_sub_distrib]
      exact Finset.sum_congr rfl fun i _ => by ring
    rw [e, hb]; field_simp; ring
  have n2 : ∑ i ∈ I, w i * (p.res i - b - m * p.tbar i) * p.tbar i = 0 := by
    have e : ∑ i ∈ I, w i * (p.res i - b - m * p.tbar i) * p.tbar i = XY - b * X - m * XX := by
      simp only [XY, XX, X, Finset.mul_sum, ← Finset.sum_sub_distrib]
      exact Finset.sum_congr rfl fun i _ => by ring
    rw [e, hb]
    apply (mul_eq_zero_iff_left hWpos.ne').1
    field_simp
    linear_combination -hm
  refine ⟨b, fun m' b' => ?_⟩
  have key : caChi r.start r.stop w p.tbar p.res m' b' = caChi r.start r.stop w p.tbar p.res m b
      + ∑ i ∈ I, w i * ((b - b') + (m - m') * p.tbar i) ^ 2 := by
    have : caChi r.start r.stop w p.tbar p.res m' b' = caChi r.start r.stop w p.tbar p.res m b
        + ∑ i ∈ I, w i * ((b - b') + (m - m') * p.tbar i) ^ 2
        + (2 * (b - b') * ∑ i ∈ I, w i * (p.res i - b - m * p.tbar i)
          + 2 * (m - m') * ∑ i ∈ I, w i * (p.res i - b - m * p.tbar i) * p.tbar i) := by
      simp only [caChi, ← hI, Finset.mul_sum, ← Finset.sum_add_distrib]
      exact Finset.sum_congr rfl fun i _ => by ring
    rw [this, n1, n2]; ring
  have hnn : ∀ i ∈ I, 0 ≤ w i * ((b - b') + (m - m') * p.tbar i) ^ 2 := fun i _ => mul_nonneg (hw0 i) (sq_nonneg _)
  refine ⟨by rw [key]; linarith [Finset.sum_nonneg hnn], fun hm' => ?_⟩
  rw [key]
  have : 0 < ∑ i ∈ I, w i * ((b - b') + (m - m') * p.tbar i) ^ 2 := by
    by_contra hc
    have h0 := le_antisymm (not_lt.1 hc) (Finset.sum_nonneg hnn)
    have hz := (Finset.sum_eq_zero_iff_of_nonneg hnn).1 h0
    have za := hz r.start (Finset.mem_Icc.2 ⟨le_rfl, hr.le⟩)
    have zb := hz r.stop (Finset.mem_Icc.2 ⟨hr.le, le_rfl⟩)
    rw [mul_eq_zero_iff_left hwa.ne'] at za
    rw [mul_eq_zero_iff_left hwb.ne'] at zb
    have za := pow_eq_zero_iff (two_ne_zero) |>.1 za
    have zb := pow_eq_zero_iff (two_ne_zero) |>.1 zb
    have : (m - m') * (p.tbar r.stop - p.tbar r.start) = 0 := by linear_combination zb - za
    rcases mul_eq_zero.1 this with h | h
    · exact hm' (by linarith)
    · exact ht (by linarith)
  linarith

/-! ## C93: variances -/

/-- Variance of the linear combination `Σ x N(t)` of counts of a unit-rate Poisson process at the times `t`, given
as pairs `(x, t)`: the counts at `s` and `t` have the covariance `min s t`. -/
def caPoisson (l : List (α × α)) : α := (l.map fun x => (l.map fun y => x.1 * y.1 * min x.2 y.2).sum).sum

/-- The reads of the resultants `l` with the weights they have in `Σ c i · (mean of the reads of i)`. -/
def caReads (readTime : α) (reads : Nat → List α) (c : Nat → α) (l : List Nat) : List (α × α) :=
  l.flatMap fun i => (reads i).map fun t => (c i / ((reads i).length : α), readTime * t)

theorem ca_poisson_cons (x : α × α) (l : List (α × α)) (h : ∀ y ∈ l, x.2 ≤ y.2) :
    caPoisson (x :: l) = x.1 * x.1 * x.2 + 2 * x.1 * x.2 * (l.map Prod.fst).sum + caPoisson l := by
  have e1 : (l.map fun y => x.1 * y.1 * min x.2 y.2).sum = x.1 * x.2 * (l.map Prod.fst).sum := by
    rw [← List.sum_map_mul_left]
    congr 1
    exact List.map_congr_left fun y hy => by rw [min_eq_left (h y hy)]; ring
  have e2 : (l.map fun y => y.1 * x.1 * min y.2 x.2).sum = x.1 * x.2 * (l.map Prod.fst).sum := by
    rw [← List.sum_map_mul_left]
    congr 1
    exact List.map_congr_left fun y hy => by rw [min_eq_right (h y hy)]; ring
  simp only [caPoisson, List.map_cons, List.sum_cons]
  rw [List.sum_map_add, e1, e2, min_self]
  ring

theorem ca_readStep (l : List (α × α)) (h : l.Pairwise fun x y => x.2 ≤ y.2) :
    (l.foldl readStep (0, 0)).1 = caPoisson l := by
  induction l with
  | nil => simp [caPoisson]
  | cons x t ih =>
    rw [List.pairwise_cons] at h
    rw [ca_poisson_cons x t h.1, List.foldl_cons, readStep_lin, ih h.2]
    simp only [readStep]
    ring

theorem ca_sorted (readTime : α) (h0 : 0 ≤ readTime) (reads : Nat → List α) (c : Nat → α) (l : List Nat)
    (ho : PatternOrdered reads l) : (caReads readTime reads c l).Pairwise fun x y => x.2 ≤ y.2 := by
  have hmap : (caReads readTime reads c l).map Prod.snd = (l.flatMap reads).map fun t => readTime * t := by
    rw [caReads, List.map_flatMap, List.map_flatMap]
    simp [Function.comp_def]
  rw [← List.pairwise_map (R := (· ≤ ·)) (f := Prod.snd), hmap]
  exact List.Pairwise.map _ (fun a b hab => mul_le_mul_of_nonneg_left hab h0) ho.2

/-- The reported variances of a ramp are those of its slope: the slope is a linear combination `Σ c R` of the
resultants (unbiased: it recovers every line), the read variance is that of the combination when every read has an
independent error of the read noise, and the Poisson variance is that of the combination when the reads count a
unit-rate Poisson process. -/
theorem C93_ramp_variances (cfg : Cfg α) (hp : Cas22PowOk cfg.pow) (p : Pix α) (readTime : α) (h0 : 0 ≤ readTime)
    (reads : Nat → List α) (r : Ramp) (hpat : FromPattern p readTime reads r.idx) (hr : r.start < r.stop)
    (ho : PatternOrdered reads r.idx) (ht : p.tbar r.start ≠ p.tbar r.stop) :
    ∃ f, fitRamp cfg p r = some f ∧ ∃ c : Nat → α,
      f.slope = ∑ i ∈ Finset.Icc r.start r.stop, c i * p.res i
      ∧ ∑ i ∈ Finset.Icc r.start r.stop, c i = 0
      ∧ ∑ i ∈ Finset.Icc r.start r.stop, c i * (readTime * ((reads i).sum / (reads i).length)) = 1
      ∧ f.readVar = ((caReads readTime reads c r.idx).map fun x => x.1 ^ 2 * p.readNoise ^ 2).sum
      ∧ f.poissonVar = caPoisson (caReads readTime reads c r.idx) := by
  have hn : ∀ i, r.start ≤ i → i ≤ r.stop → 0 < p.nreads i := by
    intro i g1 g2
    obtain ⟨h1, h2, -, -⟩ := hpat i (mem_idx.2 ⟨g1, g2⟩)
    rw [h2]; exact List.length_pos_iff.2 h1
  obtain ⟨c, h1, h2, h3, -⟩ := fitRamp_some cfg hp p r hr ht hn
  obtain ⟨s1, s2⟩ := foldl_fitStep p c r.idx (⟨0, 0, 0⟩, 0)
  simp only [zero_add] at s1 s2
  rw [ca_sum] at s1 h2 h3
  refine ⟨_, h1, c, s1, h2, ?_, ?_, ?_⟩
  · rw [← h3]
    refine Finset.sum_congr rfl fun i hi => ?_
    rw [(hpat i (mem_idx.2 (Finset.mem_Icc.1 hi))).2.2.1, meanTime]
  · rw [s2, caReads, List.map_flatMap]
    clear s1 s2 h1
    revert hpat
    generalize r.idx = l
    intro hpat
    induction l with
    | nil => simp
    | cons k t ih =>
      rw [List.map_cons, List.sum_cons, List.flatMap_cons, List.sum_append, ih fun i hi => hpat i (List.mem_cons_of_mem _ hi)]
      congr 1
      obtain ⟨g1, g2, -, -⟩ := hpat k List.mem_cons_self
      have hlen : ((reads k).length : α) ≠ 0 := by
        rw [Nat.cast_ne_zero]
        exact fun h => g1 (List.length_eq_zero_iff.1 h)
      simp only [List.map_map, Function.comp_def, List.map_const', List.sum_replicate, nsmul_eq_mul, g2]
      field_simp
  · rw [← ca_readStep _ (ca_sorted readTime h0 reads c r.idx ho)]
    exact congrArg Prod.fst (fold_blocks p readTime reads c r.idx hpat (⟨0, 0, 0⟩, 0))

/-- The pixel's Poisson variance: the inverse-variance weighted combination of the ramps' unit-rate variances, times
the pixel's slope when positive and zero otherwise. -/
theorem C93_pixel_poisson (fits : List (Option (Fit α))) (F : List (Fit α)) (hF : F = fits.filterMap id)
    (hv : ∀ f ∈ F, 0 < f.readVar) (hne : F ≠ []) :
    (average fits).poissonVar = (F.map fun f => f.poissonVar / f.readVar ^ 2).sum
      / (F.map fun f => 1 / f.readVar).sum ^ 2 * (if 0 ≤ (average fits).slope then (average fits).slope else 0) := by
  have hw : F.map (fun f : Fit α => if f.readVar = 0 then 0 else 1 / f.readVar) = F.map fun f => 1 / f.readVar :=
    List.map_congr_left fun f hf => by rw [if_neg (hv f hf).ne']
  have hs : F.map (fun f : Fit α => (if f.readVar = 0 then 0 else 1 / f.readVar)
        * (if f.readVar = 0 then 0 else 1 / f.readVar) * f.poissonVar) = F.map fun f => f.poissonVar / f.readVar ^ 2 :=
    List.map_congr_left fun f hf => by
      have := (hv f hf).ne'
      rw [if_neg this]; field_simp
  have hpos : 0 < (F.map fun f => 1 / f.readVar).sum :=
    Verif.Ols.sum_pos_of_mem F _ (fun x hx => by have := hv x hx; positivity) hne
  have hmax : (if 0 ≤ (average fits).slope then (average fits).slope else 0) = max (average fits).slope 0 := by
    by_cases h : 0 ≤ (average fits).slope
    · rw [if_pos h, max_eq_left h]
    · rw [if_neg h, max_eq_right (not_le.1 h).le]
  rw [hmax]
  simp only [average, ← hF, hw, hs]
  rw [if_pos hpos.ne', pow_two]

/-! ## C75: the statistic and the threshold -/

/-- The statistic of the difference of the resultants `i < j` of a ramp in the code's noise model: the deviation of
the slope between them from the fitted slope, in units of its standard deviation.  The variance is that of the
difference of the two means of reads with independent read errors and Poisson counts at the fitted rate, over the
squared time between them, less the rate over the length of the ramp. -/
def caDeviation (p : Pix α) (slope : α) (i j : Nat) : α := (p.res j - p.res i) / (p.tbar j - p.tbar i) - slope

/-- See `caDeviation`. -/
def caVariance (p : Pix α) (readTime : α) (reads : Nat → List α) (r : Ramp) (slope : α) (i j : Nat) : α :=
  let l := caReads readTime reads (fun k => if k = j then 1 else -1) [i, j]
  ((l.map fun x => x.1 ^ 2 * p.readNoise ^ 2).sum + slope * caPoisson l) / (p.tbar j - p.tbar i) ^ 2
    - slope / (p.tbar r.stop - p.tbar r.start)

/-- The statistic compared with the threshold is the deviation over the standard deviation; NaN when the variance
estimate is negative, infinite when it is zero. -/
theorem C75_statistic (cfg : Cfg α) (p : Pix α) (readTime : α) (h0 : 0 ≤ readTime) (reads : Nat → List α)
    (r : Ramp) (slope : α) (i d : Nat) (hpat : FromPattern p readTime reads [i, i + d]) (hd : d = 1 ∨ d = 2)
    (ho : PatternOrdered reads [i, i + d]) (ht : p.tbar i < p.tbar (i + d)) :
    let v := caVariance p readTime reads r slope i (i + d)
    let x := caDeviation p slope i (i + d)
    (0 < v → stat cfg p r slope i d = fin (x / cfg.sqrt v))
    ∧ (v < 0 → stat cfg p r slope i d = none)
    ∧ (v = 0 → stat cfg p r slope i d = if 0 < x then some ⊤ else if x < 0 then some ⊥ else none) := by
  intro v x
  have hne : i ≠ i + d := by omega
  have hv : v = (p.readNoise * p.readNoise * (1 / (p.nreads (i + d) : α) + 1 / (p.nreads i : α))
      + slope * (p.tau (i + d) + p.tau i - 2 * min (p.tbar (i + d)) (p.tbar i)))
        / ((p.tbar (i + d) - p.tbar i) * (p.tbar (i + d) - p.tbar i))
      + -slope / (p.tbar r.stop - p.tbar r.start) := by
    have hi := hpat i (by simp)
    have hj := hpat (i + d) (by simp)
    have hlen : ∀ k ∈ [i, i + d], ((reads k).length : α) ≠ 0 := by
      intro k hk
      rw [Nat.cast_ne_zero]
      exact fun h => (hpat k hk).1 (List.length_eq_zero_iff.1 h)
    have e1 : ((caReads readTime reads (fun k => if k = i + d then (1 : α) else -1) [i, i + d]).map
        fun x => x.1 ^ 2 * p.readNoise ^ 2).sum
        = p.readNoise * p.readNoise * (1 / (p.nreads (i + d) : α) + 1 / (p.nreads i : α)) := by
      have a := hlen i (by simp)
      have b := hlen (i + d) (by simp)
      simp only [caReads, List.flatMap_cons, List.flatMap_nil, List.append_nil, List.map_append, List.sum_append,
        List.map_map, Function.comp_def, List.map_const', List.sum_replicate, nsmul_eq_mul, if_neg hne,
        hi.2.1, hj.2.1]
      simp only [if_true]
      field_simp
      ring
    have e2 : caPoisson (caReads readTime reads (fun k => if k = i + d then (1 : α) else -1) [i, i + d])
        = p.tau (i + d) + p.tau i - 2 * min (p.tbar (i + d)) (p.tbar i) := by
      rw [← ca_readStep _ (ca_sorted readTime h0 reads _ _ ho)]
      have := congrArg Prod.fst (fold_blocks p readTime reads (fun k => if k = i + d then (1 : α) else -1)
        [i, i + d] hpat (⟨0, 0, 0⟩, 0))
      rw [caReads, ← this]
      simp only [List.foldl_cons, List.foldl_nil, fitStep, if_neg hne]
      simp only [if_true]
      rw [min_eq_right ht.le]
      ring
    simp only [v, caVariance, e1, e2]
    ring
  have hx : (p.res (i + d) - p.res i) / (p.tbar (i + d) - p.tbar i) - slope = x := rfl
  simp only [stat]
  rw [← hv, hx]
  refine ⟨fun h => ?_, fun h => ?_, fun h => ?_⟩
  · rw [if_neg (not_lt.2 h.le), if_neg h.ne']
  · rw [if_pos h]
  · rw [if_neg (by rw [h]; exact lt_irrefl 0), if_pos h]

/-- The threshold falls linearly with the logarithm of the slope, which counts as 1 when smaller and as 10⁴ when
larger. -/
theorem C75_threshold (cfg : Cfg α) (slope : α) :
    (slope ≤ 1 → threshold cfg slope = cfg.intercept - cfg.constant * cfg.log10 1)
    ∧ (1 ≤ slope → slope ≤ 10 ^ 4 → threshold cfg slope = cfg.intercept - cfg.constant * cfg.log10 slope)
    ∧ (10 ^ 4 ≤ slope → threshold cfg slope = cfg.intercept - cfg.constant * cfg.log10 (10 ^ 4)) := by
  have e : (10 : α) ^ 4 = 10000 := by norm_num
  rw [e]
  simp only [threshold, gt_iff_lt]
  refine ⟨fun h => ?_, fun h1 h2 => ?_, fun h => ?_⟩
  · rw [if_neg (not_lt.2 h), if_pos (by norm_num)]
  · rcases eq_or_lt_of_le h1 with h | h
    · rw [← h, if_neg (lt_irrefl 1), if_pos (by norm_num)]
    · rw [if_pos h]
      rcases eq_or_lt_of_le h2 with h' | h'
      · rw [h', if_neg (lt_irrefl _)]
      · rw [if_pos h']
  · have h1 : (1 : α) < slope := lt_of_lt_of_le (by norm_num) h
    rw [if_pos h1, if_neg (not_lt.2 h)]

end

/-! Non-vacuity: a ramp of the pattern (read 1; reads 2,3; reads 4,5), rising steeply enough for a non-zero exponent
with `sqrt` replaced by the identity on small numbers. -/

/-- The pixel of the examples. -/
def caPixel (res : Nat → ℚ) : Pix ℚ := ⟨fun i => meanTime 3 (cas22Reads i), fun i => tauTime 3 (cas22Reads i),
    fun i => (cas22Reads i).length, res, 2⟩

example : (caPixel fun i => (i : ℚ) * 20).tbar 0 ≠ (caPixel fun i => (i : ℚ) * 20).tbar 2 := by decide +kernel
example : caSnr (fun _ => (2 : ℚ)) 2 40 = 20 ∧ ovExponent (20 : ℚ) = 3 := by decide +kernel
example : caPoisson (caReads 3 cas22Reads (fun _ => (1 : ℚ)) [0, 1]) = 3 + (27 / 4 + 6) := by decide +kernel
example : caVariance (caPixel fun i => (i : ℚ) * 20) 3 cas22Reads ⟨0, 2⟩ 1 0 1 = 73 / 189
    ∧ PatternOrdered cas22Reads [0, 1] := by
  unfold PatternOrdered; decide +kernel

end Verif.Thm
