import Verif.Thm.Ols
import Mathlib.Algebra.BigOperators.Intervals
import Mathlib.Algebra.BigOperators.Field
import Mathlib.Algebra.Order.BigOperators.Ring.Finset
import Mathlib.Tactic.FieldSimp
import Mathlib.Tactic.LinearCombination
import Mathlib.Tactic.Positivity

/-! # Segment fits: variances and optimal weights (C85, C86) -/

namespace Verif.Thm

open Verif.Dq Verif.Ols

set_option linter.unusedSectionVars false

section OlsVar
variable {α : Type*} [Field α] [LinearOrder α] [IsStrictOrderedRing α]

theorem ov_sumTo (n : Nat) (f : Nat → α) : sumTo n f = ∑ k ∈ Finset.range n, f k := by
  induction n with
  | zero => simp [sumTo_zero]
  | succ n ih => rw [sumTo_eq, Finset.sum_range_succ, ih]

/-! ## C85: segment variances -/

/-- Mean sample time of `n` samples taken at `0, t, 2t, …`. -/
def ovMeanTime (n : Nat) (t : α) : α := (∑ k ∈ Finset.range n, (k : α) * t) / n

/-- Sum of the squared deviations of the sample times from their mean. -/
def ovSpread (n : Nat) (t : α) : α := ∑ k ∈ Finset.range n, ((k : α) * t - ovMeanTime n t) ^ 2

/-- Coefficient of sample `k` in the slope of the unweighted straight-line fit to `n` samples. -/
def ovCoef (n : Nat) (t : α) (k : Nat) : α := ((k : α) * t - ovMeanTime n t) / ovSpread n t

/-- Variance of the slope of the unweighted straight-line fit to `n` samples with independent errors of variance
`v`: the coefficients' squares times the variance. -/
def ovSlopeVar (n : Nat) (t v : α) : α := ∑ k ∈ Finset.range n, ovCoef n t k ^ 2 * v

theorem ov_sum_id (n : Nat) : ∑ k ∈ Finset.range n, (k : α) = (n : α) * (n - 1) / 2 := by
  induction n with
  | zero => simp
  | succ n ih => rw [Finset.sum_range_succ, ih]; push_cast; ring

theorem ov_mean (n : Nat) (hn : 0 < n) (t : α) : ovMeanTime n t = ((n : α) - 1) / 2 * t := by
  have h : (n : α) ≠ 0 := by exact_mod_cast hn.ne'
  rw [ovMeanTime, ← Finset.sum_mul, ov_sum_id]; field_simp

theorem ov_spread (n : Nat) (hn : 0 < n) (t : α) : ovSpread n t = ((n : α) ^ 3 - n) / 12 * t ^ 2 := by
  rw [ovSpread, ov_mean n hn]
  have : ∀ (m : Nat) (c : α), ∑ k ∈ Finset.range m, ((k : α) * t - c * t) ^ 2
      = ((m : α) * (m - 1) * (2 * m - 1) / 6 - c * (m * (m - 1)) + m * c ^ 2) * t ^ 2 := by
    intro m c
    induction m with
    | zero => simp
    | succ m ih => rw [Finset.sum_range_succ, ih]; push_cast; ring
  rw [this]; ring

theorem ov_slopeVar (n : Nat) (hn : 2 ≤ n) (t v : α) (ht : t ≠ 0) :
    ovSlopeVar n t v = 12 * v / (((n : α) ^ 3 - n) * t ^ 2) := by
  have h2 : (2 : α) ≤ (n : α) := by exact_mod_cast hn
  have hpos : (0 : α) < (n : α) ^ 3 - n := by
    have : (n : α) ^ 3 - n = n * (n - 1) * (n + 1) := by ring
    rw [this]; exact mul_pos (mul_pos (by linarith) (by linarith)) (by linarith)
  have hs : ovSpread n t ≠ 0 := by
    rw [ov_spread n (by omega)]
    exact mul_ne_zero (by positivity) (pow_ne_zero 2 ht)
  have e : ovSlopeVar n t v = ovSpread n t / ovSpread n t ^ 2 * v := by
    rw [ovSlopeVar, ← Finset.sum_mul]
    congr 1
    simp only [ovCoef, div_pow]
    rw [← Finset.sum_div]; rfl
  rw [e, ov_spread n (by omega)]
  rw [ov_spread n (by omega)] at hs
  have := hpos.ne'
  field_simp

/-- The read-noise variance of a fitted segment of at least two groups is the variance of the slope of the
unweighted straight-line fit through its groups when every group carries an independent error of `rnoise / gain`
(the optimal weights are not taken into account).  A segment of one group gets the value of two groups that are
its own integration time apart. -/
theorem C85_read_noise (cfg : Cfg α) (px : Pix α) (hg : 0 < px.gain) (med : Option α) (z0 zf : Bool)
    (data : Nat → Option α) (s : Seg) :
    (2 ≤ s.len → cfg.groupTime ≠ 0 →
      (fitSeg cfg px med z0 zf data s).varR = ovSlopeVar s.len cfg.groupTime ((px.rnoise / px.gain) ^ 2))
    ∧ (s.len = 1 → ∀ t, t ≠ 0 →
        t = (if cfg.suppress1g then cfg.groupTime else if z0 then cfg.oneGroupTime else if zf then cfg.frameTime
          else cfg.groupTime) →
        (fitSeg cfg px med z0 zf data s).varR = ovSlopeVar 2 t ((px.rnoise / px.gain) ^ 2)) := by
  have key : ∀ n : Nat, 2 ≤ n → ∀ t : α, t ≠ 0 → rnoiseVar px n t = ovSlopeVar n t ((px.rnoise / px.gain) ^ 2) := by
    intro n hn t ht
    rw [ov_slopeVar n hn t _ ht, rnoiseVar]
    have h2 : (2 : α) ≤ (n : α) := by exact_mod_cast hn
    have e : (n : α) * n * n - n = (n : α) ^ 3 - n := by ring
    have hpos : (0 : α) < (n : α) ^ 3 - n := by
      have : (n : α) ^ 3 - n = n * (n - 1) * (n + 1) := by ring
      rw [this]; exact mul_pos (mul_pos (by linarith) (by linarith)) (by linarith)
    rw [e]
    have h1 := hpos.ne'
    have h3 := hg.ne'
    field_simp
  refine ⟨fun hl ht => ?_, fun hl t ht e => ?_⟩
  · rcases Nat.lt_or_ge 2 s.len with h | h
    · rw [fitSeg, if_neg (by omega), if_neg (by omega)]
      simp only [if_neg (not_le.2 hg)]
      exact key s.len hl _ ht
    · have h2 : s.len = 2 := by omega
      rw [fitSeg, if_neg (by omega), if_pos h2, h2]
      exact key 2 le_rfl _ ht
  · rw [fitSeg, if_pos hl]
    have : len1Timing cfg z0 zf = t := by
      rw [e, len1Timing]
      cases cfg.suppress1g <;> cases z0 <;> cases zf <;> rfl
    simp only [this]
    exact key 2 le_rfl t ht

/-- The rate used for the photon noise: the pixel's median rate if it is a positive number, and nothing otherwise,
plus the dark current. -/
def ovRate (px : Pix α) (med : Option α) : α := max (med.getD 0) 0 + px.dcurrent

/-- The Poisson variance of a segment of at least two groups is that of a counted number of electrons: if the
rate (median rate plus dark current) collects `N` electrons between the first and the last group, the variance is
`N / (gain · T)²`, the variance of `N / (gain · T)` when `N` has variance `N`.  For one group, `T` is the group's own
time. -/
theorem C85_poisson (cfg : Cfg α) (px : Pix α) (hg : 0 < px.gain) (med : Option α) (z0 zf : Bool)
    (data : Nat → Option α) (s : Seg) (hs : 1 ≤ s.len) (T : α) (hT : T ≠ 0)
    (eT : T = if s.len = 1 then
        (if cfg.suppress1g then cfg.groupTime else if z0 then cfg.oneGroupTime else if zf then cfg.frameTime
          else cfg.groupTime)
      else cfg.groupTime * ((s.len - 1 : Nat) : α)) :
    ∀ N, N = ovRate px med * px.gain * T → (fitSeg cfg px med z0 zf data s).varP = N / (px.gain * T) ^ 2 := by
  intro N hN
  have hp : poissonNum px med = ovRate px med := by
    cases med with
    | none => simp [poissonNum, ovRate]
    | some m =>
      simp only [poissonNum, ovRate, Option.getD_some]
      by_cases h : 0 < m
      · rw [if_pos h, max_eq_left h.le]
      · rw [if_neg h, max_eq_right (not_lt.1 h), zero_add]
  have fin : ∀ D : α, D = px.gain * T → poissonNum px med / D = N / (px.gain * T) ^ 2 := by
    rintro D rfl
    have h3 := hg.ne'
    rw [hN, hp]; field_simp
  rw [fitSeg]
  by_cases h1 : s.len = 1
  · rw [if_pos h1]
    apply fin
    have : len1Timing cfg z0 zf = T := by
      rw [eT, if_pos h1, len1Timing]
      cases cfg.suppress1g <;> cases z0 <;> cases zf <;> rfl
    rw [this]; ring
  · rw [if_neg h1]
    rw [if_neg h1] at eT
    by_cases h2 : s.len = 2
    · rw [if_pos h2]
      apply fin
      rw [eT, h2]; simp; ring
    · rw [if_neg h2]
      apply fin
      rw [eT, Nat.cast_sub hs]; push_cast; ring

/-- A longer segment of the same ramp has a smaller read-noise variance and, if there is photon noise at all, a
smaller Poisson variance. -/
theorem C85_longer_is_better (cfg : Cfg α) (px : Pix α) (hg : 0 < px.gain) (hr : px.rnoise ≠ 0)
    (ht : 0 < cfg.groupTime) (med : Option α) (z0 zf : Bool) (data : Nat → Option α) (s s' : Seg) (h2 : 2 ≤ s.len)
    (hlt : s.len < s'.len) :
    (fitSeg cfg px med z0 zf data s').varR < (fitSeg cfg px med z0 zf data s).varR
    ∧ (0 < ovRate px med → (fitSeg cfg px med z0 zf data s').varP < (fitSeg cfg px med z0 zf data s).varP) := by
  have hc : (2 : α) ≤ (s.len : α) := by exact_mod_cast h2
  have hc' : (s.len : α) + 1 ≤ (s'.len : α) := by exact_mod_cast hlt
  constructor
  · rw [(C85_read_noise cfg px hg med z0 zf data s).1 h2 ht.ne',
      (C85_read_noise cfg px hg med z0 zf data s').1 (by omega) ht.ne', ov_slopeVar _ h2 _ _ ht.ne',
      ov_slopeVar _ (by omega) _ _ ht.ne']
    have hv : 0 < 12 * (px.rnoise / px.gain) ^ 2 :=
      mul_pos (by norm_num) (pow_pos_of_ne (div_ne_zero hr hg.ne'))
    have f : ∀ x : α, x ^ 3 - x = x * (x - 1) * (x + 1) := fun x => by ring
    have p1 : (0 : α) < (s.len : α) ^ 3 - s.len := by
      rw [f]; exact mul_pos (mul_pos (by linarith) (by linarith)) (by linarith)
    apply div_lt_div_of_pos_left hv (mul_pos p1 (pow_pos ht 2))
    apply mul_lt_mul_of_pos_right _ (pow_pos ht 2)
    rw [f, f]
    apply mul_lt_mul'' _ (by linarith) (mul_nonneg (by linarith) (by linarith)) (by linarith)
    exact mul_lt_mul'' (by linarith) (by linarith) (by linarith) (by linarith)
  · intro hpos
    have hn : ∀ q : Seg, 2 ≤ q.len → (fitSeg cfg px med z0 zf data q).varP
        = ovRate px med / (px.gain * (cfg.groupTime * ((q.len : α) - 1))) := by
      intro q hq
      have hq' : (2 : α) ≤ (q.len : α) := by exact_mod_cast hq
      have hT : cfg.groupTime * ((q.len - 1 : Nat) : α) ≠ 0 := by
        rw [Nat.cast_sub (by omega)]; push_cast
        exact (mul_pos ht (by linarith)).ne'
      rw [C85_poisson cfg px hg med z0 zf data q (by omega) _ hT (by rw [if_neg (by omega)]) _ rfl]
      rw [Nat.cast_sub (by omega)] at hT ⊢
      push_cast at hT ⊢
      have := hg.ne'
      field_simp
    rw [hn s h2, hn s' (by omega)]
    apply div_lt_div_of_pos_left hpos
    · exact mul_pos hg (mul_pos ht (by linarith))
    · exact mul_lt_mul_of_pos_left (mul_lt_mul_of_pos_left (by linarith) ht) hg
where
  pow_pos_of_ne {x : α} (h : x ≠ 0) : 0 < x ^ 2 := by positivity

/-! ## C86: optimal weights -/

/-- Signal-to-noise ratio of a segment that gains `d` from its first to its last group. -/
def ovSnr (sqrt : α → α) (px : Pix α) (d : α) : α :=
  if d * px.gain ≤ 0 then 0 else d * px.gain / sqrt (px.rnoise ^ 2 + d * px.gain)

/-- Exponents of Fixsen et al. (2000): up to each signal-to-noise limit the exponent given, 10 beyond. -/
def ovTable : List (α × α) := [(5, 0), (10, 2 / 5), (20, 1), (50, 3), (100, 6)]

/-- Exponent for a signal-to-noise ratio. -/
def ovExponent (snr : α) : α := ((ovTable.find? fun e => decide (snr < e.1)).map Prod.snd).getD 10

theorem ov_power (x : α) : snrPower (some x) = ovExponent x := by
  simp only [snrPower, ovExponent, ovTable]
  by_cases h1 : x < 5
  · simp [h1]
  by_cases h2 : x < 10
  · simp [h1, h2]
  by_cases h3 : x < 20
  · simp [h1, h2, h3]
  by_cases h4 : x < 50
  · simp [h1, h2, h3, h4]
  by_cases h5 : x < 100
  · simp [h1, h2, h3, h4, h5]
  · simp [h1, h2, h3, h4, h5]

theorem ov_snr (cfg : Cfg α) (hsq : ∀ x, 0 < x → 0 < cfg.sqrt x) (px : Pix α) (hg : 0 < px.gain) (a b : α) :
    segSnr cfg px (some a) (some b) = some (ovSnr cfg.sqrt px (b - a)) := by
  have e : px.rnoise * px.rnoise = px.rnoise ^ 2 := by ring
  simp only [segSnr, o2_some, ovSnr, e]
  have hR : 0 ≤ px.rnoise ^ 2 := sq_nonneg _
  by_cases h : (b - a) * px.gain ≤ 0
  · rw [if_pos h]
    by_cases h' : px.rnoise ^ 2 + (b - a) * px.gain ≤ 0 ∨ px.gain = 0
    · rw [if_pos h']
    · rw [if_neg h']
      push Not at h'
      have hs := hsq _ h'.1
      by_cases h3 : (b - a) * px.gain / cfg.sqrt (px.rnoise ^ 2 + (b - a) * px.gain) < 0
      · rw [if_pos h3]
      · rw [if_neg h3]
        have : (b - a) * px.gain / cfg.sqrt (px.rnoise ^ 2 + (b - a) * px.gain) ≤ 0 :=
          div_nonpos_of_nonpos_of_nonneg h hs.le
        rw [le_antisymm this (not_lt.1 h3)]
  · rw [if_neg h]
    push Not at h
    rw [if_neg (by rintro (h' | h'); linarith; exact hg.ne' h'),
      if_neg (not_lt.2 (div_nonneg h.le (hsq _ (by linarith)).le))]

/-- Weight of group `k` of `n`: its distance from the middle of the segment, relative to that of the ends, to the
given power, over the squared read noise. -/
def ovWeight (powf : α → α → α) (px : Pix α) (n : Nat) (P : α) (k : Nat) : α :=
  powf (|2 * (k : α) - ((n : α) - 1)| / ((n : α) - 1)) P / px.rnoise ^ 2

theorem ov_weight (cfg : Cfg α) (px : Pix α) (n : Nat) (hn : 2 ≤ n) (P : α) (k : Nat) :
    optWeight cfg px n P k = ovWeight cfg.powf px n P k := by
  have h2 : (2 : α) ≤ (n : α) := by exact_mod_cast hn
  have hm : (0 : α) < (n : α) - 1 := by linarith
  simp only [optWeight, ovWeight]
  have e : (|((k : α) - ((n : α) - 1) / 2) * (1 / (((n : α) - 1) / 2))|)
      = |2 * (k : α) - ((n : α) - 1)| / ((n : α) - 1) := by
    rw [← abs_of_pos hm, ← abs_div, abs_of_pos hm]
    congr 1
    have := hm.ne'
    field_simp
  rw [e]; ring

/-- Sum of weighted squared residuals of the line `b + m x` through the samples of a segment. -/
def ovChi (n : Nat) (x w y : Nat → α) (m b : α) : α := ∑ k ∈ Finset.range n, w k * (y k - b - m * x k) ^ 2

theorem ov_normal (n start : Nat) (w y : Nat → α) (hden : wden n start w ≠ 0) :
    (∑ k ∈ Finset.range n, w k * (y k - (wls n start w y).2 - (wls n start w y).1 * ((k : α) + start)) = 0)
    ∧ ∑ k ∈ Finset.range n, w k * (y k - (wls n start w y).2 - (wls n start w y).1 * ((k : α) + start))
        * ((k : α) + start) = 0 := by
  set m := (wls n start w y).1 with hm
  set b := (wls n start w y).2 with hb
  simp only [wls, ov_sumTo] at hm hb
  simp only [wden, ov_sumTo] at hden
  set W := ∑ k ∈ Finset.range n, w k
  set X := ∑ k ∈ Finset.range n, ((k : α) + start) * w k
  set XX := ∑ k ∈ Finset.range n, ((k : α) + start) * (((k : α) + start) * w k)
  set Y := ∑ k ∈ Finset.range n, y k * w k
  set XY := ∑ k ∈ Finset.range n, y k * (((k : α) + start) * w k)
  have e1 : ∑ k ∈ Finset.range n, w k * (y k - b - m * ((k : α) + start)) = Y - b * W - m * X := by
    simp only [Y, W, X, Finset.mul_sum, ← Finset.sum_sub_distrib]
    exact Finset.sum_congr rfl fun k _ => by ring
  have e2 : ∑ k ∈ Finset.range n, w k * (y k - b - m * ((k : α) + start)) * ((k : α) + start)
      = XY - b * X - m * XX := by
    simp only [XY, XX, X, Finset.mul_sum, ← Finset.sum_sub_distrib]
    exact Finset.sum_congr rfl fun k _ => by ring
  rw [e1, e2]
  have hm' : m * (W * XX - X * X) = W * XY - X * Y := by rw [hm, mul_assoc, one_div_mul_cancel hden, mul_one]
  have hb' : b * (W * XX - X * X) = XX * Y - X * XY := by rw [hb, mul_assoc, one_div_mul_cancel hden, mul_one]
  constructor
  · apply (mul_eq_zero_iff_right hden).1
    linear_combination -W * hb' - X * hm'
  · apply (mul_eq_zero_iff_right hden).1
    linear_combination -X * hb' - XX * hm'

theorem ov_min (n start : Nat) (hn : 2 ≤ n) (w y : Nat → α) (hw : ∀ k, 0 ≤ w k) (h0 : 0 < w 0)
    (h1 : 0 < w (n - 1)) (m' b' : α) :
    ovChi n (fun k => (k : α) + start) w y (wls n start w y).1 (wls n start w y).2
        ≤ ovChi n (fun k => (k : α) + start) w y m' b'
    ∧ (m' ≠ (wls n start w y).1 →
      ovChi n (fun k => (k : α) + start) w y (wls n start w y).1 (wls n start w y).2
        < ovChi n (fun k => (k : α) + start) w y m' b') := by
  obtain ⟨n1, n2⟩ := ov_normal n start w y (wden_pos n start hn w hw h0 h1).ne'
  set m := (wls n start w y).1
  set b := (wls n start w y).2
  have e : ovChi n (fun k => (k : α) + start) w y m' b'
      = ovChi n (fun k => (k : α) + start) w y m b
        + ∑ k ∈ Finset.range n, w k * ((b - b') + (m - m') * ((k : α) + start)) ^ 2 := by
    have : ovChi n (fun k => (k : α) + start) w y m' b'
      = ovChi n (fun k => (k : α) + start) w y m b
        + ∑ k ∈ Finset.range n, w k * ((b - b') + (m - m') * ((k : α) + start)) ^ 2
        + 2 * (b - b') * (∑ k ∈ Finset.range n, w k * (y k - b - m * ((k : α) + start)))
        + 2 * (m - m') * ∑ k ∈ Finset.range n, w k * (y k - b - m * ((k : α) + start)) * ((k : α) + start) := by
      simp only [ovChi, Finset.mul_sum, ← Finset.sum_add_distrib]
      exact Finset.sum_congr rfl fun k _ => by ring
    rw [this, n1, n2]; ring
  have hnn : ∀ k, 0 ≤ w k * ((b - b') + (m - m') * ((k : α) + start)) ^ 2 := fun k =>
    mul_nonneg (hw k) (sq_nonneg _)
  rw [e]
  refine ⟨by linarith [Finset.sum_nonneg fun k (_ : k ∈ Finset.range n) => hnn k], fun hne => ?_⟩
  have hpos : 0 < ∑ k ∈ Finset.range n, w k * ((b - b') + (m - m') * ((k : α) + start)) ^ 2 := by
    apply Finset.sum_pos' fun k _ => hnn k
    by_cases hz : (b - b') + (m - m') * (((0 : Nat) : α) + start) = 0
    · refine ⟨n - 1, Finset.mem_range.2 (by omega), mul_pos h1 ?_⟩
      have hne' : m - m' ≠ 0 := sub_ne_zero.2 (Ne.symm hne)
      have hc : (((n - 1 : Nat) : α)) ≠ 0 := by
        have : n - 1 ≠ 0 := by omega
        exact_mod_cast this
      have : (b - b') + (m - m') * (((n - 1 : Nat) : α) + start) = (m - m') * ((n - 1 : Nat) : α) := by
        have := hz
        push_cast at this ⊢
        linear_combination this
      rw [this]
      have := mul_ne_zero hne' hc
      positivity
    · exact ⟨0, Finset.mem_range.2 (by omega), mul_pos h0 (by positivity)⟩
  linarith

/-- A segment of at least three groups is fitted by the weighted least-squares line: with the weights
`|distance from the middle|^P / rnoise²`, `P` the tabulated exponent for the segment's signal-to-noise ratio, the
reported slope (times the group time, i.e. per group) minimises the weighted sum of squared residuals, and every
other slope gives a larger sum. -/
theorem C86_least_squares (cfg : Cfg α) (hpow : PowOk cfg.powf) (hsq : ∀ x, 0 < x → 0 < cfg.sqrt x) (px : Pix α)
    (hg : 0 < px.gain) (hr : px.rnoise ≠ 0) (ht : cfg.groupTime ≠ 0) (med : Option α) (z0 zf : Bool) (y : Nat → α)
    (s : Seg) (hs : 3 ≤ s.len) :
    ∃ m b, (fitSeg cfg px med z0 zf (fun k => some (y k)) s).slope = some m
      ∧ ∀ P, P = ovExponent (ovSnr cfg.sqrt px (y (s.start + s.len - 1) - y s.start)) →
        let chi := ovChi s.len (fun k => (k : α) + s.start) (ovWeight cfg.powf px s.len P) fun k => y (s.start + k)
        (∀ m' b', chi (m * cfg.groupTime) b ≤ chi m' b')
        ∧ ∀ m' b', m' ≠ m * cfg.groupTime → chi (m * cfg.groupTime) b < chi m' b' := by
  set P := ovExponent (ovSnr cfg.sqrt px (y (s.start + s.len - 1) - y s.start)) with hP
  set w := optWeight cfg px s.len P with hw
  have hweq : ovWeight cfg.powf px s.len P = w := by
    funext k; exact (ov_weight cfg px s.len (by omega) P k).symm
  obtain ⟨w0, w1, w2⟩ := optWeight_ends cfg px s.len (by omega) P hr hpow.1 hpow.2
  refine ⟨(wls s.len s.start w fun k => y (s.start + k)).1 / cfg.groupTime,
    (wls s.len s.start w fun k => y (s.start + k)).2, ?_, ?_⟩
  · rw [fitSeg, if_neg (by omega), if_neg (by omega)]
    simp only [ov_snr cfg hsq px hg, ov_power, Option.getD_some]
    rfl
  · rintro Q rfl
    rw [hweq, div_mul_cancel₀ _ ht]
    exact ⟨fun m' b' => (ov_min s.len s.start (by omega) w _ w0 w1 w2 m' b').1,
      fun m' b' h => (ov_min s.len s.start (by omega) w _ w0 w1 w2 m' b').2 h⟩

/-- Below a signal-to-noise ratio of 5 all groups count the same: the slope is that of the unweighted
least-squares line. -/
theorem C86_faint_unweighted (cfg : Cfg α) (hpow : PowOk cfg.powf) (hp0 : ∀ x, cfg.powf x 0 = 1)
    (hsq : ∀ x, 0 < x → 0 < cfg.sqrt x) (px : Pix α) (hg : 0 < px.gain) (hr : px.rnoise ≠ 0)
    (ht : cfg.groupTime ≠ 0) (med : Option α) (z0 zf : Bool) (y : Nat → α) (s : Seg) (hs : 3 ≤ s.len)
    (hfaint : ovSnr cfg.sqrt px (y (s.start + s.len - 1) - y s.start) < 5) :
    ∃ m b, (fitSeg cfg px med z0 zf (fun k => some (y k)) s).slope = some m
      ∧ ∀ m' b', m' ≠ m →
        ∑ k ∈ Finset.range s.len, (y (s.start + k) - b - m * (((k : α) + s.start) * cfg.groupTime)) ^ 2
          < ∑ k ∈ Finset.range s.len, (y (s.start + k) - b' - m' * (((k : α) + s.start) * cfg.groupTime)) ^ 2 := by
  obtain ⟨m, b, hm, h⟩ := C86_least_squares cfg hpow hsq px hg hr ht med z0 zf y s hs
  refine ⟨m, b, hm, fun m' b' hne => ?_⟩
  have hP : ovExponent (ovSnr cfg.sqrt px (y (s.start + s.len - 1) - y s.start)) = 0 := by
    rw [ovExponent, ovTable, List.find?_cons]
    simp [hfaint]
  have h2 := (h 0 hP.symm).2 (m' * cfg.groupTime) b' fun e => hne (mul_right_cancel₀ ht e)
  have hrr : 0 < px.rnoise ^ 2 := by positivity
  have ew : ∀ k, ovWeight cfg.powf px s.len 0 k = 1 / px.rnoise ^ 2 := fun k => by rw [ovWeight, hp0]
  have ec : ∀ q c : α, ovChi s.len (fun k => (k : α) + s.start) (ovWeight cfg.powf px s.len 0)
      (fun k => y (s.start + k)) (q * cfg.groupTime) c
      = 1 / px.rnoise ^ 2
        * ∑ k ∈ Finset.range s.len, (y (s.start + k) - c - q * (((k : α) + s.start) * cfg.groupTime)) ^ 2 := by
    intro q c
    rw [ovChi, Finset.mul_sum]
    exact Finset.sum_congr rfl fun k _ => by rw [ew]; ring
  rw [ec, ec] at h2
  exact lt_of_mul_lt_mul_left h2 (by positivity)

/-- The brighter the segment, the larger the exponent, and it stays between 0 and 10. -/
theorem C86_exponent_monotone (x y : α) (h : x ≤ y) :
    snrPower (some x) ≤ snrPower (some y) ∧ 0 ≤ snrPower (some x) ∧ snrPower (some y) ≤ 10 := by
  simp only [snrPower]
  split_ifs <;> first | (exfalso; linarith) | (refine ⟨?_, ?_, ?_⟩ <;> norm_num)

end OlsVar

/-! ### Examples -/

/-- Exposure used in the examples: group time 2, other times 3 and 5. -/
def ovCfg : Cfg ℚ := ⟨2, 3, 5, false, fun x => if 0 < x then x else 0, fun _ _ => 1⟩

/-- Pixel used in the examples: gain 2, read noise 4, dark current 1/2. -/
def ovPix : Pix ℚ := ⟨2, 4, 1 / 2⟩

/-- A segment of three groups: read-noise variance 1/2, Poisson variance 3/16. -/
example : (fitSeg ovCfg ovPix (some 1) false false (fun k => some ((k : ℚ) ^ 2)) ⟨1, 4⟩).varR = 1 / 2
    ∧ (fitSeg ovCfg ovPix (some 1) false false (fun k => some ((k : ℚ) ^ 2)) ⟨1, 4⟩).varP = 3 / 16
    ∧ ovRate ovPix (some 1) = 3 / 2 ∧ ovSlopeVar 3 (2 : ℚ) 4 = 1 / 2 := by decide +kernel

/-- The hypotheses of the weight theorems hold for the example exposure, with a faint ramp that is not a line. -/
example : PowOk ovCfg.powf ∧ (∀ x, 0 < x → 0 < ovCfg.sqrt x) ∧ (∀ x, ovCfg.powf x 0 = 1)
    ∧ ovSnr ovCfg.sqrt ovPix ((3 : ℚ) ^ 2 - 1 ^ 2) < 5 ∧ (⟨1, 4⟩ : Seg).len = 3 :=
  ⟨⟨fun _ => rfl, fun _ _ => zero_le_one⟩, fun x h => by simp [ovCfg, h], fun _ => rfl, by decide +kernel, rfl⟩

/-- Exponents at a faint, a medium and a bright segment. -/
example : ovExponent (3 : ℚ) = 0 ∧ ovExponent (10 : ℚ) = 1 ∧ ovExponent (400 : ℚ) = 10 := by decide +kernel

end Verif.Thm
