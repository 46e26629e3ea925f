import Verif.Model.OptRes
import Verif.Thm.OlsVar
import Verif.Thm.OlsPixel
import Verif.Thm.Slicing

/-! # Optional results of the ramp fit (C88–C91) -/

namespace Verif.Thm

open Verif.Dq Verif.Ols Verif.Slicing

set_option linter.unusedSectionVars false

section Opt
variable {α : Type*} [Field α] [LinearOrder α] [IsStrictOrderedRing α]

/-! ## C88: segment intercepts and uncertainties -/

/-- The slope and the intercept reported for a segment of at least three groups are those of the weighted
least-squares line: no other line has a smaller weighted sum of squared residuals. -/
theorem C88_line (cfg : Cfg α) (hpow : PowOk cfg.powf) (hsq : ∀ x, 0 < x → 0 < cfg.sqrt x) (px : Pix α)
    (hg : 0 < px.gain) (hr : px.rnoise ≠ 0) (ht : cfg.groupTime ≠ 0) (med : Option α) (z0 zf : Bool) (y : Nat → α)
    (s : Seg) (hs : 3 ≤ s.len) :
    ∃ m b, (segOpt cfg px med z0 zf (fun k => some (y k)) s).fit.slope = some m
      ∧ (segOpt cfg px med z0 zf (fun k => some (y k)) s).yint = some b
      ∧ ∀ P, P = ovExponent (ovSnr cfg.sqrt px (y (s.start + s.len - 1) - y s.start)) → ∀ m' b',
        let chi := ovChi s.len (fun k => (k : α) + s.start) (ovWeight cfg.powf px s.len P) fun k => y (s.start + k)
        chi (m * cfg.groupTime) b ≤ chi m' b' := by
  set P := ovExponent (ovSnr cfg.sqrt px (y (s.start + s.len - 1) - y s.start)) with hP
  set w := optWeight cfg px s.len P with hw
  have hweq : ovWeight cfg.powf px s.len P = w := by
    funext k; exact (ov_weight cfg px s.len (by omega) P k).symm
  obtain ⟨w0, w1, w2⟩ := optWeight_ends cfg px s.len (by omega) P hr hpow.1 hpow.2
  refine ⟨(wls s.len s.start w fun k => y (s.start + k)).1 / cfg.groupTime,
    (wls s.len s.start w fun k => y (s.start + k)).2, ?_, ?_, ?_⟩
  · rw [segOpt, if_neg (by omega), if_neg (by omega)]
    simp only
    rw [fitSeg, if_neg (by omega), if_neg (by omega)]
    simp only [ov_snr cfg hsq px hg, ov_power, Option.getD_some]
    rfl
  · rw [segOpt, if_neg (by omega), if_neg (by omega)]
    simp only [ov_snr cfg hsq px hg, ov_power, Option.getD_some]
    rfl
  · rintro Q rfl m' b'
    rw [hweq, div_mul_cancel₀ _ ht]
    exact (ov_min s.len s.start (by omega) w _ w0 w1 w2 m' b').1

/-- A segment of two groups: the reported line passes through both samples. -/
theorem C88_line_two (cfg : Cfg α) (ht : cfg.groupTime ≠ 0) (px : Pix α) (med : Option α) (z0 zf : Bool)
    (data : Nat → Option α) (s : Seg) (hs : s.len = 2) (d0 d1 : α) (h0 : data s.start = some d0)
    (h1 : data (s.start + 1) = some d1) :
    ∃ m b, (segOpt cfg px med z0 zf data s).fit.slope = some m ∧ (segOpt cfg px med z0 zf data s).yint = some b
      ∧ b + m * cfg.groupTime * (s.start : α) = d0 ∧ b + m * cfg.groupTime * ((s.start : α) + 1) = d1 := by
  refine ⟨(d1 - d0) / cfg.groupTime, d1 * (1 - ((s.start : α) + 1)) + d0 * ((s.start : α) + 1), ?_, ?_, ?_, ?_⟩
  · rw [segOpt, if_neg (by omega), if_pos hs]
    simp only
    rw [fitSeg, if_neg (by omega), if_pos hs, h0, h1]; rfl
  · rw [segOpt, if_neg (by omega), if_pos hs, h0, h1]; rfl
  · rw [div_mul_cancel₀ _ ht]; ring
  · rw [div_mul_cancel₀ _ ht]; ring

/-- The reported uncertainties of slope and intercept of a segment of at least three groups are the standard errors
of the weighted fit: slope and intercept are the linear combinations of the samples with coefficients `c` and `e`
(unbiased: they recover every straight line), samples of weight zero do not enter, and the uncertainties are the
square roots of the variances `Σ c²/w` and `Σ e²/w` that independent samples of variance `1/w` give. -/
theorem C88_uncertainties (cfg : Cfg α) (hpow : PowOk cfg.powf) (hsq : ∀ x, 0 < x → 0 < cfg.sqrt x) (px : Pix α)
    (hg : 0 < px.gain) (hr : px.rnoise ≠ 0) (ht : cfg.groupTime ≠ 0) (med : Option α) (z0 zf : Bool) (y : Nat → α)
    (s : Seg) (hs : 3 ≤ s.len) (w : Nat → α)
    (hw : w = ovWeight cfg.powf px s.len (ovExponent (ovSnr cfg.sqrt px (y (s.start + s.len - 1) - y s.start)))) :
    let r := segOpt cfg px med z0 zf (fun k => some (y k)) s
    let x : Nat → α := fun k => (k : α) + s.start
    let S : (Nat → α) → α := fun f => ∑ k ∈ Finset.range s.len, f k
    ∃ c e : Nat → α, (∀ m, r.fit.slope = some m → m * cfg.groupTime = S fun k => c k * y (s.start + k))
      ∧ (∀ b, r.yint = some b → b = S fun k => e k * y (s.start + k))
      ∧ S c = 0 ∧ (S fun k => c k * x k) = 1 ∧ S e = 1 ∧ (S fun k => e k * x k) = 0
      ∧ (∀ k, w k = 0 → c k = 0 ∧ e k = 0)
      ∧ r.sigslope = cfg.sqrt (S fun k => c k ^ 2 / w k) ∧ r.sigyint = cfg.sqrt (S fun k => e k ^ 2 / w k) := by
  intro r x S
  set P := ovExponent (ovSnr cfg.sqrt px (y (s.start + s.len - 1) - y s.start)) with hP
  have hweq : optWeight cfg px s.len P = w := by
    rw [hw]; funext k; exact ov_weight cfg px s.len (by omega) P k
  obtain ⟨w0, w1, w2⟩ := optWeight_ends cfg px s.len (by omega) P hr hpow.1 hpow.2
  rw [hweq] at w0 w1 w2
  have hden := (wden_pos s.len s.start (by omega) w w0 w1 w2).ne'
  simp only [wden, ov_sumTo] at hden
  set W := ∑ k ∈ Finset.range s.len, w k with hW
  set X := ∑ k ∈ Finset.range s.len, ((k : α) + s.start) * w k with hX
  set XX := ∑ k ∈ Finset.range s.len, ((k : α) + s.start) * (((k : α) + s.start) * w k) with hXX
  set D := W * XX - X * X with hD
  have hr1 : r.fit.slope = some ((wls s.len s.start w fun k => y (s.start + k)).1 / cfg.groupTime) := by
    simp only [r]
    rw [segOpt, if_neg (by omega), if_neg (by omega)]
    simp only
    rw [fitSeg, if_neg (by omega), if_neg (by omega)]
    simp only [ov_snr cfg hsq px hg, ov_power, Option.getD_some, ← hP, hweq]
  have hr2 : r.yint = some (wls s.len s.start w fun k => y (s.start + k)).2 := by
    simp only [r]
    rw [segOpt, if_neg (by omega), if_neg (by omega)]
    simp only [ov_snr cfg hsq px hg, ov_power, Option.getD_some, ← hP, hweq]
  have hr3 : r.sigslope = cfg.sqrt (W * (1 / D)) := by
    simp only [r]
    rw [segOpt, if_neg (by omega), if_neg (by omega)]
    simp only [ov_snr cfg hsq px hg, ov_power, ← hP, hweq, ov_sumTo, ← hW, ← hX, ← hXX, ← hD]
  have hr4 : r.sigyint = cfg.sqrt (XX * (1 / D)) := by
    simp only [r]
    rw [segOpt, if_neg (by omega), if_neg (by omega)]
    simp only [ov_snr cfg hsq px hg, ov_power, ← hP, hweq, ov_sumTo, ← hW, ← hX, ← hXX, ← hD]
  have q : ∀ a b d e f : α, ∑ k ∈ Finset.range s.len, (a * w k + b * (((k : α) + s.start) * w k)
      + d * (((k : α) + s.start) * (((k : α) + s.start) * w k)) + e * (y (s.start + k) * w k)
      + f * (y (s.start + k) * (((k : α) + s.start) * w k)))
      = a * W + b * X + d * XX + e * (∑ k ∈ Finset.range s.len, y (s.start + k) * w k)
        + f * ∑ k ∈ Finset.range s.len, y (s.start + k) * (((k : α) + s.start) * w k) := by
    intro a b d e f
    simp only [hW, hX, hXX, Finset.mul_sum, ← Finset.sum_add_distrib]
  have hsqdiv : ∀ u v : α, (w0' : 0 ≤ v) → (v * u / D) ^ 2 / v = v * u ^ 2 / D ^ 2 := by
    intro u v _
    by_cases hv : v = 0
    · simp [hv]
    · field_simp
  refine ⟨fun k => w k * (W * x k - X) / D, fun k => w k * (XX - X * x k) / D, ?_, ?_, ?_, ?_, ?_, ?_, ?_, ?_, ?_⟩
  · intro m hm
    rw [hr1, Option.some.injEq] at hm
    rw [← hm, div_mul_cancel₀ _ ht]
    simp only [S, x, wls, ov_sumTo, ← hW, ← hX, ← hXX, ← hD]
    have := q 0 0 0 (-X * (1 / D)) (W * (1 / D))
    rw [← sub_eq_zero]
    have e1 : ∑ k ∈ Finset.range s.len, w k * (W * ((k : α) + s.start) - X) / D * y (s.start + k)
        = ∑ k ∈ Finset.range s.len, (0 * w k + 0 * (((k : α) + s.start) * w k)
          + 0 * (((k : α) + s.start) * (((k : α) + s.start) * w k)) + (-X * (1 / D)) * (y (s.start + k) * w k)
          + (W * (1 / D)) * (y (s.start + k) * (((k : α) + s.start) * w k))) :=
      Finset.sum_congr rfl fun k _ => by rw [div_eq_mul_one_div]; ring
    rw [e1, this]; ring
  · intro b hb
    rw [hr2, Option.some.injEq] at hb
    rw [← hb]
    simp only [S, x, wls, ov_sumTo, ← hW, ← hX, ← hXX, ← hD]
    have := q 0 0 0 (XX * (1 / D)) (-X * (1 / D))
    rw [← sub_eq_zero]
    have e1 : ∑ k ∈ Finset.range s.len, w k * (XX - X * ((k : α) + s.start)) / D * y (s.start + k)
        = ∑ k ∈ Finset.range s.len, (0 * w k + 0 * (((k : α) + s.start) * w k)
          + 0 * (((k : α) + s.start) * (((k : α) + s.start) * w k)) + (XX * (1 / D)) * (y (s.start + k) * w k)
          + (-X * (1 / D)) * (y (s.start + k) * (((k : α) + s.start) * w k))) :=
      Finset.sum_congr rfl fun k _ => by rw [div_eq_mul_one_div]; ring
    rw [e1, this]; ring
  · have := q (-X * (1 / D)) (W * (1 / D)) 0 0 0
    simp only [S, x]
    have e1 : ∑ k ∈ Finset.range s.len, w k * (W * ((k : α) + s.start) - X) / D = _ :=
      (Finset.sum_congr rfl fun k _ => by rw [div_eq_mul_one_div]; ring).trans this
    rw [e1]; ring
  · have := q 0 (-X * (1 / D)) (W * (1 / D)) 0 0
    simp only [S, x]
    have e1 : ∑ k ∈ Finset.range s.len, w k * (W * ((k : α) + s.start) - X) / D * ((k : α) + s.start) = _ :=
      (Finset.sum_congr rfl fun k _ => by rw [div_eq_mul_one_div]; ring).trans this
    rw [e1]
    have : D * (1 / D) = 1 := mul_one_div_cancel hden
    linear_combination this
  · have := q (XX * (1 / D)) (-X * (1 / D)) 0 0 0
    simp only [S, x]
    have e1 : ∑ k ∈ Finset.range s.len, w k * (XX - X * ((k : α) + s.start)) / D = _ :=
      (Finset.sum_congr rfl fun k _ => by rw [div_eq_mul_one_div]; ring).trans this
    rw [e1]
    have : D * (1 / D) = 1 := mul_one_div_cancel hden
    linear_combination this
  · have := q 0 (XX * (1 / D)) (-X * (1 / D)) 0 0
    simp only [S, x]
    have e1 : ∑ k ∈ Finset.range s.len, w k * (XX - X * ((k : α) + s.start)) / D * ((k : α) + s.start) = _ :=
      (Finset.sum_congr rfl fun k _ => by rw [div_eq_mul_one_div]; ring).trans this
    rw [e1]; ring
  · intro k hk; simp [hk]
  · rw [hr3]
    congr 1
    simp only [S, x]
    have := q (X ^ 2 * (1 / D) ^ 2) (-2 * W * X * (1 / D) ^ 2) (W ^ 2 * (1 / D) ^ 2) 0 0
    have e1 : ∑ k ∈ Finset.range s.len, (w k * (W * ((k : α) + s.start) - X) / D) ^ 2 / w k = _ :=
      (Finset.sum_congr rfl fun k _ => by
        rw [hsqdiv _ _ (w0 k), div_eq_mul_one_div, ← one_div_pow]; ring).trans this
    rw [e1]
    have h1 : D * (1 / D) = 1 := mul_one_div_cancel hden
    linear_combination (-W * (1 / D)) * h1
  · rw [hr4]
    congr 1
    simp only [S, x]
    have := q (XX ^ 2 * (1 / D) ^ 2) (-2 * XX * X * (1 / D) ^ 2) (X ^ 2 * (1 / D) ^ 2) 0 0
    have e1 : ∑ k ∈ Finset.range s.len, (w k * (XX - X * ((k : α) + s.start)) / D) ^ 2 / w k = _ :=
      (Finset.sum_congr rfl fun k _ => by
        rw [hsqdiv _ _ (w0 k), div_eq_mul_one_div, ← one_div_pow]; ring).trans this
    rw [e1]
    have h1 : D * (1 / D) = 1 := mul_one_div_cancel hden
    linear_combination (-XX * (1 / D)) * h1

/-- A two-group segment: the slope uncertainty is that of the difference of two samples of read noise `rnoise`, to
one part in 10⁸ of its square. -/
theorem C88_two_group_slope_error (cfg : Cfg α) (px : Pix α) (med : Option α) (z0 zf : Bool) (data : Nat → Option α)
    (s : Seg) (hs : s.len = 2) :
    (|(segOpt cfg px med z0 zf data s).sigslope ^ 2 - 2 * px.rnoise ^ 2|) ≤ px.rnoise ^ 2 / 10 ^ 8 := by
  have h : (segOpt cfg px med z0 zf data s).sigslope = sqrt2 * px.rnoise := by
    rw [segOpt, if_neg (by omega), if_pos hs]
  rw [h, mul_pow, ← sub_mul, abs_mul, abs_of_nonneg (sq_nonneg px.rnoise)]
  have : (|(sqrt2 : α) ^ 2 - 2|) ≤ 1 / 10 ^ 8 := by
    rw [abs_le]; unfold sqrt2; constructor <;> norm_num
  calc _ ≤ 1 / 10 ^ 8 * px.rnoise ^ 2 := mul_le_mul_of_nonneg_right this (sq_nonneg _)
    _ = _ := by ring

/-- The weight reported for a segment is the inverse of its read-noise variance, the one of the unweighted straight line through
its groups (C85); a segment of one group counts as two that are its own integration time apart. -/
theorem C88_weight (cfg : Cfg α) (px : Pix α) (hg : 0 < px.gain) (med : Option α) (z0 zf : Bool) (data : Nat → Option α)
    (s : Seg) :
    let w := (segOpt cfg px med z0 zf data s).weight
    (2 ≤ s.len → cfg.groupTime ≠ 0 → w = 1 / ovSlopeVar s.len cfg.groupTime ((px.rnoise / px.gain) ^ 2))
    ∧ (s.len = 1 → ∀ t, t ≠ 0 →
        t = (if cfg.suppress1g then cfg.groupTime else if z0 then cfg.oneGroupTime else if zf then cfg.frameTime
          else cfg.groupTime) → w = 1 / ovSlopeVar 2 t ((px.rnoise / px.gain) ^ 2)) := by
  have h : (segOpt cfg px med z0 zf data s).weight = 1 / (fitSeg cfg px med z0 zf data s).varR := by
    rw [segOpt]; split
    · rfl
    · split <;> rfl
  obtain ⟨h2, h1⟩ := C85_read_noise cfg px hg med z0 zf data s
  exact ⟨fun a b => by rw [h, h2 a b], fun a t b c => by rw [h, h1 a t b c]⟩

/-- The intercept uncertainty of a two-group segment is the slope's, not its own: the intercept
`(start+1)·d₀ − start·d₁` of independent samples has the variance `((start+1)² + start²)·rnoise²`, which is smaller
than the reported one for a segment at the start of the ramp and larger for all others. -/
theorem C88_two_group_intercept_error (cfg : Cfg α) (px : Pix α) (hr : px.rnoise ≠ 0) (med : Option α) (z0 zf : Bool)
    (data : Nat → Option α) (s : Seg) (hs : s.len = 2) :
    let own : α := (((s.start : α) + 1) ^ 2 + (s.start : α) ^ 2) * px.rnoise ^ 2
    let rep := (segOpt cfg px med z0 zf data s).sigyint ^ 2
    (s.start = 0 → own < rep) ∧ (0 < s.start → rep < own) := by
  intro own rep
  have h : rep = (sqrt2 : α) ^ 2 * px.rnoise ^ 2 := by
    simp only [rep]
    rw [segOpt, if_neg (by omega), if_pos hs]
    ring
  have hp : 0 < px.rnoise ^ 2 := by positivity
  rw [h]
  constructor
  · intro h0
    refine mul_lt_mul_of_pos_right ?_ hp
    rw [h0]; unfold sqrt2; norm_num
  · intro h0
    refine mul_lt_mul_of_pos_right ?_ hp
    have : (1 : α) ≤ (s.start : α) := by exact_mod_cast h0
    have h2 : (sqrt2 : α) ^ 2 < 2 := by unfold sqrt2; norm_num
    nlinarith

/-! ## C89: pedestal -/

/-- Mean time since the reset of the frames of group `k`: `drop` frames are dropped after the reset, then every group
consists of `nf` averaged frames followed by `gap` dropped ones, all of duration `tf`. -/
def orGroupTime (nf drop gap : Nat) (tf : α) (k : Nat) : α :=
  (∑ j ∈ Finset.range nf, ((drop : α) + k * ((nf : α) + gap) + (j + 1)) * tf) / nf

theorem or_groupTime (nf drop gap : Nat) (hnf : 0 < nf) (tf : α) (k : Nat) :
    orGroupTime nf drop gap tf k = ((k : α) + pedTmp nf drop gap) * (((nf : α) + gap) * tf) := by
  have h0 : (nf : α) ≠ 0 := by exact_mod_cast hnf.ne'
  have h1 : (nf : α) + gap ≠ 0 := by
    have : (0 : α) < nf := by exact_mod_cast hnf
    have : (0 : α) ≤ gap := by exact_mod_cast Nat.zero_le _
    linarith
  have key : ∀ (n : Nat) (c : α), ∑ j ∈ Finset.range n, (c + ((j : α) + 1)) * tf
      = (n * c + n * (n + 1) / 2) * tf := by
    intro n c
    induction n with
    | zero => simp
    | succ n ih => rw [Finset.sum_range_succ, ih]; push_cast; ring
  rw [orGroupTime, key, pedTmp]
  field_simp
  ring

theorem or_segs (fl : Flags) (hj : fl.jump ≠ 0) (n : Nat) (hn : 2 ≤ n) :
    (computeSegs fl (List.replicate n 0)).segs = [⟨0, n⟩] := by
  have hg : ∀ i, GoodGroup fl.pers (List.replicate n 0) i ↔ i < n := by
    intro i
    constructor
    · rintro ⟨h, -⟩; simpa using h
    · intro h; exact ⟨by simpa using h, by rw [List.getElem_replicate]; intro b hb; simp at hb⟩
  have hjo : ∀ i, ¬ JumpOnly fl.pers fl.jump (List.replicate n 0) i := by
    rintro i ⟨h, h'⟩
    rw [List.getElem_replicate] at h'
    obtain ⟨b, hb⟩ := Nat.exists_testBit_of_ne_zero hj
    have := (h' b).2 hb
    simp at this
  have hns : ∀ a e, NatSeg fl (List.replicate n 0) a e ↔ a = 0 ∧ e = n := by
    intro a e
    constructor
    · rintro ⟨s, h1, h2, h3, h4, h5, h6⟩
      simp only [hg, hjo, List.length_replicate] at *
      rcases h6 with ⟨-, h6, -⟩ | ⟨-, h6⟩
      · exact h6.elim
      · omega
    · rintro ⟨rfl, rfl⟩
      refine ⟨0, by omega, by simp, fun i _ hi => (hg i).2 hi, Or.inl rfl, Or.inl (by simp), Or.inr ⟨?_, rfl⟩⟩
      rintro ⟨h, -⟩; omega
  have hiff := (C28_pruning_exact fl (List.replicate n 0)).1 ⟨0, n, (hns 0 n).2 ⟨rfl, rfl⟩, by omega⟩
  obtain ⟨hp, -⟩ := C27_segments_sound fl (List.replicate n 0)
  have hall : ∀ s ∈ (computeSegs fl (List.replicate n 0)).segs, s = ⟨0, n⟩ := by
    intro s hs
    obtain ⟨h1, h2⟩ := (hns _ _).1 ((hiff s).1 hs).1
    cases s; simp_all
  have hmem := (hiff ⟨0, n⟩).2 ⟨(hns 0 n).2 ⟨rfl, rfl⟩, by simp only; omega⟩
  revert hp hall hmem
  generalize (computeSegs fl (List.replicate n 0)).segs = L
  intro hp hall hmem
  match L with
  | [] => simp at hmem
  | [a] => rw [hall a (by simp)]
  | a :: b :: t =>
    have h1 := hall a (by simp)
    have h2 := hall b (by simp)
    have := (List.pairwise_cons.1 hp).1 b (by simp)
    rw [h1, h2] at this
    simp only at this
    omega

/-- The pedestal reported for a flagless integration whose samples follow the line `p + rate·time` at the mean times
of the groups: it exceeds the true value `p` by `rate·(mean time of the first group)·(1 − 1/group_time)`.  The slope
is per second, while the fraction it is multiplied with is in units of the group time. -/
theorem C89_pedestal_value (fl : Flags) (hj : fl.jump ≠ 0) (cfg : Cfg α) (hpow : PowOk cfg.powf) (px : Pix α)
    (hg : 0 < px.gain) (hr : px.rnoise ≠ 0) (med : Option α) (n : Nat) (hn : 2 ≤ n) (nf drop gap : Nat)
    (hnf : 0 < nf) (tf : α) (ht : cfg.groupTime = ((nf : α) + gap) * tf) (ht0 : cfg.groupTime ≠ 0)
    (hft : cfg.frameTime ≠ 0) (hot : cfg.oneGroupTime ≠ 0)
    (hlarge : rnoiseVar px n cfg.groupTime < 1000000) (su : Bool) (zf : Option (Option α)) (dq : Nat)
    (hd : ¬ Has dq fl.dnu) (hs : ¬ Has dq fl.sat) (p rate : α) (data : List (Option α))
    (hdata : data = (List.range n).map fun k => some (p + rate * orGroupTime nf drop gap tf k)) :
    let i := loadInteg fl su data (List.replicate n 0) zf
    pedestal fl (pedTmp nf drop gap) i (fitInteg fl cfg px med n i dq).1
      = p + rate * orGroupTime nf drop gap tf 0 * (1 - 1 / cfg.groupTime) := by
  intro i
  have hn0 : (0 : Nat) ∈ List.replicate n 0 := by rw [List.mem_replicate]; exact ⟨by omega, rfl⟩
  have hns : ¬ ZeroSub su (List.replicate n 0) zf := fun h => h.2.1 0 hn0 rfl
  obtain ⟨l1, l2, l3⟩ := load_nosub fl su data (List.replicate n 0) zf hns
  change i.gdq = _ at l1
  have hdat : i.data = data := by
    have hz : List.zipWith (fun x q => if hasB q fl.sat then none else x) data (List.replicate n 0) = data := by
      have hl : data.length = n := by rw [hdata]; simp
      apply List.ext_getElem
      · simp [hl]
      · intro k h1 h2
        simp [hasB]
    simp only [i, loadInteg, hz]
    have hc : (stats fl (List.replicate n 0)).cntGood = n := by
      simp only [stats]
      rw [List.countP_replicate]; simp
    split
    · rfl
    · split
      · rfl
      · rw [hc]
        split
        · omega
        · rfl
  have hd0 : ∀ k, k < n → (i.data[k]?).join = some (p + rate * orGroupTime nf drop gap tf k) := by
    intro k hk
    rw [hdat, hdata]
    simp [hk]
  have hcnt : ¬ ((n : Int) = i.st.cntDnuSat) := by
    intro h
    rw [l2] at h
    simp only [stats] at h
    have h' : (List.replicate n 0).countP (fun d => hasB d fl.dnu || hasB d fl.sat) = (List.replicate n 0).length := by
      rw [List.length_replicate]; exact_mod_cast h.symm
    have := List.countP_eq_length.1 h' 0 hn0
    simp [hasB] at this
  have hfs : firstSat fl (List.replicate n 0) = false := by
    rw [firstSat, hasB_false]
    cases n with
    | zero => omega
    | succ m => simp [List.replicate_succ]
  have hline : (fitSeg cfg px med i.is0th i.isZframe (fun k => (i.data[k]?).join) ⟨0, n⟩).slope = some rate := by
    rw [C29_exact_on_lines cfg hpow px hr med i.is0th i.isZframe _ ⟨0, n⟩ (by simpa [Seg.len] using hn)
      (p + rate * (pedTmp nf drop gap * cfg.groupTime)) (rate * cfg.groupTime)]
    · rw [mul_div_assoc, div_self ht0, mul_one]
    · intro k hk
      simp only [Seg.len, Nat.sub_zero] at hk
      simp only [Nat.zero_add]
      rw [hd0 k hk, or_groupTime nf drop gap hnf, ← ht]
      push_cast
      congr 1
      ring
  have hvp : 0 < (fitSeg cfg px med i.is0th i.isZframe (fun k => (i.data[k]?).join) ⟨0, n⟩).varR :=
    fitSeg_varR_pos cfg px med _ _ _ ⟨0, n⟩ (by simp only [Seg.len]; omega) hg hr ht0 hft hot
  have hve : (fitSeg cfg px med i.is0th i.isZframe (fun k => (i.data[k]?).join) ⟨0, n⟩).varR
      = rnoiseVar px n cfg.groupTime := by
    have h1 : ¬ n = 1 := by omega
    simp only [fitSeg, Seg.len, Nat.sub_zero, h1, if_false]
    by_cases h2 : n = 2
    · simp only [h2, if_true]
    · simp only [h2, if_false, not_le.2 hg]
  set f := fitSeg cfg px med i.is0th i.isZframe (fun k => (i.data[k]?).join) ⟨0, n⟩ with hf
  have hfit : (fitInteg fl cfg px med n i dq).1 = (combineInteg fl cfg [f] dq).1 := by
    simp only [fitInteg, hcnt, if_false, l1, hfs, Bool.false_eq_true, fitSegs, or_segs fl hj n hn, List.map_cons,
      List.map_nil, List.isEmpty_cons, ← hf]
  obtain ⟨m, hm, hm', -⟩ := C30_integration_mean fl cfg [f] dq (by simp) (fun _ => rate)
    (by intro g hg'; rw [List.mem_singleton] at hg'; rw [hg', hline]) (by
      intro g hg'; rw [List.mem_singleton] at hg'; rw [hg']; exact hvp) hd hs (by
      simp only [List.map_cons, List.map_nil, List.sum_cons, List.sum_nil, add_zero, one_div_one_div, hve]
      simpa [large] using hlarge)
  have hmr : m = rate := by
    rw [hm']
    simp only [List.map_cons, List.map_nil, List.sum_cons, List.sum_nil, add_zero]
    field_simp
  have hdq : (combineInteg fl cfg [f] dq).1.dq = dq := combine_dq fl cfg [f] dq
  rw [pedestal, hfit, hdq, hasB_false.2 hs, hasB_false.2 hd, hm, hd0 0 (by omega), hmr]
  simp only [Bool.false_eq_true, if_false, o2_some, Option.getD_some]
  rw [or_groupTime nf drop gap hnf, ← ht]
  push_cast
  field_simp
  ring

/-- The pedestal is the extrapolation of the ramp to the reset, as intended, for exposures with a group time of one
second.  Missing for other group times: see `C89_pedestal_value`. -/
theorem C89_pedestal_partial (fl : Flags) (hj : fl.jump ≠ 0) (cfg : Cfg α) (hpow : PowOk cfg.powf) (px : Pix α)
    (hg : 0 < px.gain) (hr : px.rnoise ≠ 0) (med : Option α) (n : Nat) (hn : 2 ≤ n) (nf drop gap : Nat)
    (hnf : 0 < nf) (tf : α) (ht : cfg.groupTime = ((nf : α) + gap) * tf) (ht1 : cfg.groupTime = 1)
    (hft : cfg.frameTime ≠ 0) (hot : cfg.oneGroupTime ≠ 0)
    (hlarge : rnoiseVar px n cfg.groupTime < 1000000) (su : Bool) (zf : Option (Option α)) (dq : Nat)
    (hd : ¬ Has dq fl.dnu) (hs : ¬ Has dq fl.sat) (p rate : α) (data : List (Option α))
    (hdata : data = (List.range n).map fun k => some (p + rate * orGroupTime nf drop gap tf k)) :
    pedestal fl (pedTmp nf drop gap) (loadInteg fl su data (List.replicate n 0) zf)
      (fitInteg fl cfg px med n (loadInteg fl su data (List.replicate n 0) zf) dq).1 = p := by
  rw [C89_pedestal_value fl hj cfg hpow px hg hr med n hn nf drop gap hnf tf ht (by rw [ht1]; exact one_ne_zero)
    hft hot hlarge su zf dq hd hs p rate data hdata, ht1]
  simp

/-- The pedestal is a number in every case, and zero for an integration that is unusable, saturated in its first
group, or without a slope. -/
theorem C89_pedestal_zero (fl : Flags) (ped : α) (i : Integ α) (r : Rate α)
    (h : Has r.dq fl.sat ∨ Has r.dq fl.dnu ∨ r.slope = none ∨ i.data.head? = some none) :
    pedestal fl ped i r = 0 := by
  unfold pedestal
  by_cases hs : Has r.dq fl.sat
  · rw [if_pos (hasB_iff.2 hs)]
  · rw [if_neg (by rw [hasB_iff]; exact hs)]
    rcases h with h | h | h | h
    · exact absurd h hs
    · rw [if_pos (hasB_iff.2 h)]; cases (i.data[0]?).join <;> rfl
    · rw [h, ite_self]; cases (i.data[0]?).join <;> rfl
    · rw [← List.head?_eq_getElem?, h]; rfl

/-! ## C90: cosmic-ray magnitudes and zero padding -/

/-- A sample as the fit sees it: missing beyond the ramp, NaN when saturated. -/
def orSample (sat : Nat) (data : List (Option α)) (g : List Nat) (k : Nat) : Option α :=
  if Has (g.getD k 0) sat then none else (data[k]?).join

/-- The magnitudes reported for an integration are, in order of time, the steps `sample − previous sample` at the
groups after the first that carry the jump flag, one for each such group and NaN when a saturated sample is
involved. -/
theorem C90_magnitudes (fl : Flags) (data : List (Option α)) (g : List Nat) (hlen : data.length = g.length) :
    ∃ J : List Nat, J.Pairwise (· < ·) ∧ (∀ k, k ∈ J ↔ 0 < k ∧ ∃ d, g[k]? = some d ∧ Has d fl.jump)
      ∧ crMags fl data g
        = J.map fun k => (orSample fl.sat data g k).bind fun b => (orSample fl.sat data g (k - 1)).map fun a => b - a := by
  refine ⟨(List.range g.length).filter fun k => decide (0 < k ∧ Has (g.getD k 0) fl.jump), ?_, ?_, ?_⟩
  · exact List.Pairwise.sublist List.filter_sublist List.pairwise_lt_range
  · intro k
    rw [List.mem_filter, List.mem_range, decide_eq_true_iff]
    constructor
    · rintro ⟨h1, h2, h3⟩
      refine ⟨h2, g[k], List.getElem?_eq_getElem h1, ?_⟩
      rwa [List.getD_eq_getElem _ _ h1] at h3
    · rintro ⟨h1, d, h2, h3⟩
      obtain ⟨h4, h5⟩ := List.getElem?_eq_some_iff.1 h2
      refine ⟨h4, h1, ?_⟩
      rw [List.getD_eq_getElem _ _ h4, h5]; exact h3
  · have hsamp : ∀ k, k < g.length →
        ((List.zipWith (fun x q => if hasB q fl.sat then none else x) data g)[k]?).join = orSample fl.sat data g k := by
      intro k hk
      rw [List.getElem?_zipWith, List.getElem?_eq_getElem hk, List.getElem?_eq_getElem (by omega : k < data.length),
        orSample, List.getD_eq_getElem _ _ hk, List.getElem?_eq_getElem (by omega : k < data.length)]
      by_cases h : Has g[k] fl.sat
      · simp [h, hasB_iff.2 h]
      · simp [h, hasB_false.2 h]
    have key : ∀ L : List Nat, (∀ k ∈ L, k < g.length) → (L.filterMap fun k =>
        if 0 < k ∧ hasB (g.getD k 0) fl.jump then
          some (o2 (· - ·) (((List.zipWith (fun x q => if hasB q fl.sat then none else x) data g)[k]?).join)
            (((List.zipWith (fun x q => if hasB q fl.sat then none else x) data g)[k - 1]?).join))
        else none)
        = (L.filter fun k => decide (0 < k ∧ Has (g.getD k 0) fl.jump)).map fun k =>
          (orSample fl.sat data g k).bind fun b => (orSample fl.sat data g (k - 1)).map fun a => b - a := by
      intro L
      induction L with
      | nil => intro _; rfl
      | cons k L ih =>
        intro hL
        have hk := hL k (List.mem_cons_self ..)
        have ih' := ih fun j hj => hL j (List.mem_cons_of_mem _ hj)
        by_cases hc : 0 < k ∧ Has (g.getD k 0) fl.jump
        · have hc' : 0 < k ∧ hasB (g.getD k 0) fl.jump = true := ⟨hc.1, hasB_iff.2 hc.2⟩
          rw [List.filterMap_cons_some (by rw [if_pos hc']), List.filter_cons_of_pos (by simpa using hc), List.map_cons,
            ih', hsamp k hk, hsamp (k - 1) (by omega)]
          rfl
        · have hc' : ¬ (0 < k ∧ hasB (g.getD k 0) fl.jump = true) := fun h => hc ⟨h.1, hasB_iff.1 h.2⟩
          rw [List.filterMap_cons_none (by rw [if_neg hc']), List.filter_cons_of_neg (by simpa using hc), ih']
    exact key _ fun k hk => List.mem_range.1 hk

end Opt

theorem or_foldl_max (l : List Nat) (a : Nat) :
    a ≤ l.foldl max a ∧ (∀ x ∈ l, x ≤ l.foldl max a) ∧ (l.foldl max a = a ∨ l.foldl max a ∈ l) := by
  induction l generalizing a with
  | nil => simp
  | cons x l ih =>
    obtain ⟨h1, h2, h3⟩ := ih (max a x)
    rw [List.foldl_cons]
    refine ⟨by omega, ?_, ?_⟩
    · intro y hy
      rcases List.mem_cons.1 hy with rfl | hy
      · omega
      · exact h2 y hy
    · rcases h3 with h3 | h3
      · rcases Nat.le_total a x with h | h
        · right; rw [h3, max_eq_right h]; exact List.mem_cons_self ..
        · left; rw [h3, max_eq_left h]
      · right; exact List.mem_cons_of_mem _ h3

/-- A padded array holds every value and only zeros beside: with lists no longer than their reported sizes, the cell
at any position starts with the list's values and continues with zeros up to the number of planes, which is the
largest size reported. -/
theorem C90_padding {β : Type*} (zero : β) (rows : List (List (Nat × List β)))
    (hsize : ∀ r ∈ rows, ∀ c ∈ r, c.2.length ≤ c.1) :
    let p := optProduct zero rows
    (∀ r ∈ rows, ∀ c ∈ r, c.1 ≤ p.planes) ∧ (p.planes = 0 ∨ ∃ r ∈ rows, ∃ c ∈ r, c.1 = p.planes)
    ∧ p.rows.length = rows.length
    ∧ ∀ (i j : Nat) (c : Nat × List β), (rows[i]?.bind fun r => r[j]?) = some c →
        ∃ cell : List β, (p.rows[i]?.bind fun r => r[j]?) = some cell ∧ cell.length = p.planes
          ∧ ∀ k, k < p.planes → cell[k]? = some (c.2.getD k zero) := by
  intro p
  obtain ⟨-, h2, h3⟩ := or_foldl_max (rows.flatMap fun r => r.map Prod.fst) 0
  have hle : ∀ r ∈ rows, ∀ c ∈ r, c.1 ≤ p.planes := fun r hr c hc =>
    h2 _ (List.mem_flatMap.2 ⟨r, hr, List.mem_map.2 ⟨c, hc, rfl⟩⟩)
  refine ⟨hle, ?_, by simp [p, optProduct], ?_⟩
  · rcases h3 with h3 | h3
    · exact Or.inl h3
    · obtain ⟨r, hr, h⟩ := List.mem_flatMap.1 h3
      obtain ⟨c, hc, h⟩ := List.mem_map.1 h
      exact Or.inr ⟨r, hr, c, hc, h⟩
  · intro i j c hc
    obtain ⟨r, hr, hrc⟩ := Option.bind_eq_some_iff.1 hc
    refine ⟨padCell zero p.planes c.2, ?_, ?_, ?_⟩
    · simp only [p, optProduct, List.getElem?_map, hr, Option.map_some, Option.bind_some, hrc]
    · have := hle r (List.mem_of_getElem? hr) c (List.mem_of_getElem? hrc)
      have := hsize r (List.mem_of_getElem? hr) c (List.mem_of_getElem? hrc)
      simp only [padCell, List.length_append, List.length_replicate]
      omega
    · intro k hk
      simp only [padCell]
      by_cases h : k < c.2.length
      · rw [List.getElem?_append_left h, List.getD_eq_getElem _ _ h, List.getElem?_eq_getElem h]
      · rw [List.getElem?_append_right (by omega), List.getElem?_replicate, if_pos (by omega),
          List.getD_eq_default _ _ (by omega)]

/-! ## C91: the optional product does not depend on the number of processes -/

theorem or_maxPlanes {β : Type*} (start : Nat) (l : List (Padded β)) :
    maxPlanes start l = (l.map Padded.planes).foldl max start := by
  unfold maxPlanes
  induction l generalizing start with
  | nil => rfl
  | cons a l ih =>
    rw [List.foldl_cons, List.map_cons, List.foldl_cons, ih]
    congr 1
    rcases Nat.lt_or_ge start a.planes with h | h
    · rw [if_pos h, max_eq_right h.le]
    · rw [if_neg (by omega), max_eq_left h]

theorem or_foldl_max_append (l : List Nat) (a : Nat) : l.foldl max a = max a (l.foldl max 0) := by
  induction l generalizing a with
  | nil => simp
  | cons x l ih => rw [List.foldl_cons, List.foldl_cons, ih (max a x), ih (max 0 x)]; omega

theorem or_planes_flatten {β : Type*} (zero : β) (ls : List (List (List (Nat × List β)))) (start : Nat) :
    (ls.map fun l => (optProduct zero l).planes).foldl max start = max start (optProduct zero ls.flatten).planes := by
  simp only [optProduct]
  induction ls generalizing start with
  | nil => simp
  | cons l ls ih =>
    rw [List.map_cons, List.foldl_cons, ih, List.flatten_cons, List.flatMap_append, List.foldl_append,
      or_foldl_max_append (List.flatMap _ ls.flatten) (List.foldl _ _ _), max_assoc]

theorem or_padCell {β : Type*} (zero : β) (p M : Nat) (v : List β) (h1 : v.length ≤ p) (h2 : p ≤ M) :
    padCell zero p v ++ (List.replicate M zero).drop p = padCell zero M v := by
  rw [padCell, padCell, List.drop_replicate, List.append_assoc, ← List.replicate_add]
  congr 2
  omega

theorem or_padCell_length {β : Type*} (zero : β) (p : Nat) (v : List β) (h1 : v.length ≤ p) :
    (padCell zero p v).length = p := by
  rw [padCell, List.length_append, List.length_replicate]; omega

theorem or_padSize {β : Type*} (ncells M : Nat) (rows : List (List (List β))) (h : ∀ r ∈ rows, r.length = ncells)
    (h2 : ∀ r ∈ rows, ∀ c ∈ r, c.length = M) : padSize rows = rows.length * (ncells * M) := by
  unfold padSize
  induction rows with
  | nil => simp
  | cons r rows ih =>
    rw [List.map_cons, List.sum_cons, ih (fun x hx => h x (List.mem_cons_of_mem _ hx))
      (fun x hx => h2 x (List.mem_cons_of_mem _ hx))]
    have : (r.map List.length).sum = ncells * M := by
      rw [← h r (List.mem_cons_self ..)]
      have hr := h2 r (List.mem_cons_self ..)
      clear ih h h2
      induction r with
      | nil => simp
      | cons c r ih =>
        rw [List.map_cons, List.sum_cons, ih (fun x hx => hr x (List.mem_cons_of_mem _ hx)),
          hr c (List.mem_cons_self ..), List.length_cons]
        ring
    rw [this, List.length_cons]; ring

theorem or_step {β : Type*} (zero : β) (ncells M : Nat) (A : List (List (List β)))
    (rowsS : List (List (Nat × List β))) (m : Nat)
    (hcells : ∀ r ∈ rowsS, r.length = ncells) (hsize : ∀ r ∈ rowsS, ∀ c ∈ r, c.2.length ≤ c.1)
    (hM : (optProduct zero rowsS).planes ≤ M) :
    getSlicePadded (A ++ List.replicate (rowsS.length + m) (List.replicate ncells (List.replicate M zero)))
      (optProduct zero rowsS) A.length rowsS.length
    = A ++ (rowsS.map fun r => r.map fun c => padCell zero M c.2)
        ++ List.replicate m (List.replicate ncells (List.replicate M zero)) := by
  set Z : List (List β) := List.replicate ncells (List.replicate M zero) with hZ
  set pl := (optProduct zero rowsS).planes with hpl
  have hle : ∀ r ∈ rowsS, ∀ c ∈ r, c.2.length ≤ pl := fun r hr c hc =>
    (hsize r hr c hc).trans ((C90_padding zero rowsS hsize).1 r hr c hc)
  have hrows : (optProduct zero rowsS).rows = rowsS.map fun r => r.map fun c => padCell zero pl c.2 := rfl
  have htar : rowSlice (A ++ List.replicate (rowsS.length + m) Z) A.length rowsS.length
      = List.replicate rowsS.length Z := by
    rw [rowSlice, List.drop_left, List.take_replicate]
    congr 1
    omega
  have hget : ∀ X : List (List (List β)), getSlice (A ++ List.replicate (rowsS.length + m) Z) X A.length rowsS.length
      = A ++ X ++ List.replicate m Z := by
    intro X
    rw [getSlice, List.take_left, List.drop_append, List.drop_of_length_le (by omega), List.nil_append,
      List.drop_replicate]
    congr 2
    omega
  have hs1 : padSize (List.replicate rowsS.length Z) = rowsS.length * (ncells * M) := by
    rw [or_padSize ncells M]
    · rw [List.length_replicate]
    · intro r hr; rw [(List.mem_replicate.1 hr).2, hZ, List.length_replicate]
    · intro r hr c hc
      rw [(List.mem_replicate.1 hr).2, hZ] at hc
      rw [(List.mem_replicate.1 hc).2, List.length_replicate]
  have hs2 : padSize (optProduct zero rowsS).rows = rowsS.length * (ncells * pl) := by
    rw [or_padSize ncells pl, hrows, List.length_map]
    · intro r hr
      rw [hrows] at hr
      obtain ⟨r', h1, rfl⟩ := List.mem_map.1 hr
      rw [List.length_map, hcells r' h1]
    · intro r hr c hc
      rw [hrows] at hr
      obtain ⟨r', h1, rfl⟩ := List.mem_map.1 hr
      obtain ⟨c', h2, rfl⟩ := List.mem_map.1 hc
      exact or_padCell_length zero pl c'.2 (hle r' h1 c' h2)
  simp only [getSlicePadded, htar, hs1, hs2, hget]
  rw [apply_ite (fun X : List (List (List β)) => X), ]
  split
  · rename_i heq
    congr 2
    rw [hrows]
    apply List.map_congr_left
    intro r hr
    apply List.map_congr_left
    intro c hc
    have h1 : 0 < rowsS.length := List.length_pos_of_mem hr
    have h2 : 0 < ncells := by rw [← hcells r hr]; exact List.length_pos_of_mem hc
    have h3 := Nat.eq_of_mul_eq_mul_left h1 heq
    rw [Nat.eq_of_mul_eq_mul_left h2 h3]
  · congr 2
    rw [hrows]
    apply List.ext_getElem
    · simp
    · intro i hi1 hi2
      simp only [List.length_map] at hi2
      rw [List.getElem_zipWith, List.getElem_replicate, List.getElem_map, List.getElem_map]
      apply List.ext_getElem
      · have hZl : Z.length = ncells := by rw [hZ, List.length_replicate]
        have hr := hcells _ (List.getElem_mem hi2)
        simp only [List.length_zipWith, hZl, List.length_map, hr, min_self]
      · intro j hj1 hj2
        simp only [List.length_map] at hj2
        rw [List.getElem_zipWith, List.getElem_map, List.getElem_map]
        simp only [hZ, List.getElem_replicate]
        exact or_padCell zero pl M _ (hle _ (List.getElem_mem hi2) _ (List.getElem_mem hj2)) hM

theorem or_assemble {β : Type*} (zero : β) (ncells M : Nat) (ls : List (List (List (Nat × List β))))
    (A : List (List (List β))) (m : Nat)
    (hcells : ∀ l ∈ ls, ∀ r ∈ l, r.length = ncells) (hsize : ∀ l ∈ ls, ∀ r ∈ l, ∀ c ∈ r, c.2.length ≤ c.1)
    (hM : ∀ l ∈ ls, (optProduct zero l).planes ≤ M) :
    assemblePadded (A ++ List.replicate (ls.flatten.length + m) (List.replicate ncells (List.replicate M zero)))
      A.length (ls.map (optProduct zero)) (ls.map List.length)
    = A ++ (ls.flatten.map fun r => r.map fun c => padCell zero M c.2)
        ++ List.replicate m (List.replicate ncells (List.replicate M zero)) := by
  induction ls generalizing A with
  | nil => simp [assemblePadded]
  | cons l ls ih =>
    rw [List.map_cons, List.map_cons, assemblePadded, List.flatten_cons, List.length_append, Nat.add_assoc,
      or_step zero ncells M A l (ls.flatten.length + m) (hcells l (List.mem_cons_self ..))
        (hsize l (List.mem_cons_self ..)) (hM l (List.mem_cons_self ..))]
    have hl : A.length + l.length = (A ++ l.map fun r => r.map fun c => padCell zero M c.2).length := by
      rw [List.length_append, List.length_map]
    rw [hl, ih _ (fun x hx => hcells x (List.mem_cons_of_mem _ hx)) (fun x hx => hsize x (List.mem_cons_of_mem _ hx))
      (fun x hx => hM x (List.mem_cons_of_mem _ hx)), List.map_append, List.append_assoc A]

/-- Splitting the fit into row slices does not change the optional product: for every number of slices the assembled
array has the number of planes of the unsplit one (at least one for the segment arrays, `start = 1`), and every cell
holds the unsplit cell's values followed by zeros. -/
theorem C91_slices {β : Type*} (zero : β) (start ncells : Nat) (rows : List (List (Nat × List β)))
    (hcells : ∀ r ∈ rows, r.length = ncells) (hsize : ∀ r ∈ rows, ∀ c ∈ r, c.2.length ≤ c.1) (nslices : Nat)
    (hn : 0 < nslices) :
    let single := optProduct zero rows
    let multi := optMulti zero start ncells rows nslices
    multi.planes = max start single.planes
    ∧ multi.rows = rows.map (fun r => r.map fun c => c.2 ++ List.replicate (multi.planes - c.2.length) zero)
    ∧ (start ≤ single.planes → multi.rows = single.rows) := by
  intro single multi
  obtain ⟨hflat, -, -, hlens⟩ := C02_slices_tile (⟨rows, false⟩ : RampData (List (Nat × List β))) nslices hn
  set sl := (computeSlices (⟨rows, false⟩ : RampData (List (Nat × List β))) nslices).1 with hsl
  set hts := (computeSlices (⟨rows, false⟩ : RampData (List (Nat × List β))) nslices).2 with hhts
  set ls := sl.map RampData.rows with hls
  simp only at hflat
  have hprods : (sl.map fun s => optProduct zero s.rows) = ls.map (optProduct zero) := by
    rw [hls, List.map_map]; rfl
  have hpl : multi.planes = max start single.planes := by
    change maxPlanes start (sl.map fun s => optProduct zero s.rows) = _
    rw [hprods, or_maxPlanes, List.map_map]
    have := or_planes_flatten zero ls start
    rw [hflat] at this
    exact this
  have hmem : ∀ l ∈ ls, ∀ r ∈ l, r ∈ rows := fun l hl r hr => by
    rw [← hflat]; exact List.mem_flatten.2 ⟨l, hl, hr⟩
  have hM : ∀ l ∈ ls, (optProduct zero l).planes ≤ multi.planes := by
    intro l hl
    change _ ≤ maxPlanes start (sl.map fun s => optProduct zero s.rows)
    rw [hprods, or_maxPlanes, List.map_map]
    exact (or_foldl_max _ start).2.1 _ (List.mem_map.2 ⟨l, hl, rfl⟩)
  have hrows : multi.rows = rows.map fun r => r.map fun c => padCell zero multi.planes c.2 := by
    have h := or_assemble zero ncells multi.planes ls [] 0 (fun l hl r hr => hcells r (hmem l hl r hr))
      (fun l hl r hr => hsize r (hmem l hl r hr)) hM
    rw [hflat, hlens] at h
    simp only [List.nil_append, List.length_nil, Nat.add_zero, List.replicate_zero, List.append_nil] at h
    rw [← h, ← hprods]
    rfl
  refine ⟨hpl, hrows, fun hst => ?_⟩
  rw [hrows, hpl, max_eq_right hst]
  rfl

/-! ## Examples and findings -/

/-- Two jumps, the second at a saturated group. -/
example : crMags exFlags [some 1, some 2, some 9, some (10 : ℚ), some 20] [0, 0, 4, 0, 6] = [some 7, none] := by
  decide +kernel

/-- Hypotheses of the pedestal theorems: group time 10, five frames of 2 s without gap. -/
example : exCfg.groupTime = ((5 : ℚ) + 0) * 2 ∧ rnoiseVar exPix 4 exCfg.groupTime < 1000000
    ∧ pedestal exFlags (pedTmp 5 0 0) (loadInteg exFlags false
        ((List.range 4).map fun k => some (100 + 3 * ((k : ℚ) + 3 / 5) * 10)) [0, 0, 0, 0] none)
        (fitInteg exFlags exCfg exPix none 4 (loadInteg exFlags false
        ((List.range 4).map fun k => some (100 + 3 * ((k : ℚ) + 3 / 5) * 10)) [0, 0, 0, 0] none) 0).1
      = 100 + 18 * (1 - 1 / 10) := by
  decide +kernel

/-- Three slices of a four-row array with two cells per row. -/
example : (optMulti (0 : Nat) 1 2 [[(1, [5]), (0, [])], [(2, [6, 7]), (1, [8])], [(0, []), (0, [])], [(1, [9]), (0, [])]]
      3).rows = [[[5, 0], [0, 0]], [[6, 7], [8, 0]], [[0, 0], [0, 0]], [[9, 0], [0, 0]]] := by
  decide +kernel

/-- The number of planes can exceed the largest number of segments: a ramp with two separate one-group segments is
fitted with one of them but reports two. -/
theorem C90_extra_plane :
    ∃ (fl : Flags) (g : List Nat), (computeSegs fl g).segs.length = 1
      ∧ (optProduct (0 : Nat) [[((computeSegs fl g).size, (computeSegs fl g).segs.map Seg.len)]]).planes = 2 :=
  ⟨exFlags, [0, 1, 0, 1], by decide +kernel, by decide +kernel⟩

/-- Without any segment the unsplit segment arrays have no plane while those assembled from slices have one. -/
theorem C91_empty_product_differs :
    (optProduct (0 : Nat) [[(0, [])], [(0, [])]]).planes = 0
    ∧ (optMulti (0 : Nat) 1 1 [[(0, [])], [(0, [])]] 2).planes = 1 := by decide +kernel

end Verif.Thm
