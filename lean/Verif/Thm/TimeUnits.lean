import Verif.Model.Ols
import Verif.Thm.OlsUnits
import Verif.Thm.LikelyUnits
import Verif.Thm.Cas22Driver
import Mathlib.Tactic.FieldSimp
import Mathlib.Tactic.Ring
import Mathlib.Tactic.Positivity

/-!
# C164: the unit of time

The three ramp fits for an exposure whose times are given in another unit.
-/

set_option linter.unusedSectionVars false

namespace Verif.Thm

open Verif

section Ols
open Verif.Ols
variable {α : Type*} [Field α] [LinearOrder α] [IsStrictOrderedRing α]

/-- Spec: the times of the exposure in another unit, `t` new units being one old one. -/
def tiCfg (t : α) (c : Cfg α) : Cfg α :=
  { c with groupTime := t * c.groupTime, frameTime := t * c.frameTime, oneGroupTime := t * c.oneGroupTime }

/-- Spec: the pixel, the dark current being a rate. -/
def tiIn (t : α) (p : PixIn α) : PixIn α := { p with px := { p.px with dcurrent := p.px.dcurrent / t } }

theorem ti_div (t T : α) (x : Option α) : x.map (fun d => d / (t * T)) = (unS t⁻¹ x).map fun d => d / T := by
  cases x with
  | none => rfl
  | some d =>
    simp only [unS, Option.map_some, Option.some.injEq]
    rw [div_mul_eq_div_div, div_eq_inv_mul d t]

theorem ti_rnoise (t T : α) (px : Pix α) (n : Nat) :
    rnoiseVar { px with dcurrent := px.dcurrent / t } n (t * T) = rnoiseVar (unPx t⁻¹ px) n T := by
  simp only [rnoiseVar, unPx, div_mul_eq_div_div, div_inv_eq_mul]
  simp only [div_eq_mul_inv]
  ring

theorem ti_poisson (t : α) (px : Pix α) (med : Option α) :
    poissonNum { px with dcurrent := px.dcurrent / t } med = poissonNum (unPx t⁻¹ px) med := by
  cases med <;> simp only [poissonNum, unPx, div_eq_inv_mul]

theorem ti_fitSeg {t : α} (ht : 0 < t) (cfg : Cfg α) (px : Pix α) (med : Option α) (a b : Bool) (data : Nat → Option α) (s : Seg) :
    fitSeg (tiCfg t cfg) { px with dcurrent := px.dcurrent / t } med a b data s
      = fitSeg cfg (unPx t⁻¹ px) med a b (fun n => unS t⁻¹ (data n)) s := by
  have hk : 0 < t⁻¹ := inv_pos.2 ht
  have h1 : len1Timing (tiCfg t cfg) a b = t * len1Timing cfg a b := by
    unfold len1Timing
    cases h : cfg.suppress1g <;> cases a <;> cases b <;> simp [tiCfg, h]
  have hv : ∀ x T : α, x / (t * T * px.gain) = x / (T * (unPx t⁻¹ px).gain) := by
    intro x T
    congr 1
    simp only [unPx, div_inv_eq_mul]
    ring
  simp only [fitSeg, h1]
  split
  · simp only [ti_div, ti_rnoise, ti_poisson, hv]
  split
  · simp only [un_sub, ti_rnoise, ti_poisson, show (tiCfg t cfg).groupTime = t * cfg.groupTime from rfl, ti_div, hv]
  · have hy : (fun n => (unS t⁻¹ (data (s.start + n))).getD 0) = fun n => t⁻¹ * (data (s.start + n)).getD 0 := by
      funext n
      cases data (s.start + n) <;> simp [unS]
    have hs : segSnr (tiCfg t cfg) { px with dcurrent := px.dcurrent / t } (data s.start) (data (s.start + s.len - 1))
        = segSnr cfg (unPx t⁻¹ px) (unS t⁻¹ (data s.start)) (unS t⁻¹ (data (s.start + s.len - 1))) := by
      rw [un_snr hk]
      rfl
    have hw : optWeight (tiCfg t cfg) { px with dcurrent := px.dcurrent / t } = optWeight cfg (unPx t⁻¹ px) := rfl
    have hg : (unPx t⁻¹ px).gain ≤ 0 ↔ px.gain ≤ 0 := by
      simp only [unPx, div_inv_eq_mul]
      rw [mul_nonpos_iff_neg_imp_nonneg]
      constructor
      · intro h
        by_contra hc
        exact absurd (h.2 ht) (not_le.2 (not_le.1 hc))
      · intro h
        exact ⟨fun _ => ht.le, fun _ => h⟩
    rw [hy, hs, hw, un_wls]
    simp only [show (tiCfg t cfg).groupTime = t * cfg.groupTime from rfl, ti_poisson, ti_rnoise, hg]
    congr 1
    · congr 1
      rw [div_mul_eq_div_div, div_eq_inv_mul _ t]
    · congr 1
      simp only [unPx, div_inv_eq_mul]
      ring

theorem ti_medianInteg (t : α) (fl : Flags) (cfg : Cfg α) (d : List (Option α)) (g : List Nat) :
    medianInteg fl (tiCfg t cfg) d g = medianInteg fl cfg (d.map (unS t⁻¹)) g := by
  have hl : List.zipWith (fun (x : Option α) q => if hasB q fl.dnu then none else x.map fun d => d / (tiCfg t cfg).groupTime) d g
      = List.zipWith (fun (x : Option α) q => if hasB q fl.dnu then none else x.map fun d => d / cfg.groupTime) (d.map (unS t⁻¹)) g := by
    rw [List.zipWith_map_left]
    congr 1
    funext x q
    split
    · rfl
    · exact ti_div _ _ _
  simp only [medianInteg, hl]

theorem ti_medianRate (t : α) (fl : Flags) (cfg : Cfg α) (ng : Nat) (ints : List (Integ α)) :
    medianRate fl (tiCfg t cfg) ng ints = medianRate fl cfg ng (ints.map (unInteg t⁻¹)) := by
  have h1 : ∀ i : Integ α, ((i.data[0]?).join).map (fun d => d / (tiCfg t cfg).oneGroupTime)
      = (((unInteg t⁻¹ i).data[0]?).join).map fun d => d / cfg.oneGroupTime := by
    intro i
    simp only [unInteg, un_get]
    exact ti_div _ _ _
  have h2 : ∀ i : Integ α, ((i.data[0]?).join).map (fun d => d / (tiCfg t cfg).frameTime)
      = (((unInteg t⁻¹ i).data[0]?).join).map fun d => d / cfg.frameTime := by
    intro i
    simp only [unInteg, un_get]
    exact ti_div _ _ _
  simp only [medianRate, List.length_map, List.foldl_map, List.map_map, h1, h2, ti_medianInteg]
  rfl

theorem ti_fitInteg {t : α} (ht : 0 < t) (fl : Flags) (cfg : Cfg α) (px : Pix α) (med : Option α) (ng : Nat) (i : Integ α) (dq : Nat) :
    fitInteg fl (tiCfg t cfg) { px with dcurrent := px.dcurrent / t } med ng i dq
      = fitInteg fl cfg (unPx t⁻¹ px) med ng (unInteg t⁻¹ i) dq := by
  have hc : ∀ fits dq, combineInteg fl (tiCfg t cfg) fits dq = combineInteg fl cfg fits dq := fun _ _ => rfl
  have hf : ((fitSegs fl i.gdq).segs.map (fitSeg (tiCfg t cfg) { px with dcurrent := px.dcurrent / t } med i.is0th i.isZframe
      fun n => (i.data[n]?).join))
      = (fitSegs fl i.gdq).segs.map (fitSeg cfg (unPx t⁻¹ px) med i.is0th i.isZframe fun n => ((i.data.map (unS t⁻¹))[n]?).join) := by
    congr 1
    funext s
    simp only [un_get]
    exact ti_fitSeg ht cfg px med _ _ (fun n => (i.data[n]?).join) s
  simp only [fitInteg, hc, hf]
  rfl

/-- Changing the unit of time is the same as changing the unit of the data the other way. -/
theorem ti_fitPixel {t : α} (ht : 0 < t) (fl : Flags) (cfg : Cfg α) (ng : Nat) (p : PixIn α) :
    fitPixel fl (tiCfg t cfg) ng (tiIn t p) = fitPixel fl cfg ng (unIn t⁻¹ p) := by
  have hk : 0 < t⁻¹ := inv_pos.2 ht
  have hl : loadPixel fl cfg (unIn t⁻¹ p) = (loadPixel fl cfg p).map (unInteg t⁻¹) := by
    simp only [loadPixel, unIn, List.map_map]
    congr 1
    funext i
    exact un_load hk fl cfg.suppress1g i.1 i.2.1 i.2.2
  have hr : List.Forall₂ (fun q q' => q'.1.st = q.1.st ∧ q'.2 = q.2) (pixelInts fl cfg ng (unIn t⁻¹ p))
      (pixelInts fl (tiCfg t cfg) ng (tiIn t p)) := by
    have hl' : loadPixel fl (tiCfg t cfg) (tiIn t p) = loadPixel fl cfg p := rfl
    simp only [pixelInts, hl, hl', ti_medianRate]
    rw [List.map_map, List.forall₂_map_left_iff, List.forall₂_map_right_iff, List.forall₂_same]
    intro i _
    refine ⟨rfl, ?_⟩
    have := ti_fitInteg ht fl cfg p.px (medianRate fl cfg ng ((loadPixel fl cfg p).map (unInteg t⁻¹))) ng i (metaDq fl p ||| statBits fl i.st)
    simp only [Function.comp]
    change (postInteg fl i (fitInteg fl (tiCfg t cfg) { p.px with dcurrent := p.px.dcurrent / t } _ ng i _).1, _) = _
    simp only [tiIn]
    change (postInteg fl i (fitInteg fl (tiCfg t cfg) { p.px with dcurrent := p.px.dcurrent / t } _ ng i (metaDq fl p ||| statBits fl i.st)).1,
      (fitInteg fl (tiCfg t cfg) { p.px with dcurrent := p.px.dcurrent / t } _ ng i (metaDq fl p ||| statBits fl i.st)).2) = _
    rw [this]
    rfl
  simp only [fitPixel]
  have hm : metaDq fl (unIn t⁻¹ p) = metaDq fl (tiIn t p) := rfl
  rw [hm]
  generalize pixelInts fl (tiCfg t cfg) ng (tiIn t p) = rs' at hr
  generalize pixelInts fl cfg ng (unIn t⁻¹ p) = rs at hr
  have e1 := hr.length_eq
  have e2 := un_countP (fun r => r.2.1.2.1) (fun r => r.2.1.2.1) (fun b c h => by rw [h.2]) hr
  have e3 := un_countP (fun r => r.2.1.2.2) (fun r => r.2.1.2.2) (fun b c h => by rw [h.2]) hr
  have e4 := fun z => un_fold (fun acc r => acc ||| statBits fl r.1.st) (fun acc r => acc ||| statBits fl r.1.st)
    (fun s b c h => by rw [h.1]) hr z
  have e5 := un_any (fun r => decide (0 < r.1.st.cntSat)) (fun r => decide (0 < r.1.st.cntSat)) (fun b c h => by rw [h.1]) hr
  have e6 := un_filterMap id (fun r => r.2.2) (fun r => r.2.2) (fun b c h => by rw [h.2]; cases b.2.2 <;> rfl) hr
  have e7 := un_filterMap id (fun r => some r.2.1.1) (fun r => some r.2.1.1) (fun b c h => by rw [h.2]; rfl) hr
  simp only [List.map_id, List.filterMap_eq_map'] at e6 e7
  rw [e2, e3, e4, e5, e6, ← e1, e7]
  rfl

/-- C164.  OLS_C: with the times in another unit every rateints entry and the rate have the same DQ; rates and errors are divided by
the factor and variances by its square - except where one of the two fits has set a variance to zero. -/
theorem C164_ols (fl : Flags) (cfg : Cfg α) (ng : Nat) (p : PixIn α) (t : α) (ht : 0 < t)
    (hsq : ∀ x, cfg.sqrt ((1 / t) ^ 2 * x) = 1 / t * cfg.sqrt x) :
    List.Forall₂ (fun r r' => UnEntry (1 / t) r r' ∧ UnErr (1 / t) r r') (fitPixel fl cfg ng p).1 (fitPixel fl (tiCfg t cfg) ng (tiIn t p)).1 ∧
    UnEntry (1 / t) (fitPixel fl cfg ng p).2 (fitPixel fl (tiCfg t cfg) ng (tiIn t p)).2 ∧
    (((fitPixel fl (tiCfg t cfg) ng (tiIn t p)).2.varR = 0 ↔ (fitPixel fl cfg ng p).2.varR = 0) →
      ((fitPixel fl (tiCfg t cfg) ng (tiIn t p)).2.varP = 0 ↔ (fitPixel fl cfg ng p).2.varP = 0) →
      (fitPixel fl (tiCfg t cfg) ng (tiIn t p)).2.varErr = 1 / t * (fitPixel fl cfg ng p).2.varErr) := by
  rw [ti_fitPixel ht, ← one_div]
  exact C149_unit fl cfg ng p (1 / t) (by positivity) hsq

end Ols

section Likely
open Verif.Likely Verif.LikelyDriver
variable {α : Type} [Field α] [LinearOrder α] [IsStrictOrderedRing α]

/-- Spec: the read times in another unit, `t` new units being one old one. -/
def tiTimes (t : α) (l : List (List α)) : List (List α) := l.map fun r => r.map fun x => t * x

/-- Spec: the settings, of which the dark current is a rate. -/
def tiLikely (t : α) (c : Likely.Cfg α) : Likely.Cfg α := { c with dark := c.dark / t }

theorem ti_meanT (t : α) (l : List α) : meanT (l.map fun x => t * x) = t * meanT l := by
  have := List.sum_map_mul_left l (fun x : α => x) t
  rw [List.map_id'] at this
  rw [meanT, meanT, List.length_map, this, mul_div_assoc]

theorem ti_tauT (t : α) (l : List α) : tauT (l.map fun x => t * x) = t * tauT l := by
  simp only [tauT, List.length_map]
  rw [← mul_div_assoc, Finset.mul_sum]
  congr 1
  refine Finset.sum_congr rfl fun k _ => ?_
  have : (l.map fun x => t * x).getD k 0 = t * l.getD k 0 := by
    simp only [List.getD_eq_getElem?_getD, List.getElem?_map]
    cases l[k]? <;> simp
  rw [this]
  ring

theorem ti_getD (t : α) (l : List (List α)) (j : Nat) : (tiTimes t l).getD j [] = (l.getD j []).map fun x => t * x := by
  simp only [tiTimes, List.getD_eq_getElem?_getD, List.getElem?_map]
  cases l[j]? <;> rfl

/-- The parts of the covariance. -/
theorem ti_noise {t : α} (ht : 0 < t) (times : Nat → List α) (g gain rn : α) :
    (∀ i, alphaPh (covar fun j => (times j).map fun x => t * x) ⟨t⁻¹ * g, gain, rn⟩ i = alphaPh (covar times) (luQ t⁻¹ ⟨g, gain, rn⟩) i) ∧
    (∀ i, alphaRd (covar fun j => (times j).map fun x => t * x) ⟨t⁻¹ * g, gain, rn⟩ i = alphaRd (covar times) (luQ t⁻¹ ⟨g, gain, rn⟩) i) ∧
    (∀ i, betaPh (covar fun j => (times j).map fun x => t * x) ⟨t⁻¹ * g, gain, rn⟩ i = betaPh (covar times) (luQ t⁻¹ ⟨g, gain, rn⟩) i) ∧
    ∀ i, betaRd (covar fun j => (times j).map fun x => t * x) ⟨t⁻¹ * g, gain, rn⟩ i = betaRd (covar times) (luQ t⁻¹ ⟨g, gain, rn⟩) i := by
  have h0 := ht.ne'
  refine ⟨fun i => ?_, fun i => ?_, fun i => ?_, fun i => ?_⟩
  all_goals
    simp only [alphaPh, alphaRd, betaPh, betaRd, luQ, covar, ti_meanT, ti_tauT, List.length_map, div_inv_eq_mul, ← mul_sub]
  · generalize meanT (times (i + 1)) - meanT (times i) = d
    rw [← mul_add, show 2 * (t * meanT (times i)) = t * (2 * meanT (times i)) by ring, ← mul_sub]
    generalize tauT (times i) + tauT (times (i + 1)) - 2 * meanT (times i) = x
    rw [mul_mul_mul_comm t d t d, mul_assoc t t, mul_div_mul_left _ _ h0, div_mul_eq_div_div_swap x t]
    simp only [div_eq_mul_inv, mul_inv]
    ring
  · generalize meanT (times (i + 1)) - meanT (times i) = d
    simp only [div_eq_mul_inv, mul_inv]
    ring
  · generalize meanT (times (i + 1)) - meanT (times i) = d
    generalize meanT (times (i + 1 + 1)) - meanT (times (i + 1)) = d'
    generalize meanT (times (i + 1)) - tauT (times (i + 1)) = x
    rw [mul_mul_mul_comm t d' t d, mul_assoc t t, mul_div_mul_left _ _ h0, div_mul_eq_div_div_swap x t]
    simp only [div_eq_mul_inv, mul_inv]
    ring
  · generalize meanT (times (i + 1)) - meanT (times i) = d
    generalize meanT (times (i + 1 + 1)) - meanT (times (i + 1)) = d'
    simp only [div_eq_mul_inv, mul_inv]
    ring

theorem ti_scaleOf {t : α} (ht : 0 < t) (root : α → Nat → α) (n : Nat) (times : Nat → List α) (g gain rn : α) :
    scaleOf root n (covar fun j => (times j).map fun x => t * x) ⟨t⁻¹ * g, gain, rn⟩ = scaleOf root n (covar times) (luQ t⁻¹ ⟨g, gain, rn⟩) := by
  obtain ⟨h1, h2, h3, h4⟩ := ti_noise ht times g gain rn
  simp only [scaleOf, h1, h2, h3, h4]

theorem ti_search {t : α} (ht : 0 < t) (n : Nat) (times : Nat → List α) (g gain rn scale : α) (diffs : Nat → α) :
    search n (covar fun j => (times j).map fun x => t * x) ⟨t⁻¹ * g, gain, rn⟩ scale diffs
      = search n (covar times) (luQ t⁻¹ ⟨g, gain, rn⟩) scale diffs := by
  obtain ⟨h1, h2, h3, h4⟩ := ti_noise ht times g gain rn
  have hM : ∀ u, fitMatrix n (covar fun j => (times j).map fun x => t * x) ⟨t⁻¹ * g, gain, rn⟩ scale diffs u
      = fitMatrix n (covar times) (luQ t⁻¹ ⟨g, gain, rn⟩) scale diffs u := by
    intro u
    simp only [fitMatrix, h1, h2, h3, h4]
  refine (lu_search_eq n _ _ scale diffs _ _ _ ?_ ?_ ?_).trans (lu_search_eq n (covar times) _ scale diffs _ _ _ rfl rfl rfl).symm
  · exact funext fun u => (hM (num u)).symm
  · simp only [h1, h2, h3, h4]
  · simp only [h1, h2, h3, h4]

theorem ti_fitWith {t : α} (ht : 0 < t) (n : Nat) (times : Nat → List α) (g gain rn scale : α) (diffs u : Nat → α) :
    fitWith n (covar fun j => (times j).map fun x => t * x) ⟨t⁻¹ * g, gain, rn⟩ scale diffs u
      = fitWith n (covar times) (luQ t⁻¹ ⟨g, gain, rn⟩) scale diffs u := by
  obtain ⟨h1, h2, h3, h4⟩ := ti_noise ht times g gain rn
  have hM : ∀ u, fitMatrix n (covar fun j => (times j).map fun x => t * x) ⟨t⁻¹ * g, gain, rn⟩ scale diffs u
      = fitMatrix n (covar times) (luQ t⁻¹ ⟨g, gain, rn⟩) scale diffs u := by
    intro u
    simp only [fitMatrix, h1, h2, h3, h4]
  simp only [fitWith, h1, h2, h3, h4]
  rw [hM]

theorem ti_masked {t : α} (ht : 0 < t) (root : α → Nat → α) (n : Nat) (times : Nat → List α) (c : Likely.Cfg α) (gdq : Nat → Nat)
    (diffs : Nat → α) :
    masked root n (covar fun j => (times j).map fun x => t * x) (tiLikely t c) gdq (fun i => t⁻¹ * diffs i)
      = masked root n (covar times) (luCfg t⁻¹ c) gdq fun i => t⁻¹ * diffs i := by
  have hk : 0 < t⁻¹ := inv_pos.2 ht
  have hg : pos ((Verif.Jump.nanmedian ((List.range n).map fun i => some (t⁻¹ * diffs i))).getD 0)
      = t⁻¹ * pos ((Verif.Jump.nanmedian ((List.range n).map fun i => some (diffs i))).getD 0) := by
    have hm : Verif.Jump.nanmedian ((List.range n).map fun i => some (t⁻¹ * diffs i))
        = (Verif.Jump.nanmedian ((List.range n).map fun i => some (diffs i))).map fun y => t⁻¹ * y := by
      rw [← lu_median hk, List.map_map]
      rfl
    rw [hm, ← lu_pos hk]
    cases Verif.Jump.nanmedian ((List.range n).map fun i => some (diffs i)) <;> simp
  have hn : (covar fun j => (times j).map fun x => t * x).nreads = (covar times).nreads := by
    funext i
    simp only [covar, List.length_map]
  simp only [masked, hg, hn]
  generalize pos ((Verif.Jump.nanmedian ((List.range n).map fun i => some (diffs i))).getD 0) = g
  simp only [show (tiLikely t c).gain = c.gain from rfl, show (tiLikely t c).rnoise = c.rnoise from rfl, ti_scaleOf ht, ti_search ht]
  rfl

theorem ti_finalFit {t : α} (ht : 0 < t) (root : α → Nat → α) (n : Nat) (times : Nat → List α) (c : Likely.Cfg α) (rate : Option α)
    (diffs : Nat → α) (u : Nat → Bool) :
    finalFit root n (covar fun j => (times j).map fun x => t * x) (tiLikely t c) (rate.map fun x => t⁻¹ * x) diffs u
      = finalFit root n (covar times) (luCfg t⁻¹ c) (rate.map fun x => t⁻¹ * x) diffs u := by
  have hk : 0 < t⁻¹ := inv_pos.2 ht
  cases rate with
  | none => rfl
  | some r =>
    simp only [finalFit, Option.map_some, lu_pos hk]
    have e1 : t⁻¹ * pos r + (tiLikely t c).dark = t⁻¹ * (pos r + c.dark) := by
      simp only [tiLikely, div_eq_inv_mul, mul_add]
    have e2 : (⟨t⁻¹ * pos r + (luCfg t⁻¹ c).dark, (luCfg t⁻¹ c).gain, (luCfg t⁻¹ c).rnoise⟩ : Noise α)
        = luQ t⁻¹ ⟨pos r + c.dark, c.gain, c.rnoise⟩ := by
      simp only [luCfg, luQ, mul_add]
    rw [e1, e2]
    simp only [show (tiLikely t c).gain = c.gain from rfl, show (tiLikely t c).rnoise = c.rnoise from rfl, ti_scaleOf ht, ti_fitWith ht]

theorem ti_fitInt {t : α} (ht : 0 < t) (root : α → Nat → α) (hroot : ∀ x i, 1 ≤ i → root ((t⁻¹ ^ 2) ^ i * x) i = t⁻¹ ^ 2 * root x i)
    (fl : Flags) (ng nframes : Nat) (hng : 4 ≤ ng) (useZero : Bool) (times : List (List α)) (c : Likely.Cfg α)
    (grow : Option ((Nat → Nat) → Nat → Nat)) (pixeldq : Nat) (e : IntIn α) :
    fitInt root fl ng nframes useZero (tiTimes t times) (tiLikely t c) grow pixeldq e
      = luOut t⁻¹ (fitInt root fl ng nframes useZero times c grow pixeldq e) := by
  have hk : 0 < t⁻¹ := inv_pos.2 ht
  rw [← lu_fitInt root hk hroot fl ng nframes hng]
  have hn : 2 ≤ ng + (if useZero then 1 else 0) - 1 := by omega
  have hdata : (if useZero then splitZero nframes (luIn t⁻¹ e).zf (luIn t⁻¹ e).data else (luIn t⁻¹ e).data)
      = fun g => ((if useZero then splitZero nframes e.zf e.data else e.data) g).map fun x => t⁻¹ * x := by
    cases useZero
    · rfl
    · funext g
      match g with
      | 0 => rfl
      | 1 =>
        simp only [splitZero, luIn, if_true]
        cases e.data 0 <;> cases e.zf <;> simp
        split
        · rfl
        · simp only [Option.map_some, Option.some.injEq]
          ring
      | g + 2 => rfl
  simp only [fitInt, hdata, ti_getD]
  generalize (if useZero then splitZero nframes e.zf e.data else e.data) = data
  generalize hts : (fun j => times.getD j []) = ts
  have hts' : (fun j => (times.getD j []).map fun x => t * x) = fun j => (ts j).map fun x => t * x := by rw [← hts]
  rw [hts']
  have hd : ∀ i, diffsOf (covar fun j => (ts j).map fun x => t * x) data i = (diffsOf (covar ts) data i).map fun x => t⁻¹ * x := by
    intro i
    simp only [diffsOf, covar, ti_meanT, ← mul_sub]
    cases data (i + 1) <;> cases data i <;> simp
    rename_i x y
    rw [div_mul_eq_div_div, div_eq_inv_mul _ t, mul_div_assoc]
  have hd' : ∀ i, diffsOf (covar ts) (fun g => (data g).map fun x => t⁻¹ * x) i = (diffsOf (covar ts) data i).map fun x => t⁻¹ * x := by
    intro i
    simp only [diffsOf]
    cases data (i + 1) <;> cases data i <;> simp
    ring
  have hp : pixelFitE root (ng + (if useZero then 1 else 0) - 1) (covar fun j => (ts j).map fun x => t * x) (tiLikely t c) fl.jump grow
      (if useZero then shiftDq e.gdq else e.gdq) (diffsOf (covar fun j => (ts j).map fun x => t * x) data)
      = pixelFitE root (ng + (if useZero then 1 else 0) - 1) (covar ts) (luCfg t⁻¹ c) fl.jump grow
      (if useZero then shiftDq e.gdq else e.gdq) (diffsOf (covar ts) fun g => (data g).map fun x => t⁻¹ * x) := by
    rw [funext hd, funext hd']
    generalize ng + (if useZero then 1 else 0) - 1 = n at hn
    generalize (if useZero then shiftDq e.gdq else e.gdq) = gdq
    have hg : (fun i => ((diffsOf (covar ts) data i).map fun x => t⁻¹ * x).getD 0) = fun i => t⁻¹ * (diffsOf (covar ts) data i).getD 0 := by
      funext i
      cases diffsOf (covar ts) data i <;> simp
    simp only [pixelFitE, hg, ti_masked ht, lu_masked root hk hroot n hn, luState, ti_finalFit ht]
  rw [hp]
  rfl

/-- C164.  Likelihood fit: with all times in another unit every integration has the same group DQ (the same jumps), pixel DQ,
chi-square and weights; rates are divided by the factor and variances by its square, and the same holds for the rate product. -/
theorem C164_likely (root : α → Nat → α) (t : α) (ht : 0 < t)
    (hroot : ∀ x i, 1 ≤ i → root (((1 / t) ^ 2) ^ i * x) i = (1 / t) ^ 2 * root x i)
    (fl : Flags) (ng nframes : Nat) (pattern : Option (List (List α))) (default : List (List α)) (hasZero : Bool) (c : Likely.Cfg α)
    (grow : Nat → Option ((Nat → Nat) → Nat → Nat)) (pixeldq : Nat) (ints : List (IntIn α)) :
    likelyPixel root fl ng nframes (pattern.map (tiTimes t)) (tiTimes t default) hasZero (tiLikely t c) grow pixeldq ints
      = (likelyPixel root fl ng nframes pattern default hasZero c grow pixeldq ints).map
        fun o => (o.1.map (luOut (1 / t)), luPix (1 / t) o.2) := by
  rw [one_div] at *
  have hk : 0 < t⁻¹ := inv_pos.2 ht
  have hrt : (readTimes (pattern.map (tiTimes t)) (tiTimes t default) hasZero).2
      = (tiTimes t (readTimes pattern default hasZero).2.1, (readTimes pattern default hasZero).2.2) := by
    have h0 : (pattern.map (tiTimes t)).getD (tiTimes t default) = tiTimes t (pattern.getD default) := by cases pattern <;> rfl
    simp only [readTimes, h0]
    cases hasZero with
    | false => rfl
    | true =>
      simp only [if_true]
      rcases pattern.getD default with _ | ⟨_ | ⟨a, _ | ⟨b, l⟩⟩, rest⟩ <;> rfl
  simp only [likelyPixel, hrt]
  split
  · rfl
  · rename_i hng
    have houts : (ints.zipIdx.map fun e => fitInt root fl ng nframes (readTimes pattern default hasZero).2.2
        (tiTimes t (readTimes pattern default hasZero).2.1) (tiLikely t c) (grow e.2) pixeldq e.1)
        = (ints.zipIdx.map fun e => fitInt root fl ng nframes (readTimes pattern default hasZero).2.2
        (readTimes pattern default hasZero).2.1 c (grow e.2) pixeldq e.1).map (luOut t⁻¹) := by
      rw [List.map_map]
      congr 1
      funext e
      exact ti_fitInt ht root hroot fl ng nframes (by omega) _ _ c _ pixeldq e.1
    rw [houts, lu_imageInfo hk]
    rfl

end Likely

section Cas
open Verif.Cas22 Verif.Cas22Driver
variable {α : Type} [Field α] [LinearOrder α] [IsStrictOrderedRing α]

/-- Spec: the fit of a ramp in the new unit of time. -/
def tiFit (t : α) (f : Fit α) : Fit α := ⟨f.slope / t, f.readVar / t ^ 2, f.poissonVar / t⟩

/-- Spec: the result of a pixel in the new unit of time. -/
def tiOut (t : α) (o : PixOut α) : PixOut α :=
  { o with intercept := o.intercept, slope := o.slope / t, readVar := o.readVar / t ^ 2, poissonVar := o.poissonVar / t ^ 2,
           totalVar := o.totalVar / t ^ 2 }

/-- A pixel with its times in the new unit. -/
def tiPix (t : α) (p : Cas22.Pix α) : Cas22.Pix α := { p with tbar := fun i => t * p.tbar i, tau := fun i => t * p.tau i }

theorem ti_weight {t : α} (ht : 0 < t) (cfg : Cas22.Cfg α) (p : Cas22.Pix α) (r : Ramp) (h : p.tbar r.start ≠ p.tbar r.stop) (i : Nat) :
    weight cfg (tiPix t p) r i = weight cfg p r i := by
  have h0 := ht.ne'
  have hs : (p.tbar r.stop - p.tbar r.start) / 2 ≠ 0 := div_ne_zero (sub_ne_zero.2 h.symm) two_ne_zero
  have hs' : (t * p.tbar r.stop - t * p.tbar r.start) / 2 ≠ 0 := by
    rw [← mul_sub]
    exact div_ne_zero (mul_ne_zero h0 (sub_ne_zero.2 h.symm)) two_ne_zero
  have hq : (t * p.tbar i - (t * p.tbar r.start + t * p.tbar r.stop) / 2) / ((t * p.tbar r.stop - t * p.tbar r.start) / 2)
      = (p.tbar i - (p.tbar r.start + p.tbar r.stop) / 2) / ((p.tbar r.stop - p.tbar r.start) / 2) := by
    rw [← mul_div_mul_left _ ((p.tbar r.stop - p.tbar r.start) / 2) h0]
    congr 1 <;> ring
  have he : weight cfg (tiPix t p) r i = ((1 + rampPower cfg p r) * (p.nreads i : α)) / (1 + rampPower cfg p r * (p.nreads i : α))
      * cfg.pow |(t * p.tbar i - (t * p.tbar r.start + t * p.tbar r.stop) / 2)
        / (if (t * p.tbar r.stop - t * p.tbar r.start) / 2 = 0 then 1 else (t * p.tbar r.stop - t * p.tbar r.start) / 2)| (rampPower cfg p r) := rfl
  rw [he, if_neg hs', hq]
  unfold weight
  dsimp only
  rw [if_neg hs]

theorem ti_fold {t : α} (ht : 0 < t) (p : Cas22.Pix α) (coeff : Nat → α) (l : List Nat) (a : Fit α × α) :
    l.foldl (fitStep (tiPix t p) fun i => coeff i / t) (tiFit t a.1, a.2) = (tiFit t (l.foldl (fitStep p coeff) a).1, (l.foldl (fitStep p coeff) a).2) := by
  have h0 := ht.ne'
  induction l generalizing a with
  | nil => rfl
  | cons i l ih =>
    rw [List.foldl_cons, List.foldl_cons, ← ih]
    congr 1
    simp only [fitStep, tiFit, tiPix]
    congr 1
    · congr 1
      · ring
      · rw [add_div]
        congr 1
        field_simp
      · rw [add_div, add_div]
        congr 2
        · field_simp
        · ring
    · congr 1
      field_simp

theorem ti_fitRamp {t : α} (ht : 0 < t) (cfg : Cas22.Cfg α) (p : Cas22.Pix α) (r : Ramp)
    (h : r.start < r.stop → p.tbar r.start ≠ p.tbar r.stop) :
    fitRamp cfg (tiPix t p) r = (fitRamp cfg p r).map (tiFit t) := by
  have h0 := ht.ne'
  unfold fitRamp
  by_cases h1 : r.stop + 1 - r.start ≤ 1
  · rw [if_pos h1, if_pos h1]; rfl
  rw [if_neg h1, if_neg h1]
  have hw : weight cfg (tiPix t p) r = weight cfg p r := funext fun i => ti_weight ht cfg p r (h (by omega)) i
  rw [hw]
  generalize weight cfg p r = w
  have e1 : (r.idx.map fun i => w i * (tiPix t p).tbar i).sum = t * (r.idx.map fun i => w i * p.tbar i).sum := by
    rw [← List.sum_map_mul_left]
    congr 2
    funext i
    simp only [tiPix]
    ring
  have e2 : (r.idx.map fun i => w i * ((tiPix t p).tbar i * (tiPix t p).tbar i)).sum = t ^ 2 * (r.idx.map fun i => w i * (p.tbar i * p.tbar i)).sum := by
    rw [← List.sum_map_mul_left]
    congr 2
    funext i
    simp only [tiPix]
    ring
  dsimp only
  rw [e1, e2]
  generalize (r.idx.map w).sum = f0
  generalize (r.idx.map fun i => w i * p.tbar i).sum = f1
  generalize (r.idx.map fun i => w i * (p.tbar i * p.tbar i)).sum = f2
  have hd : t ^ 2 * f2 * f0 - t * f1 * (t * f1) = t ^ 2 * (f2 * f0 - f1 * f1) := by ring
  rw [hd]
  by_cases hz : f2 * f0 - f1 * f1 = 0
  · rw [if_pos hz, if_pos (by rw [hz, mul_zero])]
    simp [tiFit]
  · rw [if_neg hz, if_neg (mul_ne_zero (pow_ne_zero 2 h0) hz)]
    have hc : (fun i => (f0 * (tiPix t p).tbar i - t * f1) * w i / (t ^ 2 * (f2 * f0 - f1 * f1)))
        = fun i => (f0 * p.tbar i - f1) * w i / (f2 * f0 - f1 * f1) / t := by
      funext i
      simp only [tiPix]
      field_simp
    rw [hc, Option.map_some]
    have := ti_fold ht p (fun i => (f0 * p.tbar i - f1) * w i / (f2 * f0 - f1 * f1)) r.idx (⟨0, 0, 0⟩, 0)
    have hzero : tiFit t (⟨0, 0, 0⟩ : Fit α) = ⟨0, 0, 0⟩ := by simp [tiFit]
    rw [hzero] at this
    rw [this]

theorem ti_stat {t : α} (ht : 0 < t) (cfg : Cas22.Cfg α) (hsq : ∀ x, cfg.sqrt (x / t ^ 2) = cfg.sqrt x / t) (p : Cas22.Pix α) (r : Ramp)
    (slope : α) (i j : Nat) : stat cfg (tiPix t p) r (slope / t) i j = stat cfg p r slope i j := by
  have h0 := ht.ne'
  have ht2 : (0 : α) < t ^ 2 := by positivity
  have hmin : min (t * p.tbar (i + j)) (t * p.tbar i) = t * min (p.tbar (i + j)) (p.tbar i) := (mul_min_of_nonneg _ _ ht.le).symm
  simp only [stat]
  have e1 : ((tiPix t p).res (i + j) - (tiPix t p).res i) / ((tiPix t p).tbar (i + j) - (tiPix t p).tbar i) - slope / t
      = ((p.res (i + j) - p.res i) / (p.tbar (i + j) - p.tbar i) - slope) / t := by
    simp only [tiPix, ← mul_sub]
    rw [div_mul_eq_div_div_swap, ← sub_div]
  have e2 : ((tiPix t p).readNoise * (tiPix t p).readNoise * (1 / ((tiPix t p).nreads (i + j) : α) + 1 / ((tiPix t p).nreads i : α))
      + slope / t * ((tiPix t p).tau (i + j) + (tiPix t p).tau i - 2 * min ((tiPix t p).tbar (i + j)) ((tiPix t p).tbar i)))
      / (((tiPix t p).tbar (i + j) - (tiPix t p).tbar i) * ((tiPix t p).tbar (i + j) - (tiPix t p).tbar i))
      + -(slope / t) / ((tiPix t p).tbar r.stop - (tiPix t p).tbar r.start)
      = ((p.readNoise * p.readNoise * (1 / (p.nreads (i + j) : α) + 1 / (p.nreads i : α))
      + slope * (p.tau (i + j) + p.tau i - 2 * min (p.tbar (i + j)) (p.tbar i)))
      / ((p.tbar (i + j) - p.tbar i) * (p.tbar (i + j) - p.tbar i)) + -slope / (p.tbar r.stop - p.tbar r.start)) / t ^ 2 := by
    simp only [tiPix, hmin, ← mul_sub]
    rw [show t * p.tau (i + j) + t * p.tau i - 2 * (t * min (p.tbar (i + j)) (p.tbar i))
      = t * (p.tau (i + j) + p.tau i - 2 * min (p.tbar (i + j)) (p.tbar i)) by ring]
    generalize p.tau (i + j) + p.tau i - 2 * min (p.tbar (i + j)) (p.tbar i) = x
    generalize p.tbar (i + j) - p.tbar i = d
    generalize p.tbar r.stop - p.tbar r.start = e
    rw [show slope / t * (t * x) = slope * x by field_simp, mul_mul_mul_comm, add_div, div_mul_eq_div_div_swap, ← pow_two]
    simp only [div_eq_mul_inv, mul_inv]
    ring
  rw [e1, e2]
  generalize (p.readNoise * p.readNoise * (1 / (p.nreads (i + j) : α) + 1 / (p.nreads i : α))
      + slope * (p.tau (i + j) + p.tau i - 2 * min (p.tbar (i + j)) (p.tbar i)))
      / ((p.tbar (i + j) - p.tbar i) * (p.tbar (i + j) - p.tbar i)) + -slope / (p.tbar r.stop - p.tbar r.start) = v
  generalize (p.res (i + j) - p.res i) / (p.tbar (i + j) - p.tbar i) - slope = d
  have hv1 : v / t ^ 2 < 0 ↔ v < 0 := by rw [div_lt_iff₀ ht2, zero_mul]
  have hv2 : v / t ^ 2 = 0 ↔ v = 0 := by simp [h0]
  have hd1 : 0 < d / t ↔ 0 < d := by rw [lt_div_iff₀ ht, zero_mul]
  have hd2 : d / t < 0 ↔ d < 0 := by rw [div_lt_iff₀ ht, zero_mul]
  simp only [hv1, hv2, hd1, hd2, hsq, div_div_div_cancel_right₀ h0]

theorem ti_fitStatistic {t : α} (ht : 0 < t) (cfg : Cas22.Cfg α) (hsq : ∀ x, cfg.sqrt (x / t ^ 2) = cfg.sqrt x / t) (p : Cas22.Pix α)
    (r : Ramp) (slope : α) : fitStatistic cfg (tiPix t p) r (slope / t) = fitStatistic cfg p r slope := by
  simp only [fitStatistic, stat2, ti_stat ht cfg hsq]

/-- The jump test uses the rate itself in its threshold; without that dependence it does not depend on the unit of time. -/
theorem ti_detect {t : α} (ht : 0 < t) (cfg : Cas22.Cfg α) (hsq : cfg.useJump = true → ∀ x, cfg.sqrt (x / t ^ 2) = cfg.sqrt x / t)
    (hc : cfg.useJump = true → cfg.constant = 0) (p : Cas22.Pix α) (r : Ramp) (h : r.start < r.stop → p.tbar r.start ≠ p.tbar r.stop) :
    detect cfg (tiPix t p) r = detect cfg p r := by
  simp only [detect]
  by_cases hu : cfg.useJump = true
  · rw [if_pos hu, if_pos hu, ti_fitRamp ht cfg p r h]
    cases fitRamp cfg p r with
    | none => rfl
    | some f =>
      simp only [Option.map_some, show (tiFit t f).slope = f.slope / t from rfl, ti_fitStatistic ht cfg (hsq hu), threshold, hc hu, zero_mul, sub_zero]
  · rw [if_neg hu, if_neg hu]

theorem ti_readVar (cfg : Cas22.Cfg α) (p : Cas22.Pix α) (r : Ramp) (f : Fit α) (h : fitRamp cfg p r = some f) : 0 ≤ f.readVar := by
  have hf : ∀ (c : Nat → α) (l : List Nat) (a : Fit α × α), 0 ≤ a.1.readVar → 0 ≤ (l.foldl (fitStep p c) a).1.readVar := by
    intro c l
    induction l with
    | nil => exact fun a ha => ha
    | cons i l ih =>
      intro a ha
      refine ih _ ?_
      simp only [fitStep]
      exact add_nonneg ha (div_nonneg (mul_nonneg (mul_self_nonneg _) (mul_self_nonneg _)) (Nat.cast_nonneg _))
  simp only [fitRamp] at h
  split at h
  · cases h
  split at h
  · rw [← Option.some.inj h]
  · rw [← Option.some.inj h]
    exact hf _ _ _ le_rfl

/-- Spec: the average of a pixel, in which the Poisson variance has been multiplied by the rate. -/
def tiAvg (t : α) (f : Fit α) : Fit α := ⟨f.slope / t, f.readVar / t ^ 2, f.poissonVar / t ^ 2⟩

theorem ti_average {t : α} (ht : 0 < t) (fits : List (Option (Fit α))) (hv : ∀ f ∈ fits.filterMap id, 0 ≤ f.readVar) :
    average (fits.map (Option.map (tiFit t))) = tiAvg t (average fits) := by
  have h0 := ht.ne'
  have ht2 : t ^ 2 ≠ 0 := pow_ne_zero 2 h0
  have hfs : (fits.map (Option.map (tiFit t))).filterMap id = (fits.filterMap id).map (tiFit t) := by
    rw [List.filterMap_map, List.map_filterMap]
    rfl
  simp only [average, hfs, List.map_map]
  generalize fits.filterMap id = fs at hv
  have hw : ∀ f : Fit α, (if (tiFit t f).readVar = 0 then 0 else 1 / (tiFit t f).readVar)
      = t ^ 2 * (if f.readVar = 0 then 0 else 1 / f.readVar) := by
    intro f
    have hr : (tiFit t f).readVar = f.readVar / t ^ 2 := rfl
    by_cases hz : f.readVar = 0
    · rw [if_pos hz, if_pos (by rw [hr, hz, zero_div]), mul_zero]
    · rw [if_neg hz, if_neg (by rw [hr]; exact div_ne_zero hz ht2), hr, one_div_div, mul_one_div]
  have hw0 : ∀ f ∈ fs, 0 ≤ (if f.readVar = 0 then 0 else 1 / f.readVar) := by
    intro f hf
    split
    · exact le_rfl
    · exact one_div_nonneg.2 (hv f hf)
  obtain ⟨w, hwd⟩ : ∃ w : Fit α → α, ∀ f : Fit α, (if f.readVar = 0 then (0 : α) else 1 / f.readVar) = w f := ⟨_, fun _ => rfl⟩
  simp only [hwd] at hw0 hw
  simp only [Function.comp_def, hwd]
  simp only [hw]
  have e1 : (fs.map fun f => t ^ 2 * w f).sum = t ^ 2 * (fs.map w).sum := List.sum_map_mul_left _ _ _
  have e2 : (fs.map fun f => t ^ 2 * w f * (tiFit t f).slope).sum = t * (fs.map fun f => w f * f.slope).sum := by
    rw [← List.sum_map_mul_left]
    congr 2
    funext f
    simp only [tiFit]
    field_simp
  have e3 : (fs.map fun f => t ^ 2 * w f * (t ^ 2 * w f) * (tiFit t f).readVar).sum = t ^ 2 * (fs.map fun f => w f * w f * f.readVar).sum := by
    rw [← List.sum_map_mul_left]
    congr 2
    funext f
    simp only [tiFit]
    field_simp
  have e4 : (fs.map fun f => t ^ 2 * w f * (t ^ 2 * w f) * (tiFit t f).poissonVar).sum
      = t ^ 3 * (fs.map fun f => w f * w f * f.poissonVar).sum := by
    rw [← List.sum_map_mul_left]
    congr 2
    funext f
    simp only [tiFit]
    field_simp
  rw [e1, e2, e3, e4]
  by_cases hT : (fs.map w).sum = 0
  · have hall : ∀ f ∈ fs, w f = 0 := by
      intro f hf
      refine le_antisymm ?_ (hw0 f hf)
      rw [← hT]
      exact List.single_le_sum (fun x hx => by
        obtain ⟨g, hg, rfl⟩ := List.mem_map.1 hx
        exact hw0 g hg) _ (List.mem_map_of_mem hf)
    have z : ∀ g : Fit α → α, (fs.map fun f => w f * g f).sum = 0 := fun g =>
      List.sum_eq_zero (fun x hx => by
        obtain ⟨f, hf, rfl⟩ := List.mem_map.1 hx
        rw [hall f hf, zero_mul])
    have z2 := z fun f => w f * f.readVar
    have z3 := z fun f => w f * f.poissonVar
    simp only [← mul_assoc] at z2 z3
    rw [z, z2, z3, hT]
    simp [tiAvg]
  · rw [if_pos hT, if_pos hT, if_pos (mul_ne_zero ht2 hT), if_pos (mul_ne_zero ht2 hT)]
    generalize (fs.map w).sum = T at hT
    generalize (fs.map fun f => w f * f.slope).sum = a
    generalize (fs.map fun f => w f * w f * f.readVar).sum = b
    generalize (fs.map fun f => w f * w f * f.poissonVar).sum = c
    have es : t * a / (t ^ 2 * T) = a / T / t := by field_simp
    have em : max (a / T / t) 0 = max (a / T) 0 / t := by
      rw [← max_div_div_right ht.le (a / T) 0, zero_div]
    simp only [tiAvg, es, em]
    congr 1
    · field_simp
    · generalize max (a / T) 0 = m
      field_simp

theorem ti_pixel {t : α} (ht : 0 < t) (cfg : Cas22.Cfg α) (hsq : cfg.useJump = true → ∀ x, cfg.sqrt (x / t ^ 2) = cfg.sqrt x / t)
    (hc : cfg.useJump = true → cfg.constant = 0) (p : Cas22.Pix α) (n : Nat)
    (h : ∀ i j, i < j → j < n → p.tbar i ≠ p.tbar j) (dq : Nat → Nat) :
    fitPixel cfg (tiPix t p) dq n (n + 1) = (fitPixel cfg p dq n (n + 1)).map fun x => (x.1, x.2.1, tiAvg t x.2.2) := by
  have key : runLoop (detect cfg (tiPix t p)) (n + 1) ⟨(initRamps dq n).reverse, dq, []⟩
      = runLoop (detect cfg p) (n + 1) ⟨(initRamps dq n).reverse, dq, []⟩ := by
    refine Verif.Cas22Driver.runLoop_congr (fun r => r.start ≤ r.stop ∧ r.stop < n) _ _ (fun r hr => ?_) (fun r a hr ha => ?_) _ _ ?_
    · exact ti_detect ht cfg hsq hc p r fun hlt => h _ _ hlt hr.2
    · have := Verif.Cas22.detect_ok cfg p r a ha hr.1
      exact ⟨fun h => ⟨by simp only; omega, by simp only; omega⟩, fun h => ⟨by simp only; omega, hr.2⟩⟩
    · intro r hr
      have := ((C35_ramps_are_maximal_runs dq n).1 r).1 (by simpa using hr)
      exact ⟨this.1, this.2.1⟩
  obtain ⟨dq', ramps, avg, h1, h2, -⟩ := C36_pixel cfg p dq n
  have h1 := h1 (n + 1) le_rfl
  simp only [fitPixel] at h1 ⊢
  rw [key]
  cases hr : runLoop (detect cfg p) (n + 1) ⟨(initRamps dq n).reverse, dq, []⟩ with
  | none => rfl
  | some s =>
    rw [hr, Option.map_some, Option.some.injEq, Prod.mk.injEq, Prod.mk.injEq] at h1
    obtain ⟨-, rfl, -⟩ := h1
    rw [Option.map_some, Option.map_some, Option.map_some]
    have e : s.done.map (fitRamp cfg (tiPix t p)) = (s.done.map (fitRamp cfg p)).map (Option.map (tiFit t)) := by
      rw [List.map_map]
      exact List.map_congr_left fun r hm => ti_fitRamp ht cfg p r fun hlt => h _ _ hlt (h2 r hm).2
    rw [e, ti_average ht]
    intro f hf
    rw [List.mem_filterMap] at hf
    obtain ⟨o, ho, rfl⟩ := hf
    obtain ⟨r, -, hr⟩ := List.mem_map.1 ho
    exact ti_readVar cfg p r f hr

/-- The read time given in another unit (`t` new units make one old one): the same flags, and every rate divided by `t`, every
variance by its square — provided the jump threshold does not depend on the rate. -/
theorem C164_casertano {t : α} (ht : 0 < t) (cfg : Cas22.Cfg α) (hsq : cfg.useJump = true → ∀ x, cfg.sqrt (x / t ^ 2) = cfg.sqrt x / t)
    (hc : cfg.useJump = true → cfg.constant = 0) (readTime : α) (pattern : List (List α))
    (hm : ∀ i j, i < j → j < pattern.length → cdTime readTime pattern i ≠ cdTime readTime pattern j) (npix : Nat)
    (res : Nat → Nat → α) (dq : Nat → Nat → Nat) (rn : Nat → α) (f0 f1 : Fixed α) (s0 s1 : Scratch α) :
    fitRamps cfg (t * readTime) pattern pattern.length npix res dq rn f1 s1
      = (fitRamps cfg readTime pattern pattern.length npix res dq rn f0 s0).map (List.map (tiOut t)) := by
  obtain ⟨o, e, l, h⟩ := C103_every_pixel cfg readTime pattern npix res dq rn f0 s0
  obtain ⟨o', e', l', h'⟩ := C103_every_pixel cfg (t * readTime) pattern npix res dq rn f1 s1
  rw [e, e', Option.map_some, Option.some.injEq]
  refine List.ext_getElem? fun k => ?_
  by_cases hk : k < npix
  · obtain ⟨d, rs, a, g1, g2⟩ := h k hk
    obtain ⟨d', rs', a', g1', g2'⟩ := h' k hk
    have hp : pixelOf (t * readTime) pattern res rn k = tiPix t (pixelOf readTime pattern res rn k) := by
      simp only [pixelOf, tiPix, meanTime, tauTime, mul_assoc]
      congr 1
      funext i
      ring
    rw [hp, ti_pixel ht cfg hsq hc _ _ hm, g1, Option.map_some, Option.some.injEq, Prod.mk.injEq, Prod.mk.injEq] at g1'
    obtain ⟨rfl, -, rfl⟩ := g1'
    rw [List.getElem?_map, g2, g2']
    simp only [Option.map_some, tiOut, tiAvg, add_div]
  · rw [List.getElem?_eq_none (by omega), List.getElem?_eq_none (by simp; omega)]

end Cas

/-! ## Examples -/

section
open Verif.Ols

/-- The square root meets the hypotheses. -/
example (t x : ℝ) (ht : 0 < t) : Real.sqrt ((1 / t) ^ 2 * x) = 1 / t * Real.sqrt x := by
  rw [Real.sqrt_mul (by positivity), Real.sqrt_sq (by positivity)]
example (t x : ℝ) (ht : 0 < t) : Real.sqrt (x / t ^ 2) = Real.sqrt x / t := by
  rw [Real.sqrt_div' x (by positivity), Real.sqrt_sq ht.le]

/-- The rate of a pixel with two integrations, in its unit of time and in one that is sixty times longer. -/
example : (fitPixel exFlags exCfg 4 exPixel).2.slope = some (7 / 22) ∧
    (fitPixel exFlags (tiCfg (1 / 60) exCfg) 4 (tiIn (1 / 60) exPixel)).2.slope = some (7 / 22 * 60) ∧
    (fitPixel exFlags exCfg 4 exPixel).2.varR ≠ 0 ∧
    (fitPixel exFlags (tiCfg (1 / 60) exCfg) 4 (tiIn (1 / 60) exPixel)).2.varR = 3600 * (fitPixel exFlags exCfg 4 exPixel).2.varR := by
  decide +kernel

/-- Finding (slope_fitter.c:61).  A read-noise variance of 10⁶ or more is replaced by zero, so the rate of the same pixel is zero in a unit
of time that is long enough. -/
theorem C164_threshold :
    (fitPixel exFlags exCfg 4 exPixel).2.slope = some (7 / 22) ∧
    (fitPixel exFlags (tiCfg (1 / 100000) exCfg) 4 (tiIn (1 / 100000) exPixel)).2.slope = some 0 := by decide +kernel
end

section
open Verif.Likely Verif.LikelyDriver

/-- A ramp of six groups of two frames with a zero frame and a flagged group, in two integrations. -/
example (t : ℝ) (ht : 0 < t) :
    let e : IntIn ℝ := ⟨fun g => some (if g = 2 then 1000 else 6 * (g : ℝ) + 9), fun g => if g = 2 then 1 else 0, some 7⟩
    let p : List (List ℝ) := (List.range 6).map fun g => [3 * (g : ℝ) + 1, 3 * (g : ℝ) + 3]
    let c : Likely.Cfg ℝ := ⟨1, 1, 0, 16, 20⟩
    likelyPixel (fun t i => |t| ^ (1 / (i : ℝ))) ⟨1, 2, 4⟩ 6 2 (some (tiTimes t p)) (tiTimes t []) true (tiLikely t c) (fun _ => none) 0 [e, e]
      = (likelyPixel (fun t i => |t| ^ (1 / (i : ℝ))) ⟨1, 2, 4⟩ 6 2 (some p) [] true c (fun _ => none) 0 [e, e]).map
        fun o => (o.1.map (luOut (1 / t)), luPix (1 / t) o.2) :=
  C164_likely _ t ht (fun x i hi => lu_real (1 / t) x i hi) _ _ _ (some _) _ _ _ _ _ _
end

section
open Verif.Cas22 Verif.Cas22Driver

def tiFitted (readTime : ℚ) : Option (List (ℚ × ℚ × ℚ)) :=
  (fitRamps (cas22Cfg false) readTime cdPattern 4 2 (fun k i => cdRes (i * 2 + k)) (fun k i => cdDq (i * 2 + k)) (fun _ => 2)
    (fun _ _ _ => none) fun _ _ _ => none).map (List.map fun o => (o.slope, o.readVar, o.totalVar))

/-- Two pixels with reads of three seconds and of a twentieth of a minute. -/
example : (cas22Cfg false).useJump = false ∧ (∀ j < 4, ∀ i < j, cdTime 3 cdPattern i ≠ cdTime 3 cdPattern j) ∧
    tiFitted (1 / 60 * 3) = (tiFitted 3).map (List.map fun x => (60 * x.1, 3600 * x.2.1, 3600 * x.2.2)) ∧
    ((tiFitted 3).map (List.map fun x => decide (x.1 ≠ 0 ∧ 0 < x.2.1 ∧ x.2.1 < x.2.2))) = some [true, true] := by decide +kernel

/-- Without the hypothesis on the threshold the flags depend on the unit: here the threshold falls with the rate. -/
example :
    let cfg : Cas22.Cfg ℚ := ⟨fun _ => 1, fun _ _ => 1, fun x => x, 10, 1, true⟩
    let run := fun readTime : ℚ => (fitRamps cfg readTime [[1], [2], [3], [4]] 4 1 (fun _ i => [0, 1, 8, 9].getD i 0) (fun _ _ => 0)
      (fun _ => 1) (fun _ _ _ => none) fun _ _ _ => none).map (List.map fun o => (List.range 4).map o.dq)
    run 1 = some [[0, 0, 0, 0]] ∧ run (1 / 4) = some [[0, 4, 4, 0]] := by decide +kernel
end

end Verif.Thm
