import Verif.Thm.OlsFlux
import Verif.Thm.Cas22Driver
import Verif.Thm.LikelyDriver

/-!
# C187: the fitted rate lies between the smallest and the largest count rate between neighbouring usable samples

All three fits (weighted least squares of the C extension, Casertano et al. of the Cython code, likelihood) combine the samples with
coefficients of both signs.  The theorems say that the differences between neighbours are nevertheless combined with weights that are
not negative and have sum one.
-/

set_option linter.unusedSectionVars false

namespace Verif.Thm

/-! ## Two sequences in the same order -/

section Order
variable {α : Type*} [Field α] [LinearOrder α] [IsStrictOrderedRing α]

theorem rb_cross {β : Type*} (l : List β) (w x z : β → α) (hw : ∀ i ∈ l, 0 ≤ w i) (xa za : α)
    (h : ∀ i ∈ l, 0 ≤ (xa - x i) * (za - z i)) :
    0 ≤ (l.map fun i => w i * x i * z i).sum - xa * (l.map fun i => w i * z i).sum - za * (l.map fun i => w i * x i).sum
      + xa * za * (l.map w).sum := by
  induction l with
  | nil => simp
  | cons a l ih =>
    have h1 := ih (fun i hi => hw i (List.mem_cons_of_mem _ hi)) fun i hi => h i (List.mem_cons_of_mem _ hi)
    have h2 := mul_nonneg (hw a List.mem_cons_self) (h a List.mem_cons_self)
    simp only [List.map_cons, List.sum_cons]
    nlinarith

/-- Chebyshev's sum inequality with weights. -/
theorem rb_chebyshev {β : Type*} (l : List β) (w x z : β → α) (hw : ∀ i ∈ l, 0 ≤ w i)
    (h : ∀ i ∈ l, ∀ j ∈ l, 0 ≤ (x i - x j) * (z i - z j)) :
    (l.map fun i => w i * x i).sum * (l.map fun i => w i * z i).sum
      ≤ (l.map w).sum * (l.map fun i => w i * x i * z i).sum := by
  induction l with
  | nil => simp
  | cons a l ih =>
    have h1 := ih (fun i hi => hw i (List.mem_cons_of_mem _ hi))
      fun i hi j hj => h i (List.mem_cons_of_mem _ hi) j (List.mem_cons_of_mem _ hj)
    have h2 := mul_nonneg (hw a List.mem_cons_self) (rb_cross l w x z (fun i hi => hw i (List.mem_cons_of_mem _ hi)) (x a) (z a)
      fun i hi => h a List.mem_cons_self i (List.mem_cons_of_mem _ hi))
    simp only [List.map_cons, List.sum_cons]
    nlinarith

theorem rb_mono (z : Nat → α) (a b : Nat) (h : ∀ k, a ≤ k → k + 1 ≤ b → z k ≤ z (k + 1)) (i : Nat) (hi : a ≤ i) (j : Nat) (hij : i ≤ j)
    (hj : j ≤ b) : z i ≤ z j := by
  induction j with
  | zero => simp [show i = 0 by omega]
  | succ j ih =>
    rcases Nat.lt_or_ge i (j + 1) with h' | h'
    · exact (ih (by omega) (by omega)).trans (h j (by omega) hj)
    · simp [show i = j + 1 by omega]

end Order

/-! ## Weighted least squares of the C extension -/

section Ols
open Verif.Dq Verif.Ols
variable {α : Type*} [Field α] [LinearOrder α] [IsStrictOrderedRing α]

/-- The slope of samples that rise by at least `lo` from group to group is at least `lo`. -/
theorem rb_wls_lower (n start : Nat) (w y : Nat → α) (lo : α) (hw : ∀ k, 0 ≤ w k) (hden : 0 < wden n start w)
    (h : ∀ k, k + 1 < n → lo ≤ y (k + 1) - y k) : lo ≤ (wls n start w y).1 := by
  have hy : y = fun k => (y k - lo * ((k : α) + start)) + (0 + lo * ((k : α) + start)) := by funext k; ring
  rw [hy, wls_slope_affine n start w _ 0 lo hden.ne']
  suffices hs : 0 ≤ (wls n start w fun k => y k - lo * ((k : α) + start)).1 by linarith
  set z : Nat → α := fun k => y k - lo * ((k : α) + start) with hz
  have hm : ∀ i j, i ≤ j → j < n → z i ≤ z j := by
    intro i j hij hj
    refine rb_mono z 0 (n - 1) (fun k _ hk => ?_) i (Nat.zero_le _) j hij (by omega)
    have := h k (by omega)
    simp only [hz]
    push_cast
    linarith
  have hc := rb_chebyshev (List.range n) w (fun k => (k : α) + start) z (fun k _ => hw k) (by
    intro i hi j hj
    rw [List.mem_range] at hi hj
    rcases le_total i j with hij | hij
    · have h1 := hm i j hij hj
      have h2 : (i : α) ≤ j := by exact_mod_cast hij
      exact mul_nonneg_of_nonpos_of_nonpos (by linarith) (by linarith)
    · have h1 := hm j i hij hi
      have h2 : (j : α) ≤ i := by exact_mod_cast hij
      exact mul_nonneg (by linarith) (by linarith))
  have e1 : sumTo n (fun k => ((k : α) + start) * w k) = ((List.range n).map fun k => w k * ((k : α) + start)).sum :=
    sumTo_congr n fun k _ => by ring
  have e2 : sumTo n (fun k => z k * w k) = ((List.range n).map fun k => w k * z k).sum := sumTo_congr n fun k _ => by ring
  have e3 : sumTo n (fun k => z k * (((k : α) + start) * w k)) = ((List.range n).map fun k => w k * ((k : α) + start) * z k).sum :=
    sumTo_congr n fun k _ => by ring
  have e4 : sumTo n w = ((List.range n).map w).sum := rfl
  rw [← e1, ← e2, ← e3, ← e4] at hc
  simp only [wls]
  refine mul_nonneg (by linarith) (one_div_nonneg.2 ?_)
  exact hden.le

theorem rb_wls (n start : Nat) (w y : Nat → α) (lo hi : α) (hw : ∀ k, 0 ≤ w k) (hden : 0 < wden n start w)
    (h : ∀ k, k + 1 < n → lo ≤ y (k + 1) - y k ∧ y (k + 1) - y k ≤ hi) :
    lo ≤ (wls n start w y).1 ∧ (wls n start w y).1 ≤ hi := by
  refine ⟨rb_wls_lower n start w y lo hw hden fun k hk => (h k hk).1, ?_⟩
  have := rb_wls_lower n start w (fun k => -1 * y k) (-hi) hw hden fun k hk => by linarith [(h k hk).2]
  rw [wls_slope_scale] at this
  linarith

/-- **C187**, one segment: the slope of a segment of two or more groups whose neighbouring samples differ by between `lo` and `hi` lies
between `lo` and `hi` per group time. -/
theorem C187_segment (cfg : Cfg α) (hpow : PowOk cfg.powf) (px : Pix α) (hr : px.rnoise ≠ 0) (ht : 0 < cfg.groupTime) (med : Option α)
    (z0 zf : Bool) (data : Nat → Option α) (s : Seg) (hlen : 2 ≤ s.len) (lo hi : α)
    (hd : ∀ k, k + 1 < s.len → ∃ u v, data (s.start + k) = some u ∧ data (s.start + k + 1) = some v ∧ lo ≤ v - u ∧ v - u ≤ hi) :
    ∃ r, (fitSeg cfg px med z0 zf data s).slope = some r ∧ lo / cfg.groupTime ≤ r ∧ r ≤ hi / cfg.groupTime := by
  by_cases h2 : s.len = 2
  · obtain ⟨u, v, e0, e1, h3, h4⟩ := hd 0 (by omega)
    rw [Nat.add_zero] at e0 e1
    refine ⟨(v - u) / cfg.groupTime, ?_, div_le_div_of_nonneg_right h3 ht.le, div_le_div_of_nonneg_right h4 ht.le⟩
    simp only [fitSeg, h2, if_true]
    rw [if_neg (by omega)]
    simp only [e0, e1, o2_some, Option.map_some]
  · simp only [fitSeg]
    rw [if_neg (by omega), if_neg h2]
    simp only
    set power := snrPower (segSnr cfg px (data s.start) (data (s.start + s.len - 1))) with hpw
    clear_value power
    obtain ⟨w1, w2, w3⟩ := optWeight_ends cfg px s.len hlen power hr hpow.1 hpow.2
    obtain ⟨h3, h4⟩ := rb_wls s.len s.start _ (fun k => (data (s.start + k)).getD 0) lo hi w1
      (wden_pos s.len s.start hlen _ w1 w2 w3) fun k hk => by
        obtain ⟨u, v, e0, e1, h3, h4⟩ := hd k hk
        rw [← Nat.add_assoc, e0, e1]
        exact ⟨h3, h4⟩
    exact ⟨_, rfl, div_le_div_of_nonneg_right h3 ht.le, div_le_div_of_nonneg_right h4 ht.le⟩

/-- Groups that can be compared differ by between `lo` and `hi`; all other samples are arbitrary. -/
def RbRange (fl : Flags) (d : List (Option α)) (g : List Nat) (lo hi : α) : Prop :=
  ∀ k, FrPair fl g k → ∃ u v, d[k]? = some (some u) ∧ d[k + 1]? = some (some v) ∧ lo ≤ v - u ∧ v - u ≤ hi

/-- An integration with groups to compare, which differ by between `lo` and `hi`; its first group is not saturated and the zero frame is
not used. -/
def RbFit (fl : Flags) (su : Bool) (x : List (Option α) × List Nat × Option (Option α)) (lo hi : α) : Prop :=
  ¬ ZeroSub su x.2.1 x.2.2 ∧ ¬ Has (x.2.1.getD 0 0) fl.sat ∧ (∃ k, FrPair fl x.2.1 k) ∧ RbRange fl x.1 x.2.1 lo hi

theorem rb_used (fl : Flags) (hf : OlsFlagsOk fl) (hj : fl.jump ≠ 0) (cfg : Cfg α) (hpow : PowOk cfg.powf) (px : Pix α) (hg : 0 < px.gain)
    (hr : px.rnoise ≠ 0) (ht : 0 < cfg.groupTime) (med : Option α) (lo hi : α) (x : List (Option α) × List Nat × Option (Option α))
    (hlen : x.1.length = x.2.1.length) (hx : RbFit fl cfg.suppress1g x lo hi) :
    usedFits fl cfg px med x.2.1.length (loadInteg fl cfg.suppress1g x.1 x.2.1 x.2.2) ≠ [] ∧
    ∀ f ∈ usedFits fl cfg px med x.2.1.length (loadInteg fl cfg.suppress1g x.1 x.2.1 x.2.2),
      (∃ r, f.slope = some r ∧ lo / cfg.groupTime ≤ r ∧ r ≤ hi / cfg.groupTime)
      ∧ 0 < f.varR ∧ f.varR ≤ 2 * (px.rnoise / (cfg.groupTime * px.gain)) ^ 2 := by
  obtain ⟨d, g, z⟩ := x
  obtain ⟨hz, hs, ⟨k, hk⟩, hst⟩ := hx
  simp only at hz hs hk hst hlen ⊢
  obtain ⟨-, hgdq, hdata⟩ := (C72_zero_frame_use_partial fl cfg.suppress1g d g hlen z).2 hz
  have hstat : (loadInteg fl cfg.suppress1g d g z).st = stats fl g := (load_nosub fl _ d g z hz).2.1
  have hu := fr_unflagged fl hf g (k + 1) (Or.inl hk.1)
  have hfull : ¬ ((g.length : Int) = (loadInteg fl cfg.suppress1g d g z).st.cntDnuSat) := by
    rw [hstat, cntDnuSat_full]
    intro h
    have := h (g.getD (k + 1) 0) (by rw [List.getD_eq_getElem _ _ hu.1]; exact List.getElem_mem _)
    exact this.elim hu.2.2 hu.2.1
  have hfs : firstSat fl g = false := by rw [firstSat, hasB_false]; exact hs
  obtain ⟨hne, hseg⟩ := fr_segs fl hj g k hk
  unfold usedFits
  rw [if_neg hfull, hgdq, fitSegs, hfs]
  simp only [Bool.false_eq_true, if_false]
  refine ⟨by simpa using hne, fun f hfm => ?_⟩
  obtain ⟨s, hsm, rfl⟩ := List.mem_map.1 hfm
  obtain ⟨hn, h2⟩ := hseg s hsm
  refine ⟨C187_segment cfg hpow px hr ht med _ _ _ s h2 lo hi fun m hm => ?_, fr_var cfg px med _ _ _ s h2 hg hr ht.ne'⟩
  have hp := fr_natSeg fl g _ _ hn (s.start + m) (by omega) (by unfold Seg.len at hm; omega)
  obtain ⟨u, v, e1, e2, h3⟩ := hst _ hp
  have u1 := fr_unflagged fl hf g _ hp.2
  have u2 := fr_unflagged fl hf g _ (Or.inl hp.1)
  refine ⟨u, v, ?_, ?_, h3⟩
  · simp only [hdata _ u1.1, if_neg u1.2.1]
    simp [List.getD_eq_getElem?_getD, e1]
  · simp only [hdata _ u2.1, if_neg u2.2.1]
    simp [List.getD_eq_getElem?_getD, e2]

/-- **C187**, ramp fitting of the C extension: when the samples that can be compared differ by between `lo` and `hi` in every integration
that is used, the rate and the rate of every such integration lie between `lo` and `hi` per group time, whatever the samples of the flagged
groups. -/
theorem C187_ols (fl : Flags) (hf : OlsFlagsOk fl) (hj : fl.jump ≠ 0) (cfg : Cfg α) (hpow : PowOk cfg.powf) (ngroups : Nat) (p : PixIn α)
    (hd : ¬ Has (entryDq fl p) fl.dnu) (hst : ¬ Has (entryDq fl p) fl.sat) (hg : 0 < p.px.gain) (hr : p.px.rnoise ≠ 0)
    (ht : 0 < cfg.groupTime) (hsmall : 2 * (p.px.rnoise / (cfg.groupTime * p.px.gain)) ^ 2 < 1000000)
    (hlen : ∀ x ∈ p.ints, x.1.length = ngroups ∧ x.2.1.length = ngroups) (lo hi : α)
    (hints : ∀ x ∈ p.ints, RbFit fl cfg.suppress1g x lo hi ∨ DeadInteg fl cfg.suppress1g x.2.1 x.2.2)
    (hone : ∃ x ∈ p.ints, RbFit fl cfg.suppress1g x lo hi) :
    (∃ r, (fitPixel fl cfg ngroups p).2.slope = some r ∧ lo / cfg.groupTime ≤ r ∧ r ≤ hi / cfg.groupTime) ∧
    ∀ (j : Nat) x, p.ints[j]? = some x → RbFit fl cfg.suppress1g x lo hi →
      ∃ r, ((fitPixel fl cfg ngroups p).1[j]?).map (·.slope) = some (some r) ∧ lo / cfg.groupTime ≤ r ∧ r ≤ hi / cfg.groupTime := by
  set med := medianRate fl cfg ngroups (loadPixel fl cfg p) with hmed
  have hfit : ∀ x ∈ p.ints, RbFit fl cfg.suppress1g x lo hi →
      usedFits fl cfg p.px med ngroups (loadInteg fl cfg.suppress1g x.1 x.2.1 x.2.2) ≠ [] ∧
      ∀ f ∈ usedFits fl cfg p.px med ngroups (loadInteg fl cfg.suppress1g x.1 x.2.1 x.2.2),
        (f.slope = some (f.slope.getD 0) ∧ lo / cfg.groupTime ≤ f.slope.getD 0 ∧ f.slope.getD 0 ≤ hi / cfg.groupTime)
        ∧ 0 < f.varR ∧ f.varR ≤ 2 * (p.px.rnoise / (cfg.groupTime * p.px.gain)) ^ 2 := by
    intro x hx hfx
    have := rb_used fl hf hj cfg hpow p.px hg hr ht med lo hi x ((hlen x hx).1.trans (hlen x hx).2.symm) hfx
    rw [(hlen x hx).2] at this
    refine ⟨this.1, fun f hf => ?_⟩
    obtain ⟨⟨r, h1, h2, h3⟩, h4⟩ := this.2 f hf
    rw [h1]
    exact ⟨⟨rfl, h2, h3⟩, h4⟩
  have hbound : ∀ (F : List (SegFit α)), F ≠ [] → (∀ f ∈ F, 0 < f.varR ∧ f.varR ≤ 2 * (p.px.rnoise / (cfg.groupTime * p.px.gain)) ^ 2) →
      1 / (F.map fun f => 1 / f.varR).sum < large := by
    intro F hne hF
    obtain ⟨-, -, m3⟩ := wmean_spec F (fun _ => (0 : α)) (fun f => f.varR) hne fun f h => (hF f h).1
    obtain ⟨f0, h0⟩ := List.exists_mem_of_ne_nil _ hne
    refine lt_of_le_of_lt ((m3 f0 h0).trans (hF f0 h0).2) ?_
    simpa [large] using hsmall
  constructor
  · set F := (loadPixel fl cfg p).flatMap (usedFits fl cfg p.px med ngroups) with hF
    have hall : ∀ f ∈ F, (f.slope = some (f.slope.getD 0) ∧ lo / cfg.groupTime ≤ f.slope.getD 0 ∧ f.slope.getD 0 ≤ hi / cfg.groupTime)
        ∧ 0 < f.varR ∧ f.varR ≤ 2 * (p.px.rnoise / (cfg.groupTime * p.px.gain)) ^ 2 := by
      intro f hfm
      obtain ⟨i, hi, hfi⟩ := List.mem_flatMap.1 hfm
      obtain ⟨x, hx, rfl⟩ := List.mem_map.1 hi
      rcases hints x hx with h | h
      · exact (hfit x hx h).2 f hfi
      · have hnil := fr_dead fl cfg p.px med x h
        rw [(hlen x hx).2] at hnil
        rw [hnil] at hfi
        exact absurd hfi List.not_mem_nil
    have hne : F ≠ [] := by
      obtain ⟨x, hx, hfx⟩ := hone
      obtain ⟨f, hfm⟩ := List.exists_mem_of_ne_nil _ (hfit x hx hfx).1
      exact List.ne_nil_of_mem (List.mem_flatMap.2 ⟨_, List.mem_map.2 ⟨x, hx, rfl⟩, hfm⟩)
    obtain ⟨m, h1, -, -, h4, -⟩ := C30_exposure_mean fl hf cfg ngroups p hd hst F hF hne (fun f => f.slope.getD 0)
      (fun f h => (hall f h).1.1) (fun f h => (hall f h).2.1) (hbound F hne fun f h => (hall f h).2)
    exact ⟨m, h1, h4 _ _ fun f h => (hall f h).1.2⟩
  · intro j x hjx hfx
    have hx : x ∈ p.ints := List.mem_of_getElem? hjx
    set i := loadInteg fl cfg.suppress1g x.1 x.2.1 x.2.2 with hi
    obtain ⟨hne, hu⟩ := hfit x hx hfx
    obtain ⟨al1, al2⟩ := usedFits_alive fl cfg p.px med ngroups i hne
    have hsb := statBits_not fl hf i.st
    have hm : metaDq fl p = entryDq fl p := rfl
    have hdq1 : ¬ Has (metaDq fl p ||| statBits fl i.st) fl.dnu := by
      rw [has_or_left, hm]; exact fun h => h.elim hd hsb.1
    have hdq2 : ¬ Has (metaDq fl p ||| statBits fl i.st) fl.sat := by
      rw [has_or_left, hm]; exact fun h => h.elim hst hsb.2
    obtain ⟨m, h1, -, -, h4, -, -⟩ := C30_integration_mean fl cfg _ (metaDq fl p ||| statBits fl i.st) hne
      (fun f => f.slope.getD 0) (fun f h => (hu f h).1.1) (fun f h => (hu f h).2.1) hdq1 hdq2 (hbound _ hne fun f h => (hu f h).2)
    have hdq : (fitInteg fl cfg p.px med ngroups i (metaDq fl p ||| statBits fl i.st)).1.dq = metaDq fl p ||| statBits fl i.st := by
      rw [fitInteg_dq, if_neg al1, al2]; rfl
    have hsl : (fitInteg fl cfg p.px med ngroups i (metaDq fl p ||| statBits fl i.st)).1.slope = some m := by
      rw [← h1]
      have hemp : ((fitSegs fl i.gdq).segs.map (fitSeg cfg p.px med i.is0th i.isZframe fun k => (i.data[k]?).join)).isEmpty = false := by
        have := hne
        rw [usedFits, if_neg al1] at this
        simpa using this
      rw [← hi, usedFits, if_neg al1]
      simp only [fitInteg, if_neg al1, hemp, al2, Bool.false_eq_true, if_false]
    have hpost : (postInteg fl i (fitInteg fl cfg p.px med ngroups i (metaDq fl p ||| statBits fl i.st)).1).1.slope = some m := by
      simp only [postInteg, hdq, hasB_false.2 hdq1, hasB_false.2 hdq2, Bool.or_self, Bool.false_eq_true, if_false, hsl]
    have hget : (fitPixel fl cfg ngroups p).1[j]?
        = some (postInteg fl i (fitInteg fl cfg p.px med ngroups i (metaDq fl p ||| statBits fl i.st)).1).1 := by
      simp only [fitPixel, pixelInts, loadPixel, List.getElem?_map, hjx, Option.map_some]
      rfl
    exact ⟨m, by rw [hget, Option.map_some, hpost], h4 _ _ fun f h => (hu f h).1.2⟩

end Ols

/-! ## Casertano et al. -/

section Cas22
open Verif.Cas22
variable {α : Type*} [Field α] [LinearOrder α] [IsStrictOrderedRing α]

/-- **C187**, one ramp of resultants. -/
theorem C187_ramp (cfg : Cfg α) (hp : Cas22PowOk cfg.pow) (p : Pix α) (r : Ramp) (hr : r.start < r.stop)
    (ht : ∀ i j, i < j → j ≤ r.stop → p.tbar i < p.tbar j) (hn : ∀ i, i ≤ r.stop → 0 < p.nreads i) (lo hi : α)
    (h : ∀ i, r.start ≤ i → i + 1 ≤ r.stop → lo * (p.tbar (i + 1) - p.tbar i) ≤ p.res (i + 1) - p.res i
      ∧ p.res (i + 1) - p.res i ≤ hi * (p.tbar (i + 1) - p.tbar i)) :
    ∃ f, fitRamp cfg p r = some f ∧ lo ≤ f.slope ∧ f.slope ≤ hi := by
  have hne := (ht _ _ hr le_rfl).ne
  obtain ⟨c, h1, h2, h3, h4⟩ := fitRamp_some cfg hp p r hr hne fun i _ hi => hn i hi
  obtain ⟨s1, -⟩ := foldl_fitStep p c r.idx (⟨0, 0, 0⟩, 0)
  simp only [zero_add] at s1
  have hd := det_pos r.idx (weight cfg p r) p.tbar (fun i _ => weight_nonneg cfg hp p r i) r.start r.stop
    (mem_idx.2 ⟨le_rfl, by omega⟩) (mem_idx.2 ⟨by omega, le_rfl⟩)
    (weight_end_pos cfg hp p r _ hne (Or.inl rfl) (hn _ hr.le)) (weight_end_pos cfg hp p r _ hne (Or.inr rfl) (hn _ le_rfl)) hne
  have key : ∀ z : Nat → α, (∀ k, r.start ≤ k → k + 1 ≤ r.stop → z k ≤ z (k + 1)) → 0 ≤ (r.idx.map fun i => c i * z i).sum := by
    intro z hz
    have hm := rb_mono z r.start r.stop hz
    have hc := rb_chebyshev r.idx (weight cfg p r) p.tbar z (fun i _ => weight_nonneg cfg hp p r i) (by
      intro i hi j hj
      obtain ⟨i1, i2⟩ := mem_idx.1 hi
      obtain ⟨j1, j2⟩ := mem_idx.1 hj
      rcases Nat.lt_trichotomy i j with hij | rfl | hij
      · exact mul_nonneg_of_nonpos_of_nonpos (by linarith [ht i j hij j2]) (by linarith [hm i i1 j hij.le j2])
      · simp
      · exact mul_nonneg (by linarith [ht j i hij i2]) (by linarith [hm j j1 i hij.le i2]))
    have e : (r.idx.map fun i => c i * z i).sum
        = ((r.idx.map (weight cfg p r)).sum * (r.idx.map fun i => weight cfg p r i * p.tbar i * z i).sum
          - (r.idx.map fun i => weight cfg p r i * p.tbar i).sum * (r.idx.map fun i => weight cfg p r i * z i).sum)
          / ((r.idx.map fun i => weight cfg p r i * (p.tbar i * p.tbar i)).sum
            * (r.idx.map (weight cfg p r)).sum - (r.idx.map fun i => weight cfg p r i * p.tbar i).sum
            * (r.idx.map fun i => weight cfg p r i * p.tbar i).sum) := by
      rw [sum_map_congr' (g := fun i => _) fun i _ => by rw [h4]]
      generalize (r.idx.map fun i => weight cfg p r i * (p.tbar i * p.tbar i)).sum * (r.idx.map (weight cfg p r)).sum
        - (r.idx.map fun i => weight cfg p r i * p.tbar i).sum * (r.idx.map fun i => weight cfg p r i * p.tbar i).sum = D at hd ⊢
      generalize (r.idx.map (weight cfg p r)).sum = f0
      generalize (r.idx.map fun i => weight cfg p r i * p.tbar i).sum = f1
      have e2 : (r.idx.map fun i => (f0 * p.tbar i - f1) * weight cfg p r i / D * z i).sum
          = (r.idx.map fun i => f0 / D * (weight cfg p r i * p.tbar i * z i) + (-f1 / D) * (weight cfg p r i * z i)).sum :=
        sum_map_congr' fun i _ => by ring
      rw [e2, sum_map_add', sum_map_mul', sum_map_mul']
      ring
    rw [e]
    exact div_nonneg (by linarith) hd.le
  refine ⟨_, h1, ?_, ?_⟩ <;> rw [s1]
  · have := key (fun i => p.res i - lo * p.tbar i) fun k k1 k2 => by linarith [(h k k1 k2).1]
    have e : (r.idx.map fun i => c i * (p.res i - lo * p.tbar i)).sum
        = (r.idx.map fun i => c i * p.res i + (-lo) * (c i * p.tbar i)).sum := sum_map_congr' fun i _ => by ring
    rw [e, sum_map_add', sum_map_mul', h3] at this
    linarith
  · have := key (fun i => hi * p.tbar i - p.res i) fun k k1 k2 => by linarith [(h k k1 k2).2]
    have e : (r.idx.map fun i => c i * (hi * p.tbar i - p.res i)).sum
        = (r.idx.map fun i => (-1) * (c i * p.res i) + hi * (c i * p.tbar i)).sum := sum_map_congr' fun i _ => by ring
    rw [e, sum_map_add', sum_map_mul', sum_map_mul', h3] at this
    linarith

/-- **C187**, one pixel: slope zero with variance zero (nothing could be fitted), or a slope in the range of the count rates between
neighbouring resultants that came without flag, whatever the flagged resultants hold and wherever jumps are found. -/
theorem C187_cas22_pixel (cfg : Cfg α) (hp : Cas22PowOk cfg.pow) (p : Pix α) (dq : Nat → Nat) (n : Nat)
    (ht : ∀ i j, i < j → j < n → p.tbar i < p.tbar j) (hn : ∀ i, i < n → 0 < p.nreads i) (hrn : p.readNoise ≠ 0) (lo hi : α)
    (h : ∀ i, i + 1 < n → dq i = 0 → dq (i + 1) = 0 → lo * (p.tbar (i + 1) - p.tbar i) ≤ p.res (i + 1) - p.res i
      ∧ p.res (i + 1) - p.res i ≤ hi * (p.tbar (i + 1) - p.tbar i)) :
    ∃ dq' ramps avg, (∀ fuel, n + 1 ≤ fuel → fitPixel cfg p dq n fuel = some (dq', ramps, avg))
      ∧ (avg = ⟨0, 0, 0⟩ ∨ 0 < avg.readVar ∧ lo ≤ avg.slope ∧ avg.slope ≤ hi) := by
  obtain ⟨dq', ramps, avg, h1, h2, h3, -⟩ := C36_pixel cfg p dq n
  refine ⟨dq', ramps, avg, h1, ?_⟩
  have hav : avg = average (ramps.map (fitRamp cfg p)) := by
    have := h1 (n + 1) le_rfl
    unfold fitPixel at this
    cases hl : runLoop (detect cfg p) (n + 1) ⟨(initRamps dq n).reverse, dq, []⟩ with
    | none => rw [hl] at this; simp at this
    | some s =>
      rw [hl] at this
      simp only [Option.map_some, Option.some.injEq, Prod.mk.injEq] at this
      rw [← this.2.2, this.2.1]
  have hv := C73_pixel_variances_positive cfg hp p n ht hn hrn ramps fun r hr => (h2 r hr).2
  obtain ⟨a1, a2⟩ := C73_average (ramps.map (fitRamp cfg p)) _ rfl hv
  by_cases hF : (ramps.map (fitRamp cfg p)).filterMap id = []
  · exact Or.inl (hav.trans (a1 hF))
  · obtain ⟨-, b2, b3, -⟩ := a2 hF
    rw [hav]
    refine Or.inr ⟨?_, b3 lo hi fun f hf => ?_⟩
    · rw [b2]
      refine one_div_pos.2 (List.sum_pos _ (fun x hx => ?_) (by simpa using hF))
      obtain ⟨f, hf, rfl⟩ := List.mem_map.1 hx
      exact one_div_pos.2 (hv f hf)
    · rw [List.mem_filterMap] at hf
      obtain ⟨o, ho, hfo⟩ := hf
      obtain ⟨r, hr, rfl⟩ := List.mem_map.1 ho
      by_cases hs : r.stop ≤ r.start
      · rw [(C37_short_ramps cfg p r).2 hs] at hfo
        simp at hfo
      · have hz : ∀ i, r.start ≤ i → i ≤ r.stop → dq i = 0 := by
          intro i i1 i2
          by_contra hc
          exact (h3 i hc).2 r hr ⟨i1, i2⟩
        have hn' := (h2 r hr).2
        obtain ⟨g, hg, g1, g2⟩ := C187_ramp cfg hp p r (by omega)
          (fun i j hij hj => ht i j hij (by omega)) (fun i hi => hn i (by omega)) lo hi fun i i1 i2 =>
          h i (by omega) (hz i i1 (by omega)) (hz (i + 1) (by omega) i2)
        rw [hg] at hfo
        simp only [id_eq, Option.some.injEq] at hfo
        rw [← hfo]
        exact ⟨g1, g2⟩

/-- Mean read number of a resultant. -/
def rbMean (l : List α) : α := l.sum / (l.length : α)

/-- A read pattern: no empty resultant, read numbers increasing. -/
def RbPattern (pattern : List (List α)) : Prop := (∀ l ∈ pattern, l ≠ []) ∧ pattern.flatten.Pairwise (· < ·)

theorem rb_mean_lt (l : List α) (hl : l ≠ []) (x : α) : ((∀ t ∈ l, t < x) → l.sum / (l.length : α) < x)
    ∧ ((∀ t ∈ l, x < t) → x < l.sum / (l.length : α)) := by
  have h0 : (0 : α) < (l.length : α) := by
    have := List.length_pos_of_ne_nil hl
    exact_mod_cast this
  have key : ∀ m : List α, m ≠ [] → ((∀ t ∈ m, t < x) → m.sum < x * (m.length : α)) ∧ ((∀ t ∈ m, x < t) → x * (m.length : α) < m.sum) := by
    intro m hm
    induction m with
    | nil => exact absurd rfl hm
    | cons a m ih =>
      simp only [List.sum_cons, List.length_cons, List.mem_cons, forall_eq_or_imp]
      push_cast
      by_cases hm' : m = []
      · subst hm'
        simp
      · obtain ⟨i1, i2⟩ := ih hm'
        exact ⟨fun h => by linarith [i1 h.2, h.1], fun h => by linarith [i2 h.2, h.1]⟩
  refine ⟨fun h => ?_, fun h => ?_⟩
  · rw [div_lt_iff₀ h0]; exact (key l hl).1 h
  · rw [lt_div_iff₀ h0]; exact (key l hl).2 h

/-- The mean times of a read pattern increase. -/
theorem rb_times (readTime : α) (h0 : 0 < readTime) (pattern : List (List α)) (hp : RbPattern pattern) (i j : Nat) (hij : i < j)
    (hj : j < pattern.length) : meanTime readTime (pattern.getD i []) < meanTime readTime (pattern.getD j []) := by
  obtain ⟨h1, h2⟩ := hp
  rw [List.pairwise_flatten] at h2
  have hi : i < pattern.length := by omega
  rw [List.getD_eq_getElem _ _ hi, List.getD_eq_getElem _ _ hj]
  have h3 := List.pairwise_iff_getElem.1 h2.2 i j hi hj hij
  simp only [meanTime]
  refine mul_lt_mul_of_pos_left ?_ h0
  refine (rb_mean_lt _ (h1 _ (List.getElem_mem hi)) _).1 fun s hs => ?_
  exact (rb_mean_lt _ (h1 _ (List.getElem_mem hj)) _).2 fun t ht => h3 s hs t ht

/-- **C187**, `fit_ramps_casertano` on an array: the slope of every pixel lies in the range of the count rates between its neighbouring
resultants that came without flag, or is zero with all variances zero. -/
theorem C187_cas22 (cfg : Cfg α) (hp : Cas22PowOk cfg.pow) (readTime : α) (h0 : 0 < readTime) (pattern : List (List α))
    (hn : pattern ≠ []) (hpat : RbPattern pattern) (shape : List Nat) (hs : shape ≠ []) (res : Nat → α) (dq : Nat → Nat)
    (noise : Verif.Cas22Driver.Noise α) (rn : Nat → α) (hrn : Verif.Cas22Driver.spread shape noise = some rn)
    (hpos : ∀ k, k < shape.prod → rn k ≠ 0) (f0 : Verif.Cas22Driver.Fixed α) (s0 : Verif.Cas22Driver.Scratch α) :
    ∃ o, Verif.Cas22Driver.casertano cfg readTime pattern pattern.length shape res dq noise none f0 s0 = some o
      ∧ ∀ k, k < shape.prod → ∀ lo hi, (∀ i, i + 1 < pattern.length → dq (i * shape.prod + k) = 0 → dq ((i + 1) * shape.prod + k) = 0 →
          lo * (readTime * (rbMean (pattern.getD (i + 1) []) - rbMean (pattern.getD i [])))
              ≤ res ((i + 1) * shape.prod + k) - res (i * shape.prod + k)
            ∧ res ((i + 1) * shape.prod + k) - res (i * shape.prod + k)
              ≤ hi * (readTime * (rbMean (pattern.getD (i + 1) []) - rbMean (pattern.getD i [])))) →
        (o.par[2 * k + 1]? = some 0 ∧ o.var[3 * k]? = some 0 ∧ o.var[3 * k + 1]? = some 0 ∧ o.var[3 * k + 2]? = some 0)
        ∨ ∃ slope v, o.par[2 * k + 1]? = some slope ∧ o.var[3 * k]? = some v ∧ 0 < v ∧ lo ≤ slope ∧ slope ≤ hi := by
  obtain ⟨o, h1, -, -, -, h2⟩ := C104_array cfg readTime pattern hn shape hs res dq noise rn hrn f0 s0
  refine ⟨o, h1, fun k hk lo hi h => ?_⟩
  obtain ⟨dq', ramps, avg, g1, -, g3, g4, g5, g6, -⟩ := h2 k hk
  obtain ⟨dq2, ramps2, avg2, e1, e2⟩ := C187_cas22_pixel cfg hp
    (Verif.Cas22Driver.pixelOf readTime pattern (fun k i => res (i * shape.prod + k)) rn k) (fun i => dq (i * shape.prod + k))
    pattern.length (fun i j hij hj => rb_times readTime h0 pattern hpat i j hij hj)
    (fun i hi => by
      refine List.length_pos_of_ne_nil ?_
      rw [List.getD_eq_getElem _ _ hi]
      exact hpat.1 _ (List.getElem_mem hi))
    (hpos k hk) lo hi (fun i hi d1 d2 => by
      have := h i hi d1 d2
      simp only [Verif.Cas22Driver.pixelOf, meanTime, ← mul_sub]
      exact this)
  rw [e1 _ le_rfl] at g1
  simp only [Option.some.injEq, Prod.mk.injEq] at g1
  obtain ⟨-, -, rfl⟩ := g1
  rcases e2 with e2 | ⟨a, b, c⟩
  · subst e2
    exact Or.inl ⟨g3, g4, g5, by rw [g6]; simp⟩
  · exact Or.inr ⟨_, _, g3, g4, a, b, c⟩

end Cas22

/-! ## Likelihood -/

section Likely
open Verif.Likely Verif.LikelyDriver Finset Matrix
variable {α : Type} [Field α] [LinearOrder α] [IsStrictOrderedRing α]

/-- The weights of smallest variance for a covariance without positive entries off the diagonal are not negative: otherwise their absolute
values, divided by their sum, had a smaller variance. -/
theorem rb_nonneg {ι : Type} [Fintype ι] [DecidableEq ι] (S : Matrix ι ι α) (w : ι → α) (hsum : ∑ i, w i = 1)
    (hoff : ∀ i j, i ≠ j → S i j ≤ 0) (hpos : 0 < w ⬝ᵥ (S *ᵥ w)) (hmin : ∀ v : ι → α, ∑ i, v i = 1 → w ⬝ᵥ (S *ᵥ w) ≤ v ⬝ᵥ (S *ᵥ v))
    (i : ι) : 0 ≤ w i := by
  have hq : ∀ v : ι → α, v ⬝ᵥ (S *ᵥ v) = ∑ i, ∑ j, v i * v j * S i j := by
    intro v
    simp only [dotProduct, mulVec, mul_sum]
    exact sum_congr rfl fun i _ => sum_congr rfl fun j _ => by ring
  set A := ∑ i, |w i| with hA
  have hA1 : 1 ≤ A := by
    rw [← hsum]
    exact sum_le_sum fun i _ => le_abs_self _
  have hA0 : A ≠ 0 := by linarith
  have h1 := hmin (fun i => |w i| / A) (by rw [← sum_div, ← hA, div_self hA0])
  have h2 : (fun i => |w i| / A) ⬝ᵥ (S *ᵥ fun i => |w i| / A) ≤ (w ⬝ᵥ (S *ᵥ w)) / (A * A) := by
    rw [hq, hq, sum_div]
    refine sum_le_sum fun i _ => ?_
    rw [sum_div]
    refine sum_le_sum fun j _ => ?_
    have e : |w i| / A * (|w j| / A) * S i j = |w i| * |w j| * S i j / (A * A) := by field_simp
    rw [e]
    refine div_le_div_of_nonneg_right ?_ (mul_self_nonneg A)
    by_cases hij : i = j
    · subst hij
      rw [abs_mul_abs_self]
    · have h3 := hoff i j hij
      have h4 : w i * w j ≤ |w i| * |w j| := by rw [← abs_mul]; exact le_abs_self _
      nlinarith
  have h3 := h1.trans h2
  rw [le_div_iff₀ (by positivity)] at h3
  have h4 : A = 1 := by
    have : A * A ≤ 1 := by nlinarith
    nlinarith
  have h5 : ∑ i, (|w i| - w i) = 0 := by rw [sum_sub_distrib, ← hA, hsum, h4, sub_self]
  have h6 := (sum_eq_zero_iff_of_nonneg (fun i _ => sub_nonneg.2 (le_abs_self (w i)))).1 h5 i (mem_univ i)
  have := abs_nonneg (w i)
  linarith

/-- **C187**, one likelihood fit: if no two of the differences used are positively correlated, all weights are non-negative, and the count
rate lies in the range of the differences used. -/
theorem C187_likely_fit {n : Nat} {u : Nat → Bool} {times : Nat → List α} {q : Noise α} {s : α} (h : LkPattern n times)
    (hq : LkNoiseOk q) (hs : 0 < s) (hu : ∃ i < n, u i = true)
    (hoff : ∀ i < n, ∀ j < n, i ≠ j → u i = true → u j = true → lkDiffCov times q i j ≤ 0) (diffs : Nat → α) :
    ∃ r, fitWith n (covar times) q s diffs (num u) = some r ∧ (∀ i < n, 0 ≤ r.weights i) ∧ 0 ≤ r.varP ∧ 0 < r.varR
      ∧ ∀ lo hi, (∀ i < n, u i = true → lo ≤ diffs i ∧ diffs i ≤ hi) → lo ≤ r.countrate ∧ r.countrate ≤ hi := by
  obtain ⟨r, e1, -, -, -, -, e6, e7, e8, e9, e10, -, e12, e13, e14⟩ := C38_generalised_least_squares h hq hs hu diffs
  have hsum : ∑ i : { i : Fin n // u i.1 = true }, r.weights i.1.1 = 1 := by
    rw [← e8, sum_used n u r.weights]
    refine sum_congr rfl fun i _ => ?_
    rcases hi : u i with _ | _
    · rw [e7 i hi]; simp
    · simp [num, hi]
  have hw : ∀ i < n, 0 ≤ r.weights i := by
    intro i hi
    rcases hx : u i with _ | _
    · rw [e7 i hx]
    · exact rb_nonneg (lkCov n u times q) (fun i => r.weights i.1.1) hsum
        (fun a b hab => hoff a.1.1 a.1.2 b.1.1 b.1.2 (fun hc => hab (Subtype.ext (Fin.ext hc))) a.2 b.2)
        (by rw [← e10]; exact e6) (fun v hv => by rw [← e10]; exact e14 v hv) ⟨⟨i, hi⟩, hx⟩
  refine ⟨r, e1, hw, e12, e13, fun lo hi hd => ?_⟩
  rw [e9]
  constructor
  · rw [← one_mul lo, ← e8, sum_mul]
    refine sum_le_sum fun i hi => ?_
    have hi' := mem_range.1 hi
    rcases hx : u i with _ | _
    · rw [e7 i hx]; simp
    · exact mul_le_mul_of_nonneg_left (hd i hi' hx).1 (hw i hi')
  · rw [← one_mul hi, ← e8, sum_mul]
    refine sum_le_sum fun i hi => ?_
    have hi' := mem_range.1 hi
    rcases hx : u i with _ | _
    · rw [e7 i hx]; simp
    · exact mul_le_mul_of_nonneg_left (hd i hi' hx).2 (hw i hi')

/-- Groups of a single read: neighbouring differences share the read noise of a read and no photon noise. -/
theorem rb_single {n : Nat} {times : Nat → List α} (h : LkPattern n times) (h1 : ∀ j ≤ n, (times j).length = 1) (q : Noise α)
    (i : Nat) (hi : i < n) (j : Nat) (hj : j < n) (hij : i ≠ j) : lkDiffCov times q i j ≤ 0 := by
  have ht := lkTri q h
  have hb : ∀ k, k + 1 < n → betaPh (covar times) q k + betaRd (covar times) q k ≤ 0 := by
    intro k hk
    obtain ⟨t, et⟩ := List.length_eq_one_iff.1 (h1 (k + 1) (by omega))
    have d0 : 0 < meanT (times (k + 1)) - meanT (times k) := h.ordered.delta_pos (by omega)
    have d1 : 0 < meanT (times (k + 1 + 1)) - meanT (times (k + 1)) := h.ordered.delta_pos hk
    have e1 : meanT (times (k + 1)) - tauT (times (k + 1)) = 0 := by
      rw [et]
      simp [meanT, tauT]
    have e2 : betaPh (covar times) q k = 0 := by
      simp only [betaPh, covar]
      rw [e1]
      simp
    have e3 : betaRd (covar times) q k ≤ 0 := by
      simp only [betaRd, covar]
      refine mul_nonpos_of_nonneg_of_nonpos (mul_self_nonneg _) (div_nonpos_of_nonpos_of_nonneg (by simp) ?_)
      have : (0 : α) ≤ ((times (k + 1)).length : α) := Nat.cast_nonneg _
      exact mul_nonneg (mul_nonneg this d1.le) d0.le
    rw [e2, zero_add]
    exact e3
  by_cases c1 : j = i + 1
  · subst c1
    rw [ht.up i hj]
    exact hb i hj
  · by_cases c2 : i = j + 1
    · subst c2
      rw [ht.low j hi]
      exact hb j hi
    · rw [ht.far i j hi hj (by omega)]

/-- Neighbouring groups without any of the lowest eight flags differ by between `lo` and `hi` per unit of time; `t g` is the time of the
only read of group `g`. -/
def RbSingle (ng : Nat) (t : Nat → α) (lo hi : α) (e : IntIn α) : Prop :=
  ∀ g, g + 1 < ng → LdClean (e.gdq g) → LdClean (e.gdq (g + 1)) → ∀ x y, e.data g = some x → e.data (g + 1) = some y →
    lo * (t (g + 1) - t g) ≤ y - x ∧ y - x ≤ hi * (t (g + 1) - t g)

theorem rb_int {root : α → Nat → α} (hr : RootOk root) (fl : LikelyDriver.Flags) (ng nframes : Nat) (hng : 2 ≤ ng) (ts : List α)
    (hts : ts.length = ng) (hlt : ts.Pairwise (· < ·)) (c : Cfg α) (hg : 0 < c.gain) (hrn : c.rnoise ≠ 0) (hdk : 0 ≤ c.dark)
    (grow : Option ((Nat → Nat) → Nat → Nat)) (pixeldq : Nat) (lo hi : α) (e : IntIn α)
    (he : RbSingle ng (fun g => ts.getD g 0) lo hi e) (r : Result α)
    (hfit : (fitInt root fl ng nframes false (ts.map fun t => [t]) c grow pixeldq e).fit = some r) :
    lo ≤ r.countrate ∧ r.countrate ≤ hi ∧ 0 ≤ r.varP ∧ 0 < r.varR := by
  have hT : LdTimes ng (ts.map fun t => [t]) := by
    refine ⟨by simpa using hts, ?_, ?_⟩
    · intro l hl
      obtain ⟨t, -, rfl⟩ := List.mem_map.1 hl
      simp
    · have : (ts.map fun t => [t]).flatten = ts := by
        clear hts hlt he hfit
        induction ts with
        | nil => rfl
        | cons t ts ih => simp [ih]
      rw [this]
      exact hlt
  have hP := ld_times hT (by omega)
  set times : Nat → List α := fun j => (ts.map fun t => [t]).getD j [] with htimes
  have hget : ∀ j, j < ng → times j = [ts.getD j 0] := by
    intro j hj
    simp [htimes, List.getD_eq_getElem?_getD, show j < ts.length by omega]
  have hone : ∀ j ≤ ng - 1, (times j).length = 1 := fun j hj => by rw [hget j (by omega)]; rfl
  have hfit' : (pixelFitE root (ng - 1) (covar times) c fl.jump grow e.gdq (diffsOf (covar times) e.data)).2.2 = some r := hfit
  unfold pixelFitE at hfit'
  split at hfit'
  · rename_i hall
    set d : Nat → α := fun i => (diffsOf (covar times) e.data i).getD 0 with hd
    set st := masked root (ng - 1) (covar times) c e.gdq d with hst
    have hsub : ∀ i, st.use i = true → diffs2use e.gdq i = true := by
      intro i hi
      have : st = maskJumps _ _ _ _ _ _ := rfl
      rw [this, maskJumps_eq] at hi
      exact (passes_spec _ _ _ _ _ (search_maskedZero ..) _ _).1 i hi
    change finalFit root (ng - 1) (covar times) c st.rate d (expandMask fl.jump grow _ st.use) = some r at hfit'
    generalize hG : flagJumps fl.jump e.gdq (diffs2use e.gdq) st.use = G at hfit'
    set u := expandMask fl.jump grow G st.use with hu
    have husub : ∀ i, u i = true → diffs2use e.gdq i = true := by
      intro i hi
      refine hsub i ?_
      cases grow with
      | none => exact hi
      | some f =>
        simp only [hu, expandMask, Bool.and_eq_true] at hi
        exact hi.1
    cases hv : st.rate with
    | none => rw [hv] at hfit'; cases hfit'
    | some v =>
      rw [hv] at hfit'
      simp only [finalFit] at hfit'
      have hq : LkNoiseOk (⟨pos v + c.dark, c.gain, c.rnoise⟩ : Noise α) := ⟨add_nonneg (ld_pos _) hdk, hg, hrn⟩
      have hsc := (C38_rescaled_determinant hr hP hq (by omega)).1
      by_cases hex : ∃ i < ng - 1, u i = true
      · obtain ⟨r', f1, -, f3, f4, f5⟩ := C187_likely_fit hP hq hsc hex
          (fun i hi j hj hij _ _ => rb_single hP hone _ i hi j hj hij) d
        rw [f1] at hfit'
        obtain rfl := Option.some.inj hfit'
        obtain ⟨g1, g2⟩ := f5 lo hi fun i hi hui => by
          have hd0 : 0 < meanT (times (i + 1)) - meanT (times i) := hP.ordered.delta_pos hi
          obtain ⟨c1, c2⟩ := (ld_use _ _).1 (husub i hui)
          have hsome := List.all_eq_true.1 hall i (List.mem_range.2 hi)
          cases hx : e.data i with
          | none => simp [diffsOf, hx] at hsome
          | some x =>
            cases hy : e.data (i + 1) with
            | none => simp [diffsOf, hy] at hsome
            | some y =>
              obtain ⟨k1, k2⟩ := he i (by omega) c1 c2 x y hx hy
              have e1 : d i = (y - x) / (meanT (times (i + 1)) - meanT (times i)) := by
                simp [hd, diffsOf, hx, hy, covar]
              have e2 : meanT (times (i + 1)) - meanT (times i) = ts.getD (i + 1) 0 - ts.getD i 0 := by
                rw [hget _ (by omega), hget _ (by omega)]
                simp [meanT]
              rw [e1, le_div_iff₀ hd0, div_le_iff₀ hd0, e2]
              exact ⟨k1, k2⟩
        exact ⟨g1, g2, f3, f4⟩
      · rw [C38_no_used_difference _ _ _ _ fun i hi => by
          rw [← Bool.not_eq_true]
          exact fun hc => hex ⟨i, hi, hc⟩] at hfit'
        cases hfit'
  · cases hfit'

/-- **C187**, likelihood fitting of groups of a single read: every rate, of an integration and of the exposure, lies in the range of the
count rates between neighbouring groups that came without flags, whatever jumps are found, with and without snowball expansion and zero
frames. -/
theorem C187_likely {root : α → Nat → α} (hr : RootOk root) (fl : LikelyDriver.Flags) (ng nframes : Nat) (hng : 4 ≤ ng)
    (pattern : Option (List (List α))) (default : List (List α)) (ts : List α) (hp : pattern.getD default = ts.map fun t => [t])
    (hts : ts.length = ng) (hlt : ts.Pairwise (· < ·)) (hasZero : Bool) (c : Cfg α) (hg : 0 < c.gain) (hrn : c.rnoise ≠ 0)
    (hdk : 0 ≤ c.dark) (grow : Nat → Option ((Nat → Nat) → Nat → Nat)) (pixeldq : Nat) (ints : List (IntIn α)) (lo hi : α)
    (he : ∀ e ∈ ints, RbSingle ng (fun g => ts.getD g 0) lo hi e) :
    ∃ outs img, likelyPixel root fl ng nframes pattern default hasZero c grow pixeldq ints = some (outs, img)
      ∧ (∀ o ∈ outs, ∀ r, o.fit = some r → lo ≤ r.countrate ∧ r.countrate ≤ hi)
      ∧ ∀ v, img.comb.data = some v → lo ≤ v ∧ v ≤ hi := by
  have hrt : (readTimes pattern default hasZero).2 = (ts.map fun t => [t], false) := by
    unfold readTimes
    simp only [hp]
    cases hasZero
    · rfl
    · cases ts with
      | nil => rfl
      | cons t ts => rfl
  have h1 : (readTimes pattern default hasZero).2.1 = ts.map fun t => [t] := by rw [hrt]
  have h2 : (readTimes pattern default hasZero).2.2 = false := by rw [hrt]
  set outs := ints.zipIdx.map fun e => fitInt root fl ng nframes false (ts.map fun t => [t]) c (grow e.2) pixeldq e.1 with houts
  have hall : ∀ o ∈ outs, ∀ r, o.fit = some r → lo ≤ r.countrate ∧ r.countrate ≤ hi ∧ 0 ≤ r.varP ∧ 0 < r.varR := by
    intro o ho r hor
    obtain ⟨x, hx, rfl⟩ := List.mem_map.1 ho
    exact rb_int hr fl ng nframes (by omega) ts hts hlt c hg hrn hdk _ _ lo hi x.1 (he _ (List.fst_mem_of_mem_zipIdx hx)) r hor
  refine ⟨outs, imageInfo fl outs, ?_, fun o ho r hor => ?_, fun v hv => ?_⟩
  · unfold likelyPixel
    rw [if_neg (by omega)]
    simp only [h1, h2, houts]
  · obtain ⟨a, b, -⟩ := hall o ho r hor
    exact ⟨a, b⟩
  · have hcomb : (imageInfo fl outs).comb = combine (outs.map toInt1) := by
      clear_value outs
      unfold imageInfo
      split <;> rfl
    rw [hcomb] at hv
    have hl : LkInts (outs.map toInt1) := by
      intro i hi
      obtain ⟨o, ho, rfl⟩ := List.mem_map.1 hi
      cases hof : o.fit with
      | none => exact Or.inl ⟨by simp [toInt1, hof], by simp [toInt1, hof], by simp [toInt1, hof]⟩
      | some r =>
        obtain ⟨-, -, k3, k4⟩ := hall o ho r hof
        exact Or.inr ⟨r.countrate, r.varP, r.varR, by simp [toInt1, hof], by simp [toInt1, hof], by simp [toInt1, hof], k3, k4⟩
    obtain ⟨-, w2⟩ := C41_weighted_mean _ hl
    obtain ⟨-, -, -, -, -, -, -, hb, -, -⟩ := w2 v hv
    refine hb lo hi fun i hi d hd => ?_
    obtain ⟨o, ho, rfl⟩ := List.mem_map.1 hi
    cases hof : o.fit with
    | none => simp [toInt1, hof] at hd
    | some r =>
      obtain ⟨k1, k2, -⟩ := hall o ho r hof
      simp [toInt1, hof] at hd
      rw [← hd]
      exact ⟨k1, k2⟩

/-- Five groups with unevenly spaced reads. -/
def rbUneven : List (List ℚ) := [[0], [1, 61, 62], [63, 73, 74], [75, 76, 86], [87, 88, 148]]

/-- The range is a property of the read pattern: with unevenly spaced reads and a flagged first group a weight can be negative.  Here the
usable groups never fall (0, 0, 30, 30), no jump is found, and the rate is negative. -/
theorem C187_uneven_reads :
    ∃ e : IntIn ℚ, (∀ g, 1 ≤ g → LdClean (e.gdq g))
      ∧ (∀ g h x y, g ≤ h → e.data g = some x → e.data h = some y → x ≤ y)
      ∧ LdTimes 5 rbUneven
      ∧ (fitInt (fun _ _ => 1) ⟨1, 2, 4⟩ 5 1 false rbUneven ⟨1, 1 / 10, 0, 1000000, 1000000⟩ none 0 e).gdq 3 = 0
      ∧ (fitInt (fun _ _ => 1) ⟨1, 2, 4⟩ 5 1 false rbUneven ⟨1, 1 / 10, 0, 1000000, 1000000⟩ none 0 e).fit.map (·.countrate)
        = some (-60371154 / 415006687) := by
  refine ⟨⟨fun g => some (if g < 3 then 0 else 30), fun g => if g = 0 then 1 else 0, none⟩, ?_, ?_, ?_, by decide +kernel,
    by decide +kernel⟩
  · intro g hg
    have : (if g = 0 then 1 else 0 : Nat) = 0 := if_neg (by omega)
    simp [LdClean, this]
  · intro g h x y hgh hx hy
    simp only [Option.some.injEq] at hx hy
    rw [← hx, ← hy]
    split <;> split <;> first | omega | norm_num
  · unfold LdTimes; decide +kernel

/-- Non-vacuity of `C187_likely`: single reads at the times 1, 2, 4, 5, 6, a flagged third group, count rates between 2 and 5. -/
example : RbSingle 5 (fun g => ([1, 2, 4, 5, 6] : List ℚ).getD g 0) 2 5
    ⟨fun g => ([some 0, some 3, some 900, some 905, some 907] : List (Option ℚ)).getD g none,
      fun g => ([0, 0, 4, 0, 0] : List Nat).getD g 0, none⟩ := by
  intro g hg h1 h2 x y hx hy
  rcases (by omega : g = 0 ∨ g = 1 ∨ g = 2 ∨ g = 3) with rfl | rfl | rfl | rfl
  · simp at hx hy; subst hx; subst hy; norm_num
  · simp [LdClean] at h2
  · simp [LdClean] at h1
  · simp at hx hy; subst hx; subst hy; norm_num

example : (likelyPixel (fun _ _ => 1) ⟨1, 2, 4⟩ 5 1 (some [[1], [2], [4], [5], [6]]) [] false ⟨1, 1, 0, 16, 20⟩ (fun _ => none) 0
    [(⟨fun g => ([some 0, some 3, some 900, some 905, some 907] : List (Option ℚ)).getD g none,
      fun g => ([0, 0, 4, 0, 0] : List Nat).getD g 0, none⟩ : IntIn ℚ)]).map (fun o => o.2.comb.data) = some (some (5 / 2)) := by
  decide +kernel

end Likely

section Examples
open Verif.Dq Verif.Ols

/-- Non-vacuity of `C187_ols`: the samples that can be compared rise by between 2 and 5. -/
example : RbFit exFlags exCfg.suppress1g (([some 1, some 4, some 1007, some 1012, some 1014, some (-5)], [0, 0, 4, 0, 0, 1], none) :
    List (Option ℚ) × List Nat × Option (Option ℚ)) 2 5 := by
  refine ⟨?_, by decide, ⟨2, (fr_pair_iff _ _ _).2 (by decide)⟩, ?_⟩
  · rintro ⟨-, h, -⟩
    exact absurd h (by decide)
  · intro k hk
    rw [fr_pair_iff] at hk
    have h6 : k < 5 := by have := hk.1; simp at this; omega
    rcases (by omega : k = 0 ∨ k = 1 ∨ k = 2 ∨ k = 3 ∨ k = 4) with rfl | rfl | rfl | rfl | rfl
    · exact ⟨1, 4, rfl, rfl, by norm_num⟩
    · exact absurd hk (by decide)
    · exact ⟨1007, 1012, rfl, rfl, by norm_num⟩
    · exact ⟨1012, 1014, rfl, rfl, by norm_num⟩
    · exact absurd hk (by decide)

example : RbPattern ([[1], [2, 3], [4, 5]] : List (List ℚ)) := by unfold RbPattern; decide +kernel

end Examples

end Verif.Thm
