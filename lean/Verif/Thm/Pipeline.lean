import Verif.Thm.CosmicRays
import Verif.Thm.Saturation
import Verif.Thm.Linearity
import Verif.Thm.Dark

/-!
# C130: from raw counts to the rate

Saturation, linearity, dark current, jump detection and ramp fit, one after the other.
-/

set_option linter.unusedSectionVars false

namespace Verif.Thm

open Verif Verif.Dq Verif.Jump Verif.JumpDriver Verif.Ols

variable {α : Type} [Field α] [LinearOrder α] [IsStrictOrderedRing α]

/-! ## Specification -/

/-- The samples of one pixel as integrations of groups. -/
def plRows {β : Type} (ni ng : Nat) (f : Nat → Nat → β) : List (List β) := (List.range ni).map fun i => (List.range ng).map (f i)

/-- The dark current of a group, for a reference of three dimensions: read by read, averaged like the science data, or with the same
groups as the science data. -/
def PlDark (nframes groupgap : Nat) (drk : Dark.Ref α) (δ : Nat → α) : Prop :=
  ∃ r dq, drk.arr = .d3 r dq ∧ drk.ngroups = r.length ∧ 2 ≤ r.length ∧ 1 ≤ nframes ∧
    ((drk.nframes = 1 ∧ drk.groupgap = 0 ∧ ∀ g, δ g = darkGroupMean r nframes groupgap g) ∨
      (nframes = drk.nframes ∧ groupgap = drk.groupgap ∧ ∀ g, δ g = darkAt r g))

/-- The steps before jump detection for pixel `(r, c)`: raw counts `raw` and flags `gdq` to the exposure `e`, whose group flags are those of the
saturation step and whose data at the pixel are the result of linearity and dark correction; `pd` is the pixel DQ then. -/
structure PlSteps (sp : Saturation.Params α) (raw : Nat → Nat → Saturation.Img (Option α)) (gdq : Nat → Nat → Saturation.Img Nat)
    (pdq : Saturation.Img Nat) (coef : List α) (linDq nlc nframes groupgap : Nat) (intstart : Option Int) (drk : Dark.Ref α)
    (e : Exposure α) (r c pd : Nat) : Prop where
  run : ∃ out pout zout L D, Saturation.flagSaturatedPixels sp e.d.ni raw gdq pdq none = some (out, pout, zout) ∧
    Linearity.linearityPixel (plRows e.d.ni e.d.ng fun i g => raw i g r c) (plRows e.d.ni e.d.ng fun i g => out i g r c) (pout r c)
      (coef.map some) linDq sp.flags.sat nlc none = some L ∧
    Dark.doCorrection ⟨L.data, plRows e.d.ni e.d.ng fun i g => out i g r c, L.pdq, nframes, groupgap, intstart⟩ drk = some D ∧
    pd = D.out.pixeldq ∧ e.gdq = out ∧ ∀ i < e.d.ni, ∀ g < e.d.ng, e.data i g r c = ((D.out.data.getD i []).getD g none)
  groups : sp.ngroups = e.d.ng
  rows : sp.nrows = e.d.nr
  cols : sp.ncols = e.d.nc

/-- The detector at pixel `(r, c)`: raw counts are numbers, and below saturation the polynomial turns them into source plus dark
current.  The source `s` grows by `b` per group except where cosmic rays hit. -/
structure PlPixel (sp : Saturation.Params α) (raw : Nat → Nat → Saturation.Img (Option α)) (coef : List α) (δ : Nat → α) (d : Dims) (r c : Nat)
    (s : Nat → Nat → α) (b : α) (hit : Nat → Nat → Bool) : Prop where
  num : ∀ i < d.ni, ∀ g < d.ng, ∃ m, raw i g r c = some m ∧ (¬ Reaches sp r c (some m) → polyVal coef m = s i g + δ g)
  steady : ∀ i < d.ni, ∀ g, g + 1 < d.ng → hit i (g + 1) = false → s i (g + 1) = s i g + b

/-! ## Lemmas -/

theorem pl_row {β : Type} (ni ng : Nat) (f : Nat → Nat → β) (i : Nat) (hi : i < ni) :
    (plRows ni ng f)[i]? = some ((List.range ng).map (f i)) := by
  simp [plRows, hi]

theorem pl_at {β : Type} (ng : Nat) (f : Nat → β) (g : Nat) (hg : g < ng) : ((List.range ng).map f)[g]? = some (f g) := by
  simp [hg]

/-- The dark step for a reference of three dimensions. -/
theorem pl_dark (sci : Dark.Sci α) (drk : Dark.Ref α) (n : Nat) (δ : Nat → α) (hrect : Rect sci n) (h : PlDark sci.nframes sci.groupgap drk δ)
    (D : Dark.Result α) (hD : Dark.doCorrection sci drk = some D) :
    D.out.data = sci.data.zipIdx.map fun p => subtractGroups p.1 δ := by
  obtain ⟨rr, dq, h1, h2, h3, h4, h5⟩ := h
  rcases h5 with ⟨a1, a2, a3⟩ | ⟨a1, a2, a3⟩
  · obtain ⟨res, q1, -, q3⟩ := C14_frame_average_aligned_partial sci drk n rr dq hrect h4 h1 h2 h3 a1 a2
    rw [hD, Option.some.injEq] at q1
    rw [q1, q3, funext a3]
  · obtain ⟨res, q1, -, q3⟩ := C17_matching_subtracts sci drk n rr dq hrect h4 h1 h2 h3 a1 a2
    rw [hD, Option.some.injEq] at q1
    rw [q1, q3, funext a3]

/-- Linearity correction keeps the shape. -/
theorem pl_lin_shape (data : List (List (Option α))) (gdq : List (List Nat)) (pdq : Nat) (c : List (Option α)) (linDq sat nlc : Nat)
    (z : Option (List (Option α))) (L : Linearity.Out α) (h : Linearity.linearityPixel data gdq pdq c linDq sat nlc z = some L) :
    L.data.map List.length = data.map List.length := by
  simp only [Linearity.linearityPixel] at h
  split at h
  · exact absurd h (by simp)
  · rw [Option.some.injEq] at h
    subst h
    refine List.ext_getElem (by simp) ?_
    intro i h1 h2
    simp [Linearity.simpleInt]

/-- An unsaturated sample after linearity and dark correction is the source. -/
theorem pl_data (sp : Saturation.Params α) (hf : FlagsOk sp.flags) (raw : Nat → Nat → Saturation.Img (Option α))
    (gdq : Nat → Nat → Saturation.Img Nat) (pdq : Saturation.Img Nat) (coef : List α) (linDq nlc nframes groupgap : Nat)
    (intstart : Option Int) (drk : Dark.Ref α) (e : Exposure α) (r c pd : Nat) (hr : r < e.d.nr) (hc : c < e.d.nc)
    (hst : PlSteps sp raw gdq pdq coef linDq nlc nframes groupgap intstart drk e r c pd)
    (hlen : 2 ≤ coef.length) (hgood : ¬ NoSolution (coef.map some) linDq nlc) (δ : Nat → α) (hdark : PlDark nframes groupgap drk δ)
    (s : Nat → Nat → α) (b : α) (hit : Nat → Nat → Bool) (hp : PlPixel sp raw coef δ e.d r c s b hit)
    (i g : Nat) (hi : i < e.d.ni) (hg : g < e.d.ng) (hns : ¬ Has (e.gdq i g r c) sp.flags.sat) : e.data i g r c = some (s i g) := by
  obtain ⟨out, pout, zout, L, D, k1, k2, k3, k4, k5, k6⟩ := hst.run
  rw [k5] at hns
  obtain ⟨m, hm, hpoly⟩ := hp.num i hi g hg
  have hlow : ¬ Reaches sp r c (some m) := by
    intro hh
    refine hns ((C07_saturated_iff_grown hf k1 hi (by rw [hst.groups]; exact hg) (by rw [hst.rows]; exact hr)
      (by rw [hst.cols]; exact hc)).2 ⟨r, c, ?_, Or.inr ⟨g, le_refl g, ?_⟩⟩)
    · exact ⟨by rw [hst.rows]; exact hr, by rw [hst.cols]; exact hc, by omega, by omega, by omega, by omega⟩
    · rw [hm]; exact hh
  -- linearity
  obtain ⟨o, q1, q2⟩ := C19_polynomial (plRows e.d.ni e.d.ng fun i g => raw i g r c) (plRows e.d.ni e.d.ng fun i g => out i g r c) (pout r c)
    coef linDq sp.flags.sat nlc none hlen hgood
  rw [k2, Option.some.injEq] at q1
  subst q1
  have hz : ((((plRows e.d.ni e.d.ng fun i g => out i g r c)[i]?).getD [])[g]?).getD 0 &&& sp.flags.sat = 0 := by
    rw [pl_row _ _ _ _ hi, Option.getD_some, pl_at _ _ _ hg, Option.getD_some]
    simpa [Has] using hns
  obtain ⟨orow, o1, o2⟩ := q2 i g _ _ (pl_row _ _ _ _ hi) (pl_at _ _ _ hg) hz
  -- dark
  have hsh := pl_lin_shape _ _ _ _ _ _ _ _ _ k2
  have hlens : ∀ row ∈ L.data, row.length = e.d.ng := by
    intro row hrow
    have : row.length ∈ L.data.map List.length := List.mem_map_of_mem hrow
    rw [hsh] at this
    simp only [plRows, List.map_map, List.mem_map, List.mem_range, Function.comp, List.length_map, List.length_range] at this
    obtain ⟨_, _, h⟩ := this
    exact h.symm
  have hne : L.data ≠ [] := by
    intro h0
    rw [h0] at o1
    simp at o1
  have hD := pl_dark ⟨L.data, plRows e.d.ni e.d.ng fun i g => out i g r c, L.pdq, nframes, groupgap, intstart⟩ drk e.d.ng δ
    ⟨hne, by omega, hlens⟩ hdark D k3
  have hrow : (L.data.zipIdx.map fun p => subtractGroups p.1 δ)[i]? = some (subtractGroups orow δ) := by
    rw [List.getElem?_map, List.getElem?_zipIdx, o1]
    rfl
  have hval : (subtractGroups orow δ)[g]? = some (some (polyVal coef m - δ g)) := by
    rw [subtractGroups, List.getElem?_map, List.getElem?_zipIdx, o2, hm]
    simp
  rw [k6 i hi g hg, hD, List.getD_eq_getElem?_getD, List.getD_eq_getElem?_getD, hrow, Option.getD_some, hval, Option.getD_some,
    Option.some.injEq]
  rw [hpoly hlow]
  ring

/-! ## Theorems -/

/-- **C130** (data): what jump detection receives is a ramp of the source. -/
theorem C130_ramp (sp : Saturation.Params α) (hf : FlagsOk sp.flags) (raw : Nat → Nat → Saturation.Img (Option α))
    (gdq : Nat → Nat → Saturation.Img Nat) (pdq : Saturation.Img Nat) (coef : List α) (linDq nlc nframes groupgap : Nat)
    (intstart : Option Int) (drk : Dark.Ref α) (e : Exposure α) (r c pd : Nat) (hr : r < e.d.nr) (hc : c < e.d.nc)
    (hst : PlSteps sp raw gdq pdq coef linDq nlc nframes groupgap intstart drk e r c pd)
    (hlen : 2 ≤ coef.length) (hgood : ¬ NoSolution (coef.map some) linDq nlc) (δ : Nat → α) (hdark : PlDark nframes groupgap drk δ)
    (s : Nat → Nat → α) (b : α) (hit : Nat → Nat → Bool) (hp : PlPixel sp raw coef δ e.d r c s b hit)
    (p : Jump.Params α) (hfl : p.sat = sp.flags.sat) (γ dt : α) (hgain : e.gain r c = some γ) (hγ : 0 < γ) (htime : ∀ j, p.dt j = dt) (hdt : 0 < dt)
    (many : crCount e.d (crPair p e r c) < 2 * crCount e.d fun i j => crPair p e r c i j && !hit i (j + 1)) :
    CrRamp p e r c γ b dt hit ∧
    ∀ i < e.d.ni, ∀ g < e.d.ng, ¬ Has (e.gdq i g r c) (p.dnu ||| p.sat) → e.data i g r c = some (s i g) := by
  have hdata : ∀ i < e.d.ni, ∀ g < e.d.ng, ¬ Has (e.gdq i g r c) (p.dnu ||| p.sat) → e.data i g r c = some (s i g) := by
    intro i hi g hg hn
    refine pl_data sp hf raw gdq pdq coef linDq nlc nframes groupgap intstart drk e r c pd hr hc hst hlen hgood δ hdark s b hit hp i g hi hg ?_
    rw [← hfl]
    exact fun hh => hn (has_or_right.2 (Or.inr hh))
  refine ⟨⟨hgain, hγ, htime, hdt, fun i hi g hg hn => ⟨_, hdata i hi g hg hn⟩, ?_, many⟩, hdata⟩
  intro i hi j hj hpair hh u v hu hv
  simp only [crPair, Bool.and_eq_true, decide_eq_true_eq] at hpair
  rw [hdata i hi j (by omega) hpair.1, Option.some.injEq] at hu
  rw [hdata i hi (j + 1) hj hpair.2, Option.some.injEq] at hv
  rw [← hu, ← hv]
  exact hp.steady i hi j hj hh

/-- **C130** (rate): raw counts of a detector whose response the polynomial describes below saturation, with the dark current of the
reference and cosmic rays above the thresholds: after saturation, linearity, dark current, jump detection (single pass or iterative) and ramp
fit, the rate is the one of the source, exactly. -/
theorem C130_rate (sp : Saturation.Params α) (hf : FlagsOk sp.flags) (raw : Nat → Nat → Saturation.Img (Option α))
    (gdq : Nat → Nat → Saturation.Img Nat) (pdq : Saturation.Img Nat) (coef : List α) (linDq nlc nframes groupgap : Nat)
    (intstart : Option Int) (drk : Dark.Ref α) (e : Exposure α) (r c pd : Nat) (hr : r < e.d.nr) (hc : c < e.d.nc)
    (hst : PlSteps sp raw gdq pdq coef linDq nlc nframes groupgap intstart drk e r c pd)
    (hlen : 2 ≤ coef.length) (hgood : ¬ NoSolution (coef.map some) linDq nlc) (δ : Nat → α) (hdark : PlDark nframes groupgap drk δ)
    (s : Nat → Nat → α) (b : α) (hit : Nat → Nat → Bool) (hp : PlPixel sp raw coef δ e.d r c s b hit)
    (p : Jump.Params α) (hfs : p.sat = sp.flags.sat) (γ dt : α) (hgain : e.gain r c = some γ) (hγ : 0 < γ) (htime : ∀ j, p.dt j = dt) (hdt : 0 < dt)
    (many : crCount e.d (crPair p e r c) < 2 * crCount e.d fun i j => crPair p e r c i j && !hit i (j + 1))
    (sqrt : α → α) (clip : List (Option α) → List Bool) (sw : Switch) (mc : List Char) (ncpu : Nat) (ja jb jc : Nat) (hfb : FlagBits p ja jb jc)
    (h1 : CrCores p sw e mc ncpu) (hfew : ¬ JdTooFew p { sw with minGroups := 3 } e.d e.gdq)
    (hclip : ¬ JdClip p { sw with minGroups := 3 } e.d e.gdq)
    (hthr : 0 ≤ p.normalThresh ∧ 0 ≤ p.threeThresh ∧ 0 ≤ p.twoThresh)
    (hmode : (∀ i < e.d.ni, sw.minSingle < jdUsable p e.d e.gdq i) ∨ ((∃ i < e.d.ni, jdUsable p e.d e.gdq i ≤ sw.minSingle) ∧ 0 ≤ b))
    (hbig : ∀ i < e.d.ni, ∀ j, j + 1 < e.d.ng → hit i (j + 1) = true → 0 < crNoise p sqrt e r c γ b dt j ∧
      p.normalThresh * crNoise p sqrt e r c γ b dt j < (s i (j + 1) - s i j - b) * γ / dt ∧
      p.threeThresh * crNoise p sqrt e r c γ b dt j < (s i (j + 1) - s i j - b) * γ / dt ∧
      p.twoThresh * crNoise p sqrt e r c γ b dt j < (s i (j + 1) - s i j - b) * γ / dt)
    (fl : Flags) (hol : OlsFlagsOk fl) (hj : fl.jump ≠ 0) (hpj : ¬ Has fl.pers fl.jump) (cfg : Cfg α) (hpow : PowOk cfg.powf)
    (hfl : fl.jump = p.jump ∧ fl.dnu = p.dnu ∧ fl.sat = p.sat) (px : Pix α) (z : Nat → Option (Option α))
    (hd : ¬ Has pd fl.dnu) (hs : ¬ Has pd fl.sat) (hg : 0 < px.gain) (hrn : px.rnoise ≠ 0) (ht : cfg.groupTime ≠ 0)
    (hsmall : 2 * (px.rnoise / (cfg.groupTime * px.gain)) ^ 2 < 1000000) :
    let w := (twoPoint p sqrt clip sw e mc ncpu).1
    (∀ i < e.d.ni, CrUse fl cfg.suppress1g e r c z w i ∨
      DeadInteg fl cfg.suppress1g ((List.range e.d.ng).map fun g => w i g r c) (z i)) →
    (∃ i < e.d.ni, CrUse fl cfg.suppress1g e r c z w i) →
    (fitPixel fl cfg e.d.ng (crPix e r c px pd z w)).2.slope = some (b / cfg.groupTime) ∧
    ∀ i < e.d.ni, CrUse fl cfg.suppress1g e r c z w i →
      ((fitPixel fl cfg e.d.ng (crPix e r c px pd z w)).1[i]?).map (·.slope) = some (some (b / cfg.groupTime)) := by
  intro w hints hone
  obtain ⟨hramp, hdata⟩ := C130_ramp sp hf raw gdq pdq coef linDq nlc nframes groupgap intstart drk e r c pd hr hc hst hlen hgood δ hdark s b hit hp
    p hfs γ dt hgain hγ htime hdt many
  have hval : ∀ i < e.d.ni, ∀ j, j + 1 < e.d.ng → crPair p e r c i j = true → ∀ u v, e.data i j r c = some u → e.data i (j + 1) r c = some v →
      u = s i j ∧ v = s i (j + 1) := by
    intro i hi j hjn hpair u v hu hv
    simp only [crPair, Bool.and_eq_true, decide_eq_true_eq] at hpair
    rw [hdata i hi j (by omega) hpair.1, Option.some.injEq] at hu
    rw [hdata i hi (j + 1) hjn hpair.2, Option.some.injEq] at hv
    exact ⟨hu.symm, hv.symm⟩
  have hfound : CrFound p e r c hit w := by
    rcases hmode with hm | ⟨hm, hb⟩
    · refine (C129_single_pass p sqrt clip sw e mc ncpu ja jb jc hfb h1 hfew hclip hm r c hr hc γ b dt hit hramp hthr.1 ?_).1
      intro i hi j hjn hpair hh u v hu hv
      obtain ⟨rfl, rfl⟩ := hval i hi j hjn hpair u v hu hv
      obtain ⟨g1, g2, -, -⟩ := hbig i hi j hjn hh
      refine ⟨g1, lt_of_lt_of_le g2 ?_⟩
      exact div_le_div_of_nonneg_right (mul_le_mul_of_nonneg_right (le_abs_self _) hγ.le) hdt.le
    · refine (C129_iterative p sqrt clip sw e mc ncpu ja jb jc hfb h1 hfew hclip hm r c hr hc γ b dt hit hramp hb hthr ?_).1
      intro i hi j hjn hpair hh u v hu hv
      obtain ⟨rfl, rfl⟩ := hval i hi j hjn hpair u v hu hv
      obtain ⟨g1, g2, g3, g4⟩ := hbig i hi j hjn hh
      refine ⟨?_, g1, g2, g3, g4⟩
      have h0 : 0 < (s i (j + 1) - s i j - b) * γ / dt := lt_of_le_of_lt (mul_nonneg hthr.1 g1.le) g2
      have h2 : 0 < (s i (j + 1) - s i j - b) * γ := by
        by_contra hn
        exact absurd h0 (not_lt.2 (div_nonpos_of_nonpos_of_nonneg (not_lt.1 hn) hdt.le))
      have h3 := pos_of_mul_pos_left h2 hγ.le
      linarith
  exact C129_rate fl hol hj hpj cfg hpow p hfl e r c γ b dt hit hramp w hfound px pd z hd hs hg hrn ht hsmall hints hone

/-! ## Example -/

/-- Example: saturation at 200 counts. -/
def plSat : Saturation.Params ℚ := ⟨1, 1, 9, ⟨1, 2, 64, 128⟩, fun _ _ => some 200, fun _ _ => 0, 65535, 0, none, fun _ _ => 0⟩

/-- Example: raw counts of one pixel. -/
def plRaw : Nat → Nat → Saturation.Img (Option ℚ) := fun _ g _ _ =>
  [some 10, some 20, some 30, some 80, some 90, some 100, some 140, some 150, some 300].getD g none

/-- Example: correction `m + m²/100`. -/
def plCoef : List ℚ := [0, 1, 1 / 100]

/-- Example: a dark reference, which makes up the difference between corrected counts and source. -/
def plDrk : Dark.Ref ℚ := ⟨.d3 [some 11, some 23, some 37, some 41, some 67, some 95, some (-270), some (-232), some 0] 0, 9, 1, 0⟩

/-- Example: the source, 1 per group, with hits before groups 3 and 6. -/
def plSrc : Nat → Nat → ℚ := fun _ g => [0, 1, 2, 103, 104, 105, 606, 607, 608].getD g 0

/-- Example: the flags after the saturation step. -/
def plOut : Nat → Nat → Saturation.Img Nat := Saturation.flagAll plSat plRaw (fun _ _ _ _ => 0) 1

/-- Example: after linearity correction. -/
def plLin : Option (Linearity.Out ℚ) :=
  Linearity.linearityPixel (plRows 1 9 fun i g => plRaw i g 0 0) (plRows 1 9 fun i g => plOut i g 0 0) (Saturation.pixelDq plSat (fun _ _ => 0) 0 0)
    (plCoef.map some) 0 2 32 none

/-- Example: after dark correction. -/
def plDone : Option (Dark.Result ℚ) := plLin.bind fun L =>
  Dark.doCorrection ⟨L.data, plRows 1 9 fun i g => plOut i g 0 0, L.pdq, 1, 0, none⟩ plDrk

/-- Example: the exposure handed to jump detection. -/
def plExp : Exposure ℚ := { crExp with
  data := fun i g _ _ => (((plDone.map fun D => D.out.data).getD []).getD i []).getD g none, gdq := plOut }

example : (List.range 9).map (fun g => plExp.data 0 g 0 0) =
    [some 0, some 1, some 2, some 103, some 104, some 105, some 606, some 607, some 300] ∧
    (List.range 9).map (fun g => plExp.gdq 0 g 0 0) = [0, 0, 0, 0, 0, 0, 0, 0, 2] := by decide +kernel

example : PlSteps plSat plRaw (fun _ _ _ _ => 0) (fun _ _ => 0) plCoef 0 32 1 0 none plDrk plExp 0 0 0 where
  run := by
    obtain ⟨L, hL⟩ := Option.isSome_iff_exists.1 (by decide +kernel : plLin.isSome = true)
    obtain ⟨D, hD⟩ := Option.isSome_iff_exists.1 (by decide +kernel : plDone.isSome = true)
    have hpd : (plDone.map fun D => D.out.pixeldq) = some 0 := by decide +kernel
    have hD' : Dark.doCorrection ⟨L.data, plRows 1 9 fun i g => plOut i g 0 0, L.pdq, 1, 0, none⟩ plDrk = some D := by
      have := hD
      rw [plDone, hL] at this
      exact this
    refine ⟨plOut, Saturation.pixelDq plSat fun _ _ => 0, none, L, D, ?_, hL, hD', ?_, rfl, ?_⟩
    · rfl
    · rw [hD, Option.map_some, Option.some.injEq] at hpd
      exact hpd.symm
    · intro i _ g _
      show (((plDone.map fun D => D.out.data).getD []).getD i []).getD g none = _
      rw [hD]
      rfl
  groups := rfl
  rows := rfl
  cols := rfl

example : PlPixel plSat plRaw plCoef (fun g => darkAt [some 11, some 23, some 37, some 41, some 67, some 95, some (-270), some (-232), some 0] g)
    plExp.d 0 0 plSrc 1 crHit where
  num := by
    have h : ∀ g < 9, (plRaw 0 g 0 0).isSome = true ∧ ((plRaw 0 g 0 0).getD 0 < 200 → (plRaw 0 g 0 0).getD 0 + (plRaw 0 g 0 0).getD 0 ^ 2 / 100 =
        plSrc 0 g + darkAt [some 11, some 23, some 37, some 41, some 67, some 95, some (-270), some (-232), some 0] g) := by decide +kernel
    intro i _ g hg
    obtain ⟨h1, h2⟩ := h g hg
    obtain ⟨m, hm⟩ := Option.isSome_iff_exists.1 h1
    refine ⟨m, hm, fun hlow => ?_⟩
    rw [hm, Option.getD_some] at h2
    have hlt : m < 200 := by
      by_contra hn
      refine hlow ⟨m, rfl, Or.inl ⟨?_, 200, rfl, not_lt.1 hn⟩⟩
      rintro (h | h)
      · exact absurd (h 7 (by decide)) (by decide)
      · exact absurd h (by simp [plSat])
    show _ = plSrc 0 g + _
    rw [← h2 hlt]
    simp only [polyVal, plCoef, List.length_cons, List.length_nil, Finset.sum_range_succ, Finset.sum_range_zero]
    simp only [List.getD_cons_zero, List.getD_cons_succ]
    ring
  steady := by
    have h : ∀ g < 8, crHit 0 (g + 1) = false → plSrc 0 (g + 1) = plSrc 0 g + 1 := by decide +kernel
    intro i _ g hg hh
    exact h g (by have : g + 1 < 9 := hg; omega) hh

example : PlDark 1 0 plDrk (fun g => darkAt [some 11, some 23, some 37, some 41, some 67, some 95, some (-270), some (-232), some 0] g) :=
  ⟨_, _, rfl, rfl, by decide, by decide, Or.inr ⟨rfl, rfl, fun _ => rfl⟩⟩

example : FlagsOk plSat.flags := ⟨by decide, by decide, by decide, by decide, by decide, by decide⟩
example : ¬ NoSolution (plCoef.map some) 0 32 := by
  rintro (h | h | h)
  · exact absurd h (by decide)
  · simp [plCoef] at h
  · simp [plCoef] at h
example : crCount plExp.d (crPair exJump plExp 0 0) < 2 * crCount plExp.d fun i j => crPair exJump plExp 0 0 i j && !crHit i (j + 1) := by
  decide +kernel

/-- Example: the rate of the pixel. -/
example : (fitPixel exFlags exCfg 9 (crPix plExp 0 0 exPix 0 (fun _ => none)
    (twoPoint exJump id jdClipRule jdSw plExp "1".toList 1).1)).2.slope = some (1 / 10) := by decide +kernel

end Verif.Thm
