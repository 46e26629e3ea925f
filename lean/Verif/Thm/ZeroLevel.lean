import Verif.Thm.Unseen
import Verif.Thm.LikelyDriver

/-!
# C156: the zero level of a ramp

A constant added to all samples of a pixel's integration (the reset level of the detector), put through the jump step
(jump.py:29-120), the OLS_C fit of a pixel (slope_fitter.c:2808-2908), the likelihood fit (likely_fit.py:18-169) and the Casertano fit
(_jump.pyx:393-595, _fit.pyx:97-236).
-/

set_option linter.unusedSectionVars false

namespace Verif.Thm

open Verif

/-- Spec: one sample with its zero level raised by `z`; NaN stays NaN. -/
def zlUp {α : Type*} [Add α] (z : α) (x : Option α) : Option α := x.map (· + z)

/-! ## The jump step -/

section
open Verif.Jump Verif.JumpDriver
variable {α : Type} [Field α] [LinearOrder α]

/-- Spec: every pixel of every integration has its own change of the zero level. -/
def zlExp (z : Nat → Nat → Nat → α) (e : Exposure α) : Exposure α :=
  { e with data := fun i g r c => zlUp (z i r c) (e.data i g r c) }

/-- Two cubes that differ by zero levels. -/
def ZlCube (s : Nat → Nat → Nat → α) (f f' : Cube (Option α)) : Prop := ∀ i g r c, f' i g r c = zlUp (s i r c) (f i g r c)

theorem zl_mask (p : Params α) (q : Nat) (z : α) (x : Option α) : maskData p q (zlUp z x) = zlUp z (maskData p q x) := by
  simp only [maskData]
  split <;> rfl

theorem zl_diff (p : Params α) (j : Nat) (z : α) (a b : Option α) : diff p j (zlUp z a) (zlUp z b) = diff p j a b := by
  cases a <;> cases b <;> simp [diff, zlUp]

theorem zl_diffs (p : Params α) (d : Dims) (gdq : Cube Nat) (s : Nat → Nat → Nat → α) (f f' : Cube (Option α)) (h : ZlCube s f f')
    (r c : Nat) : diffs p d f gdq r c = diffs p d f' gdq r c := by
  simp only [diffs, pixel, List.zipWith_map, List.zipWith_self]
  apply List.map_congr_left
  intro i _
  have : List.zipWith (maskData p) ((List.range d.ng).map fun g => gdq i g r c) ((List.range d.ng).map fun g => f' i g r c)
      = (List.zipWith (maskData p) ((List.range d.ng).map fun g => gdq i g r c) ((List.range d.ng).map fun g => f i g r c)).map
        (zlUp (s i r c)) := by
    rw [List.zipWith_map, List.zipWith_map, List.zipWith_self, List.zipWith_self, List.map_map]
    apply List.map_congr_left
    intro g _
    rw [h i g r c, zl_mask]
    rfl
  simp only [firstDiffs, this, List.length_map, List.getElem?_map]
  apply List.map_congr_left
  intro j _
  have hg : ∀ o : Option (Option α), (o.map (zlUp (s i r c))).getD none = zlUp (s i r c) (o.getD none) := by
    intro o; cases o <;> rfl
  rw [hg, hg, zl_diff]

theorem zl_find (p : Params α) (sqrt : α → α) (clip : List (Option α) → List Bool) (s : Switch) (d : Dims)
    (rn : Nat → Nat → α) (gdq : Cube Nat) (z : Nat → Nat → Nat → α) (f f' : Cube (Option α)) (h : ZlCube z f f') :
    (findCrs p sqrt clip s d rn f gdq).gdq = (findCrs p sqrt clip s d rn f' gdq).gdq
    ∧ (findCrs p sqrt clip s d rn f gdq).below = (findCrs p sqrt clip s d rn f' gdq).below
    ∧ (findCrs p sqrt clip s d rn f gdq).above = (findCrs p sqrt clip s d rn f' gdq).above
    ∧ (findCrs p sqrt clip s d rn f gdq).count = (findCrs p sqrt clip s d rn f' gdq).count
    ∧ ZlCube z (findCrs p sqrt clip s d rn f gdq).data (findCrs p sqrt clip s d rn f' gdq).data := by
  have hd := zl_diffs p d gdq z f f' h
  have hdet : detect p sqrt clip s d rn f gdq = detect p sqrt clip s d rn f' gdq := by
    simp only [detect]
    split
    · have hw : clipWords p clip s d f gdq = clipWords p clip s d f' gdq := by
        funext i g r c
        simp only [clipWords, hd]
      funext i g r c
      simp only [clipDetect, hw]
    split
    · funext i g r c
      have := hd r c
      simp only [diffs] at this
      simp only [singleDetect, singlePass, this]
    · funext i g r c
      simp only [iterDetect, hd]
  have hm : ∀ r c, medDiff p d f gdq r c = medDiff p d f' gdq r c := fun r c => by simp only [medDiff, hd]
  have hn : ∀ w i g, neighborPlane p sqrt s d rn f gdq w i g = neighborPlane p sqrt s d rn f' gdq w i g := by
    intro w i g
    have : ratioPlane p sqrt d rn f gdq i (g - 1) = ratioPlane p sqrt d rn f' gdq i (g - 1) := by
      funext r c
      simp only [ratioPlane, hd, hm]
    simp only [neighborPlane, this]
  have ht : ∀ w, transient p d f gdq w = transient p d f' gdq w := by
    intro w
    funext i g r c
    simp only [transient, hd, hm]
  simp only [findCrs]
  split
  · exact ⟨rfl, rfl, rfl, rfl, h⟩
  · rw [hdet]
    refine ⟨?_, ?_, ?_, rfl, fun i g r c => ?_⟩
    · simp only [hn, ht]
    · simp only [hn]
    · simp only [hn]
    · simp only [h i g r c, zl_mask]

theorem zl_electrons (z : Nat → Nat → Nat → α) (e : Exposure α) :
    ZlCube (fun i r c => z i r c * (e.gain r c).getD 0) (electrons e) (electrons (zlExp z e)) := by
  intro i g r c
  simp only [electrons, zlExp]
  cases e.data i g r c <;> cases e.gain r c <;> simp [zlUp, add_mul]

theorem zl_twoPoint (p : Params α) (sqrt : α → α) (clip : List (Option α) → List Bool) (s : Switch) (z : Nat → Nat → Nat → α)
    (e : Exposure α) (mc : List Char) (ncpu : Nat) :
    (twoPoint p sqrt clip s e mc ncpu).1 = (twoPoint p sqrt clip s (zlExp z e) mc ncpu).1
    ∧ (twoPoint p sqrt clip s e mc ncpu).2.1 = (twoPoint p sqrt clip s (zlExp z e) mc ncpu).2.1
    ∧ ZlCube (fun i r c => z i r c * (e.gain r c).getD 0) (twoPoint p sqrt clip s e mc ncpu).2.2
        (twoPoint p sqrt clip s (zlExp z e) mc ncpu).2.2 := by
  have hc := zl_electrons z e
  have hp : stepParams p (zlExp z e) = stepParams p e := rfl
  have hr : noiseElectrons (zlExp z e) = noiseElectrons e := rfl
  have hd : (zlExp z e).d = e.d := rfl
  have hg : (zlExp z e).gdq = e.gdq := rfl
  simp only [twoPoint, hp, hr, hd, hg]
  split
  · obtain ⟨h1, -, -, h4, h5⟩ := zl_find (stepParams p e) sqrt clip { s with minGroups := 3 } e.d (noiseElectrons e) e.gdq _ _ _ hc
    simp only [h1, h4, true_and]
    exact h5
  · have hs : ∀ n k, (sliceFound (stepParams p e) sqrt clip s e.d (noiseElectrons e) (electrons e) e.gdq n k).gdq
          = (sliceFound (stepParams p e) sqrt clip s e.d (noiseElectrons e) (electrons (zlExp z e)) e.gdq n k).gdq
        ∧ (sliceFound (stepParams p e) sqrt clip s e.d (noiseElectrons e) (electrons e) e.gdq n k).below
          = (sliceFound (stepParams p e) sqrt clip s e.d (noiseElectrons e) (electrons (zlExp z e)) e.gdq n k).below
        ∧ (sliceFound (stepParams p e) sqrt clip s e.d (noiseElectrons e) (electrons e) e.gdq n k).above
          = (sliceFound (stepParams p e) sqrt clip s e.d (noiseElectrons e) (electrons (zlExp z e)) e.gdq n k).above
        ∧ (sliceFound (stepParams p e) sqrt clip s e.d (noiseElectrons e) (electrons e) e.gdq n k).count
          = (sliceFound (stepParams p e) sqrt clip s e.d (noiseElectrons e) (electrons (zlExp z e)) e.gdq n k).count := by
      intro n k
      obtain ⟨h1, h2, h3, h4, -⟩ := zl_find (stepParams p e) sqrt clip s
        { e.d with nr := if n = k + 1 then e.d.nr - k * (e.d.nr / n) else e.d.nr / n }
        (fun r c => noiseElectrons e (r + k * (e.d.nr / n)) c) (fromRow (k * (e.d.nr / n)) e.gdq)
        (fun i r c => z i (r + k * (e.d.nr / n)) c * (e.gain (r + k * (e.d.nr / n)) c).getD 0)
        (fromRow (k * (e.d.nr / n)) (electrons e)) (fromRow (k * (e.d.nr / n)) (electrons (zlExp z e)))
        fun i g r c => hc i g _ c
      exact ⟨h1, h2, h3, h4⟩
    simp only [multi, hs, true_and]
    exact hc

theorem zl_faint (e : Snowball.Env α) (det : Shower.Det α) (nints ngrps nrows ncols num : Nat) (expansion : α)
    (s : Nat → Nat → Nat → α) (f f' : Cube (Option α)) (h : ZlCube s f f') (rn : Img (Option α)) (pdq : Img Nat)
    (gdq : Snowball.Cube4) :
    JumpStep.faint e det nints ngrps nrows ncols num expansion f rn pdq gdq
      = JumpStep.faint e det nints ngrps nrows ncols num expansion f' rn pdq gdq := by
  have h1 : Shower.firstDiff e f = Shower.firstDiff e f' := by
    funext q i g r c
    have hn : ∀ w (z : α) x, Snowball.nanInvalid e w (zlUp z x) = zlUp z (Snowball.nanInvalid e w x) := by
      intro w z x
      simp only [Snowball.nanInvalid]
      split <;> rfl
    simp only [Shower.firstDiff, h i _ r c, hn]
    cases Snowball.nanInvalid e (q i g r c) (f i g r c) <;>
      cases Snowball.nanInvalid e (q i (g + 1) r c) (f i (g + 1) r c) <;> simp [zlUp]
  have h2 : ∀ i r c dq, Snowball.approxRate e ngrps (fun g => f i g r c) dq = Snowball.approxRate e ngrps (fun g => f' i g r c) dq := by
    intro i r c dq
    refine congrArg (fun d : List (Option α) => if (finite d).length = 0 then none
      else some ((finite d).sum / ((finite d).length : α))) (List.map_congr_left fun g _ => ?_)
    simp only [h i _ r c]
    by_cases h1 : dq g &&& (e.dnu ||| e.sat ||| e.jump) = 0 <;> by_cases h2 : dq (g + 1) &&& (e.dnu ||| e.sat ||| e.jump) = 0 <;>
      cases f i g r c <;> cases f i (g + 1) r c <;> simp [zlUp, h1, h2]
  have h3 : Shower.showers e det nints ngrps nrows ncols f = Shower.showers e det nints ngrps nrows ncols f' := by
    have hr : Shower.ratio e det nints ngrps f = Shower.ratio e det nints ngrps f' := by
      funext rn gdq i g r c
      simp only [Shower.ratio, h1]
    funext rn pdq gdq
    simp only [Shower.showers, hr]
  have h4 : Snowball.maxFluxShowers e ngrps f = Snowball.maxFluxShowers e ngrps f' := by
    funext q q' i g r c
    unfold Snowball.maxFluxShowers
    rw [h2, h2]
  simp only [JumpStep.faint, Shower.findFaint, Snowball.findFaintExtended, h3, h4]

/-- C156.  The jump step does not see the zero level of a ramp: a constant added to all samples of a pixel's integration, a different
one for each pixel and each integration, leaves group DQ, pixel DQ, number of cosmic rays and number of extended events as they were,
for every detection algorithm, any number of processes, with or without snowballs and showers. -/
theorem C156_jump (p : Params α) (sqrt : α → α) (clip : List (Option α) → List Bool) (s : Switch) (env : Snowball.Env α)
    (det : Shower.Det α) (ask : JumpStep.Ask α) (e : Exposure α) (z : Nat → Nat → Nat → α) (maxCores : List Char) (ncpu : Nat) :
    JumpStep.step p sqrt clip s env det ask (zlExp z e) maxCores ncpu = JumpStep.step p sqrt clip s env det ask e maxCores ncpu := by
  obtain ⟨h1, h2, h3⟩ := zl_twoPoint p sqrt clip s z e maxCores ncpu
  have hd : (zlExp z e).d = e.d := rfl
  have hp : JumpStep.stepPdq p ask (zlExp z e) = JumpStep.stepPdq p ask e := rfl
  have hr : JumpStep.showerNoise (zlExp z e) = JumpStep.showerNoise e := rfl
  unfold JumpStep.step
  generalize twoPoint p sqrt clip s e maxCores ncpu = T at h1 h2 h3 ⊢
  generalize twoPoint p sqrt clip s (zlExp z e) maxCores ncpu = T' at h1 h2 h3 ⊢
  obtain ⟨t1, t2, t3⟩ := T
  obtain ⟨t1', t2', t3'⟩ := T'
  simp only at h1 h2 h3
  subst h1
  subst h2
  simp only [hd, hp, hr]
  congr 1
  funext a
  split
  · rw [zl_faint _ _ _ _ _ _ _ _ _ _ _ h3]
  · rfl

end

-- C156_jump: a different zero level in every pixel; the step finds something
example : (JumpStep.step exJump id jdClipRule jsSw swEnv jsDet jsAsk (jsExp 1) "none".toList 8).isSome = true
    ∧ (zlExp (fun i r c => (i + 2 * r + 3 * c + 1 : ℚ)) (jsExp 1)).data 0 0 0 0 ≠ (jsExp 1).data 0 0 0 0 := by
  refine ⟨by decide +kernel, by decide +kernel⟩

/-! ## The Casertano fit -/

section
open Verif.Cas22 Verif.Cas22Driver
variable {α : Type*} [Field α] [LinearOrder α]

theorem zl_fold (p : Pix α) (z : α) (c : Nat → α) (l : List Nat) (a : Fit α × α) (b : α) :
    l.foldl (fitStep { p with res := fun i => p.res i + z } c) (⟨a.1.slope + b, a.1.readVar, a.1.poissonVar⟩, a.2)
      = (⟨(l.foldl (fitStep p c) a).1.slope + (b + z * (l.map c).sum), (l.foldl (fitStep p c) a).1.readVar,
          (l.foldl (fitStep p c) a).1.poissonVar⟩, (l.foldl (fitStep p c) a).2) := by
  induction l generalizing a b with
  | nil => simp
  | cons i l ih =>
    rw [List.foldl_cons, List.foldl_cons, List.map_cons, List.sum_cons]
    have := ih (fitStep p c a i) (b + z * c i)
    rw [show b + z * c i + z * (l.map c).sum = b + z * (c i + (l.map c).sum) from by ring] at this
    rw [← this]
    congr 1
    simp only [fitStep]
    congr 2
    ring

theorem zl_fitRamp (cfg : Cfg α) (p : Pix α) (z : α) (r : Ramp) : fitRamp cfg { p with res := fun i => p.res i + z } r = fitRamp cfg p r := by
  have hw : weight cfg { p with res := fun i => p.res i + z } r = weight cfg p r := by
    funext i
    simp only [weight, rampPower, add_sub_add_right_eq_sub]
  simp only [fitRamp, hw]
  split
  · rfl
  split
  · rfl
  · rename_i hdet
    congr 1
    have h := zl_fold p z (fun i => (((r.idx.map (weight cfg p r)).sum) * p.tbar i
      - (r.idx.map fun i => weight cfg p r i * p.tbar i).sum) * weight cfg p r i
        / ((r.idx.map fun i => weight cfg p r i * (p.tbar i * p.tbar i)).sum * (r.idx.map (weight cfg p r)).sum
          - (r.idx.map fun i => weight cfg p r i * p.tbar i).sum * (r.idx.map fun i => weight cfg p r i * p.tbar i).sum))
      r.idx (⟨0, 0, 0⟩, 0) 0
    have hz : ∀ (l : List Nat) (w t : Nat → α) (x y D : α), (l.map fun i => (x * t i - y) * w i / D).sum
        = (x * (l.map fun i => w i * t i).sum - y * (l.map w).sum) / D := by
      intro l w t x y D
      induction l with
      | nil => simp
      | cons i l ih => simp only [List.map_cons, List.sum_cons, ih]; ring
    rw [hz, mul_comm ((r.idx.map fun i => weight cfg p r i * p.tbar i).sum) ((r.idx.map (weight cfg p r)).sum), sub_self, zero_div,
      mul_zero] at h
    simp only [add_zero] at h
    rw [h]

theorem zl_stat (cfg : Cfg α) (p : Pix α) (z : α) (r : Ramp) (slope : α) (i j : Nat) :
    stat cfg { p with res := fun i => p.res i + z } r slope i j = stat cfg p r slope i j := by
  simp only [stat, add_sub_add_right_eq_sub]

theorem zl_pixel (cfg : Cfg α) (p : Pix α) (z : α) (dq : Nat → Nat) (n fuel : Nat) :
    Cas22.fitPixel cfg { p with res := fun i => p.res i + z } dq n fuel = Cas22.fitPixel cfg p dq n fuel := by
  have hf : fitRamp cfg { p with res := fun i => p.res i + z } = fitRamp cfg p := funext fun r => zl_fitRamp cfg p z r
  have hd : detect cfg { p with res := fun i => p.res i + z } = detect cfg p := by
    funext r
    have hs : ∀ slope, fitStatistic cfg { p with res := fun i => p.res i + z } r slope = fitStatistic cfg p r slope := by
      intro slope
      have : stat2 cfg { p with res := fun i => p.res i + z } r slope = stat2 cfg p r slope := by
        funext i
        simp only [stat2, zl_stat]
      simp only [fitStatistic, zl_stat, this]
    simp only [detect, hf, hs]
  simp only [Cas22.fitPixel, hd, hf]

/-- C156.  The Casertano fit does not see the zero level of a ramp: with a constant added to all resultants of a pixel, a different one
for each pixel, every slope, variance and DQ is the same, whatever the uninitialised arrays hold. -/
theorem C156_casertano (cfg : Cfg α) (readTime : α) (pattern : List (List α)) (npix : Nat) (res : Nat → Nat → α) (z : Nat → α)
    (dq : Nat → Nat → Nat) (rn : Nat → α) (f0 f0' : Fixed α) (s0 s0' : Scratch α) :
    fitRamps cfg readTime pattern pattern.length npix (fun k i => res k i + z k) dq rn f0 s0
      = fitRamps cfg readTime pattern pattern.length npix res dq rn f0' s0' := by
  obtain ⟨o, e1, l1, h1⟩ := C103_every_pixel cfg readTime pattern npix (fun k i => res k i + z k) dq rn f0 s0
  obtain ⟨o', e2, l2, h2⟩ := C103_every_pixel cfg readTime pattern npix res dq rn f0' s0'
  rw [e1, e2]
  congr 1
  apply List.ext_getElem?
  intro k
  by_cases hk : k < npix
  · obtain ⟨d, r, a, g1, g2⟩ := h1 k hk
    obtain ⟨d', r', a', g1', g2'⟩ := h2 k hk
    have := zl_pixel cfg (pixelOf readTime pattern res rn k) (z k) (dq k) pattern.length (pattern.length + 1)
    have e : ({ pixelOf readTime pattern res rn k with res := fun i => (pixelOf readTime pattern res rn k).res i + z k } : Pix α)
      = pixelOf readTime pattern (fun k i => res k i + z k) rn k := rfl
    rw [e, g1, g1', Option.some.injEq, Prod.mk.injEq, Prod.mk.injEq] at this
    obtain ⟨rfl, rfl, rfl⟩ := this
    rw [g2, g2']
  · rw [List.getElem?_eq_none (by omega), List.getElem?_eq_none (by omega)]

/-- C156, `fit_ramps_casertano`: parameters, variances and DQ of the whole exposure, with or without a unit; resultant `i` of pixel `k`
is at position `i * npix + k`. -/
theorem C156_casertano_whole (cfg : Cas22.Cfg α) (readTime : α) (pattern : List (List α)) (n : Nat) (shape : List Nat)
    (res : Nat → α) (z : Nat → α) (dq : Nat → Nat) (noise : Noise α) (unit : Option α) (f0 f0' : Fixed α) (s0 s0' : Scratch α) :
    casertano cfg readTime pattern n shape (fun m => res m + z (m % shape.prod)) dq noise unit f0 s0
      = casertano cfg readTime pattern n shape res dq noise unit f0' s0' := by
  have hk : ∀ (v : Nat → α) (u : α) (rn : Nat → α),
      fitRamps cfg readTime pattern n shape.prod (fun k i => (v (i * shape.prod + k) + z ((i * shape.prod + k) % shape.prod)) * u)
        (fun k i => dq (i * shape.prod + k)) rn f0 s0
      = fitRamps cfg readTime pattern n shape.prod (fun k i => v (i * shape.prod + k) * u) (fun k i => dq (i * shape.prod + k)) rn f0' s0' := by
    intro v u rn
    by_cases hn : n = pattern.length
    · subst hn
      rw [← C156_casertano cfg readTime pattern shape.prod (fun k i => v (i * shape.prod + k) * u) (fun k => z (k % shape.prod) * u)
        (fun k i => dq (i * shape.prod + k)) rn f0 f0' s0 s0']
      congr 1
      funext k i
      rw [Nat.mul_add_mod_self_right, add_mul]
    · simp only [fitRamps, ne_eq, hn, not_false_eq_true, if_true]
  simp only [casertano]
  split
  · rfl
  split
  · rfl
  · rename_i rn _
    cases unit with
    | none =>
      have := hk res 1 rn
      simp only [mul_one] at this
      simp only [this]
    | some u => simp only [hk res u rn]

end

-- C156_casertano_whole: the two pixels of the example with other zero levels
example : (Cas22Driver.casertano (cas22Cfg true) 3 cdPattern 4 [2] (fun m => cdRes m + (fun k => (7 * k + 5 : ℚ)) (m % [2].prod)) cdDq
      (.line 2 fun _ => 2) none (fun _ _ _ => none) fun _ _ _ => none).map (fun o => o.par[1]?) = some (some 2) := by
  decide +kernel

/-! ## The likelihood fit -/

section
open Verif.Likely Verif.LikelyDriver
variable {α : Type} [Field α] [LinearOrder α] [IsStrictOrderedRing α]

/-- Spec: an integration with its zero level raised, zero frame included. -/
def zlLk (z : α) (e : IntIn α) : IntIn α := { e with data := fun g => zlUp z (e.data g), zf := zlUp z e.zf }

theorem zl_split (nframes : Nat) (z : α) (zf : Option α) (data : Nat → Option α) :
    splitZero nframes (zlUp z zf) (fun g => zlUp z (data g)) = fun g => zlUp z (splitZero nframes zf data g) := by
  funext g
  match g with
  | 0 => rfl
  | 1 =>
    simp only [splitZero]
    cases data 0 <;> cases zf <;> simp only [zlUp, Option.map_none, Option.map_some]
    split
    · rfl
    · rename_i x y hn
      have : (nframes : α) - 1 ≠ 0 := fun h => hn (by exact_mod_cast sub_eq_zero.1 h)
      simp only [Option.map_some, Option.some.injEq]
      field_simp
      ring
  | g + 2 => rfl

omit [IsStrictOrderedRing α] in
theorem zl_diffsOf (cv : Covar α) (z : α) (data : Nat → Option α) : diffsOf cv (fun g => zlUp z (data g)) = diffsOf cv data := by
  funext i
  simp only [diffsOf]
  cases data (i + 1) <;> cases data i <;> simp [zlUp]

/-- C156.  The likelihood fit of a pixel does not see the zero level: with a constant added to all samples of an integration and to its
zero frame, a different one for each integration, fit, DQ and group DQ of every integration and the combined result are the same, for
any read pattern and any snowball expansion. -/
theorem C156_likely (root : α → Nat → α) (fl : Flags) (ng nframes : Nat) (pattern : Option (List (List α)))
    (default : List (List α)) (hasZero : Bool) (c : Cfg α) (grow : Nat → Option ((Nat → Nat) → Nat → Nat)) (pixeldq : Nat)
    (ints : List (IntIn α × α)) :
    likelyPixel root fl ng nframes pattern default hasZero c grow pixeldq (ints.map fun e => zlLk e.2 e.1)
      = likelyPixel root fl ng nframes pattern default hasZero c grow pixeldq (ints.map fun e => e.1) := by
  have hf : ∀ u t g z e, fitInt root fl ng nframes u t c g pixeldq (zlLk z e) = fitInt root fl ng nframes u t c g pixeldq e := by
    intro u t g z e
    cases u
    · simp only [fitInt, zlLk, Bool.false_eq_true, if_false, zl_diffsOf]
    · simp only [fitInt, zlLk, if_true, zl_split, zl_diffsOf]
  simp only [likelyPixel, List.zipIdx_map, List.map_map]
  split
  · rfl
  · have : ∀ (u : Bool) (t : List (List α)), ints.zipIdx.map ((fun e => fitInt root fl ng nframes u t c (grow e.2) pixeldq e.1) ∘
          Prod.map (fun e => zlLk e.2 e.1) id)
        = ints.zipIdx.map ((fun e => fitInt root fl ng nframes u t c (grow e.2) pixeldq e.1) ∘ Prod.map (fun e => e.1) id) := by
      intro u t
      apply List.map_congr_left
      intro e _
      simp only [Function.comp, Prod.map, hf]
    rw [this]

end

/-! ## The OLS_C fit -/

section
open Verif.Ols Verif.Dq
variable {α : Type*} [Field α] [LinearOrder α]

/-- Spec: an integration (samples, words, zero frame) with its zero level raised. -/
def zlOls (z : α) (x : List (Option α) × List Nat × Option (Option α)) : List (Option α) × List Nat × Option (Option α) :=
  (x.1.map (zlUp z), x.2.1, x.2.2.map (zlUp z))

/-- Spec: an integration that is a ramp (two neighbouring groups have no flag at all, and every sample flagged neither DO_NOT_USE nor
SATURATED is a number), or one that is not used (every group is flagged DO_NOT_USE or SATURATED, and no zero frame comes in). -/
def ZlOk (fl : Flags) (suppress : Bool) (x : List (Option α) × List Nat × Option (Option α)) : Prop :=
  ((∃ k : Nat, x.2.1[k]? = some 0 ∧ x.2.1[k + 1]? = some 0)
    ∧ ∀ (k w : Nat), x.2.1[k]? = some w → UsFree w fl.dnu → UsFree w fl.sat → ∃ v, x.1[k]? = some (some v))
  ∨ ((∀ w ∈ x.2.1, ¬ (UsFree w fl.dnu ∧ UsFree w fl.sat)) ∧ (suppress = true ∨ x.2.2 = none))

omit [Field α] [LinearOrder α] in
theorem zl_zip (P : Nat → Bool) (u : Option α → Option α) (hu : u none = none) (d : List (Option α)) (g : List Nat) :
    List.zipWith (fun x q => if P q then none else x) (d.map u) g = (List.zipWith (fun x q => if P q then none else x) d g).map u := by
  induction d generalizing g with
  | nil => rfl
  | cons a d ih =>
    cases g with
    | nil => rfl
    | cons q g =>
      simp only [List.map_cons, List.zipWith_cons_cons, ih, List.cons.injEq, and_true]
      split
      · rw [hu]
      · rfl

theorem zl_load (fl : Flags) (sup : Bool) (x : List (Option α) × List Nat × Option (Option α)) (h : ZlOk fl sup x) :
    loadInteg fl sup x.1 x.2.1 x.2.2
      = ⟨List.zipWith (fun x q => if hasB q fl.sat then none else x) x.1 x.2.1, x.2.1, stats fl x.2.1, false, false⟩ := by
  obtain ⟨d, g, zf⟩ := x
  simp only [loadInteg]
  cases sup with
  | true => simp
  | false =>
    simp only [Bool.false_eq_true, if_false]
    rcases h with ⟨⟨k, h1, h2⟩, -⟩ | ⟨h1, h2⟩
    · have hc : 2 ≤ (stats fl g).cntGood := by
        simp only [stats]
        simp only at h1 h2
        have hs : (g.drop k).countP (fun d => decide (d = 0)) ≤ g.countP fun d => decide (d = 0) :=
          (List.drop_sublist k g).countP_le
        refine le_trans ?_ hs
        obtain ⟨hk, e1⟩ := List.getElem?_eq_some_iff.1 h1
        obtain ⟨hk', e2⟩ := List.getElem?_eq_some_iff.1 h2
        rw [List.drop_eq_getElem_cons hk, List.drop_eq_getElem_cons hk', e1, e2]
        simp only [decide_true, List.countP_cons_of_pos]
        omega
      rw [if_neg (by omega), if_neg (by omega)]
    · simp only [Bool.false_eq_true, false_or] at h2
      subst h2
      split
      · rename_i h3
        exfalso
        have hp : 0 < g.countP fun d => decide (d = 0) := by
          simp only [stats] at h3
          omega
        obtain ⟨w, hw, hz⟩ := List.countP_pos_iff.1 hp
        obtain rfl : w = 0 := by simpa using hz
        exact h1 0 hw ⟨fun b hb => by simp at hb, fun b hb => by simp at hb⟩
      split <;> rfl

theorem zl_ok_up (fl : Flags) (sup : Bool) (z : α) (x : List (Option α) × List Nat × Option (Option α)) (h : ZlOk fl sup x) :
    ZlOk fl sup (zlOls z x) := by
  rcases h with ⟨h1, h2⟩ | ⟨h1, h2⟩
  · refine Or.inl ⟨h1, fun k w hk a b => ?_⟩
    obtain ⟨v, hv⟩ := h2 k w hk a b
    exact ⟨v + z, by simp [zlOls, hv, zlUp]⟩
  · refine Or.inr ⟨h1, h2.imp id fun h => ?_⟩
    simp [zlOls, h]

theorem zl_o2 (z : α) (a b : Option α) : o2 (· - ·) (zlUp z a) (zlUp z b) = o2 (· - ·) a b := by
  cases a <;> cases b <;> simp [o2, zlUp]

theorem zl_median (fl : Flags) (cfg : Cfg α) (sup : Bool) (z : α) (x : List (Option α) × List Nat × Option (Option α))
    (h : ZlOk fl sup x) :
    medianInteg fl cfg ((List.zipWith (fun x q => if hasB q fl.sat then none else x) x.1 x.2.1).map (zlUp z)) x.2.1
      = medianInteg fl cfg (List.zipWith (fun x q => if hasB q fl.sat then none else x) x.1 x.2.1) x.2.1 := by
  obtain ⟨d, g, zf⟩ := x
  simp only at h ⊢
  set D := List.zipWith (fun x q => if hasB q fl.sat then none else x) d g with hD
  have hloc : List.zipWith (fun (x : Option α) q => if hasB q fl.dnu then none else x.map fun d => d / cfg.groupTime) (D.map (zlUp z)) g
      = (List.zipWith (fun (x : Option α) q => if hasB q fl.dnu then none else x.map fun d => d / cfg.groupTime) D g).map
        (zlUp (z / cfg.groupTime)) := by
    clear_value D
    clear h hD
    induction D generalizing g with
    | nil => rfl
    | cons a D ih =>
      cases g with
      | nil => rfl
      | cons q g =>
        simp only [List.map_cons, List.zipWith_cons_cons, ih, List.cons.injEq, and_true]
        split
        · rfl
        · cases a <;> simp [zlUp, add_div]
  simp only [medianInteg, hloc]
  set L := List.zipWith (fun (x : Option α) q => if hasB q fl.dnu then none else x.map fun d => d / cfg.groupTime) D g with hL
  have hj : ∀ k : Nat, ((L.map (zlUp (z / cfg.groupTime)))[k]?).join = zlUp (z / cfg.groupTime) ((L[k]?).join) := by
    intro k
    rw [List.getElem?_map]
    cases L[k]? <;> rfl
  simp only [hj, zl_o2]
  -- a group that can be used is a number, one that cannot is NaN
  have hget : ∀ k : Nat, (L[k]?).join = if hasB (g.getD k 0) fl.dnu || hasB (g.getD k 0) fl.sat then none
      else ((if k < g.length then d[k]? else none).join).map fun d => d / cfg.groupTime := by
    intro k
    rw [hL, hD, List.getElem?_zipWith, List.getElem?_zipWith]
    cases hg : g[k]? with
    | none =>
      have : ¬ k < g.length := by simpa using hg
      cases d[k]? <;> simp [this]
    | some w =>
      obtain ⟨hk, rfl⟩ := List.getElem?_eq_some_iff.1 hg
      have hw : g.getD k 0 = g[k] := List.getD_eq_getElem _ _ hk
      rw [hw]
      cases hd : d[k]? with
      | none => simp
      | some v => cases h1 : hasB g[k] fl.dnu <;> cases h2 : hasB g[k] fl.sat <;> simp [hk, h1, h2]
  rcases h with ⟨⟨k, h1, h2⟩, h3⟩ | ⟨h1, -⟩
  · simp only at h1 h2 h3
    have hz : UsFree 0 fl.dnu ∧ UsFree 0 fl.sat := ⟨fun b hb => by simp at hb, fun b hb => by simp at hb⟩
    obtain ⟨v, hv⟩ := h3 k 0 h1 hz.1 hz.2
    obtain ⟨v', hv'⟩ := h3 (k + 1) 0 h2 hz.1 hz.2
    obtain ⟨hk', e2⟩ := List.getElem?_eq_some_iff.1 h2
    obtain ⟨hk, e1⟩ := List.getElem?_eq_some_iff.1 h1
    have g1 : g.getD k 0 = 0 := by rw [List.getD_eq_getElem _ _ hk, e1]
    have g2 : g.getD (k + 1) 0 = 0 := by rw [List.getD_eq_getElem _ _ hk', e2]
    have hb : ∀ f, hasB 0 f = false := fun f => by simp [hasB]
    have : ((List.range (g.length - 1)).map fun k =>
        if hasB (g.getD (k + 1) 0) fl.jump then none else o2 (· - ·) ((L[k + 1]?).join) ((L[k]?).join)).all (fun d => d.isNone) = false := by
      rw [List.all_eq_false]
      refine ⟨some (v' / cfg.groupTime - v / cfg.groupTime), List.mem_map.2 ⟨k, List.mem_range.2 (by omega), ?_⟩, by simp⟩
      rw [hget, hget, g1, g2]
      simp [hb, hk, hk', hv, hv', o2]
    rw [this]
    simp
  · have : (L[0]?).join = none := by
      rw [hget]
      split
      · rfl
      · rename_i h0
        simp only [Bool.or_eq_true, not_or, Bool.not_eq_true] at h0
        by_cases hk : 0 < g.length
        · exfalso
          refine h1 (g[0]) (List.getElem_mem hk) ⟨us_free.2 ?_, us_free.2 ?_⟩
          · rw [← List.getD_eq_getElem _ 0 hk]
            exact h0.1
          · rw [← List.getD_eq_getElem _ 0 hk]
            exact h0.2
        · simp [hk]
    rw [this]
    simp [zlUp]

theorem zl_wls (n start : Nat) (w y y' : Nat → α) (z : α) (h : ∀ k, k < n → y' k = y k + z) :
    (wls n start w y').1 = (wls n start w y).1 := by
  have h1 : sumTo n (fun k => y' k * w k) = sumTo n (fun k => y k * w k) + z * sumTo n w := by
    rw [← sumTo_mul, ← sumTo_add]
    exact sumTo_congr n fun k hk => by rw [h k hk]; ring
  have h2 : sumTo n (fun k => y' k * (((k : α) + (start : α)) * w k)) = sumTo n (fun k => y k * (((k : α) + (start : α)) * w k))
      + z * sumTo n fun k => ((k : α) + (start : α)) * w k := by
    rw [← sumTo_mul, ← sumTo_add]
    exact sumTo_congr n fun k hk => by rw [h k hk]; ring
  simp only [wls, h1, h2]
  ring

theorem zl_fitSeg (cfg : Cfg α) (px : Pix α) (med : Option α) (a b : Bool) (d d' : Nat → Option α) (z : α) (s : Seg)
    (hs : 2 ≤ s.stop - s.start) (h : ∀ k, s.start ≤ k → k < s.stop → ∃ v, d k = some v ∧ d' k = some (v + z)) :
    fitSeg cfg px med a b d' s = fitSeg cfg px med a b d s := by
  have hl : s.len = s.stop - s.start := rfl
  obtain ⟨v0, e0, e0'⟩ := h s.start le_rfl (by omega)
  obtain ⟨v1, e1, e1'⟩ := h (s.start + 1) (by omega) (by omega)
  obtain ⟨v2, e2, e2'⟩ := h (s.start + s.len - 1) (by omega) (by omega)
  have hw : ∀ w, (wls s.len s.start w fun k => (d' (s.start + k)).getD 0).1 = (wls s.len s.start w fun k => (d (s.start + k)).getD 0).1 := by
    intro w
    refine zl_wls _ _ _ _ _ z fun k hk => ?_
    obtain ⟨v, e, e'⟩ := h (s.start + k) (by omega) (by omega)
    rw [e, e']
    rfl
  have ho : ∀ x y : α, o2 (· - ·) (some (x + z)) (some (y + z)) = o2 (· - ·) (some x) (some y) := fun x y => by simp [o2]
  simp only [fitSeg, hw, segSnr, e0, e0', e1, e1', e2, e2', ho]
  have hne : s.len ≠ 1 := by omega
  simp only [if_neg hne]

theorem zl_fitInteg (fl : Flags) (hj : fl.jump ≠ 0) (h1 : UsFree fl.pers fl.dnu) (h2 : UsFree fl.pers fl.sat)
    (h3 : UsFree fl.jump fl.dnu) (h4 : UsFree fl.jump fl.sat) (cfg : Cfg α) (px : Pix α) (med : Option α) (ng : Nat) (sup : Bool)
    (z : α) (x : List (Option α) × List Nat × Option (Option α)) (h : ZlOk fl sup x) (dq : Nat) :
    fitInteg fl cfg px med ng ⟨(List.zipWith (fun x q => if hasB q fl.sat then none else x) x.1 x.2.1).map (zlUp z), x.2.1,
        stats fl x.2.1, false, false⟩ dq
      = fitInteg fl cfg px med ng ⟨List.zipWith (fun x q => if hasB q fl.sat then none else x) x.1 x.2.1, x.2.1,
        stats fl x.2.1, false, false⟩ dq := by
  obtain ⟨d, g, zf⟩ := x
  simp only at h ⊢
  have hf : (fitSegs fl g).segs.map (fitSeg cfg px med false false fun k =>
        (((List.zipWith (fun x q => if hasB q fl.sat then none else x) d g).map (zlUp z))[k]?).join)
      = (fitSegs fl g).segs.map (fitSeg cfg px med false false fun k =>
        ((List.zipWith (fun x q => if hasB q fl.sat then none else x) d g)[k]?).join) := by
    simp only [fitSegs]
    split
    · rfl
    · apply List.map_congr_left
      intro s hs
      obtain ⟨-, hc⟩ := C27_segments_sound fl g
      obtain ⟨c1, c2, c3, c4, c5, c6⟩ := hc s hs
      have hu : ∀ k, s.start ≤ k → k < s.stop → hasB (g.getD k 0) fl.dnu = false ∧ hasB (g.getD k 0) fl.sat = false := by
        intro k hk hk'
        have hgood : GoodGroup fl.pers g k ∨ JumpOnly fl.pers fl.jump g k := by
          rcases Nat.eq_or_lt_of_le hk with rfl | hk
          · exact c4.imp id fun x => x.1
          · exact Or.inl (c3 k hk hk')
        exact ⟨us_good fl h1 h3 g k hgood, us_good { fl with dnu := fl.sat } h2 h4 g k hgood⟩
      rcases h with ⟨⟨k, e1, e2⟩, e3⟩ | ⟨e1, -⟩
      · have gg : ∀ k : Nat, g[k]? = some 0 → GoodGroup fl.pers g k := by
          intro k hk
          obtain ⟨hk', e⟩ := List.getElem?_eq_some_iff.1 hk
          exact ⟨hk', fun b hb => by rw [e] at hb; simp at hb⟩
        obtain ⟨a, e, ⟨n1, n2, n3⟩, -⟩ := C27_every_good_group_once fl hj g k (gg k e1)
        have hlen : 2 ≤ e - a := by
          obtain ⟨s', m1, m2, m3, m4, m5, m6⟩ := n1
          by_contra hlt
          have he : e = k + 1 := by omega
          subst he
          rcases m5 with m5 | m5
          · have := (gg (k + 1) e2).1
            omega
          · exact m5 (gg (k + 1) e2)
        have h2 := ((C28_pruning_exact fl g).1 ⟨a, e, n1, hlen⟩ s).1 hs
        refine zl_fitSeg cfg px med _ _ _ _ z s h2.2 fun k hk hk' => ?_
        have hkl : k < g.length := by omega
        have hgk : g[k]? = some (g.getD k 0) := by rw [List.getD_eq_getElem _ _ hkl]; simp [hkl]
        obtain ⟨v, hv⟩ := e3 k _ hgk (us_free.2 (hu k hk hk').1) (us_free.2 (hu k hk hk').2)
        refine ⟨v, ?_, ?_⟩
        · simp only [List.getElem?_zipWith, hgk, hv, (hu k hk hk').2, Bool.false_eq_true, if_false]
          rfl
        · simp only [List.getElem?_map, List.getElem?_zipWith, hgk, hv, (hu k hk hk').2, Bool.false_eq_true, if_false]
          rfl
      · exfalso
        have hkl : s.start < g.length := by omega
        refine e1 (g.getD s.start 0) (by rw [List.getD_eq_getElem _ _ hkl]; exact List.getElem_mem hkl)
          ⟨us_free.2 (hu _ le_rfl c1).1, us_free.2 (hu _ le_rfl c1).2⟩
  simp only [fitInteg, hf]

/-- C156.  The OLS_C fit of a pixel does not see the zero level of its ramps: with a constant added to all samples of an integration,
a different one for each integration, every rateints entry and the rate are the same.  This is for exposures of more than one group
per integration, flags whose bits are distinct, and integrations that are ramps or not used at all (`ZlOk`). -/
theorem C156_ols (fl : Flags) (hj : fl.jump ≠ 0) (h1 : UsFree fl.pers fl.dnu) (h2 : UsFree fl.pers fl.sat)
    (h3 : UsFree fl.jump fl.dnu) (h4 : UsFree fl.jump fl.sat) (cfg : Cfg α) (ngroups : Nat) (hng : ngroups ≠ 1) (p : PixIn α)
    (ints : List ((List (Option α) × List Nat × Option (Option α)) × α)) (h : ∀ e ∈ ints, ZlOk fl cfg.suppress1g e.1) :
    fitPixel fl cfg ngroups { p with ints := ints.map fun e => zlOls e.2 e.1 }
      = fitPixel fl cfg ngroups { p with ints := ints.map fun e => e.1 } := by
  have hl1 : loadPixel fl cfg { p with ints := ints.map fun e => zlOls e.2 e.1 } = ints.map fun e =>
      ⟨(List.zipWith (fun x q => if hasB q fl.sat then none else x) e.1.1 e.1.2.1).map (zlUp e.2), e.1.2.1,
        stats fl e.1.2.1, false, false⟩ := by
    simp only [loadPixel, List.map_map]
    apply List.map_congr_left
    intro e he
    simp only [Function.comp]
    rw [zl_load fl _ _ (zl_ok_up fl _ e.2 _ (h e he))]
    simp only [zlOls]
    rw [zl_zip (fun q => hasB q fl.sat) (zlUp e.2) rfl]
  have hl2 : loadPixel fl cfg { p with ints := ints.map fun e => e.1 } = ints.map fun e =>
      ⟨List.zipWith (fun x q => if hasB q fl.sat then none else x) e.1.1 e.1.2.1, e.1.2.1, stats fl e.1.2.1, false, false⟩ := by
    simp only [loadPixel, List.map_map]
    apply List.map_congr_left
    intro e he
    simp only [Function.comp]
    rw [zl_load fl _ _ (h e he)]
  have hm : medianRate fl cfg ngroups (loadPixel fl cfg { p with ints := ints.map fun e => zlOls e.2 e.1 })
      = medianRate fl cfg ngroups (loadPixel fl cfg { p with ints := ints.map fun e => e.1 }) := by
    rw [hl1, hl2]
    simp only [medianRate, if_neg hng, List.length_map, List.map_map]
    congr 3
    apply List.map_congr_left
    intro e he
    simp only [Function.comp, Bool.false_eq_true, if_false]
    rw [zl_median fl cfg _ e.2 e.1 (h e he)]
  have hr : List.Forall₂ (fun a b : Integ α × (Rate α × Bool × Bool) × Option (Acc α) => a.1.st = b.1.st ∧ a.2 = b.2)
      (pixelInts fl cfg ngroups { p with ints := ints.map fun e => zlOls e.2 e.1 })
      (pixelInts fl cfg ngroups { p with ints := ints.map fun e => e.1 }) := by
    simp only [pixelInts]
    rw [hm, hl1, hl2]
    refine List.forall₂_map_left_iff.2 (List.forall₂_map_right_iff.2 (List.forall₂_map_left_iff.2 (List.forall₂_map_right_iff.2
      (List.forall₂_same.2 fun e he => ⟨rfl, ?_⟩))))
    simp only
    rw [zl_fitInteg fl hj h1 h2 h3 h4 cfg p.px _ ngroups _ e.2 e.1 (h e he)]
    rfl
  simp only [fitPixel]
  have e1 := hr.length_eq
  have e2 := un_countP (fun r => r.2.1.2.1) (fun r => r.2.1.2.1) (fun b c hbc => by rw [hbc.2]) hr
  have e3 := un_countP (fun r => r.2.1.2.2) (fun r => r.2.1.2.2) (fun b c hbc => by rw [hbc.2]) hr
  have e4 := un_fold (fun acc r => acc ||| statBits fl r.1.st) (fun acc r => acc ||| statBits fl r.1.st)
    (fun s b c hbc => by rw [hbc.1]) hr (metaDq fl p)
  have e5 := un_filterMap id (fun r => r.2.2) (fun r => r.2.2) (fun b c hbc => by rw [hbc.2]; simp) hr
  have e6 := un_any (fun r => decide (0 < r.1.st.cntSat)) (fun r => decide (0 < r.1.st.cntSat)) (fun b c hbc => by rw [hbc.1]) hr
  have e7 : (pixelInts fl cfg ngroups { p with ints := ints.map fun e => e.1 }).map (fun r => r.2.1.1)
      = (pixelInts fl cfg ngroups { p with ints := ints.map fun e => zlOls e.2 e.1 }).map fun r => r.2.1.1 := by
    rw [← List.forall₂_eq_eq_eq, List.forall₂_map_left_iff, List.forall₂_map_right_iff]
    exact hr.flip.imp fun a b hab => by rw [hab.2]
  rw [List.map_id] at e5
  have hmd : ∀ l, metaDq fl { p with ints := l } = metaDq fl p := fun _ => rfl
  simp only [hmd]
  rw [e1, e2, e3, e4, e5, e6, e7]

end

/-- The pixel of the examples; the second integration is not used, the third has a jump and a saturated end. -/
def zlPix (a b c : ℚ) : List ((List (Option ℚ) × List Nat × Option (Option ℚ)) × ℚ) :=
  [(([some 1, some 3, some 5, some 8], [0, 0, 0, 0], none), a), (([some 1, some 2, none, some 9], [1, 2, 2, 3], none), b),
    (([some 1, some 3, some 50, some 60], [0, 0, 4, 2], none), c)]

/-- A pixel with the given integrations. -/
def zlIn (l : List (List (Option ℚ) × List Nat × Option (Option ℚ))) : Ols.PixIn ℚ := ⟨false, ⟨2, 3, 1⟩, 0, l⟩

-- C156_ols
example : Ols.fitPixel ⟨1, 2, 4, 8, 16, 0⟩ usCfg 4 (zlIn ((zlPix 100 7 (-3)).map fun e => zlOls e.2 e.1))
      = Ols.fitPixel ⟨1, 2, 4, 8, 16, 0⟩ usCfg 4 (zlIn ((zlPix 100 7 (-3)).map fun e => e.1))
    ∧ (Ols.fitPixel ⟨1, 2, 4, 8, 16, 0⟩ usCfg 4 (zlIn ((zlPix 100 7 (-3)).map fun e => e.1))).2.slope.isSome = true := by
  refine ⟨C156_ols _ (by decide) (us_free.2 (by decide)) (us_free.2 (by decide)) (us_free.2 (by decide)) (us_free.2 (by decide))
    _ _ (by decide) (zlIn []) _ ?_, by decide +kernel⟩
  intro e he
  simp only [zlPix, List.mem_cons, List.not_mem_nil, or_false] at he
  rcases he with rfl | rfl | rfl
  · refine Or.inl ⟨⟨0, rfl, rfl⟩, fun k w hk _ _ => ?_⟩
    match k with
    | 0 => exact ⟨1, rfl⟩
    | 1 => exact ⟨3, rfl⟩
    | 2 => exact ⟨5, rfl⟩
    | 3 => exact ⟨8, rfl⟩
    | k + 4 => simp at hk
  · refine Or.inr ⟨fun w hw => ?_, Or.inr rfl⟩
    simp only [List.mem_cons, List.not_mem_nil, or_false] at hw
    rintro ⟨h1, h2⟩
    rcases hw with rfl | rfl | rfl | rfl
    · exact absurd (us_free.1 h1) (by decide)
    · exact absurd (us_free.1 h2) (by decide)
    · exact absurd (us_free.1 h2) (by decide)
    · exact absurd (us_free.1 h1) (by decide)
  · refine Or.inl ⟨⟨0, rfl, rfl⟩, fun k w hk _ _ => ?_⟩
    match k with
    | 0 => exact ⟨1, rfl⟩
    | 1 => exact ⟨3, rfl⟩
    | 2 => exact ⟨50, rfl⟩
    | 3 => exact ⟨60, rfl⟩
    | k + 4 => simp at hk

/-- Finding: a ramp of which one group is left (the others saturated) is fitted by its sample over a time, so its zero level is taken
for signal (slope_fitter.c:3238-3243): raising it raises the rate, and through the median rate (slope_fitter.c:2340-2362) the Poisson
variance.  The same holds for a ramp without good group that falls back on the zero frame, and for two good groups that are not
neighbours, of which the first is fitted alone. -/
theorem C156_one_group :
    let f := fun (z : ℚ) x => ((Ols.fitPixel ⟨1, 2, 4, 8, 16, 0⟩ usCfg 4 (zlIn [zlOls z x])).2.slope,
      (Ols.fitPixel ⟨1, 2, 4, 8, 16, 0⟩ usCfg 4 (zlIn [zlOls z x])).2.varP)
    f 0 ([some 10, some 90, some 90, some 90], [0, 2, 2, 2], none) = (some 30, 93 / 2)
    ∧ f 5 ([some 10, some 90, some 90, some 90], [0, 2, 2, 2], none) = (some 45, 69)
    ∧ f 0 ([some 10, some 90, some 90, some 90], [2, 2, 2, 2], some (some 4)) = (some 8, 9)
    ∧ f 5 ([some 10, some 90, some 90, some 90], [2, 2, 2, 2], some (some 4)) = (some 18, 19)
    ∧ f 0 ([some 10, some 90, some 20, some 90], [0, 1, 0, 1], none) = (some 10, 11 / 2)
    ∧ f 5 ([some 10, some 90, some 20, some 90], [0, 1, 0, 1], none) = (some 15, 8) := by
  decide +kernel

-- C156_likely: two integrations with different zero levels, with a zero frame and a bad group
example : (LikelyDriver.likelyPixel (fun _ _ => 1) ⟨1, 2, 4⟩ 6 2 (some ((List.range 6).map fun g => [3 * (g : ℚ) + 1, 3 * (g : ℚ) + 3])) []
    true ⟨1, 1, 0, 16, 20⟩ (fun _ => none) 0 ([(ldEx, 50), (ldEx, -7)].map fun e => zlLk e.2 e.1)).map (fun r => r.2.comb.data)
      = some (some 2) := by
  decide +kernel

end Verif.Thm
