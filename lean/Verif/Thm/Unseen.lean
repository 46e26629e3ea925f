import Verif.Thm.OlsPixel
import Verif.Thm.OlsUnits
import Verif.Thm.Cas22Driver
import Verif.Thm.JumpStep

/-!
# C152: samples that are not to be used

Two inputs that differ only in samples flagged as unusable, put through the OLS_C fit of a pixel (slope_fitter.c:2808-2908), the jump
step (jump.py:29-120) and the Casertano fit (_jump.pyx:393-595, _fit.pyx:97-236).
-/

set_option linter.unusedSectionVars false

namespace Verif.Thm

open Verif

/-! ## The OLS_C fit -/

section
open Verif.Ols Verif.Dq
variable {α : Type*} [Field α] [LinearOrder α]

/-- Spec: no bit of `f` is one of `w`. -/
def UsFree (w f : Nat) : Prop := ∀ b, ¬ (w.testBit b = true ∧ f.testBit b = true)

/-- Spec: two integrations (samples, words, zero frame) with the same words whose samples agree in every group flagged neither
DO_NOT_USE nor SATURATED, and whose zero frames agree unless they play no part: one-group ramps are suppressed, or some group is good. -/
def UsSame (fl : Flags) (suppress : Bool) (x y : List (Option α) × List Nat × Option (Option α)) : Prop :=
  x.2.1 = y.2.1 ∧ x.1.length = y.1.length
  ∧ (∀ (k w : Nat), x.2.1[k]? = some w → UsFree w fl.dnu → UsFree w fl.sat → x.1[k]? = y.1[k]?)
  ∧ (x.2.2 = y.2.2 ∨ suppress = true ∨ 0 ∈ x.2.1)

theorem us_free {w f : Nat} : UsFree w f ↔ hasB w f = false := by
  rw [hasB_false, Has, not_not]
  constructor
  · intro h
    apply Nat.eq_of_testBit_eq
    intro b
    have := h b
    rw [Nat.testBit_and, Nat.zero_testBit]
    cases h1 : w.testBit b <;> cases h2 : f.testBit b <;> simp_all
  · intro h b ⟨h1, h2⟩
    have : (w &&& f).testBit b = true := by rw [Nat.testBit_and, h1, h2]; rfl
    rw [h, Nat.zero_testBit] at this
    exact Bool.noConfusion this

/-- What the two integrations have in common once they are loaded. -/
structure UsInt (fl : Flags) (i j : Integ α) : Prop where
  gdq : i.gdq = j.gdq
  st : i.st = j.st
  is0 : i.is0th = j.is0th
  isZ : i.isZframe = j.isZframe
  len : i.data.length = j.data.length
  data : ∀ k : Nat, hasB (i.gdq.getD k 0) fl.dnu = false → i.data[k]? = j.data[k]?
  first : i.is0th = true ∨ i.isZframe = true → i.gdq.getD 0 0 = 0

omit [LinearOrder α] in
theorem us_zip (fl : Flags) (d d' : List (Option α)) (g : List Nat) (hl : d.length = d'.length)
    (h : ∀ (k w : Nat), g[k]? = some w → UsFree w fl.dnu → UsFree w fl.sat → d[k]? = d'[k]?) (k : Nat)
    (hk : hasB (g.getD k 0) fl.dnu = false) :
    (List.zipWith (fun x q => if hasB q fl.sat then none else x) d g)[k]?
      = (List.zipWith (fun x q => if hasB q fl.sat then none else x) d' g)[k]? := by
  rw [List.getElem?_zipWith, List.getElem?_zipWith]
  cases hg : g[k]? with
  | none => cases d[k]? <;> cases d'[k]? <;> rfl
  | some w =>
    have hw : g.getD k 0 = w := by rw [List.getD_eq_getElem?_getD, hg]; rfl
    rw [hw] at hk
    by_cases hs : hasB w fl.sat = true
    · have : d[k]?.isSome = d'[k]?.isSome := by
        rw [Bool.eq_iff_iff, isSome_getElem?, isSome_getElem?, hl]
      cases h1 : d[k]? <;> cases h2 : d'[k]? <;> simp_all
    · rw [h k w hg (us_free.2 hk) (us_free.2 (by simpa using hs))]

theorem us_load (fl : Flags) (sup : Bool) (x y : List (Option α) × List Nat × Option (Option α)) (h : UsSame fl sup x y) :
    UsInt fl (loadInteg fl sup x.1 x.2.1 x.2.2) (loadInteg fl sup y.1 y.2.1 y.2.2) := by
  obtain ⟨d, g, z⟩ := x
  obtain ⟨d', g', z'⟩ := y
  obtain ⟨h1, h2, h3, h4⟩ := h
  simp only at h1 h2 h3 h4 ⊢
  subst h1
  have hz := us_zip fl d d' g h2 h3
  have hn : ∀ f : Option α → Nat → Option α, (List.zipWith f d g).length = (List.zipWith f d' g).length := by simp [h2]
  simp only [loadInteg]
  split
  · exact ⟨rfl, rfl, rfl, rfl, hn _, hz, by simp⟩
  split
  · rename_i h5
    exact ⟨rfl, rfl, rfl, rfl, hn _, hz, fun _ => h5.2⟩
  split
  · rename_i hs _ h5
    have hzz : z = z' := by
      rcases h4 with h | h | h
      · exact h
      · exact absurd h hs
      · have : 0 < g.countP fun d => decide (d = 0) := List.countP_pos_iff.2 ⟨0, h, by simp⟩
        simp only [stats] at h5
        omega
    subst hzz
    cases z with
    | none => exact ⟨rfl, rfl, rfl, rfl, hn _, hz, by simp⟩
    | some z =>
      simp only
      split
      · exact ⟨rfl, rfl, rfl, rfl, hn _, hz, by simp⟩
      · refine ⟨rfl, rfl, rfl, rfl, by simp [h2], fun k hk => ?_, fun _ => ?_⟩
        · simp only at hk ⊢
          cases k with
          | zero =>
            rw [List.getElem?_set, List.getElem?_set]
            simp [h2]
          | succ k =>
            rw [List.getElem?_set_ne (by omega), List.getElem?_set_ne (by omega)]
            apply hz
            rw [List.getD_eq_getElem?_getD, List.getElem?_set_ne (by omega)] at hk
            rwa [List.getD_eq_getElem?_getD]
        · simp only
          cases g <;> simp
  · exact ⟨rfl, rfl, rfl, rfl, hn _, hz, by simp⟩

theorem us_medianInteg (fl : Flags) (cfg : Cfg α) (i j : Integ α) (h : UsInt fl i j) :
    medianInteg fl cfg i.data i.gdq = medianInteg fl cfg j.data j.gdq := by
  have hl : List.zipWith (fun (x : Option α) q => if hasB q fl.dnu then none else x.map fun d => d / cfg.groupTime) i.data j.gdq
      = List.zipWith (fun (x : Option α) q => if hasB q fl.dnu then none else x.map fun d => d / cfg.groupTime) j.data j.gdq := by
    apply List.ext_getElem?
    intro k
    rw [List.getElem?_zipWith, List.getElem?_zipWith]
    cases hg : j.gdq[k]? with
    | none => cases i.data[k]? <;> cases j.data[k]? <;> rfl
    | some w =>
      have hw : i.gdq.getD k 0 = w := by rw [h.gdq, List.getD_eq_getElem?_getD, hg]; rfl
      by_cases hs : hasB w fl.dnu = true
      · have : i.data[k]?.isSome = j.data[k]?.isSome := by
          rw [Bool.eq_iff_iff, isSome_getElem?, isSome_getElem?, h.len]
        cases h1 : i.data[k]? <;> cases h2 : j.data[k]? <;> simp_all
      · rw [h.data k (by rw [hw]; simpa using hs)]
  simp only [medianInteg, h.gdq, hl]

theorem us_medianRate (fl : Flags) (cfg : Cfg α) (ng : Nat) (hng : ng ≠ 1) (l m : List (Integ α))
    (h : List.Forall₂ (UsInt fl) l m) : medianRate fl cfg ng l = medianRate fl cfg ng m := by
  simp only [medianRate, if_neg hng, h.length_eq]
  congr 3
  induction h with
  | nil => rfl
  | cons hab _ ih =>
    rw [List.map_cons, List.map_cons, ih]
    congr 1
    rw [← hab.is0, ← hab.isZ, us_medianInteg fl cfg _ _ hab]
    split
    · rename_i h0
      rw [hab.data 0 (by rw [hab.first (Or.inl h0)]; simp [hasB])]
    split
    · rename_i h0
      rw [hab.data 0 (by rw [hab.first (Or.inr h0)]; simp [hasB])]
    · rfl

theorem us_fitSeg (cfg : Cfg α) (px : Pix α) (med : Option α) (a b : Bool) (d d' : Nat → Option α) (s : Seg)
    (hs : s.start < s.stop) (h : ∀ k, s.start ≤ k → k < s.stop → d k = d' k) :
    fitSeg cfg px med a b d s = fitSeg cfg px med a b d' s := by
  have hl : s.len = s.stop - s.start := rfl
  simp only [fitSeg]
  split
  · rw [h s.start (by omega) (by omega)]
  split
  · rw [h s.start (by omega) (by omega), h (s.start + 1) (by omega) (by omega)]
  · rw [h s.start (by omega) (by omega), h (s.start + s.len - 1) (by omega) (by omega),
      wls_congr s.len s.start _ (y := fun k => (d (s.start + k)).getD 0) (y' := fun k => (d' (s.start + k)).getD 0)
        fun k hk => by rw [h (s.start + k) (by omega) (by omega)]]

theorem us_good (fl : Flags) (hp : UsFree fl.pers fl.dnu) (hj : UsFree fl.jump fl.dnu) (g : List Nat) (k : Nat)
    (h : GoodGroup fl.pers g k ∨ JumpOnly fl.pers fl.jump g k) : hasB (g.getD k 0) fl.dnu = false := by
  rw [← us_free]
  rintro b ⟨h1, h2⟩
  rcases h with ⟨hk, h⟩ | ⟨hk, h⟩
  · rw [List.getD_eq_getElem _ _ hk] at h1
    exact hp b ⟨h b h1, h2⟩
  · rw [List.getD_eq_getElem _ _ hk] at h1
    by_cases hb : fl.pers.testBit b = true
    · exact hp b ⟨hb, h2⟩
    · exact hj b ⟨(h b).1 ⟨h1, by simpa using hb⟩, h2⟩

theorem us_fitInteg (fl : Flags) (hp : UsFree fl.pers fl.dnu) (hj : UsFree fl.jump fl.dnu) (cfg : Cfg α) (px : Pix α)
    (med : Option α) (ng : Nat) (i j : Integ α) (h : UsInt fl i j) (dq : Nat) :
    fitInteg fl cfg px med ng i dq = fitInteg fl cfg px med ng j dq := by
  have hf : (fitSegs fl i.gdq).segs.map (fitSeg cfg px med i.is0th i.isZframe fun k => (i.data[k]?).join)
      = (fitSegs fl j.gdq).segs.map (fitSeg cfg px med j.is0th j.isZframe fun k => (j.data[k]?).join) := by
    rw [← h.gdq, ← h.is0, ← h.isZ]
    simp only [fitSegs]
    split
    · rfl
    · apply List.map_congr_left
      intro s hs
      obtain ⟨-, h1⟩ := C27_segments_sound fl i.gdq
      obtain ⟨h2, -, h3, h4, -⟩ := h1 s hs
      refine us_fitSeg cfg px med _ _ _ _ s h2 fun k hk hk' => ?_
      rw [h.data k]
      apply us_good fl hp hj
      rcases Nat.eq_or_lt_of_le hk with rfl | hk
      · exact h4.imp id fun x => x.1
      · exact Or.inl (h3 k hk hk')
  simp only [fitInteg, hf]
  rw [h.gdq, h.st]

/-- C152.  The OLS_C fit of a pixel with at least two groups takes nothing from samples flagged DO_NOT_USE or SATURATED (for flags
whose bits are distinct): whatever they hold, NaN included, every rateints entry and the rate are the same.  The zero frame counts
only for integrations without a good group. -/
theorem C152_ols (fl : Flags) (hp : UsFree fl.pers fl.dnu) (hj : UsFree fl.jump fl.dnu) (cfg : Cfg α) (ngroups : Nat)
    (hng : ngroups ≠ 1) (p p' : PixIn α) (hg : p.gainBad = p'.gainBad) (hx : p.px = p'.px) (hd : p.pixeldq = p'.pixeldq)
    (h : List.Forall₂ (UsSame fl cfg.suppress1g) p.ints p'.ints) :
    fitPixel fl cfg ngroups p = fitPixel fl cfg ngroups p' := by
  have hm : metaDq fl p = metaDq fl p' := by rw [metaDq, metaDq, hg, hd]
  have hload : List.Forall₂ (UsInt fl) (loadPixel fl cfg p) (loadPixel fl cfg p') := by
    simp only [loadPixel]
    exact List.forall₂_map_left_iff.2 (List.forall₂_map_right_iff.2 (h.imp fun _ _ hxy => us_load fl _ _ _ hxy))
  have hr : List.Forall₂ (fun a b : Integ α × (Rate α × Bool × Bool) × Option (Acc α) => a.1.st = b.1.st ∧ a.2 = b.2)
      (pixelInts fl cfg ngroups p) (pixelInts fl cfg ngroups p') := by
    simp only [pixelInts]
    rw [us_medianRate fl cfg ngroups hng _ _ hload, hm, hx]
    refine List.forall₂_map_left_iff.2 (List.forall₂_map_right_iff.2 (hload.imp fun i j hij => ?_))
    refine ⟨hij.st, ?_⟩
    simp only
    rw [us_fitInteg fl hp hj cfg p'.px _ ngroups i j hij, hij.st]
    simp only [postInteg, hij.st]
  simp only [fitPixel]
  have e1 := hr.length_eq
  have e2 := un_countP (fun r => r.2.1.2.1) (fun r => r.2.1.2.1) (fun b c hbc => by rw [hbc.2]) hr
  have e3 := un_countP (fun r => r.2.1.2.2) (fun r => r.2.1.2.2) (fun b c hbc => by rw [hbc.2]) hr
  have e4 := un_fold (fun acc r => acc ||| statBits fl r.1.st) (fun acc r => acc ||| statBits fl r.1.st)
    (fun s b c hbc => by rw [hbc.1]) hr (metaDq fl p')
  have e5 := un_filterMap id (fun r => r.2.2) (fun r => r.2.2) (fun b c hbc => by rw [hbc.2]; simp) hr
  have e6 := un_any (fun r => decide (0 < r.1.st.cntSat)) (fun r => decide (0 < r.1.st.cntSat)) (fun b c hbc => by rw [hbc.1]) hr
  have e7 : (pixelInts fl cfg ngroups p').map (fun r => r.2.1.1) = (pixelInts fl cfg ngroups p).map fun r => r.2.1.1 := by
    rw [← List.forall₂_eq_eq_eq, List.forall₂_map_left_iff, List.forall₂_map_right_iff]
    exact hr.flip.imp fun a b hab => by rw [hab.2]
  rw [List.map_id] at e5
  rw [hm, e1, e2, e3, e4, e5, e6, e7]

end

/-- A two-integration pixel; in the second integration the second group is DO_NOT_USE, the third SATURATED. -/
def usPix (a b : Option ℚ) : Ols.PixIn ℚ :=
  { gainBad := false, px := ⟨2, 3, 1⟩, pixeldq := 0
    ints := [([some 1, some 3, some 5, some 8], [0, 0, 0, 0], none), ([some 1, a, b, some 9], [0, 1, 2, 0], none)] }

/-- Exposure constants of the examples. -/
def usCfg : Ols.Cfg ℚ := ⟨1, 1 / 2, 1 / 3, false, id, fun _ _ => 1⟩

example : Ols.fitPixel ⟨1, 2, 4, 8, 16, 0⟩ usCfg 4 (usPix (some 2) (some 77))
    = Ols.fitPixel ⟨1, 2, 4, 8, 16, 0⟩ usCfg 4 (usPix none (some (-5)))
    ∧ (Ols.fitPixel ⟨1, 2, 4, 8, 16, 0⟩ usCfg 4 (usPix none none)).2.slope.isSome = true := by
  refine ⟨C152_ols _ ?_ ?_ _ _ (by decide) _ _ rfl rfl rfl ?_, by decide +kernel⟩
  · exact us_free.2 (by decide)
  · exact us_free.2 (by decide)
  · refine .cons ⟨rfl, rfl, fun _ _ _ _ _ => rfl, Or.inl rfl⟩ (.cons ⟨rfl, rfl, ?_, Or.inl rfl⟩ .nil)
    intro k w hk h1 h2
    match k with
    | 0 => rfl
    | 1 => obtain rfl : 1 = w := by simpa using hk
           exact absurd (us_free.1 h1) (by decide)
    | 2 => obtain rfl : 2 = w := by simpa using hk
           exact absurd (us_free.1 h2) (by decide)
    | 3 => rfl
    | k + 4 => simp at hk

/-- The pixel of `C152_one_group`: a good integration of one group and one with the given word and sample. -/
def usOne (w : Nat) (x : Option ℚ) : Ols.PixIn ℚ :=
  { gainBad := false, px := ⟨2, 3, 1⟩, pixeldq := 0, ints := [([some 10], [0], none), ([x], [w], none)] }

/-- Finding: with one group per integration the same does not hold.  The median rate (slope_fitter.c:2295-2311) is the mean of the
samples of all integrations, flagged or not: the value of a DO_NOT_USE sample changes the Poisson variance of the good integration and
of the rate, and a SATURATED one (which counts as NaN, in this respect always the same) leaves only the dark current. -/
theorem C152_one_group :
    (let f := fun p => (Ols.fitPixel ⟨1, 2, 4, 8, 16, 0⟩ usCfg 1 p)
     let good := fun p => ((f p).1[0]?.map fun r => (r.slope, r.varP), (f p).2.slope, (f p).2.varP)
     good (usOne 1 (some 10)) = (some (some 30, 93 / 2), some 30, 93 / 2)
      ∧ good (usOne 1 (some 50)) = (some (some 30, 273 / 2), some 30, 273 / 2)
      ∧ good (usOne 2 (some 10)) = (some (some 30, 3 / 2), some 30, 3 / 2)
      ∧ good (usOne 2 (some 50)) = good (usOne 2 (some 10)))
    ∧ List.Forall₂ (UsSame (α := ℚ) ⟨1, 2, 4, 8, 16, 0⟩ false) (usOne 1 (some 10)).ints (usOne 1 (some 50)).ints := by
  refine ⟨by decide +kernel, .cons ⟨rfl, rfl, fun _ _ _ _ _ => rfl, Or.inl rfl⟩ (.cons ⟨rfl, rfl, ?_, Or.inl rfl⟩ .nil)⟩
  intro k w hk h1 _
  match k with
  | 0 => obtain rfl : 1 = w := by simpa [usOne] using hk
         exact absurd (us_free.1 h1) (by decide)
  | k + 1 => simp at hk

/-! ## The jump step -/

section
open Verif.Jump Verif.JumpDriver
variable {α : Type} [Field α] [LinearOrder α]

/-- Spec: two exposures that are the same but for samples flagged DO_NOT_USE or SATURATED. -/
def UsExp (dnu sat : Nat) (e e' : Exposure α) : Prop :=
  e' = { e with data := e'.data }
  ∧ ∀ i g r c, (∀ b, ¬ ((e.gdq i g r c).testBit b = true ∧ (dnu.testBit b = true ∨ sat.testBit b = true))) →
      e.data i g r c = e'.data i g r c

theorem us_mask (p : Params α) (q : Nat) (x y : Option α) (h : q &&& (p.dnu ||| p.sat) = 0 → x = y) :
    maskData p q x = maskData p q y := by
  simp only [maskData]
  split
  · rfl
  · rename_i h0
    exact h (not_not.1 h0)

/-- What the two-point difference sees of two cubes. -/
def UsCube (p : Params α) (gdq : Cube Nat) (f f' : Cube (Option α)) : Prop :=
  ∀ i g r c, gdq i g r c &&& (p.dnu ||| p.sat) = 0 → f i g r c = f' i g r c

theorem us_diffs (p : Params α) (d : Dims) (gdq : Cube Nat) (f f' : Cube (Option α)) (h : UsCube p gdq f f') (r c : Nat) :
    diffs p d f gdq r c = diffs p d f' gdq r c := by
  simp only [diffs, pixel, List.zipWith_map, List.zipWith_self]
  apply List.map_congr_left
  intro i _
  have : List.zipWith (maskData p) ((List.range d.ng).map fun g => gdq i g r c) ((List.range d.ng).map fun g => f i g r c)
      = List.zipWith (maskData p) ((List.range d.ng).map fun g => gdq i g r c) ((List.range d.ng).map fun g => f' i g r c) := by
    rw [List.zipWith_map, List.zipWith_map, List.zipWith_self, List.zipWith_self]
    apply List.map_congr_left
    intro g _
    exact us_mask p _ _ _ (h i g r c)
  simp only [firstDiffs, this]

theorem us_detect (p : Params α) (sqrt : α → α) (clip : List (Option α) → List Bool) (s : Switch) (d : Dims)
    (rn : Nat → Nat → α) (gdq : Cube Nat) (f f' : Cube (Option α)) (h : UsCube p gdq f f') :
    detect p sqrt clip s d rn f gdq = detect p sqrt clip s d rn f' gdq := by
  have hd := us_diffs p d gdq f f' h
  simp only [detect]
  split
  · have hw : clipWords p clip s d f gdq = clipWords p clip s d f' gdq := by
      funext i g r c
      simp only [clipWords, hd]
    funext i g r c
    simp only [clipDetect, hw]
  split
  · funext i g r c
    have := hd r c
    simp only [diffs] at this
    simp only [singleDetect, singlePass, this]
  · funext i g r c
    simp only [iterDetect, hd]

theorem us_find (p : Params α) (sqrt : α → α) (clip : List (Option α) → List Bool) (s : Switch) (d : Dims)
    (rn : Nat → Nat → α) (gdq : Cube Nat) (f f' : Cube (Option α)) (h : UsCube p gdq f f') :
    (findCrs p sqrt clip s d rn f gdq).gdq = (findCrs p sqrt clip s d rn f' gdq).gdq
    ∧ (findCrs p sqrt clip s d rn f gdq).below = (findCrs p sqrt clip s d rn f' gdq).below
    ∧ (findCrs p sqrt clip s d rn f gdq).above = (findCrs p sqrt clip s d rn f' gdq).above
    ∧ (findCrs p sqrt clip s d rn f gdq).count = (findCrs p sqrt clip s d rn f' gdq).count := by
  have hd := us_diffs p d gdq f f' h
  have hm : ∀ r c, medDiff p d f gdq r c = medDiff p d f' gdq r c := fun r c => by simp only [medDiff, hd]
  have hn : ∀ w i g, neighborPlane p sqrt s d rn f gdq w i g = neighborPlane p sqrt s d rn f' gdq w i g := by
    intro w i g
    have : ratioPlane p sqrt d rn f gdq i (g - 1) = ratioPlane p sqrt d rn f' gdq i (g - 1) := by
      funext r c
      simp only [ratioPlane, hd, hm]
    simp only [neighborPlane, this]
  have ht : ∀ w, transient p d f gdq w = transient p d f' gdq w := by
    intro w
    funext i g r c
    simp only [transient, hd, hm]
  simp only [findCrs]
  split
  · exact ⟨rfl, rfl, rfl, rfl⟩
  · rw [us_detect p sqrt clip s d rn gdq f f' h]
    refine ⟨?_, ?_, ?_, rfl⟩
    · simp only [hn, ht]
    · simp only [hn]
    · simp only [hn]

theorem us_cube (p : Params α) (e e' : Exposure α) (h : UsExp p.dnu p.sat e e') :
    UsCube (stepParams p e) e.gdq (electrons e) (electrons e') := by
  obtain ⟨he, hu⟩ := h
  intro i g r c hw
  have : e.data i g r c = e'.data i g r c := by
    apply hu
    rintro b ⟨h1, h2⟩
    have h3 : (e.gdq i g r c &&& (p.dnu ||| p.sat)).testBit b = true := by
      rw [Nat.testBit_and, Nat.testBit_or, h1, Bool.true_and, Bool.or_eq_true]
      exact h2
    rw [show e.gdq i g r c &&& (p.dnu ||| p.sat) = 0 from hw, Nat.zero_testBit] at h3
    exact Bool.noConfusion h3
  rw [he]
  simp only [electrons, this]

theorem us_twoPoint (p : Params α) (sqrt : α → α) (clip : List (Option α) → List Bool) (s : Switch) (e e' : Exposure α)
    (h : UsExp p.dnu p.sat e e') (mc : List Char) (ncpu : Nat) :
    (twoPoint p sqrt clip s e mc ncpu).1 = (twoPoint p sqrt clip s e' mc ncpu).1
    ∧ (twoPoint p sqrt clip s e mc ncpu).2.1 = (twoPoint p sqrt clip s e' mc ncpu).2.1 := by
  obtain ⟨he, hu⟩ := h
  have hc := us_cube p e e' ⟨he, hu⟩
  have hp : stepParams p e' = stepParams p e := by rw [he]; rfl
  have hr : noiseElectrons e' = noiseElectrons e := by rw [he]; rfl
  have hd : e'.d = e.d := by rw [he]
  have hg : e'.gdq = e.gdq := by rw [he]
  simp only [twoPoint, hp, hr, hd, hg]
  split
  · obtain ⟨h1, -, -, h4⟩ := us_find (stepParams p e) sqrt clip { s with minGroups := 3 } e.d (noiseElectrons e) e.gdq _ _ hc
    simp only [h1, h4, and_self]
  · have hs : ∀ n k, (sliceFound (stepParams p e) sqrt clip s e.d (noiseElectrons e) (electrons e) e.gdq n k).gdq
          = (sliceFound (stepParams p e) sqrt clip s e.d (noiseElectrons e) (electrons e') e.gdq n k).gdq
        ∧ (sliceFound (stepParams p e) sqrt clip s e.d (noiseElectrons e) (electrons e) e.gdq n k).below
          = (sliceFound (stepParams p e) sqrt clip s e.d (noiseElectrons e) (electrons e') e.gdq n k).below
        ∧ (sliceFound (stepParams p e) sqrt clip s e.d (noiseElectrons e) (electrons e) e.gdq n k).above
          = (sliceFound (stepParams p e) sqrt clip s e.d (noiseElectrons e) (electrons e') e.gdq n k).above
        ∧ (sliceFound (stepParams p e) sqrt clip s e.d (noiseElectrons e) (electrons e) e.gdq n k).count
          = (sliceFound (stepParams p e) sqrt clip s e.d (noiseElectrons e) (electrons e') e.gdq n k).count := by
      intro n k
      exact us_find _ sqrt clip s _ _ _ _ _ fun i g r c hw => hc i g _ c hw
    simp only [multi, hs, and_self]

theorem us_maskedData (p : Params α) (sqrt : α → α) (clip : List (Option α) → List Bool) (s : Switch) (d : Dims)
    (rn : Nat → Nat → α) (gdq : Cube Nat) (f f' : Cube (Option α)) (h : UsCube p gdq f f') (hs : skips p s d gdq = false) :
    (findCrs p sqrt clip s d rn f gdq).data = (findCrs p sqrt clip s d rn f' gdq).data := by
  simp only [findCrs, hs, Bool.false_eq_true, if_false]
  funext i g r c
  exact us_mask p _ _ _ (h i g r c)

/-- C152.  The jump step takes nothing from samples flagged DO_NOT_USE or SATURATED, if the shower search is not asked for (then for
any number of processes, with or without snowballs), or if the step runs in one process and does not give up for lack of groups:
group DQ, pixel DQ, number of cosmic rays and number of extended events are the same whatever these samples hold.  (With showers and
several processes this fails: `C107_other_flags`.) -/
theorem C152_jump (p : Params α) (sqrt : α → α) (clip : List (Option α) → List Bool) (s : Switch) (env : Snowball.Env α)
    (det : Shower.Det α) (ask : JumpStep.Ask α) (e e' : Exposure α) (h : UsExp p.dnu p.sat e e') (maxCores : List Char) (ncpu : Nat)
    (hs : ask.showers = false ∨ (Slicing.computeNumCores maxCores e.d.nr ncpu = 1 ∧ 0 < e.d.ni
      ∧ ¬ JdTooFew p { s with minGroups := 3 } e.d e.gdq)) :
    JumpStep.step p sqrt clip s env det ask e maxCores ncpu = JumpStep.step p sqrt clip s env det ask e' maxCores ncpu := by
  obtain ⟨h1, h2⟩ := us_twoPoint p sqrt clip s e e' h maxCores ncpu
  have hd : e'.d = e.d := by rw [h.1]
  have hp : JumpStep.stepPdq p ask e' = JumpStep.stepPdq p ask e := by rw [h.1]; rfl
  rcases hs with hs | ⟨hn, hi, hf⟩
  · simp only [JumpStep.step, h1, h2, hd, hp, hs, Bool.false_eq_true, if_false]
  · have h3 : (twoPoint p sqrt clip s e maxCores ncpu).2.2 = (twoPoint p sqrt clip s e' maxCores ncpu).2.2 := by
      have hp : stepParams p e' = stepParams p e := by rw [h.1]; rfl
      have hr : noiseElectrons e' = noiseElectrons e := by rw [h.1]; rfl
      have hg : e'.gdq = e.gdq := by rw [h.1]
      simp only [twoPoint, hp, hr, hd, hg, hn, if_true]
      refine us_maskedData _ sqrt clip _ _ _ _ _ _ (us_cube p e e' h) ?_
      rw [← Bool.not_eq_true, jd_skips _ _ _ _ hi]
      exact hf
    have hr : JumpStep.showerNoise e' = JumpStep.showerNoise e := by rw [h.1]; rfl
    simp only [JumpStep.step, h1, h2, h3, hd, hp, hr]

end

/-- The exposure `jsExp 1` with NaN in the flagged sample. -/
def usExp : JumpDriver.Exposure ℚ :=
  let e := jsExp 1
  { e with data := fun i g r c => if g = 8 ∧ r = 0 ∧ c = 0 then none else e.data i g r c }

-- C152_jump: a flagged sample with another value, with showers and one process
example : UsExp exJump.dnu exJump.sat (jsExp 1) usExp
    ∧ Slicing.computeNumCores "none".toList (jsExp 1).d.nr 8 = 1 ∧ 0 < (jsExp 1).d.ni
    ∧ ¬ JdTooFew exJump { jsSw with minGroups := 3 } (jsExp 1).d (jsExp 1).gdq
    ∧ (JumpStep.step exJump id jdClipRule jsSw swEnv jsDet jsAsk (jsExp 1) "none".toList 8).isSome := by
  refine ⟨⟨rfl, fun i g r c h => ?_⟩, by decide +kernel, by decide, by decide +kernel, by decide +kernel⟩
  simp only [usExp]
  split
  · rename_i h0
    exfalso
    apply h 0
    simp only [jsExp, if_pos h0]
    decide
  · rfl

/-! ## The Casertano fit -/

section
open Verif.Cas22 Verif.Cas22Driver
variable {α : Type*} [Field α] [LinearOrder α]

theorem us_idx (r : Ramp) (i : Nat) (h : i ∈ r.idx) : r.start ≤ i ∧ i ≤ r.stop := by
  simp only [Ramp.idx, List.mem_range'_1] at h
  omega

theorem us_fitRamp (cfg : Cfg α) (p : Pix α) (res : Nat → α) (r : Ramp) (hr : r.start ≤ r.stop)
    (h : ∀ i, r.start ≤ i → i ≤ r.stop → p.res i = res i) : fitRamp cfg p r = fitRamp cfg { p with res := res } r := by
  have hw : weight cfg p r = weight cfg { p with res := res } r := by
    funext i
    simp only [weight, rampPower, h r.start le_rfl hr, h r.stop hr le_rfl]
  have hf : ∀ (c : Nat → α) (l : List Nat) (a : Fit α × α), (∀ i ∈ l, r.start ≤ i ∧ i ≤ r.stop) →
      l.foldl (fitStep p c) a = l.foldl (fitStep { p with res := res } c) a := by
    intro c l
    induction l with
    | nil => intro a _; rfl
    | cons i l ih =>
      intro a hl
      rw [List.foldl_cons, List.foldl_cons, ih _ fun j hj => hl j (List.mem_cons_of_mem _ hj)]
      congr 1
      obtain ⟨h1, h2⟩ := hl i List.mem_cons_self
      simp only [fitStep, h i h1 h2]
  simp only [fitRamp, hw]
  split
  · rfl
  split
  · rfl
  · rw [hf _ _ _ (us_idx r)]

theorem us_maxStep (f f' : Nat → Ext α) (l : List Nat) (h : ∀ k ∈ l, f k = f' k) (a : Nat × Ext α) :
    l.foldl (maxStep f) a = l.foldl (maxStep f') a := by
  induction l generalizing a with
  | nil => rfl
  | cons k l ih =>
    rw [List.foldl_cons, List.foldl_cons, ih fun j hj => h j (List.mem_cons_of_mem _ hj)]
    congr 1
    simp only [maxStep, h k List.mem_cons_self]

theorem us_detectRamp (cfg : Cfg α) (p : Pix α) (res : Nat → α) (r : Ramp) (hr : r.start ≤ r.stop)
    (h : ∀ i, r.start ≤ i → i ≤ r.stop → p.res i = res i) : detect cfg p r = detect cfg { p with res := res } r := by
  have hs : ∀ slope, fitStatistic cfg p r slope = fitStatistic cfg { p with res := res } r slope := by
    intro slope
    simp only [fitStatistic]
    split
    · rfl
    · rename_i hne
      have e1 : stat cfg p r slope (r.stop - 1) 1 = stat cfg { p with res := res } r slope (r.stop - 1) 1 := by
        simp only [stat, h (r.stop - 1) (by omega) (by omega), h (r.stop - 1 + 1) (by omega) (by omega)]
      rw [e1]
      apply us_maxStep
      intro k hk
      rw [List.mem_range] at hk
      simp only [stat2, stat, h (r.start + k) (by omega) (by omega), h (r.start + k + 1) (by omega) (by omega),
        h (r.start + k + 2) (by omega) (by omega)]
  simp only [detect, us_fitRamp cfg p res r hr h, hs]

theorem us_run (det det' : Ramp → Option Nat) (hdet : DetOk det) (dq : Nat → Nat) (n : Nat)
    (h : ∀ r, r.start ≤ r.stop → r.stop < n → (∀ i, r.start ≤ i → i ≤ r.stop → dq i = 0) → det r = det' r) (fuel : Nat) (s : Loop)
    (hs : LoopInv dq n s) : runLoop det fuel s = runLoop det' fuel s := by
  induction fuel generalizing s with
  | zero =>
    obtain ⟨st, d, done⟩ := s
    cases st <;> rfl
  | succ fuel ih =>
    obtain ⟨st, d, done⟩ := s
    cases st with
    | nil => rfl
    | cons r rest =>
      have hr : det r = det' r := by
        refine h r (hs.valid r (by simp)).1 (hs.valid r (by simp)).2 fun i h1 h2 => ?_
        by_contra hi
        exact (hs.flagged i hi).2 r (by simp) ⟨h1, h2⟩
      have hb : loopBody det d done r rest = loopBody det' d done r rest := by simp only [loopBody, hr]
      rw [runLoop, runLoop, ← hb]
      exact ih _ (loopInv_body det hdet dq n r rest d done hs)

theorem us_init (dq : Nat → Nat) (n : Nat) : LoopInv dq n ⟨(initRamps dq n).reverse, dq, []⟩ := by
  obtain ⟨h1, h2, h3⟩ := C35_ramps_are_maximal_runs dq n
  constructor
  · intro r hr
    simp only [List.nil_append, List.mem_reverse] at hr
    exact ⟨((h1 r).1 hr).1, ((h1 r).1 hr).2.1⟩
  · simp only [List.nil_append, List.pairwise_reverse]
    exact h2.imp fun h => Or.inr (by omega)
  · intro i hi
    refine ⟨rfl, fun r hr hc => ?_⟩
    simp only [List.nil_append, List.mem_reverse] at hr
    exact hi (((h1 r).1 hr).2.2.1 i hc.1 hc.2)
  · intro i hi hz
    obtain ⟨r, ⟨hr, hc⟩, -⟩ := h3 i hi hz
    exact Or.inl ⟨hz, r, by simpa using hr, hc⟩
  · intro i _; rfl

theorem us_pixel (cfg : Cfg α) (p : Pix α) (res : Nat → α) (dq : Nat → Nat) (n : Nat)
    (h : ∀ i, i < n → dq i = 0 → p.res i = res i) (fuel : Nat) (hf : n + 1 ≤ fuel) :
    Cas22.fitPixel cfg p dq n fuel = Cas22.fitPixel cfg { p with res := res } dq n fuel := by
  obtain ⟨s, h1, -, h3, h4, -, -⟩ := C36_loop (detect cfg p) (detect_ok cfg p) dq n
  have hr := us_run (detect cfg p) (detect cfg { p with res := res }) (detect_ok cfg p) dq n
    (fun r hr hn hz => us_detectRamp cfg p res r hr fun i a b => h i (by omega) (hz i a b)) fuel _ (us_init dq n)
  rw [Cas22.fitPixel, Cas22.fitPixel, ← hr, h1 fuel hf, Option.map_some, Option.map_some]
  congr 4
  apply List.map_congr_left
  intro r hr
  refine us_fitRamp cfg p res r (h3 r hr).1 fun i a b => h i (by have := (h3 r hr).2; omega) ?_
  by_contra hz
  exact (h4 i hz).2 r hr ⟨a, b⟩

/-- C152.  The Casertano fit takes nothing from resultants with a flag: two exposures that differ only in such resultants get the same
slopes, variances and DQ in every pixel, whatever the uninitialised arrays hold. -/
theorem C152_casertano (cfg : Cfg α) (readTime : α) (pattern : List (List α)) (npix : Nat) (res res' : Nat → Nat → α)
    (dq : Nat → Nat → Nat) (rn : Nat → α) (f0 f0' : Fixed α) (s0 s0' : Scratch α)
    (h : ∀ k i, k < npix → i < pattern.length → dq k i = 0 → res k i = res' k i) :
    fitRamps cfg readTime pattern pattern.length npix res dq rn f0 s0
      = fitRamps cfg readTime pattern pattern.length npix res' dq rn f0' s0' := by
  obtain ⟨o, e1, l1, h1⟩ := C103_every_pixel cfg readTime pattern npix res dq rn f0 s0
  obtain ⟨o', e2, l2, h2⟩ := C103_every_pixel cfg readTime pattern npix res' dq rn f0' s0'
  rw [e1, e2]
  congr 1
  apply List.ext_getElem?
  intro k
  by_cases hk : k < npix
  · obtain ⟨d, r, a, g1, g2⟩ := h1 k hk
    obtain ⟨d', r', a', g1', g2'⟩ := h2 k hk
    have := us_pixel cfg (pixelOf readTime pattern res rn k) (res' k) (dq k) pattern.length (fun i hi hz => h k i hk hi hz)
      (pattern.length + 1) le_rfl
    have e : ({ pixelOf readTime pattern res rn k with res := res' k } : Pix α) = pixelOf readTime pattern res' rn k := rfl
    rw [e, g1, g1', Option.some.injEq, Prod.mk.injEq, Prod.mk.injEq] at this
    obtain ⟨rfl, rfl, rfl⟩ := this
    rw [g2, g2']
  · rw [List.getElem?_eq_none (by omega), List.getElem?_eq_none (by omega)]

/-- C152, `fit_ramps_casertano`: parameters, variances and DQ of the whole exposure, with or without a unit. -/
theorem C152_casertano_whole (cfg : Cas22.Cfg α) (readTime : α) (pattern : List (List α)) (n : Nat) (shape : List Nat)
    (res res' : Nat → α) (dq : Nat → Nat) (noise : Noise α) (unit : Option α) (f0 f0' : Fixed α) (s0 s0' : Scratch α)
    (h : ∀ m, m < n * shape.prod → dq m = 0 → res m = res' m) :
    casertano cfg readTime pattern n shape res dq noise unit f0 s0 = casertano cfg readTime pattern n shape res' dq noise unit f0' s0' := by
  have hk : ∀ (v v' : Nat → α) (rn : Nat → α), (∀ m, m < n * shape.prod → dq m = 0 → v m = v' m) →
      fitRamps cfg readTime pattern n shape.prod (fun k i => v (i * shape.prod + k)) (fun k i => dq (i * shape.prod + k)) rn f0 s0
      = fitRamps cfg readTime pattern n shape.prod (fun k i => v' (i * shape.prod + k)) (fun k i => dq (i * shape.prod + k)) rn f0' s0' := by
    intro v v' rn hv
    by_cases hn : n = pattern.length
    · subst hn
      refine C152_casertano cfg readTime pattern shape.prod _ _ _ rn f0 f0' s0 s0' fun k i hk hi hz => hv _ ?_ hz
      calc i * shape.prod + k < i * shape.prod + shape.prod := by omega
        _ = (i + 1) * shape.prod := by ring
        _ ≤ _ := Nat.mul_le_mul_right _ hi
    · simp only [fitRamps, ne_eq, hn, not_false_eq_true, if_true]
  simp only [casertano]
  split
  · rfl
  split
  · rfl
  · rename_i rn _
    cases unit with
    | none => simp only [hk res res' rn h]
    | some u => simp only [hk (fun i => res i * u) (fun i => res' i * u) rn fun m hm hz => by simp only [h m hm hz]]

end

-- C152_casertano: a flagged resultant with another value
example : (∀ m, m < 4 * [2].prod → cdDq m = 0 → cdRes m = if m = 4 then 0 else cdRes m)
    ∧ cdRes 4 ≠ 0 ∧ (Cas22Driver.casertano (cas22Cfg true) 3 cdPattern 4 [2] cdRes cdDq (.line 2 fun _ => 2) none (fun _ _ _ => none)
      fun _ _ _ => none).map (fun o => o.par[1]?) = some (some 2) := by
  refine ⟨fun m _ h => ?_, by decide +kernel, by decide +kernel⟩
  split
  · rename_i h0
    subst h0
    exact absurd h (by decide)
  · rfl

end Verif.Thm
