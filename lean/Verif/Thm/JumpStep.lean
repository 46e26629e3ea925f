import Verif.Proof.JumpStep
import Verif.Thm.JumpDriver
import Verif.Thm.Snowball
import Verif.Thm.Shower

/-!
# C107: the jump step as a whole

Property theorems for `detect_jumps_data` with the snowball step and the shower search.
-/

namespace Verif.Thm

open Verif Verif.Jump Verif.JumpStep
open Verif.JumpDriver (Cube Exposure Switch Dims twoPoint electrons findCrs stepParams noiseElectrons)
open Verif.Snowball (Ellipse Env Cube4 flagLargeEvents)
open Verif.Shower (Det)

set_option linter.unusedSectionVars false

section

variable {α : Type} [Field α] [LinearOrder α] [IsStrictOrderedRing α]

theorem js_bit (u k : Nat) : Dq.Has u (2 ^ k) ↔ u.testBit k = true := by
  unfold Dq.Has
  rw [Nat.and_two_pow]
  cases u.testBit k <;> simp

theorem js_pow_and (a b : Nat) (h : a ≠ b) : 2 ^ a &&& 2 ^ b = 0 := by
  rw [Nat.and_two_pow, Nat.testBit_two_pow]
  simp [h]

theorem js_both (w f g : Nat) : ¬ (Dq.Has w f ∧ Dq.Has w g) ↔ w &&& f = 0 ∨ w &&& g = 0 := by
  unfold Dq.Has
  tauto

theorem js_large_none (e : Env α) (hsat : e.sat ≠ 0) (hjs : e.jump &&& e.sat = 0) (ni ng nr nc : Nat) (a : Cube4) :
    large e ni ng nr nc a = none ↔ ng = 2 ∧ 1 ≤ ni := by
  rw [large, Option.map_eq_none_iff]
  constructor
  · intro h
    by_contra hn
    by_cases h2 : ng = 2
    · have h0 : ni = 0 := by
        by_contra h0
        exact hn ⟨h2, by omega⟩
      rw [h0] at h
      simp [flagLargeEvents, Snowball.schedule, Snowball.flagLoop] at h
    · obtain ⟨o, ho, _⟩ := C69_large_events_partial e hsat hjs ni ng nr nc h2 a
      rw [ho] at h
      exact absurd h (by simp)
  · rintro ⟨rfl, h⟩
    exact C69_two_groups_fail e ni nr nc h a

theorem js_faint_word (e : Env α) (hjs : e.jump &&& e.sat = 0) (hdn : e.dnu ≠ 0) (det : Det α) (ni ng nr nc num : Nat) (x : α)
    (d : Nat → Nat → Nat → Nat → Option α) (rn : Img (Option α)) (pdq : Img Nat) (a : Cube4) (i g r c : Nat) :
    (faint e det ni ng nr nc num x d rn pdq a).1 i g r c = a i g r c ∨
      ((faint e det ni ng nr nc num x d rn pdq a).1 i g r c = a i g r c ||| e.jump ∧ a i g r c &&& e.sat ≠ e.sat) :=
  (C67_showers_bounded e hjs hdn ni ng nr nc 10 (Shower.countDnu e.dnu ni ng nr nc a) num x
    (Shower.showers e det ni ng nr nc d rn pdq a) d pdq a i r c).1 g

/-- With one process the search has made unusable samples NaN. -/
theorem js_data_one (p : Params α) (sqrt : α → α) (clip : List (Option α) → List Bool) (s : Switch) (e : Exposure α)
    (mc : List Char) (ncpu : Nat) (h1 : Slicing.computeNumCores mc e.d.nr ncpu = 1)
    (hsk : JumpDriver.skips (stepParams p e) { s with minGroups := 3 } e.d e.gdq = false) :
    (twoPoint p sqrt clip s e mc ncpu).2.2 = fun i g r c => maskData p (e.gdq i g r c) (electrons e i g r c) := by
  have : (findCrs (stepParams p e) sqrt clip { s with minGroups := 3 } e.d (noiseElectrons e) (electrons e) e.gdq).data
      = fun i g r c => maskData (stepParams p e) (e.gdq i g r c) (electrons e i g r c) := by
    rw [findCrs, if_neg (by rw [hsk]; simp)]
  rw [twoPoint]
  simp only [h1, if_true]
  rw [this]
  rfl

/-- Snowballs and showers after the two-point difference step `t`. -/
def jsAfter (p : Params α) (env : Env α) (det : Det α) (ask : Ask α) (e : Exposure α) (t : Cube Nat × Int × Cube (Option α)) :
    Option (Cube Nat × Img Nat × Int × Nat) :=
  (if ask.large then large env e.d.ni e.d.ng e.d.nr e.d.nc t.1 else some (t.1, 0)).map fun a =>
    ((if ask.showers then faint env det e.d.ni e.d.ng e.d.nr e.d.nc ask.num ask.expansion t.2.2 (showerNoise e)
        (stepPdq p ask e) a.1 else a).1, stepPdq p ask e, t.2.1,
      (if ask.showers then faint env det e.d.ni e.d.ng e.d.nr e.d.nc ask.num ask.expansion t.2.2 (showerNoise e)
        (stepPdq p ask e) a.1 else a).2)

theorem js_step (p : Params α) (sqrt : α → α) (clip : List (Option α) → List Bool) (s : Switch) (env : Env α) (det : Det α)
    (ask : Ask α) (e : Exposure α) (mc : List Char) (ncpu : Nat) : step p sqrt clip s env det ask e mc ncpu
      = jsAfter p { env with jump := p.jump, sat := p.sat, dnu := p.dnu } det ask e (twoPoint p sqrt clip s e mc ncpu) := rfl

/-- C107 (flags).  The step fails exactly if snowballs are asked for and there are two groups.  Otherwise, with any number of
processes: no bit other than JUMP_DET and SATURATED is set that was not set before; saturated samples stay saturated;
without snowballs every bit but JUMP_DET is as before, on every sample; without persistence flags no sample is both saturated
and a jump; a sample of the first group gets JUMP_DET only from a shower, and without snowballs and showers no extended event
is reported; and the pixel DQ gets DO_NOT_USE and NO_GAIN_VALUE exactly where the gain is missing or not positive. -/
theorem C107_flags (p : Params α) (sqrt : α → α) (clip : List (Option α) → List Bool) (s : Switch) (env : Env α) (det : Det α)
    (ask : Ask α) (e : Exposure α) (maxCores : List Char) (ncpu : Nat) (ja jb jc : Nat) (hf : FlagBits p ja jb jc)
    (hn : 1 ≤ Slicing.computeNumCores maxCores e.d.nr ncpu)
    (hle : Slicing.computeNumCores maxCores e.d.nr ncpu ≤ e.d.nr) :
    (step p sqrt clip s env det ask e maxCores ncpu = none ↔ ask.large = true ∧ e.d.ng = 2 ∧ 1 ≤ e.d.ni) ∧
    ∀ o, step p sqrt clip s env det ask e maxCores ncpu = some o →
      (∀ i < e.d.ni, ∀ g < e.d.ng, ∀ r < e.d.nr, ∀ c < e.d.nc,
        (∀ k, (o.1 i g r c).testBit k = true → (e.gdq i g r c).testBit k = true ∨ k = ja ∨ k = jc) ∧
        (Dq.Has (e.gdq i g r c) p.sat → Dq.Has (o.1 i g r c) p.sat) ∧
        (ask.large = false → ∀ k, k ≠ ja → (o.1 i g r c).testBit k = (e.gdq i g r c).testBit k) ∧
        (env.maskPersist = false → ¬ (Dq.Has (o.1 i g r c) p.jump ∧ Dq.Has (o.1 i g r c) p.sat)) ∧
        (ask.showers = false → g = 0 → Dq.Has (o.1 i g r c) p.jump → Dq.Has (e.gdq i g r c) p.jump)) ∧
      (∀ r c, o.2.1 r c = if ∃ g, e.gain r c = some g ∧ 0 < g then e.pdq r c else e.pdq r c ||| (ask.ngv ||| p.dnu)) ∧
      (ask.large = false → ask.showers = false → o.2.2.2 = 0) := by
  have hall := fun i g r c => C98_step p sqrt clip s e maxCores ncpu ja jb jc hf hn hle i g r c
  obtain ⟨hj, hd, hs, hab, hac⟩ := hf
  set env' : Env α := { env with jump := p.jump, sat := p.sat, dnu := p.dnu } with henv
  have hjs : env'.jump &&& env'.sat = 0 := by
    change p.jump &&& p.sat = 0
    rw [hj, hs]; exact js_pow_and _ _ hac
  have hsat : env'.sat ≠ 0 := by change p.sat ≠ 0; rw [hs]; positivity
  have hdn : env'.dnu ≠ 0 := by change p.dnu ≠ 0; rw [hd]; positivity
  set t := twoPoint p sqrt clip s e maxCores ncpu with ht
  have hej : env'.jump = p.jump := rfl
  have hes : env'.sat = p.sat := rfl
  have hem : env'.maskPersist = env.maskPersist := rfl
  rw [js_step, ← henv, ← ht]
  clear_value env' t
  rw [jsAfter]
  refine ⟨?_, ?_⟩
  · rw [Option.map_eq_none_iff]
    by_cases hl : ask.large = true
    · rw [if_pos hl, js_large_none env' hsat hjs]
      simp [hl]
    · rw [if_neg hl]
      simp [hl]
  intro o ho
  rw [Option.map_eq_some_iff] at ho
  obtain ⟨a, ha, rfl⟩ := ho
  -- the snowball step
  have key : ∀ i < e.d.ni, ∀ g < e.d.ng, ∀ r < e.d.nr, ∀ c < e.d.nc,
      (∀ k, (a.1 i g r c).testBit k = true → (e.gdq i g r c).testBit k = true ∨ k = ja ∨ k = jc) ∧
      (Dq.Has (e.gdq i g r c) p.sat → Dq.Has (a.1 i g r c) p.sat) ∧
      (ask.large = false → ∀ k, k ≠ ja → (a.1 i g r c).testBit k = (e.gdq i g r c).testBit k) ∧
      (env.maskPersist = false → a.1 i g r c &&& p.jump = 0 ∨ a.1 i g r c &&& p.sat = 0) ∧
      (g = 0 → Dq.Has (a.1 i g r c) p.jump → Dq.Has (e.gdq i g r c) p.jump) := by
    intro i hi g hg r hr c hc
    obtain ⟨b1, b2, b3⟩ := hall i g r c hi hg hr hc
    have hts : Dq.Has (e.gdq i g r c) p.sat ↔ Dq.Has (t.1 i g r c) p.sat := by
      rw [hs, js_bit, js_bit, b1 jc (Ne.symm hac)]
    have htn : t.1 i g r c &&& p.jump = 0 ∨ t.1 i g r c &&& p.sat = 0 := by
      exact (js_both _ _ _).mp fun hh => (b2 hh.1).2 (hts.mpr hh.2)
    by_cases hl : ask.large = true
    · rw [if_pos hl] at ha
      have h2 : e.d.ng ≠ 2 := by
        intro h2
        have := (js_large_none env' hsat hjs e.d.ni e.d.ng e.d.nr e.d.nc t.1).mpr ⟨h2, by omega⟩
        rw [ha] at this
        exact absurd this (by simp)
      obtain ⟨o', ho', hw⟩ := C69_large_events_partial env' hsat hjs e.d.ni e.d.ng e.d.nr e.d.nc h2 t.1
      have ha' : a.1 = o' := by
        rw [large, ho'] at ha
        simp only [Option.map_some, Option.some.injEq] at ha
        rw [← ha]
      obtain ⟨w1, w2, w3⟩ := hw i g r c
      rw [← ha'] at w1 w2 w3
      refine ⟨?_, ?_, ?_, ?_, ?_⟩
      · intro k hk
        by_cases hka : k = ja
        · exact Or.inr (Or.inl hka)
        rcases w2 k hk with h | h | h
        · left; rw [← b1 k hka]; exact h
        · rw [hej, hj, Nat.testBit_two_pow] at h
          simp only [decide_eq_true_eq] at h
          omega
        · rw [hes, hs, Nat.testBit_two_pow] at h
          simp only [decide_eq_true_eq] at h
          omega
      · intro h
        rw [hes] at w1
        exact w1 (hts.mp h)
      · intro h
        rw [hl] at h
        exact absurd h (by simp)
      · intro hp
        refine large_word env' hjs (hem.trans hp) (fun w => w &&& p.jump = 0 ∨ w &&& p.sat = 0) ?_ ?_ e.d.ni e.d.ng e.d.nr e.d.nc t.1 a
          ha i g r c htn
        · left
          rw [Nat.and_comm, ← hej]; exact hjs
        · intro w _ hns
          right
          rw [← hes, Nat.and_or_distrib_right, hjs, Nat.or_zero]
          rw [hes, hs, Nat.and_two_pow] at hns ⊢
          cases hb : w.testBit jc
          · simp
          · rw [hb] at hns; simp at hns
      · intro h0 h
        rw [w3 h0] at h
        by_contra hno
        have := b3 h hno
        omega
    · rw [if_neg hl] at ha
      simp only [Option.some.injEq] at ha
      rw [← ha]
      refine ⟨?_, hts.mp, fun _ => b1, fun _ => htn, ?_⟩
      · intro k hk
        by_cases hka : k = ja
        · exact Or.inr (Or.inl hka)
        · left; rw [← b1 k hka]; exact hk
      · intro h0 h
        by_contra hno
        have := b3 h hno
        omega
  refine ⟨?_, ?_, ?_⟩
  · intro i hi g hg r hr c hc
    obtain ⟨k1, k2, k3, k4, k5⟩ := key i hi g hg r hr c hc
    by_cases hsh : ask.showers = true
    · simp only [if_pos hsh]
      have hw := js_faint_word env' hjs hdn det e.d.ni e.d.ng e.d.nr e.d.nc ask.num ask.expansion t.2.2 (showerNoise e)
        (stepPdq p ask e) a.1 i g r c
      generalize (faint env' det e.d.ni e.d.ng e.d.nr e.d.nc ask.num ask.expansion t.2.2 (showerNoise e)
        (stepPdq p ask e) a.1).1 i g r c = w' at hw ⊢
      rw [hej, hes] at hw
      rcases hw with hw | ⟨hw, hns⟩
      · rw [hw]
        exact ⟨k1, k2, k3, fun h => (js_both _ _ _).mpr (k4 h), fun h => absurd h (by simp [hsh])⟩
      · rw [hw]
        refine ⟨?_, ?_, ?_, ?_, ?_⟩
        · intro k hk
          rw [Nat.testBit_or, Bool.or_eq_true, hj, Nat.testBit_two_pow] at hk
          rcases hk with hk | hk
          · exact k1 k hk
          · simp only [decide_eq_true_eq] at hk
            omega
        · intro h
          exact Dq.has_or_left.mpr (Or.inl (k2 h))
        · intro h k hk
          rw [Nat.testBit_or, k3 h k hk, hj, Nat.testBit_two_pow]
          simp [Ne.symm hk]
        · rintro _ ⟨_, h⟩
          rw [hs, js_bit, Nat.testBit_or, hj, Nat.testBit_two_pow] at h
          have hb : (a.1 i g r c).testBit jc = true := by simpa [hac] using h
          apply hns
          rw [hs, Nat.and_two_pow, hb]
          simp
        · intro h
          exact absurd h (by simp [hsh])
    · simp only [if_neg hsh]
      exact ⟨k1, k2, k3, fun h => (js_both _ _ _).mpr (k4 h), fun _ => k5⟩
  · intro r c
    change stepPdq p ask e r c = _
    simp only [stepPdq, Snowball.setupPdq]
    cases hg : e.gain r c with
    | none => simp
    | some x =>
      by_cases hx : x ≤ 0
      · simp [hx, not_lt.mpr hx]
      · simp [hx, not_le.mp hx]
  · intro hl hsh
    rw [if_neg (by simp [hl])] at ha
    simp only [Option.some.injEq] at ha
    simp [hsh, ← ha]

/-- Spec: the number of groups without a single usable sample. -/
def jsDead (dnu : Nat) (d : Dims) (gdq : Cube Nat) : Nat :=
  ((Finset.range d.ni ×ˢ Finset.range d.ng).filter fun q => ∀ r < d.nr, ∀ c < d.nc, gdq q.1 q.2 r c &&& dnu ≠ 0).card

theorem js_dead (dnu : Nat) (d : Dims) (gdq : Cube Nat) :
    Shower.countDnu dnu d.ni d.ng d.nr d.nc gdq = jsDead dnu d gdq := by
  have hs : ∀ n, ((Finset.range n ×ˢ Finset.range d.ng).filter fun q => ∀ r < d.nr, ∀ c < d.nc, gdq q.1 q.2 r c &&& dnu ≠ 0).card
      = ∑ i ∈ Finset.range n, ((Finset.range d.ng).filter fun g => ∀ r < d.nr, ∀ c < d.nc, gdq i g r c &&& dnu ≠ 0).card := by
    intro n
    simp only [Finset.card_filter, Finset.sum_product]
  rw [jsDead, hs, Shower.countDnu, ← List.sum_toFinset _ List.nodup_range]
  rw [show (List.range d.ni).toFinset = Finset.range d.ni by ext; simp]
  refine Finset.sum_congr rfl fun i _ => ?_
  rw [← List.toFinset_card_of_nodup (List.nodup_range.filter _)]
  congr 1
  ext g
  simp

/-- C107 (few differences).  If the exposure has fewer than ten usable differences - integrations times groups less one, less the
groups without a usable sample - then asking for showers changes nothing: the step returns what it returns without showers. -/
theorem C107_few (p : Params α) (sqrt : α → α) (clip : List (Option α) → List Bool) (s : Switch) (env : Env α) (det : Det α)
    (ask : Ask α) (e : Exposure α) (maxCores : List Char) (ncpu : Nat) (o : Cube Nat × Img Nat × Int × Nat)
    (ho : step p sqrt clip s env det { ask with showers := false } e maxCores ncpu = some o)
    (hl : ask.large = false ∨ o.2.2.2 = 0)
    (hfew : (e.d.ni : Int) * ((e.d.ng : Int) - 1) < 10 + jsDead p.dnu e.d o.1) :
    step p sqrt clip s env det { ask with showers := true } e maxCores ncpu = some o := by
  rw [js_step, jsAfter] at ho ⊢
  rw [Option.map_eq_some_iff] at ho ⊢
  obtain ⟨a, ha, rfl⟩ := ho
  refine ⟨a, ha, ?_⟩
  simp only [Bool.false_eq_true, if_false, if_true] at hl hfew ha ⊢
  have hc : (e.d.ni : Int) * ((e.d.ng : Int) - 1) - (Shower.countDnu p.dnu e.d.ni e.d.ng e.d.nr e.d.nc a.1 : Nat) < 10 := by
    rw [js_dead]; omega
  have h0 : a.2 = 0 := by
    rcases hl with hl | hl
    · rw [hl] at ha
      simp only [Bool.false_eq_true, if_false, Option.some.injEq] at ha
      rw [← ha]
    · exact hl
  simp only [faint, Shower.findFaint, Snowball.findFaintExtended]
  rw [if_pos hc, if_pos (by exact_mod_cast hc), h0]
  rfl

/-- Two runs of the step after two-point difference detection, one with unusable samples NaN. -/
theorem js_after_same (p : Params α) (env' : Env α) (det : Det α) (ask : Ask α) (e : Exposure α)
    (t t' : Cube Nat × Int × Cube (Option α)) (ja jb jc : Nat) (hf : FlagBits p ja jb jc) (hbc : jb ≠ jc)
    (hej : env'.jump = p.jump) (hes : env'.sat = p.sat) (hed : env'.dnu = p.dnu) (hem : env'.maskPersist = false)
    (hls' : Local e.d.nr e.d.nc env'.findSat) (hlj' : Local e.d.nr e.d.nc env'.findJump)
    (hw : ∀ i < e.d.ni, ∀ g < e.d.ng, ∀ r < e.d.nr, ∀ c < e.d.nc, ∀ k, (e.gdq i g r c).testBit k = true →
      k = ja ∨ k = jb ∨ k = jc)
    (hall : ∀ i g r c, i < e.d.ni → g < e.d.ng → r < e.d.nr → c < e.d.nc →
      (∀ k, k ≠ ja → (t.1 i g r c).testBit k = (e.gdq i g r c).testBit k) ∧
      (Dq.Has (t.1 i g r c) p.jump → ¬ Dq.Has (e.gdq i g r c) p.dnu ∧ ¬ Dq.Has (e.gdq i g r c) p.sat))
    (hsame : ∀ i < e.d.ni, ∀ g < e.d.ng, ∀ r < e.d.nr, ∀ c < e.d.nc, t.1 i g r c = t'.1 i g r c)
    (hcount : t.2.1 = t'.2.1) (hd1 : t.2.2 = electrons e)
    (hd2 : ∀ i g r c, t'.2.2 i g r c = maskData p (e.gdq i g r c) (electrons e i g r c)) :
    (jsAfter p env' det ask e t = none ↔ jsAfter p env' det ask e t' = none) ∧
    ∀ o o', jsAfter p env' det ask e t = some o → jsAfter p env' det ask e t' = some o' →
      (∀ i < e.d.ni, ∀ g < e.d.ng, ∀ r < e.d.nr, ∀ c < e.d.nc, o.1 i g r c = o'.1 i g r c) ∧
      o.2 = o'.2 := by
  obtain ⟨hj, hdn, hs, hab, hac⟩ := hf
  have hjs : env'.jump &&& env'.sat = 0 := by rw [hej, hes, hj, hs]; exact js_pow_and _ _ hac
  have hjd : env'.jump &&& env'.dnu = 0 := by rw [hej, hed, hj, hdn]; exact js_pow_and _ _ hab
  have hsd : env'.sat &&& env'.dnu = 0 := by rw [hes, hed, hs, hdn]; exact js_pow_and _ _ (Ne.symm hbc)
  have z1 : env'.jump ≠ 0 := by rw [hej, hj]; positivity
  have z2 : env'.sat ≠ 0 := by rw [hes, hs]; positivity
  have z3 : env'.dnu ≠ 0 := by rw [hed, hdn]; positivity
  rw [jsAfter, jsAfter]
  -- words before the snowball step
  have pt : ∀ i < e.d.ni, ∀ g < e.d.ng, ∀ r < e.d.nr, ∀ c < e.d.nc, Plain env' (t.1 i g r c) := by
    intro i hi g hg r hr c hc
    obtain ⟨b1, b2⟩ := hall i g r c hi hg hr hc
    constructor
    · intro k hk
      rw [hej, hes, hed, hj, hs, hdn]
      simp only [Nat.testBit_two_pow, decide_eq_true_eq]
      by_cases hka : k = ja
      · exact Or.inl hka.symm
      · rw [b1 k hka] at hk
        rcases hw i hi g hg r hr c hc k hk with h | h | h <;> omega
    · rw [hej, hes, ← js_both]
      rintro ⟨x1, x2⟩
      apply (b2 x1).2
      rw [hs, js_bit] at x2 ⊢
      rw [← b1 jc (Ne.symm hac)]; exact x2
  have mt : ∀ i < e.d.ni, ∀ g < e.d.ng, ∀ r < e.d.nr, ∀ c < e.d.nc, e.gdq i g r c &&& (p.dnu ||| p.sat) ≠ 0 →
      t.1 i g r c &&& (env'.sat ||| env'.dnu) ≠ 0 := by
    intro i hi g hg r hr c hc hx h0
    obtain ⟨b1, _⟩ := hall i g r c hi hg hr hc
    apply hx
    rw [hes, hed, Nat.and_or_distrib_left, Nat.or_eq_zero_iff, hs, hdn, Nat.and_two_pow, Nat.and_two_pow,
      b1 jc (Ne.symm hac), b1 jb (Ne.symm hab)] at h0
    rw [Nat.and_or_distrib_left, Nat.or_eq_zero_iff, hs, hdn, Nat.and_two_pow, Nat.and_two_pow]
    exact ⟨h0.2, h0.1⟩
  -- the snowball step in both runs
  have hrel : Option.Rel (fun x y => Same e.d.ni e.d.ng e.d.nr e.d.nc x.1 y.1 ∧ x.2 = y.2)
      (if ask.large then large env' e.d.ni e.d.ng e.d.nr e.d.nc t.1 else some (t.1, 0))
      (if ask.large then large env' e.d.ni e.d.ng e.d.nr e.d.nc t'.1 else some (t'.1, 0)) := by
    split
    · exact large_same env' hjs e.d.ni e.d.ng e.d.nr e.d.nc hls' hlj' _ _ hsame
    · exact Option.Rel.some ⟨hsame, rfl⟩
  have hword : ∀ a, (if ask.large then large env' e.d.ni e.d.ng e.d.nr e.d.nc t.1 else some (t.1, 0)) = some a →
      ∀ P : Nat → Prop, P env'.sat → (∀ w, P w → w &&& env'.sat ≠ env'.sat → P (w ||| env'.jump)) →
      ∀ i g r c, P (t.1 i g r c) → P (a.1 i g r c) := by
    intro a ha P q1 q2 i g r c hP
    split at ha
    · exact large_word env' hjs hem P q1 q2 _ _ _ _ _ a ha i g r c hP
    · simp only [Option.some.injEq] at ha
      rw [← ha]; exact hP
  generalize (if ask.large then large env' e.d.ni e.d.ng e.d.nr e.d.nc t.1 else some (t.1, 0)) = A at hrel hword ⊢
  generalize (if ask.large then large env' e.d.ni e.d.ng e.d.nr e.d.nc t'.1 else some (t'.1, 0)) = B at hrel ⊢
  cases hrel with
  | none => exact ⟨by simp only [Option.map_none], fun o o' ho => absurd ho (by simp)⟩
  | @some a b hab' =>
    obtain ⟨hg, he⟩ := hab'
    refine ⟨by simp, fun o o' ho ho' => ?_⟩
    simp only [Option.map_some, Option.some.injEq] at ho ho'
    subst ho ho'
    by_cases hsh : ask.showers = true
    · simp only [if_pos hsh]
      have hsd' : SameData env' e.d.ni e.d.ng e.d.nr e.d.nc a.1 t.2.2 t'.2.2 := by
        intro i hi g hg' r hr c hc
        rw [hd1, hd2]
        by_cases hx : e.gdq i g r c &&& (p.dnu ||| p.sat) ≠ 0
        · right
          refine plain_ignored env' ja jb jc (hej.trans hj) (hed.trans hdn) (hes.trans hs) hab hac hbc _ ?_ ?_
          · exact hword a rfl (Plain env') (plain_sat env' hjs)
              (fun w h1 h2 => plain_or env' jc (hes.trans hs) hjs w h1 h2) i g r c (pt i hi g hg' r hr c hc)
          · refine hword a rfl (fun w => w &&& (env'.sat ||| env'.dnu) ≠ 0) ?_ ?_ i g r c (mt i hi g hg' r hr c hc hx)
            · rw [Nat.and_or_distrib_left, Nat.and_self]
              intro h0
              exact z2 (Nat.or_eq_zero_iff.mp h0).1
            · intro w hw _ h0
              rw [Nat.and_or_distrib_right] at h0
              exact hw (Nat.or_eq_zero_iff.mp h0).1
        · left
          simp only [maskData, if_neg hx]
      obtain ⟨f1, f2⟩ := faint_same env' z1 z2 z3 hjs hjd hsd det e.d.ni e.d.ng e.d.nr e.d.nc ask.num ask.expansion t.2.2 t'.2.2
        (showerNoise e) (stepPdq p ask e) a.1 b.1 hg hsd'
      exact ⟨fun i hi g hg' r hr c hc => f1 i hi g hg' r hr c hc, by rw [f2, hcount]⟩
    · simp only [if_neg hsh]
      exact ⟨fun i hi g hg' r hr c hc => hg i hi g hg' r hr c hc, by rw [he, hcount]⟩

/-- C107 (processes).  If `minimum_groups` is 3, no group is unusable in a whole slice but usable elsewhere, there are enough
groups, no sigma clipping is used, there is no flagging before a jump (the conditions of `C99_step_partial`), input words have no
flags but JUMP_DET, SATURATED and DO_NOT_USE, snowballs leave no persistence flags, and regions are found from the pixels of
the detector, then the result of the whole step does not depend on `max_cores`. -/
theorem C107_processes_partial (p : Params α) (sqrt : α → α) (clip : List (Option α) → List Bool) (s : Switch) (env : Env α)
    (det : Det α) (ask : Ask α) (e : Exposure α) (maxCores : List Char) (ncpu : Nat) (ja jb jc : Nat)
    (hf : FlagBits p ja jb jc) (hbc : jb ≠ jc) (n : Nat)
    (hnc : Slicing.computeNumCores maxCores e.d.nr ncpu = n) (hn : 1 ≤ n) (hle : n ≤ e.d.nr) (h3 : s.minGroups = 3)
    (hd : JdNoDeadSlice p e.d e.gdq n) (hfew : ¬ JdTooFew p s e.d e.gdq) (hclip : ¬ JdClip p s e.d e.gdq)
    (hpost : s.flag4 = false ∨ (p.n1 = 0 ∧ p.n2 = 0)) (hcpu : 1 ≤ ncpu) (hi0 : 0 < e.d.ni)
    (hw : ∀ i < e.d.ni, ∀ g < e.d.ng, ∀ r < e.d.nr, ∀ c < e.d.nc, ∀ k, (e.gdq i g r c).testBit k = true →
      k = ja ∨ k = jb ∨ k = jc)
    (hp : env.maskPersist = false)
    (hls : ∀ x y : Img Nat, (∀ r < e.d.nr, ∀ c < e.d.nc, x r c = y r c) → env.findSat x = env.findSat y)
    (hlj : ∀ x y : Img Nat, (∀ r < e.d.nr, ∀ c < e.d.nc, x r c = y r c) → env.findJump x = env.findJump y) :
    (step p sqrt clip s env det ask e maxCores ncpu = none ↔
      step p sqrt clip s env det ask e "none".toList ncpu = none) ∧
    ∀ o o', step p sqrt clip s env det ask e maxCores ncpu = some o →
      step p sqrt clip s env det ask e "none".toList ncpu = some o' →
      (∀ i < e.d.ni, ∀ g < e.d.ng, ∀ r < e.d.nr, ∀ c < e.d.nc, o.1 i g r c = o'.1 i g r c) ∧
      o.2 = o'.2 := by
  obtain ⟨hsame, hcount⟩ := C99_step_partial p sqrt clip s e maxCores ncpu ja jb jc hf n hnc hn hle h3 hd hfew hclip hpost
    hcpu hi0
  have h1 : Slicing.computeNumCores "none".toList e.d.nr ncpu = 1 := by
    have : Slicing.computeNumCores "none".toList e.d.nr ncpu = min (min e.d.nr 1) ncpu := by
      unfold Slicing.computeNumCores
      rw [if_neg (by decide), if_pos (by decide)]
    omega
  by_cases hone : n = 1
  · have : twoPoint p sqrt clip s e maxCores ncpu = twoPoint p sqrt clip s e "none".toList ncpu := by
      rw [twoPoint, twoPoint, hnc, h1, hone]
    rw [js_step, js_step, this]
    refine ⟨Iff.rfl, fun o o' ho ho' => ?_⟩
    rw [ho] at ho'
    simp only [Option.some.injEq] at ho'
    subst ho'
    exact ⟨fun _ _ _ _ _ _ _ _ => rfl, rfl⟩
  have hsk : JumpDriver.skips (stepParams p e) { s with minGroups := 3 } e.d e.gdq = false := by
    have hs' : ({ s with minGroups := 3 } : Switch) = s := by rw [← h3]
    rw [hs', ← Bool.not_eq_true, jd_skips _ s e.d e.gdq hi0]
    exact hfew
  have hd1 : (twoPoint p sqrt clip s e maxCores ncpu).2.2 = electrons e := by
    simp only [twoPoint, hnc, hone, if_false]
  have hd2 : ∀ i g r c, (twoPoint p sqrt clip s e "none".toList ncpu).2.2 i g r c
      = maskData p (e.gdq i g r c) (electrons e i g r c) := by
    intro i g r c
    rw [js_data_one p sqrt clip s e "none".toList ncpu h1 hsk]
  rw [js_step, js_step]
  exact js_after_same p _ det ask e _ _ ja jb jc hf hbc rfl rfl rfl hp hls hlj hw
    (fun i g r c hi hg hr hc =>
      ⟨(C98_step p sqrt clip s e maxCores ncpu ja jb jc hf (by omega) (by omega) i g r c hi hg hr hc).1,
        (C98_step p sqrt clip s e maxCores ncpu ja jb jc hf (by omega) (by omega) i g r c hi hg hr hc).2.1⟩)
    hsame hcount hd1 hd2

/-- C107.  The shower search takes no flag away: whatever the step sets without it is set with it. -/
theorem C107_showers_add (p : Params α) (sqrt : α → α) (clip : List (Option α) → List Bool) (s : Switch) (env : Env α) (det : Det α)
    (ask : Ask α) (e : Exposure α) (maxCores : List Char) (ncpu : Nat) (ja jb jc : Nat) (hf : FlagBits p ja jb jc)
    (o : Cube Nat × Img Nat × Int × Nat) (ho : step p sqrt clip s env det { ask with showers := false } e maxCores ncpu = some o) :
    ∃ o', step p sqrt clip s env det { ask with showers := true } e maxCores ncpu = some o' ∧
      (∀ i g r c k, (o.1 i g r c).testBit k = true → (o'.1 i g r c).testBit k = true) ∧
      (∀ i g r c, Dq.Has (o.1 i g r c) p.sat → o'.1 i g r c = o.1 i g r c) ∧ o'.2.1 = o.2.1 ∧ o'.2.2.1 = o.2.2.1 := by
  obtain ⟨hj, hd, hs, hab, hac⟩ := hf
  set env' : Env α := { env with jump := p.jump, sat := p.sat, dnu := p.dnu } with henv
  have hjs : env'.jump &&& env'.sat = 0 := by
    change p.jump &&& p.sat = 0
    rw [hj, hs]; exact js_pow_and _ _ hac
  have hdn : env'.dnu ≠ 0 := by change p.dnu ≠ 0; rw [hd]; positivity
  rw [js_step, ← henv, jsAfter] at ho
  rw [js_step, ← henv, jsAfter]
  simp only [Bool.false_eq_true, if_false, if_true] at ho ⊢
  rw [Option.map_eq_some_iff] at ho
  obtain ⟨a, ha, rfl⟩ := ho
  simp only [ha, Option.map_some]
  refine ⟨_, rfl, ?_, ?_, rfl, rfl⟩
  · intro i g r c k hk
    rcases js_faint_word env' hjs hdn det e.d.ni e.d.ng e.d.nr e.d.nc ask.num ask.expansion
      (twoPoint p sqrt clip s e maxCores ncpu).2.2 (showerNoise e) (stepPdq p { ask with showers := true } e) a.1 i g r c with h | ⟨h, -⟩
    · simp only [h]
      exact hk
    · simp only [h, Nat.testBit_or, Bool.or_eq_true]
      exact Or.inl hk
  · intro i g r c hk
    rcases js_faint_word env' hjs hdn det e.d.ni e.d.ng e.d.nr e.d.nc ask.num ask.expansion
      (twoPoint p sqrt clip s e maxCores ncpu).2.2 (showerNoise e) (stepPdq p { ask with showers := true } e) a.1 i g r c with h | ⟨-, h⟩
    · exact h
    · refine absurd ?_ h
      have hk' : a.1 i g r c &&& p.sat ≠ 0 := hk
      show a.1 i g r c &&& p.sat = p.sat
      rw [hs, Nat.and_two_pow] at hk' ⊢
      cases hb : (a.1 i g r c).testBit jc with
      | false => rw [hb] at hk'; simp at hk'
      | true => simp

end

/-! Eleven groups of four pixels; straight ramps, but for one sample of the first pixel, which is flagged. -/

def jsDet : Det ℚ :=
  { swDet 1 with half := 0, kernel := fun _ _ => 1, findBig := fun m => if m 0 0 then [⟨0, 0, 1, 1, 0⟩] else [] }
def jsAsk : Ask ℚ := ⟨true, true, 0, 1, 16⟩
def jsExp (w : Nat) : Exposure ℚ :=
  ⟨⟨1, 11, 2, 2⟩, fun _ g r c => some ((g : ℚ) + if g = 8 ∧ r = 0 ∧ c = 0 then 1000 else 0),
    fun _ g r c => if g = 8 ∧ r = 0 ∧ c = 0 then w else 0, fun _ _ => some 1, fun _ _ => 1, fun _ _ => 0, 100, 1000⟩
def jsSw : Switch := ⟨3, 100, 200, true, false⟩
/-- Words of the first pixel in groups 7 to 10, and number of events. -/
def jsSeen (w : Nat) (mc : String) : Option (List Nat × Nat) :=
  (step exJump id jdClipRule jsSw swEnv jsDet jsAsk (jsExp w) mc.toList 8).map fun o =>
    ([7, 8, 9, 10].map fun g => o.1 0 g 0 0, o.2.2.2)

/-- Finding (jump.py:92-98, 112, 1218-1224; twopoint_difference.py:170).  The shower search ignores a sample only if its word is one of
five values.  A sample that is unusable and has one more flag (64) is ignored if there is one process, because its value has
become NaN; with two processes its value is used and a shower is found, which changes the group DQ and the number of events. -/
theorem C107_other_flags :
    jsSeen 65 "none" = some ([0, 65, 0, 0], 0) ∧ jsSeen 65 "2" = some ([0, 65, 4, 0], 1) ∧
    jsSeen 1 "none" = some ([0, 1, 0, 0], 0) ∧ jsSeen 1 "2" = some ([0, 1, 0, 0], 0) := by decide +kernel

-- C107_flags: also a pixel without gain, and a step that fails
example : FlagBits exJump 2 0 1 ∧ 1 ≤ Slicing.computeNumCores "2".toList (jsExp 65).d.nr 8 ∧
    Slicing.computeNumCores "2".toList (jsExp 65).d.nr 8 ≤ (jsExp 65).d.nr := by
  refine ⟨by unfold FlagBits; decide +kernel, by decide +kernel, by decide +kernel⟩
example : stepPdq exJump jsAsk { jsExp 0 with gain := fun r _ => if r = 0 then some 0 else none } 0 0 = 17 ∧
    (step exJump id jdClipRule jsSw swEnv jsDet jsAsk { jsExp 0 with d := ⟨1, 2, 2, 2⟩ } "none".toList 8).isNone := by
  decide +kernel

-- C107_few: nine differences
example : (step exJump id jdClipRule jsSw swEnv jsDet { jsAsk with showers := false } { jsExp 65 with d := ⟨1, 10, 2, 2⟩ } "2".toList 8).isSome ∧
    (({ jsExp 65 with d := ⟨1, 10, 2, 2⟩ } : Exposure ℚ).d.ni : Int) * (10 - 1) < 10 := by decide +kernel

-- C107_processes_partial
example : Slicing.computeNumCores "2".toList (jsExp 1).d.nr 8 = 2 ∧ jsSw.minGroups = 3 ∧
    ¬ JdTooFew exJump jsSw (jsExp 1).d (jsExp 1).gdq ∧ jsSw.flag4 = false ∧ swEnv.maskPersist = false := by decide +kernel
example : JdNoDeadSlice exJump (jsExp 1).d (jsExp 1).gdq 2 := by
  intro k _ i _ g _ h
  exact absurd (h 0 (by simp only [jdRows, jsExp]; split <;> omega) 1 (by decide)) (by simp [jsExp, Dq.Has])
example : ¬ JdClip exJump jsSw (jsExp 1).d (jsExp 1).gdq := by
  intro h
  have := h.2.1 rfl
  revert this
  decide
example : ∀ i g r c k, ((jsExp 1).gdq i g r c).testBit k = true → k = 2 ∨ k = 0 ∨ k = 1 := by
  intro i g r c k
  simp only [jsExp]
  split
  · intro h
    have := (Nat.testBit_two_pow (n := 0) (m := k)).symm.trans h
    simp only [decide_eq_true_eq] at this
    omega
  · simp
example : ∀ x y : Img Nat, (∀ r < 2, ∀ c < 2, x r c = y r c) →
    (if x 0 0 = 2 then [(⟨0, 0, 2, 2, 0⟩ : Ellipse ℚ)] else []) = if y 0 0 = 2 then [⟨0, 0, 2, 2, 0⟩] else [] := by
  intro x y h
  rw [h 0 (by omega) 0 (by omega)]

end Verif.Thm
