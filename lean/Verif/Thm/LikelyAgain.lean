import Verif.Thm.LikelyJump

/-! # Running the likelihood fit again on the flags it left (C141) -/

namespace Verif.Thm

open Verif Verif.Likely Verif.LikelyDriver

variable {α : Type} [Field α] [LinearOrder α] [IsStrictOrderedRing α]

/-- Specification: the fit dropped difference `i` as a jump: it could be used and was not. -/
def LaDropped (gdq : Nat → Nat) (use : Nat → Bool) (i : Nat) : Prop := diffs2use gdq i = true ∧ use i = false

theorem la_mod_or (d j : Nat) : (d ||| j) % 256 = 0 ↔ d % 256 = 0 ∧ j % 256 = 0 := by
  have e : (256 : Nat) = 2 ^ 8 := rfl
  have key : ∀ x : Nat, x % 256 = 0 ↔ ∀ i < 8, x.testBit i = false := by
    intro x
    constructor
    · intro h i hi
      have : (x % 2 ^ 8).testBit i = false := by rw [← e, h, Nat.zero_testBit]
      rw [Nat.testBit_mod_two_pow] at this
      simpa [hi] using this
    · intro h
      apply Nat.eq_of_testBit_eq
      intro i
      rw [e, Nat.testBit_mod_two_pow, Nat.zero_testBit]
      by_cases hi : i < 8
      · simp [h i hi]
      · simp [hi]
  rw [key, key, key]
  simp only [Nat.testBit_or, Bool.or_eq_false_iff]
  exact ⟨fun h => ⟨fun i hi => (h i hi).1, fun i hi => (h i hi).2⟩, fun h i hi => ⟨h.1 i hi, h.2 i hi⟩⟩

theorem la_dq (root : α → Nat → α) (n : Nat) (cv : Covar α) (c : Cfg α) (jump : Nat) (gdq : Nat → Nat)
    (diffs : Nat → Option α) :
    let p := pixelFitO root n cv c jump gdq diffs
    (∀ i, p.1 i = true → diffs2use gdq i = true) ∧ p.2.1 = flagJumps jump gdq (diffs2use gdq) p.1 := by
  intro p
  have hp : p = pixelFitO root n cv c jump gdq diffs := rfl
  unfold pixelFitO at hp
  split at hp
  · constructor
    · intro i hi
      rw [hp] at hi
      simp only [pixelFit] at hi
      rw [maskJumps_eq] at hi
      exact (passes_spec _ _ _ _ _ (search_maskedZero ..) _ _).1 i hi
    · rw [hp]; rfl
  · constructor
    · intro i hi; rw [hp] at hi; exact hi
    · rw [hp]
      funext g
      simp only [flagJumps, bne_self_eq_false, Bool.false_eq_true, if_false]
      split
      · rename_i h; rw [h]
      · rfl

/-- The differences a second fit starts from, given the group DQ the first one left: those the first fit ended with, except that
a difference whose predecessor was dropped as a jump is lost as well. -/
theorem C141_second_mask (root : α → Nat → α) (n : Nat) (cv : Covar α) (c : Cfg α) (jump : Nat) (hj : jump % 256 ≠ 0)
    (gdq : Nat → Nat) (diffs : Nat → Option α) (i : Nat) :
    let p := pixelFitO root n cv c jump gdq diffs
    diffs2use p.2.1 i = true ↔ p.1 i = true ∧ ¬ (0 < i ∧ LaDropped gdq p.1 (i - 1)) := by
  intro p
  obtain ⟨h1, h2⟩ := la_dq root n cv c jump gdq diffs
  change (∀ i, p.1 i = true → diffs2use gdq i = true) at h1
  change p.2.1 = flagJumps jump gdq (diffs2use gdq) p.1 at h2
  have key : ∀ g, (p.2.1 g) % 256 = 0 ↔ gdq g % 256 = 0 ∧ ¬ (0 < g ∧ LaDropped gdq p.1 (g - 1)) := by
    intro g
    rw [h2]
    unfold flagJumps LaDropped
    by_cases h0 : g = 0
    · subst h0; simp
    · rw [if_neg h0]
      have hs := h1 (g - 1)
      have hg : 0 < g := by omega
      cases e1 : diffs2use gdq (g - 1) <;> cases e2 : p.1 (g - 1)
      · simp
      · rw [e1] at hs; simp [e2] at hs
      · simp [la_mod_or, hj, hg]
      · simp
  have ku := key (i + 1)
  have kl := key i
  rw [Nat.add_sub_cancel] at ku
  unfold diffs2use
  rw [Bool.and_eq_true, decide_eq_true_iff, decide_eq_true_iff, ku, kl]
  constructor
  · rintro ⟨⟨a1, a2⟩, a3, a4⟩
    refine ⟨?_, a4⟩
    by_contra hc
    refine a2 ⟨by omega, ?_, by simpa using hc⟩
    unfold diffs2use
    simp [a1, a3]
  · rintro ⟨a1, a2⟩
    have := h1 i a1
    unfold diffs2use at this
    rw [Bool.and_eq_true, decide_eq_true_iff, decide_eq_true_iff] at this
    refine ⟨⟨this.1, ?_⟩, this.2, a2⟩
    rintro ⟨-, -, h⟩
    rw [a1] at h
    simp at h

/-- If nothing was dropped, fitting again changes nothing. -/
theorem C141_nothing_found (root : α → Nat → α) (n : Nat) (cv : Covar α) (c : Cfg α) (jump : Nat) (gdq : Nat → Nat)
    (diffs : Nat → Option α) (h : ∀ i, ¬ LaDropped gdq (pixelFitO root n cv c jump gdq diffs).1 i) :
    let p := pixelFitO root n cv c jump gdq diffs
    pixelFitO root n cv c jump p.2.1 diffs = p := by
  intro p
  obtain ⟨h1, h2⟩ := la_dq root n cv c jump gdq diffs
  change (∀ i, p.1 i = true → diffs2use gdq i = true) at h1
  change p.2.1 = flagJumps jump gdq (diffs2use gdq) p.1 at h2
  have hu : diffs2use gdq = p.1 := by
    funext i
    have a := h1 i
    have b := h i
    change ¬ LaDropped gdq p.1 i at b
    unfold LaDropped at b
    cases e1 : diffs2use gdq i <;> cases e2 : p.1 i <;> simp_all
  have hg : p.2.1 = gdq := by
    rw [h2, hu]
    funext g
    simp only [flagJumps, bne_self_eq_false, Bool.false_eq_true, if_false]
    split
    · rename_i h; rw [h]
    · rfl
  rw [hg]

/-- A ramp that is straight but for one jump (as in C131): the second fit, on the flags left by the first, finds the same rate
with chi-square zero and flags nothing more. -/
theorem C141_lone_jump {root : α → Nat → α} (hr : RootOk root) {n : Nat} {times : Nat → List α}
    (h : LkPattern n times) (c : Cfg α) (hc : LjCfg c) (jump : Nat) (hj : jump % 256 ≠ 0) (gdq : Nat → Nat) (diffs : Nat → α)
    (b : α) (k : Nat) (hl : LjLone n (diffs2use gdq) diffs b k)
    (hbig : ∀ x, c.t1 < lkChi2 n (diffs2use gdq) times (ljNoise n c diffs) diffs x)
    (hpair : LjPairs n (diffs2use gdq) times (ljNoise n c diffs)) :
    let p := pixelFit root n (covar times) c jump gdq diffs
    let p' := pixelFit root n (covar times) c jump p.2.1 diffs
    (∀ g ≤ n, p'.2.1 g = p.2.1 g) ∧ (∀ i < n, p'.1 i = true ↔ p.1 i = true ∧ i ≠ k + 1) ∧
      ∃ r r', p.2.2 = some r ∧ p'.2.2 = some r' ∧ r.countrate = b ∧ r'.countrate = b ∧ r'.chisq = 0 := by
  intro p p'
  obtain ⟨a1, a2, a3, r, a4, a5, -⟩ := C131_lone_jump hr h c hc jump gdq diffs b k hl hbig hpair
  change ∀ i, p.1 i = true ↔ _ at a1
  change p.2.1 (k + 1) = _ at a2
  change ∀ g, g ≠ k + 1 → p.2.1 g = gdq g at a3
  change p.2.2 = some r at a4
  have hmask : ∀ i, diffs2use p.2.1 i = true ↔ p.1 i = true ∧ i ≠ k + 1 := by
    intro i
    rw [a1 i]
    unfold diffs2use
    simp only [Bool.and_eq_true, decide_eq_true_iff]
    have hbad : p.2.1 (k + 1) % 256 ≠ 0 := by rw [a2]; intro e; exact hj ((la_mod_or _ _).1 e).2
    by_cases e1 : i = k
    · subst e1
      simp [hbad]
    · by_cases e2 : i = k + 1
      · subst e2
        simp [hbad]
      · rw [a3 (i + 1) (by omega), a3 i e2]
        simp [e1, e2]
  obtain ⟨hk, huk, -, hb, i1, hi1, i2, hi2, h12, h1k, h2k, hu1, hu2⟩ := hl
  obtain ⟨c1, c2, c3, c4, c5⟩ := hc
  have hb' : ∀ i < n, diffs2use p.2.1 i = true → diffs i = b := by
    intro i hi hu
    have := (hmask i).1 hu
    rw [a1 i] at this
    exact hb i hi this.1.1 this.1.2
  obtain ⟨b1, b2, b3, -⟩ := ld_pixel hr (by omega) h c c1 c2 c3 c4 (by linarith) jump p.2.1 diffs b hb'
  have hex : ∃ i < n, diffs2use p.2.1 i = true := by
    by_cases e : i1 = k + 1
    · exact ⟨i2, hi2, (hmask i2).2 ⟨(a1 i2).2 ⟨hu2, h2k⟩, by omega⟩⟩
    · exact ⟨i1, hi1, (hmask i1).2 ⟨(a1 i1).2 ⟨hu1, h1k⟩, e⟩⟩
  obtain ⟨r', e1, e2, e3, -⟩ := b3 hex
  refine ⟨b2, fun i hi => ?_, r, r', a4, e1, a5, e2, e3⟩
  rw [← hmask i, ← b1 i hi]

/-- The caller's group DQ after `likely_ramp_fit` (no zero frame) is the one left by the fit of the integration, so that a second
call starts from it. -/
theorem C141_caller_dq (root : α → Nat → α) (fl : Flags) (ng nframes : Nat) (times : List (List α)) (c : Cfg α)
    (pixeldq : Nat) (e : IntIn α) (g : Nat) :
    let cv := covar fun j => times.getD j []
    (fitInt root fl ng nframes false times c none pixeldq e).gdq g
      = (pixelFitO root (ng - 1) cv c fl.jump e.gdq (diffsOf cv e.data)).2.1 g := by
  intro cv
  simp only [fitInt, Bool.false_eq_true, if_false, add_zero, ld_fitE]
  obtain ⟨-, h2⟩ := la_dq root (ng - 1) cv c fl.jump e.gdq (diffsOf cv e.data)
  change e.gdq g ||| (pixelFitO root (ng - 1) cv c fl.jump e.gdq (diffsOf cv e.data)).2.1 g = _
  rw [h2]
  unfold flagJumps
  split
  · rename_i h; rw [h, Nat.or_self]
  · split
    · rw [← Nat.or_assoc, Nat.or_self]
    · exact Nat.or_self _

/-- Five groups with a jump in the third. -/
def laDiffs (i : Nat) : ℚ := if i = 0 then 2 else if i = 1 then 60 else if i = 2 then 5 else 3

/-- The likelihood fit of five groups, one read each. -/
def laFit (gdq : Nat → Nat) : (Nat → Bool) × (Nat → Nat) × Option (Result ℚ) :=
  pixelFit (fun _ _ => 1) 4 (covar fun i => [(i : ℚ) + 1]) ⟨1, 1, 0, 20, 24⟩ 4 gdq laDiffs

/-- **C141 (finding).** The second fit differs from the first: it also loses the difference after the jump, because the flag that
means "jump before this group" for the first fit means "group not usable" for the second. -/
theorem C141_again_differs :
    ∃ gdq : Nat → Nat, (∀ g ≤ 4, gdq g = (laFit fun _ => 0).2.1 g)
      ∧ (laFit fun _ => 0).2.2.map (·.countrate) = some (886 / 259)
      ∧ (laFit gdq).2.2.map (·.countrate) = some (5 / 2) := by
  refine ⟨fun i => if i = 2 then 4 else 0, ?_, by decide +kernel, by decide +kernel⟩
  intro g hg
  have : g = 0 ∨ g = 1 ∨ g = 2 ∨ g = 3 ∨ g = 4 := by omega
  rcases this with rfl | rfl | rfl | rfl | rfl <;> decide +kernel

/-- Hypotheses of `C141_second_mask` and `C141_lone_jump` (the latter's others are those of C131): a flag in the low byte; one
difference is dropped, and its successor is lost the second time; without a jump nothing is dropped. -/
example : 4 % 256 ≠ 0 ∧ LaDropped (fun _ => 0) (laFit fun _ => 0).1 1 ∧ (laFit fun _ => 0).1 2 = true
    ∧ (laFit fun i => if i = 2 then 4 else 0).1 2 = false := by
  unfold LaDropped
  decide +kernel

end Verif.Thm
