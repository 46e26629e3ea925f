import Verif.Model.Saturation
import Mathlib.Tactic.Ring
import Mathlib.Tactic.FieldSimp
import Mathlib.Tactic.NormNum
import Mathlib.Algebra.Order.Field.Basic
import Mathlib.Algebra.Field.Rat
import Mathlib.Algebra.Order.Ring.Rat

/-! # Saturation flags and the unit of the data (C195) -/

namespace Verif.Thm

open Verif.Saturation

set_option linter.unusedSectionVars false

variable {α : Type} [Field α] [LinearOrder α] [IsStrictOrderedRing α]

/-- Specification: the parameters in another unit: thresholds and bias times `k`, and the limit of the converter such that the limit plus
one, the threshold of pixels that are not checked, is in the new unit too. -/
def svParams (k : α) (p : Params α) : Params α :=
  { p with satThresh := fun r c => (p.satThresh r c).map (k * ·), atodLimit := k * (p.atodLimit + 1) - 1, bias := fun r c => k * p.bias r c }

/-- Specification: values in another unit. -/
def svImg (k : α) (d : Img (Option α)) : Img (Option α) := fun r c => (d r c).map (k * ·)

theorem sv_noCheck (k : α) (p : Params α) (r c : Nat) : (svParams k p).noCheck r c = p.noCheck r c := by
  simp only [Params.noCheck, svParams]
  cases p.satThresh r c <;> rfl

theorem sv_thresh (k : α) (p : Params α) (r c : Nat) : (svParams k p).thresh r c = k * p.thresh r c := by
  simp only [Params.thresh, sv_noCheck]
  cases h : p.noCheck r c with
  | true => simp [svParams]
  | false =>
    simp only [svParams, Bool.false_eq_true, if_false]
    cases p.satThresh r c <;> simp

theorem sv_fge (k : α) (hk : 0 < k) (x : Option α) (t : α) : fge (x.map (k * ·)) (k * t) = fge x t := by
  cases x with
  | none => rfl
  | some v => simp only [fge, Option.map_some, mul_le_mul_iff_right₀ hk]

theorem sv_fle0 (k : α) (hk : 0 < k) (x : Option α) : fle0 (x.map (k * ·)) = fle0 x := by
  cases x with
  | none => rfl
  | some v =>
    have : k * v ≤ 0 ↔ v ≤ 0 := by
      have := mul_le_mul_iff_right₀ (b := v) (c := 0) hk
      rwa [mul_zero] at this
    simp only [fle0, Option.map_some, this]

theorem sv_forward (k : α) (hk : 0 < k) (p : Params α) (data : Nat → Img (Option α)) (gdq : Nat → Img Nat) (n : Nat) :
    forward (svParams k p) (fun g => svImg k (data g)) gdq n = forward p data gdq n := by
  induction n with
  | zero => rfl
  | succ n ih =>
    simp only [forward, ih, forwardStep, sv_thresh, svImg, sv_fge k hk, sv_fle0 k hk]
    rfl

theorem sv_backward (k : α) (hk : 0 < k) (p : Params α) (rp : List (List α)) (data : Nat → Img (Option α)) (n : Nat) :
    ∀ q, backward (svParams k p) rp (fun g => svImg k (data g)) n q = backward p rp data n q := by
  induction n with
  | zero => exact fun _ => rfl
  | succ n ih =>
    intro q
    have : backwardStep (svParams k p) rp (fun g => svImg k (data g)) n q = backwardStep p rp data n q := by
      simp only [backwardStep, partialSat, sv_thresh, svImg, sv_noCheck, mul_assoc, sv_fge k hk]
      rfl
    simp only [backward, ih, this]

theorem sv_group2 (k : α) (hk : 0 < k) (p : Params α) (rp : List (List α)) (data : Nat → Img (Option α)) (q : Nat → Img Nat) :
    group2 (svParams k p) rp (fun g => svImg k (data g)) q = group2 p rp data q := by
  have : group2Mask (svParams k p) rp (fun g => svImg k (data g)) q = group2Mask p rp data q := by
    funext r c
    simp only [group2Mask, svImg, sv_thresh]
    cases data 0 r c with
    | none => rfl
    | some d0 =>
      cases data 1 r c with
      | none => rfl
      | some d1 =>
        simp only [Option.map_some, show (svParams k p).bias r c = k * p.bias r c from rfl]
        rw [show (k * d0 - k * p.bias r c) / mean (rp.getD 0 []) * (rp.getD 2 []).getLastD 0 + k * p.bias r c =
            k * ((d0 - p.bias r c) / mean (rp.getD 0 []) * (rp.getD 2 []).getLastD 0 + p.bias r c) by ring,
          show (k * p.thresh r c - k * d0) / ((rp.getD 1 []).length : α) = k * ((p.thresh r c - d0) / ((rp.getD 1 []).length : α)) by ring,
          show k * d1 - k * d0 = k * (d1 - d0) by ring]
        simp only [mul_lt_mul_iff_right₀ hk]
        rfl
  simp only [group2, this]
  rfl

theorem sv_integration (k : α) (hk : 0 < k) (p : Params α) (data : Nat → Img (Option α)) (gdq : Nat → Img Nat) :
    flagIntegration (svParams k p) (fun g => svImg k (data g)) gdq = flagIntegration p data gdq := by
  simp only [flagIntegration, sv_forward k hk, show (svParams k p).readPattern = p.readPattern from rfl,
    show (svParams k p).ngroups = p.ngroups from rfl]
  cases p.readPattern with
  | none => rfl
  | some rp => simp only [sv_backward k hk, sv_group2 k hk]

theorem sv_all (k : α) (hk : 0 < k) (p : Params α) (data : Nat → Nat → Img (Option α)) (gdq : Nat → Nat → Img Nat) (n : Nat) :
    flagAll (svParams k p) (fun i g => svImg k (data i g)) gdq n = flagAll p data gdq n := by
  induction n with
  | zero => rfl
  | succ n ih => simp only [flagAll, ih, sv_integration k hk]

theorem sv_zero (k : α) (hk : 0 < k) (p : Params α) (z : Img (Option α)) :
    zeroFrame (svParams k p) (svImg k z) = svImg k (zeroFrame p z) := by
  funext r c
  simp only [zeroFrame, sv_thresh, svImg, sv_fge k hk, sv_fle0 k hk]
  have : ∀ f g, (svParams k p).grow f g = p.grow f g := fun _ _ => rfl
  rw [this]
  simp only [show (svParams k p).flags = p.flags from rfl]
  split
  · simp
  · rfl

/-- **C195**: with data, thresholds, bias and zero frame in another unit the saturation step raises the same flags, in groups and pixels,
with read pattern or without, and the zero frame it returns is that of before in the new unit. -/
theorem C195_unit (k : α) (hk : 0 < k) (p : Params α) (nints : Nat) (data : Nat → Nat → Img (Option α)) (gdq : Nat → Nat → Img Nat)
    (pdq : Img Nat) (z : Option (Nat → Img (Option α))) :
    flagSaturatedPixels (svParams k p) nints (fun i g => svImg k (data i g)) gdq pdq (z.map fun f i => svImg k (f i)) =
      (flagSaturatedPixels p nints data gdq pdq z).map fun o => (o.1, o.2.1, o.2.2.map fun f i => svImg k (f i)) := by
  have hs : (z.map fun f i => svImg k (f i)).isSome = z.isSome := by cases z <;> rfl
  have hp : pixelDq (svParams k p) pdq = pixelDq p pdq := by
    funext r c
    simp only [pixelDq, Params.satDq', svParams, Option.isNone_map]
  simp only [flagSaturatedPixels, hs, sv_all k hk, hp, show (svParams k p).ngroups = p.ngroups from rfl,
    show (svParams k p).nrows = p.nrows from rfl, show (svParams k p).ncols = p.ncols from rfl,
    show (svParams k p).nGrow = p.nGrow from rfl]
  split
  · rfl
  · simp only [Option.map_some, Option.some.injEq, Prod.mk.injEq, true_and]
    cases z with
    | none => rfl
    | some f =>
      simp only [Option.map_some, Option.some.injEq]
      funext i
      split
      · exact sv_zero k hk p (f i)
      · rfl

/-- Parameters of an image of two pixels, the second without threshold, read out in resultants. -/
def svTwo : Params ℚ :=
  ⟨1, 2, 3, ⟨1, 2, 64, 2097152⟩, fun _ c => if c = 0 then some 100 else none, fun _ _ => 0, 65535, 0, some [[1, 2], [3, 4, 5], [6]], fun _ _ => 10⟩

/-- A ramp that saturates in the third group, and one that falls below zero. -/
def svData : Nat → Nat → Img (Option ℚ) := fun _ g _ c =>
  if c = 0 then (if g = 0 then some 20 else if g = 1 then some 90 else some 110) else (if g = 1 then some (-1) else none)

example : (flagSaturatedPixels svTwo 1 svData (fun _ _ _ _ => 0) (fun _ _ => 4) none).map
      (fun o => ((List.range 3).map fun g => (o.1 0 g 0 0, o.1 0 g 0 1), o.2.1 0 0, o.2.1 0 1)) =
        some ([(0, 0), (1, 65), (2, 0)], 4, 2097156) ∧
    (flagSaturatedPixels (svParams (1 / 2) svTwo) 1 (fun i g => svImg (1 / 2) (svData i g)) (fun _ _ _ _ => 0) (fun _ _ => 4) none).map
      (fun o => ((List.range 3).map fun g => (o.1 0 g 0 0, o.1 0 g 0 1), o.2.1 0 0, o.2.1 0 1)) =
        some ([(0, 0), (1, 65), (2, 0)], 4, 2097156) := by
  refine ⟨?_, ?_⟩ <;> decide +kernel

end Verif.Thm
