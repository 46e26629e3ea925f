import Verif.Thm.JumpStep

/-!
# C120: jump detection does not depend on the unit of the data
-/

namespace Verif.Thm

open Verif Verif.Jump Verif.JumpStep
open Verif.JumpDriver (Cube Exposure Switch Dims twoPoint electrons stepParams noiseElectrons medianGain)
open Verif.Snowball (Env)
open Verif.Shower (Det)

variable {α : Type} [Field α] [LinearOrder α] [IsStrictOrderedRing α]

/-- The same exposure in a unit that is `k` times smaller: samples, read noise and thresholds are `k` times larger, the gain (electrons
per unit) is `k` times smaller. -/
def juScale (k : α) (e : Exposure α) : Exposure α :=
  { e with
    data := fun i g r c => (e.data i g r c).map fun x => k * x
    gain := fun r c => (e.gain r c).map fun x => x / k
    rnoise := fun r c => k * e.rnoise r c
    dn1 := k * e.dn1
    dn2 := k * e.dn2 }

theorem ju_median (k : α) (hk : 0 < k) (l : List (Option α)) :
    nanmedian (l.map fun o => o.map fun x => x / k) = (nanmedian l).map fun x => x / k := by
  have hfin : finite (l.map fun o => o.map fun x => x / k) = (finite l).map fun x => x / k := by
    simp only [finite]
    induction l with
    | nil => rfl
    | cons o l ih => cases o <;> simp [ih]
  have hsort : ((finite l).map fun x => x / k).insertionSort (· ≤ ·) = ((finite l).insertionSort (· ≤ ·)).map fun x => x / k := by
    refine (List.map_insertionSort (· ≤ ·) (· ≤ ·) (fun x => x / k) (finite l) fun a _ b _ => ?_).symm
    rw [div_le_div_iff_of_pos_right hk]
  rw [nanmedian, hfin, hsort, nanmedian]
  generalize (finite l).insertionSort (· ≤ ·) = s
  simp only [medianSorted, List.length_map, List.getElem?_map]
  split_ifs with h1 h2
  · rfl
  · rfl
  · cases s[s.length / 2 - 1]? with
    | none => rfl
    | some a =>
      cases s[s.length / 2]? with
      | none => rfl
      | some b =>
        simp only [Option.map_some]
        congr 1
        field_simp

/-- C120.  Group DQ, pixel DQ, number of cosmic rays and number of events of `detect_jumps_data` are the same in every unit of the data,
for every choice of options and any number of processes. -/
theorem C120_unit_free (k : α) (hk : 0 < k) (p : Params α) (sqrt : α → α) (clip : List (Option α) → List Bool) (s : Switch)
    (env : Env α) (det : Det α) (ask : Ask α) (e : Exposure α) (maxCores : List Char) (ncpu : Nat) :
    step p sqrt clip s env det ask (juScale k e) maxCores ncpu = step p sqrt clip s env det ask e maxCores ncpu := by
  have hne : k ≠ 0 := hk.ne'
  have h1 : electrons (juScale k e) = electrons e := by
    funext i g r c
    simp only [electrons, juScale]
    cases e.data i g r c with
    | none => rfl
    | some x =>
      cases e.gain r c with
      | none => rfl
      | some y =>
        simp only [Option.map_some]
        congr 1
        field_simp
  have h2 : noiseElectrons (juScale k e) = noiseElectrons e := by
    funext r c
    simp only [noiseElectrons, juScale]
    cases e.gain r c with
    | none => simp
    | some y =>
      simp only [Option.map_some, Option.getD_some]
      field_simp
  have h3 : medianGain (juScale k e) = medianGain e / k := by
    have e1 : ((List.range e.d.nr).flatMap fun r => (List.range e.d.nc).map fun c => (juScale k e).gain r c)
        = ((List.range e.d.nr).flatMap fun r => (List.range e.d.nc).map fun c => e.gain r c).map fun o => o.map fun x => x / k := by
      rw [List.map_flatMap]
      congr 1
      funext r
      rw [List.map_map]
      rfl
    show (nanmedian ((List.range e.d.nr).flatMap fun r => (List.range e.d.nc).map fun c => (juScale k e).gain r c)).getD 0 = _
    rw [e1, ju_median k hk, medianGain]
    cases nanmedian ((List.range e.d.nr).flatMap fun r => (List.range e.d.nc).map fun c => e.gain r c) with
    | none => simp
    | some m => rfl
  have h4 : stepParams p (juScale k e) = stepParams p e := by
    simp only [stepParams, h3]
    have a1 : (juScale k e).dn1 * (medianGain e / k) = e.dn1 * medianGain e := by
      show k * e.dn1 * (medianGain e / k) = _
      field_simp
    have a2 : (juScale k e).dn2 * (medianGain e / k) = e.dn2 * medianGain e := by
      show k * e.dn2 * (medianGain e / k) = _
      field_simp
    rw [a1, a2]
  have h5 : twoPoint p sqrt clip s (juScale k e) maxCores ncpu = twoPoint p sqrt clip s e maxCores ncpu := by
    simp only [twoPoint, h1, h2, h4]
    rfl
  have h6 : showerNoise (juScale k e) = showerNoise e := by
    funext r c
    simp only [showerNoise, juScale]
    cases e.gain r c with
    | none => rfl
    | some y =>
      simp only [Option.map_some]
      congr 1
      field_simp
  have h7 : stepPdq p ask (juScale k e) = stepPdq p ask e := by
    funext r c
    simp only [stepPdq, juScale]
    cases e.gain r c with
    | none => rfl
    | some y =>
      simp only [Option.map_some, Snowball.setupPdq]
      have : y / k ≤ 0 ↔ y ≤ 0 := by
        rw [div_le_iff₀ hk, zero_mul]
      simp only [this]
  rw [js_step, js_step, h5]
  simp only [jsAfter, h6, h7]
  rfl

/-- A jump and a flagged group after it, in the unit of the data and in a unit that is eight times smaller; with another threshold
the result is another one. -/
example :
    let e : Exposure ℚ := ⟨⟨1, 6, 1, 1⟩, fun _ g _ _ => some (if 3 ≤ g then 100 + g else g), fun _ _ _ _ => 0, fun _ _ => some 2,
      fun _ _ => 1, fun _ _ => 0, 50, 1000⟩
    let p : Params ℚ := { exJump with n1 := 1, n2 := 2 }
    let f := fun e : Exposure ℚ => (step p id jdClipRule jsSw swEnv jsDet { jsAsk with large := false, showers := false } e "none".toList 8).map fun o =>
      (List.range 6).map fun g => o.1 0 g 0 0
    f e = some [0, 0, 0, 4, 4, 0] ∧ f (juScale 8 e) = f e ∧ f { e with dn1 := 200 } = some [0, 0, 0, 4, 0, 0] := by
  decide +kernel

end Verif.Thm
