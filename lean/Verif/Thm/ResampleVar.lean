import Mathlib.Data.List.Induction
import Mathlib.Algebra.BigOperators.Group.List.Basic
import Mathlib.Tactic.Linarith
import Mathlib.Tactic.FieldSimp
import Mathlib.Tactic.Ring
import Verif.Proof.OlsFit
import Verif.Model.Resample

/-! # Resampling: combination of variances (C52) -/

set_option linter.unusedSectionVars false

namespace Verif.Thm
open Verif.Resample

variable {α : Type} [Field α] [LinearOrder α] [IsStrictOrderedRing α] {ν : Type} [DecidableEq ν]

/-- Specification: the weight of a model at the pixel. -/
def rvWeight (rn : ν) (wt : WeightType) (m : PixModel ν α) : α :=
  if wt = .exptime then m.time
  else match m.var rn with
    | some (some v) => if 0 < v then 1 / v else 0
    | _ => 0

/-- Specification: variance and weight of the models that contribute to the variance `n`. -/
def rvContrib (rn : ν) (wt : WeightType) (n : ν) (ms : List (PixModel ν α)) : List (α × α) :=
  ms.filterMap fun m =>
    match m.var n with
    | some (some v) => if 0 ≤ v ∧ 0 < rvWeight rn wt m then some (v, rvWeight rn wt m) else none
    | _ => none

/-- Specification: variance of a weighted mean. -/
def rvVariance (scaling : α) (c : List (α × α)) : Option α :=
  if c = [] then none
  else some (scaling * (c.map fun p => p.2 ^ 2 * p.1).sum / (c.map Prod.snd).sum ^ 2)

/-- The state after a list of models. -/
theorem rv_addVars (names : List ν) (rn : ν) (wt : WeightType) (ms : List (PixModel ν α)) (hrn : rn ∈ names)
    (hm : wt = .ivm → ∀ m ∈ ms, (m.var rn).isSome) :
    ∃ info, addVars names rn wt ms = some info ∧ ∀ n ∈ names,
      (info n).wt = ((rvContrib rn wt n ms).map Prod.snd).sum ∧
      (info n).wsum = if rvContrib rn wt n ms = [] then none
        else some ((rvContrib rn wt n ms).map fun p => p.2 ^ 2 * p.1).sum := by
  induction ms using List.reverseRecOn with
  | nil => exact ⟨initVar, rfl, fun n _ => by simp [initVar, rvContrib]⟩
  | append_singleton ms m ih =>
    obtain ⟨info, hi, hinv⟩ := ih (fun h x hx => hm h x (by simp [hx]))
    have hstep : addVars names rn wt (ms ++ [m]) = addVar names rn wt info m := by
      simp only [addVars, List.foldl_append, List.foldl_cons, List.foldl_nil]
      simp only [addVars] at hi
      rw [hi]
      rfl
    rw [hstep]
    -- the weight used is the weight of the model
    have hw : pixWeight wt (if rn ∈ names then
        (if rn ∈ names ∧ (m.var rn).isSome then { info rn with var := m.var rn } else info rn).var else none) m.time =
        some (rvWeight rn wt m) := by
      cases wt with
      | exptime => simp [pixWeight, rvWeight]
      | ivm =>
        have hs := hm rfl m (by simp)
        rw [if_pos hrn, if_pos ⟨hrn, hs⟩]
        rcases hv : m.var rn with _ | _ | v
        · simp [hv] at hs
        · simp [pixWeight, rvWeight, hv]
        · simp only [pixWeight, rvWeight, hv, reduceCtorEq, if_false, one_div]
          split <;> rfl
    simp only [addVar, hw]
    refine ⟨_, rfl, fun n hn => ?_⟩
    obtain ⟨h1, h2⟩ := hinv n hn
    have hc : rvContrib rn wt n (ms ++ [m]) = rvContrib rn wt n ms ++ rvContrib rn wt n [m] := by
      simp [rvContrib, List.filterMap_append]
    rw [hc]
    rcases hv : m.var n with _ | _ | v
    · have : rvContrib rn wt n [m] = [] := by simp [rvContrib, hv]
      simp [this, h1, h2]
    · have : rvContrib rn wt n [m] = [] := by simp [rvContrib, hv]
      simp [this, h1, h2, hn, accum]
    · by_cases hcond : 0 ≤ v ∧ 0 < rvWeight rn wt m
      · have : rvContrib rn wt n [m] = [(v, rvWeight rn wt m)] := by simp [rvContrib, hv, hcond]
        simp only [this, hn, Option.isSome_some, and_self, if_true, accum, hcond, h1, h2, List.map_append,
          List.sum_append, List.map_cons, List.map_nil, List.sum_cons, List.sum_nil, add_zero, true_and]
        have hne : rvContrib rn wt n ms ++ [(v, rvWeight rn wt m)] ≠ [] := by simp
        rw [if_neg hne]
        congr 1
        by_cases he : rvContrib rn wt n ms = []
        · simp [he]; ring
        · simp [he]; ring
      · have : rvContrib rn wt n [m] = [] := by
          simp only [rvContrib, List.filterMap_cons, hv, hcond, if_false, List.filterMap_nil]
        simp only [this, hn, Option.isSome_some, and_self, if_true, accum, hcond, if_false, List.append_nil, h1, h2]

/-- **C52**: the output variance is the sum of `w² var` over the square of the sum of `w`, over the models that contribute,
times the scaling; NaN if there is none. -/
theorem C52_combination (names : List ν) (rn : ν) (wt : WeightType) (ms : List (PixModel ν α)) (scaling : α)
    (hrn : rn ∈ names) (hm : wt = .ivm → ∀ m ∈ ms, (m.var rn).isSome) :
    ∃ info, addVars names rn wt ms = some info ∧
      ∀ n ∈ names, finalVar scaling (info n) = rvVariance scaling (rvContrib rn wt n ms) := by
  obtain ⟨info, hi, h⟩ := rv_addVars names rn wt ms hrn hm
  refine ⟨info, hi, fun n hn => ?_⟩
  obtain ⟨h1, h2⟩ := h n hn
  simp only [finalVar, rvVariance, h1, h2]
  split
  · rfl
  · simp only [Option.map_some, Option.some.injEq]
    rw [div_div, mul_comm scaling, sq (((rvContrib rn wt n ms).map Prod.snd).sum)]

/-- **C52**: the order of the models is irrelevant. -/
theorem C52_order (names : List ν) (rn : ν) (wt : WeightType) (ms ms' : List (PixModel ν α)) (scaling : α)
    (hrn : rn ∈ names) (hp : ms.Perm ms') (hm : wt = .ivm → ∀ m ∈ ms, (m.var rn).isSome) :
    ∃ info info', addVars names rn wt ms = some info ∧ addVars names rn wt ms' = some info' ∧
      ∀ n ∈ names, finalVar scaling (info n) = finalVar scaling (info' n) := by
  obtain ⟨i, hi, h⟩ := C52_combination names rn wt ms scaling hrn hm
  obtain ⟨i', hi', h'⟩ := C52_combination names rn wt ms' scaling hrn (fun hw m hmem => hm hw m (hp.mem_iff.2 hmem))
  refine ⟨i, i', hi, hi', fun n hn => ?_⟩
  rw [h n hn, h' n hn]
  have hc : (rvContrib rn wt n ms).Perm (rvContrib rn wt n ms') := hp.filterMap _
  simp only [rvVariance]
  rw [(hc.map Prod.snd).sum_eq, (hc.map fun p : α × α => p.2 ^ 2 * p.1).sum_eq]
  have : rvContrib rn wt n ms = [] ↔ rvContrib rn wt n ms' = [] :=
    ⟨fun h => List.nil_perm.1 (h ▸ hc), fun h => List.perm_nil.1 (h ▸ hc)⟩
  simp only [this]

theorem rv_inverse_sum_pos (l : List α) (hne : l ≠ []) (hpos : ∀ v ∈ l, 0 < v) :
    0 < (l.map fun v => 1 / v).sum ∧ ∀ v ∈ l, 1 / v ≤ (l.map fun v => 1 / v).sum := by
  have hle : ∀ v ∈ l, 1 / v ≤ (l.map fun v => 1 / v).sum := by
    clear hne
    induction l with
    | nil => simp
    | cons a l ih =>
      have ha : 0 < 1 / a := one_div_pos.2 (hpos a (by simp))
      have hs : 0 ≤ (l.map fun v => 1 / v).sum := by
        apply List.sum_nonneg
        intro x hx
        obtain ⟨v, hv, rfl⟩ := List.mem_map.1 hx
        exact (one_div_pos.2 (hpos v (by simp [hv]))).le
      intro v hv
      rw [List.map_cons, List.sum_cons]
      rcases List.mem_cons.1 hv with rfl | hv
      · linarith
      · have := ih (fun v hv => hpos v (by simp [hv])) v hv
        linarith
  refine ⟨?_, hle⟩
  obtain ⟨a, l', rfl⟩ := List.exists_cons_of_ne_nil hne
  exact lt_of_lt_of_le (one_div_pos.2 (hpos a (by simp))) (hle a (by simp))

/-- **C52**: with inverse-variance weights the output read-noise variance is `1 / Σ 1/var` over the positive read-noise
variances at the pixel (times the scaling), and not more than any of them. -/
theorem C52_read_noise (names : List ν) (rn : ν) (ms : List (PixModel ν α)) (scaling : α) (hs : 0 ≤ scaling)
    (hrn : rn ∈ names) (hm : ∀ m ∈ ms, (m.var rn).isSome) (vs : List α)
    (hvs : vs = ms.filterMap fun m => (m.var rn).getD none |>.filter fun v => decide (0 < v)) (hne : vs ≠ []) :
    ∃ info x, addVars names rn .ivm ms = some info ∧ finalVar scaling (info rn) = some x ∧
      x = scaling * (1 / (vs.map fun v => 1 / v).sum) ∧ ∀ v ∈ vs, x ≤ scaling * v := by
  obtain ⟨i, hi, h⟩ := C52_combination names rn .ivm ms scaling hrn (fun _ => hm)
  have hpos : ∀ v ∈ vs, 0 < v := by
    intro v hv
    rw [hvs, List.mem_filterMap] at hv
    obtain ⟨m, -, hf⟩ := hv
    simpa using (Option.filter_eq_some_iff.1 hf).2
  have hc : rvContrib rn .ivm rn ms = vs.map fun v => (v, 1 / v) := by
    rw [hvs, List.map_filterMap]
    simp only [rvContrib]
    apply List.filterMap_congr
    intro m _
    rcases hv : m.var rn with _ | _ | v
    · simp
    · simp
    · by_cases hp : 0 < v
      · simp [rvWeight, hv, hp, hp.le, Option.filter]
      · simp [rvWeight, hv, hp, Option.filter]
  obtain ⟨hS, hle⟩ := rv_inverse_sum_pos vs hne hpos
  have e1 : ((vs.map fun v => (v, 1 / v)).map Prod.snd).sum = (vs.map fun v => 1 / v).sum := by
    rw [List.map_map]; rfl
  have e2 : ((vs.map fun v => (v, 1 / v)).map fun p : α × α => p.2 ^ 2 * p.1).sum = (vs.map fun v => 1 / v).sum := by
    rw [List.map_map]
    congr 1
    apply List.map_congr_left
    intro v hv
    have := (hpos v hv).ne'
    simp only [Function.comp_apply]
    field_simp
  refine ⟨i, scaling * (1 / (vs.map fun v => 1 / v).sum), hi, ?_, rfl, ?_⟩
  · rw [h rn hrn, hc]
    simp only [rvVariance, e1, e2, List.map_eq_nil_iff, hne, if_false, Option.some.injEq]
    have := hS.ne'
    field_simp
  · intro v hv
    apply mul_le_mul_of_nonneg_left _ hs
    rw [div_le_iff₀ hS]
    have h1 := hle v hv
    have h0 := hpos v hv
    rw [div_le_iff₀ h0] at h1
    linarith [mul_comm v (vs.map fun v => 1 / v).sum]

/-- A model for the examples: variances 0 (read noise) and 1. -/
def rvPix (a b : Option (Option ℚ)) : PixModel Nat ℚ := { var := fun n => if n = 0 then a else b, time := 1 }

example : ∀ m ∈ [rvPix (some (some 2)) (some (some 1)), rvPix (some none) none, rvPix (some (some 3)) (some none)],
    (m.var 0).isSome := by decide +kernel

example : ((addVars [0, 1] 0 .ivm [rvPix (some (some 2)) (some (some 1)), rvPix (some none) none,
    rvPix (some (some 2)) (some none)]).map fun i => (finalVar 1 (i 0), finalVar 1 (i 1))) =
    some (some 1, some 1) := by decide +kernel

example : [(2 : ℚ), 3] = [rvPix (some (some 2)) none, rvPix (some (some 3)) none].filterMap fun m =>
    (m.var 0).getD none |>.filter fun v => decide (0 < v) := by decide +kernel

/-- Finding: a model without read-noise variance is combined with the weights of the model before it, so that the order
matters. -/
theorem C52_stale_weight :
    ∃ a b c : PixModel Nat ℚ,
      ((addVars [0, 1] 0 .ivm [a, b, c]).map fun i => finalVar 1 (i 1)) ≠
      ((addVars [0, 1] 0 .ivm [b, a, c]).map fun i => finalVar 1 (i 1)) :=
  ⟨rvPix (some (some 1)) (some (some 1)), rvPix (some (some 4)) (some (some 1)), rvPix none (some (some 1)),
    by decide +kernel⟩

/-- Finding: if the first model has no read-noise variance but another one, adding it raises an exception. -/
theorem C52_unassigned_weight (names : List ν) (rn n : ν) (m : PixModel ν α) (hn : n ∈ names) (hr : m.var rn = none)
    (hv : (m.var n).isSome) : addVars names rn .ivm [m] = none := by
  have : names.any (fun n => (m.var n).isSome) = true := List.any_eq_true.2 ⟨n, hn, hv⟩
  simp only [addVars, List.foldl_cons, List.foldl_nil, Option.bind_some, addVar, hr, initVar, pixWeight, this, if_true]
  simp

example : addVars [0, 1] 0 .ivm [rvPix none (some (some 1))] |>.isNone := by decide +kernel

end Verif.Thm
