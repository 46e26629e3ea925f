import Verif.Thm.Drizzle
import Mathlib.Analysis.Real.Sqrt

/-! # Science image and variances of `Resample` together (C169) -/

set_option linter.unusedSectionVars false

namespace Verif.Thm
open Verif.Resample Verif.Drizzle

variable {α : Type} [Field α] [LinearOrder α] [IsStrictOrderedRing α] [FloorRing α] {ν : Type}

/-- Specification: the value of a variance array at a pixel. -/
def dvVar (m : Input ν α) (n : ν) (p : Nat × Nat) : α :=
  match (m.vars n).map fun v => v p.1 p.2 with
  | some (Fl.num x) => x
  | _ => 0

/-- Specification: an image on the grid of the output: one of its pixels falls on the output pixel; if that is usable, its data and
variances are numbers. -/
structure DvAligned (rn : ν) (names : List ν) (good : Option Nat) (m : Input ν α) (p : Nat × Nat) : Prop where
  inside : DzIn m p.1 p.2
  overlap : ∀ r c, m.overlap r c = if (r, c) = p then 1 else 0
  time : 0 < m.time
  has : ∀ n ∈ names, (m.vars n).isSome
  data : DzGood good (m.dq p.1 p.2) → (m.data p.1 p.2).isSome
  vars : DzGood good (m.dq p.1 p.2) → ∀ n ∈ names, ∃ x, 0 ≤ x ∧ (m.vars n).map (fun v => v p.1 p.2) = some (.num x)
  noise : DzGood good (m.dq p.1 p.2) → ∃ x, 0 < x ∧ (m.vars rn).map (fun v => v p.1 p.2) = some (.num x)

open Classical in
/-- Specification: the weight of an image: inverse read-noise variance or time; none if its pixel is not usable. -/
noncomputable def dvW (rn : ν) (byTime : Bool) (good : Option Nat) (q : Input ν α × (Nat × Nat)) : α :=
  if DzGood good (q.1.dq q.2.1 q.2.2) then (if byTime then q.1.time else 1 / dvVar q.1 rn q.2) else 0

open Classical in
theorem dv_single (m : Input ν α) (p : Nat × Nat) (hin : DzIn m p.1 p.2) (f : Nat → Nat → α)
    (h : ∀ r c, (r, c) ≠ p → f r c = 0) : dzSum m f = f p.1 p.2 := by
  simp only [dzSum]
  rw [Finset.sum_eq_single p.1, Finset.sum_eq_single p.2, if_pos hin]
  · intro c _ hc
    rw [h p.1 c (fun e => hc (by rw [← e])), ite_self]
  · intro hc
    exact absurd (Finset.mem_range.2 hin.2.1) hc
  · intro r _ hr
    exact Finset.sum_eq_zero fun c _ => by rw [h r c (fun e => hr (by rw [← e])), ite_self]
  · intro hr
    exact absurd (Finset.mem_range.2 hin.1) hr

/-- The type of weights for which science image and variances are weighted alike. -/
def dvType (byTime : Bool) : DrizType := if byTime then .exptime else .ivm

theorem dv_dow (rn : ν) (names : List ν) (byTime : Bool) (good : Option Nat) (m : Input ν α) (p : Nat × Nat)
    (h : DvAligned rn names good m p) (r c : Nat) :
    dzDow rn (dvType byTime) good m r c = if (r, c) = p then dvW rn byTime good (m, p) else 0 := by
  simp only [dzDow, h.overlap]
  split
  · rename_i e
    subst e
    rw [one_mul]
    by_cases hg : DzGood good (m.dq r c)
    · simp only [dzWt, dvW, if_pos hg]
      cases byTime
      · obtain ⟨x, hx, hv⟩ := h.noise hg
        have hv' : (m.vars rn).map (fun v => v r c) = some (.num x) := hv
        simp only [dvType, Bool.false_eq_true, if_false, dvVar, hv', dzInv, hx.ne']
      · rfl
    · simp only [dzWt, dvW, if_neg hg]
  · rw [zero_mul]

theorem dv_nonneg (rn : ν) (names : List ν) (byTime : Bool) (good : Option Nat) (m : Input ν α) (p : Nat × Nat)
    (h : DvAligned rn names good m p) : 0 ≤ dvW rn byTime good (m, p) := by
  simp only [dvW]
  split
  · rename_i hg
    cases byTime
    · obtain ⟨x, hx, hv⟩ := h.noise hg
      simp only [dvVar, hv, Bool.false_eq_true, if_false]
      positivity
    · exact h.time.le
  · exact le_refl _

theorem dv_pos (rn : ν) (names : List ν) (byTime : Bool) (good : Option Nat) (m : Input ν α) (p : Nat × Nat)
    (h : DvAligned rn names good m p) : dvW rn byTime good (m, p) ≠ 0 ↔ DzGood good (m.dq p.1 p.2) := by
  simp only [dvW]
  split
  · rename_i hg
    refine ⟨fun _ => hg, fun _ => ?_⟩
    cases byTime
    · obtain ⟨x, hx, hv⟩ := h.noise hg
      simp only [dvVar, hv, Bool.false_eq_true, if_false]
      positivity
    · exact h.time.ne'
  · rename_i hg
    simp [hg]

/-- The resampled variance of one image. -/
theorem dv_one (sqrt : α → α) (hsq : ∀ x, 0 ≤ x → sqrt x ^ 2 = x) (rn : ν) (names : List ν) (byTime : Bool) (good : Option Nat) (s : α)
    (m : Input ν α) (p : Nat × Nat) (h : DvAligned rn names good m p) (n : ν) (hn : n ∈ names) :
    oneVariance sqrt rn (dvType byTime) good (s, m) n =
      some (if dvW rn byTime good (m, p) = 0 then none else some (s ^ 2 * dvVar m n p)) := by
  obtain ⟨v, hv⟩ := Option.isSome_iff_exists.1 (h.has n hn)
  obtain ⟨h1, h2, -⟩ := dz_images rn (dvType byTime) good (fun _ r c => root sqrt (v r c)) [(s, m)] (by
    intro q hq r c _
    rw [List.mem_singleton.1 hq, dv_dow rn names byTime good m p h]
    split
    · exact dv_nonneg rn names byTime good m p h
    · exact le_refl _)
  simp only [List.foldl_cons, List.foldl_nil] at h1 h2
  have hW : dzW rn (dvType byTime) good [(s, m)] = dvW rn byTime good (m, p) := by
    simp only [dzW, List.map_cons, List.map_nil, List.sum_cons, List.sum_nil, add_zero]
    rw [dv_single m p h.inside _ fun r c hne => by rw [dv_dow rn names byTime good m p h, if_neg hne],
      dv_dow rn names byTime good m p h, if_pos rfl]
  rw [hW] at h1 h2
  simp only [oneVariance, hv, Option.map_some, Cell.out, h1, Option.some.injEq]
  by_cases hw : dvW rn byTime good (m, p) = 0
  · simp [hw]
  · have hg := (dv_pos rn names byTime good m p h).1 hw
    obtain ⟨x, hx, hvx⟩ := h.vars hg n hn
    have hvx' : v p.1 p.2 = .num x := by
      rw [hv] at hvx
      simpa using hvx
    have hr : root sqrt (v p.1 p.2) = some (sqrt x) := by
      rw [hvx']
      simp [root, not_lt.2 hx]
    rw [if_neg hw, if_neg hw, h2 ?_ (by rw [h1]; exact hw)]
    · simp only [Option.map_some, Option.some.injEq, List.map_cons, List.map_nil, List.sum_cons, List.sum_nil, add_zero]
      rw [dv_single m p h.inside _ fun r c hne => by rw [dv_dow rn names byTime good m p h, if_neg hne, zero_mul],
        dv_dow rn names byTime good m p h, if_pos rfl, hr, mul_div_cancel_left₀ _ hw, Option.getD_some, mul_pow, hsq x hx]
      simp only [dvVar, hvx]
      ring
    · intro q hq r c _ hd
      rw [List.mem_singleton.1 hq, dv_dow rn names byTime good m p h] at hd
      have e : (r, c) = p := by
        by_contra hne
        rw [if_neg hne] at hd
        exact hd rfl
      have : v r c = v p.1 p.2 := by rw [← e]
      rw [this, hr]
      rfl

theorem dv_filter_sum {β : Type} (l : List β) (w f : β → α) (hf : ∀ q ∈ l, w q = 0 → f q = 0) :
    ((l.filter fun q => !decide (w q = 0)).map f).sum = (l.map f).sum := by
  induction l with
  | nil => rfl
  | cons q l ih =>
    have ih := ih fun x hx => hf x (by simp [hx])
    by_cases h0 : w q = 0
    · rw [List.filter_cons_of_neg (by simp [h0]), ih, List.map_cons, List.sum_cons, hf q (by simp) h0, zero_add]
    · rw [List.filter_cons_of_pos (by simp [h0]), List.map_cons, List.sum_cons, ih, List.map_cons, List.sum_cons]

/-- The contributions to a variance. -/
theorem dv_contrib [DecidableEq ν] (sqrt : α → α) (hsq : ∀ x, 0 ≤ x → sqrt x ^ 2 = x) (rn : ν) (names : List ν) (hrn : rn ∈ names)
    (byTime : Bool) (good : Option Nat) (s : α) (hs : s ≠ 0) (ms : List (Input ν α × (Nat × Nat)))
    (h : ∀ q ∈ ms, DvAligned rn names good q.1 q.2) (n : ν) (hn : n ∈ names) :
    rvContrib rn (varType (dvType byTime)) n ((ms.map fun q => (s, q.1)).map fun q =>
        (⟨oneVariance sqrt rn (dvType byTime) good q, q.2.time⟩ : PixModel ν α)) =
      (ms.filter fun q => !decide (dvW rn byTime good q = 0)).map fun q =>
        (s ^ 2 * dvVar q.1 n q.2, (if byTime then 1 else 1 / s ^ 2) * dvW rn byTime good q) := by
  induction ms with
  | nil => rfl
  | cons q ms ih =>
    have ih := ih fun x hx => h x (by simp [hx])
    have hq := h q (by simp)
    have hsplit : ∀ (a : PixModel ν α) l, rvContrib rn (varType (dvType byTime)) n (a :: l) =
        rvContrib rn (varType (dvType byTime)) n [a] ++ rvContrib rn (varType (dvType byTime)) n l := by
      intro a l
      rw [← List.singleton_append]
      simp only [rvContrib, List.filterMap_append]
    rw [List.map_cons, List.map_cons, hsplit, ih]
    have h1 := dv_one sqrt hsq rn names byTime good s q.1 q.2 hq n hn
    have h2 := dv_one sqrt hsq rn names byTime good s q.1 q.2 hq rn hrn
    by_cases hw : dvW rn byTime good (q.1, q.2) = 0
    · have hw' : dvW rn byTime good q = 0 := hw
      rw [if_pos hw] at h1
      rw [List.filter_cons_of_neg (by simp [hw'])]
      simp [rvContrib, h1]
    · have hw' : dvW rn byTime good q ≠ 0 := hw
      rw [if_neg hw] at h1 h2
      rw [List.filter_cons_of_pos (by simp [hw']), List.map_cons]
      have hg := (dv_pos rn names byTime good q.1 q.2 hq).1 hw
      obtain ⟨x, hx, hvx⟩ := hq.vars hg n hn
      obtain ⟨y, hy, hvy⟩ := hq.noise hg
      have hvar : 0 ≤ s ^ 2 * dvVar q.1 n q.2 := by
        simp only [dvVar, hvx]
        positivity
      have hnoise : 0 < s ^ 2 * dvVar q.1 rn q.2 := by
        simp only [dvVar, hvy]
        positivity
      have hwt : rvWeight rn (varType (dvType byTime)) (⟨oneVariance sqrt rn (dvType byTime) good (s, q.1), q.1.time⟩ : PixModel ν α) =
          (if byTime then 1 else 1 / s ^ 2) * dvW rn byTime good q := by
        cases byTime
        · simp only [dvType, Bool.false_eq_true, if_false, varType, rvWeight, reduceCtorEq]
          simp only [dvType, Bool.false_eq_true, if_false] at h2
          rw [h2]
          simp only [if_pos hnoise, dvW, if_pos hg, Bool.false_eq_true, if_false]
          field_simp
        · simp only [dvType, if_true, varType, rvWeight, dvW, if_pos hg, one_mul]
      have hpos : 0 < (if byTime then 1 else 1 / s ^ 2) * dvW rn byTime good q := by
        refine mul_pos ?_ (lt_of_le_of_ne (dv_nonneg rn names byTime good q.1 q.2 hq) (Ne.symm hw))
        cases byTime
        · simp only [Bool.false_eq_true, if_false]
          positivity
        · simp
      have : rvContrib rn (varType (dvType byTime)) n
          [(⟨oneVariance sqrt rn (dvType byTime) good (s, q.1), q.1.time⟩ : PixModel ν α)] =
          [(s ^ 2 * dvVar q.1 n q.2, (if byTime then 1 else 1 / s ^ 2) * dvW rn byTime good q)] := by
        simp only [rvContrib, List.filterMap_cons, List.filterMap_nil, h1, hwt, hvar, hpos, and_self, if_true]
      rw [this]
      rfl

/-- **C169**: images on the grid of the output, weighted by read noise or by time: the variances reported are those of the image reported.  There
are weights such that the value is the weighted mean of the data and each variance is the variance of that mean. -/
theorem C169_variance_of_mean [DecidableEq ν] (sqrt : α → α) (hsq : ∀ x, 0 ≤ x → sqrt x ^ 2 = x) (rn : ν) (names : List ν) (hrn : rn ∈ names)
    (byTime : Bool) (good : Option Nat) (s scaling : α) (hs : s ≠ 0) (fill : Option α) (ms : List (Input ν α × (Nat × Nat)))
    (h : ∀ q ∈ ms, DvAligned rn names good q.1 q.2) :
    let W := (ms.map (dvW rn byTime good)).sum
    let out := (science rn (if byTime then .exptime else .ivm) good (ms.map fun q => (s, q.1))).out fill
    let var := variance sqrt names rn (if byTime then .exptime else .ivm) good scaling (ms.map fun q => (s, q.1))
    (W = 0 → out = fill ∧ ∀ n ∈ names, var n = some none) ∧
    (W ≠ 0 →
      out = some (ms.map fun q => dvW rn byTime good q / W * (s * ((q.1.data q.2.1 q.2.2).getD 0 -
        if q.1.subtracted then 0 else q.1.level.getD 0))).sum ∧
      ∀ n ∈ names, var n = some (some (scaling * (ms.map fun q => (dvW rn byTime good q / W) ^ 2 * (s ^ 2 * dvVar q.1 n q.2)).sum))) := by
  intro W out var
  have hnn : DzNonneg rn (dvType byTime) good (ms.map fun q => (s, q.1)) := by
    intro q hq r c _
    obtain ⟨q, hq', rfl⟩ := List.mem_map.1 hq
    rw [dv_dow rn names byTime good q.1 q.2 (h q hq')]
    split
    · exact dv_nonneg rn names byTime good q.1 q.2 (h q hq')
    · exact le_refl _
  have hnum : ∀ q ∈ ms.map fun q => (s, q.1), ∀ r c, DzIn q.2 r c → dzDow rn (dvType byTime) good q.2 r c ≠ 0 →
      (q.2.data r c).isSome := by
    intro q hq r c _ hd
    obtain ⟨q, hq', rfl⟩ := List.mem_map.1 hq
    have hq := h q hq'
    rw [dv_dow rn names byTime good q.1 q.2 hq] at hd
    have e : (r, c) = q.2 := by
      by_contra hne
      rw [if_neg hne] at hd
      exact hd rfl
    rw [if_pos e] at hd
    have := hq.data ((dv_pos rn names byTime good q.1 q.2 hq).1 hd)
    rw [← e] at this
    exact this
  obtain ⟨-, hout⟩ := C168_mean rn (dvType byTime) good _ fill hnn hnum
  have hW : dzW rn (dvType byTime) good (ms.map fun q => (s, q.1)) = W := by
    simp only [dzW, List.map_map, W]
    refine congrArg _ (List.map_congr_left fun q hq => ?_)
    have hq := h q hq
    simp only [Function.comp]
    rw [dv_single q.1 q.2 hq.inside _ fun r c hne => by rw [dv_dow rn names byTime good q.1 q.2 hq, if_neg hne],
      dv_dow rn names byTime good q.1 q.2 hq, if_pos rfl]
  have hS : dzS rn (dvType byTime) good (ms.map fun q => (s, q.1)) =
      (ms.map fun q => dvW rn byTime good q * (s * ((q.1.data q.2.1 q.2.2).getD 0 -
        if q.1.subtracted then 0 else q.1.level.getD 0))).sum := by
    simp only [dzS, List.map_map]
    refine congrArg _ (List.map_congr_left fun q hq => ?_)
    have hq := h q hq
    simp only [Function.comp]
    rw [dv_single q.1 q.2 hq.inside _ fun r c hne => by rw [dv_dow rn names byTime good q.1 q.2 hq, if_neg hne, zero_mul],
      dv_dow rn names byTime good q.1 q.2 hq, if_pos rfl, dzSky, mul_comm s]
  rw [hW, hS] at hout
  have hout' : out = if W = 0 then fill else some ((ms.map fun q => dvW rn byTime good q * (s * ((q.1.data q.2.1 q.2.2).getD 0 -
        if q.1.subtracted then 0 else q.1.level.getD 0))).sum / W) := hout
  obtain ⟨info, hi, hinfo⟩ := C52_combination names rn (varType (dvType byTime)) ((ms.map fun q => (s, q.1)).map fun q =>
    (⟨oneVariance sqrt rn (dvType byTime) good q, q.2.time⟩ : PixModel ν α)) scaling hrn (by
      intro _ m hm
      obtain ⟨q, hq, rfl⟩ := List.mem_map.1 hm
      obtain ⟨q, hq', rfl⟩ := List.mem_map.1 hq
      have := (h q hq').has rn hrn
      simpa [oneVariance] using this)
  have hvar : ∀ n ∈ names, var n = some (rvVariance scaling ((ms.filter fun q => !decide (dvW rn byTime good q = 0)).map fun q =>
        (s ^ 2 * dvVar q.1 n q.2, (if byTime then 1 else 1 / s ^ 2) * dvW rn byTime good q))) := by
    intro n hn
    rw [← dv_contrib sqrt hsq rn names hrn byTime good s hs ms h n hn, ← hinfo n hn]
    have : var n = (addVars names rn (varType (dvType byTime)) ((ms.map fun q => (s, q.1)).map fun q =>
      (⟨oneVariance sqrt rn (dvType byTime) good q, q.2.time⟩ : PixModel ν α))).map fun i => finalVar scaling (i n) := rfl
    rw [this, hi]
    rfl
  have hk : (if byTime then (1 : α) else 1 / s ^ 2) ≠ 0 := by
    cases byTime
    · simp [hs]
    · simp
  have hnnw : ∀ x ∈ ms.map (dvW rn byTime good), 0 ≤ x := by
    intro x hx
    obtain ⟨q, hq, rfl⟩ := List.mem_map.1 hx
    exact dv_nonneg rn names byTime good q.1 q.2 (h q hq)
  constructor
  · intro hw
    refine ⟨by rw [hout', if_pos hw], fun n hn => ?_⟩
    have hz : ∀ q ∈ ms, dvW rn byTime good q = 0 := by
      intro q hq
      have := List.single_le_sum hnnw _ (List.mem_map.2 ⟨q, hq, rfl⟩)
      have h0 := dv_nonneg rn names byTime good q.1 q.2 (h q hq)
      change _ ≤ W at this
      rw [hw] at this
      exact le_antisymm this h0
    have hf : (ms.filter fun q => !decide (dvW rn byTime good q = 0)) = [] := by
      rw [List.filter_eq_nil_iff]
      intro q hq
      simp [hz q hq]
    rw [hvar n hn, hf]
    simp [rvVariance]
  · intro hw
    constructor
    · rw [hout', if_neg hw]
      congr 1
      rw [div_eq_mul_inv, ← List.sum_map_mul_right]
      refine congrArg _ (List.map_congr_left fun q _ => ?_)
      ring
    · intro n hn
      rw [hvar n hn]
      have hne : ((ms.filter fun q => !decide (dvW rn byTime good q = 0)).map fun q =>
        (s ^ 2 * dvVar q.1 n q.2, (if byTime then 1 else 1 / s ^ 2) * dvW rn byTime good q)) ≠ [] := by
        intro hnil
        apply hw
        have hf := List.map_eq_nil_iff.1 hnil
        rw [List.filter_eq_nil_iff] at hf
        refine List.sum_eq_zero fun x hx => ?_
        obtain ⟨q, hq, rfl⟩ := List.mem_map.1 hx
        simpa using hf q hq
      simp only [rvVariance, if_neg hne, List.map_map]
      congr 2
      have e1 : ((ms.filter fun q => !decide (dvW rn byTime good q = 0)).map
          ((fun p : α × α => p.2 ^ 2 * p.1) ∘ fun q => (s ^ 2 * dvVar q.1 n q.2,
            (if byTime then 1 else 1 / s ^ 2) * dvW rn byTime good q))).sum =
          (ms.map fun q => (if byTime then (1 : α) else 1 / s ^ 2) ^ 2 * (dvW rn byTime good q ^ 2 * (s ^ 2 * dvVar q.1 n q.2))).sum := by
        rw [← dv_filter_sum ms (dvW rn byTime good) _ (fun q _ h0 => by rw [h0]; ring)]
        refine congrArg _ (List.map_congr_left fun q _ => ?_)
        simp only [Function.comp]
        ring
      have e2 : ((ms.filter fun q => !decide (dvW rn byTime good q = 0)).map
          (Prod.snd ∘ fun q => (s ^ 2 * dvVar q.1 n q.2, (if byTime then 1 else 1 / s ^ 2) * dvW rn byTime good q))).sum =
          (if byTime then (1 : α) else 1 / s ^ 2) * W := by
        have : (ms.map fun q => dvW rn byTime good q * (if byTime then (1 : α) else 1 / s ^ 2)).sum =
            (if byTime then (1 : α) else 1 / s ^ 2) * W := by
          rw [List.sum_map_mul_right, mul_comm]
        rw [← this, ← dv_filter_sum ms (dvW rn byTime good) _ (fun q _ h0 => by rw [h0]; ring)]
        refine congrArg _ (List.map_congr_left fun q _ => ?_)
        simp only [Function.comp]
        ring
      rw [e1, e2]
      generalize (if byTime then (1 : α) else 1 / s ^ 2) = k at hk
      have e3 : (ms.map fun q => k ^ 2 * (dvW rn byTime good q ^ 2 * (s ^ 2 * dvVar q.1 n q.2))).sum =
          (ms.map fun q => (dvW rn byTime good q / W) ^ 2 * (s ^ 2 * dvVar q.1 n q.2)).sum * (k ^ 2 * W ^ 2) := by
        rw [← List.sum_map_mul_right]
        refine congrArg _ (List.map_congr_left fun q _ => ?_)
        field_simp
      rw [e3, mul_pow, ← mul_assoc, mul_div_assoc, div_self (by positivity), mul_one]

/-- An image of one row of two pixels; the first falls on the output pixel. -/
def dvImage (d rn pn sk : ℚ) (dq : Nat) : Input Bool ℚ :=
  { ny := 1, nx := 2, data := fun _ _ => some d, dq := fun _ _ => dq,
    vars := fun n => some fun _ _ => .num (if n then rn else pn), sky := some fun _ _ => .num sk, time := 1, level := some 1,
    subtracted := false, box := none, overlap := fun r c => if (r, c) = (0, 0) then 1 else 0 }

theorem dv_image_aligned (good : Option Nat) (d rn pn sk : ℚ) (dq : Nat) (h1 : 0 < rn) (h2 : 0 ≤ pn) :
    DvAligned true [true, false] good (dvImage d rn pn sk dq) (0, 0) where
  inside := by
    have : resampleRange 1 2 (none : Option ((ℚ × ℚ) × (ℚ × ℚ))) = ((0, 1), (0, 0)) := by decide +kernel
    simp [DzIn, dvImage, this]
  overlap := fun _ _ => rfl
  time := by simp [dvImage]
  has := by simp [dvImage]
  data := by simp [dvImage]
  vars := by
    intro _ n _
    refine ⟨if n then rn else pn, ?_, rfl⟩
    cases n
    · simpa using h2
    · simpa using h1.le
  noise := fun _ => ⟨rn, h1, rfl⟩

/-- Three images, the third one flagged; read-noise variances 1 and 3.  (`sqrt` is any square root, so the statement is about those that
there are in the field; over the rational numbers none, over the real numbers one.) -/
example : ∃ ms : List (Input Bool ℚ × (Nat × Nat)), (∀ q ∈ ms, DvAligned true [true, false] (some 0) q.1 q.2) ∧ ms.length = 3 ∧
    (science true .ivm (some 0) (ms.map fun q => ((2 : ℚ), q.1))).out none = some 5 :=
  ⟨[(dvImage 3 1 4 1 0, (0, 0)), (dvImage 5 3 4 1 0, (0, 0)), (dvImage 100 1 4 1 1, (0, 0))], by
    intro q hq
    simp only [List.mem_cons, List.not_mem_nil, or_false] at hq
    rcases hq with rfl | rfl | rfl <;> exact dv_image_aligned _ _ _ _ _ _ (by norm_num) (by norm_num), rfl, by decide +kernel⟩

/-- Real numbers have the root that the theorem asks for. -/
example : ∀ x : ℝ, 0 ≤ x → Real.sqrt x ^ 2 = x := fun _ h => Real.sq_sqrt h

/-- **Finding**: with `weight_type="ivm-sky"` the image is weighted by the sky variance and the variances are weighted by the read noise, so the
variance reported is not that of the image.  Two images with values 8 and 4, all variances 1, and sky variances 1 and 3: the image is 3/4 of
the first and 1/4 of the second, which has variance 5/8; reported is 1/2.  (The roots of 0 and 1 are themselves.) -/
theorem C169_sky_weights : ∃ (m m' : Input Bool ℚ), DvAligned true [true, false] none m (0, 0) ∧ DvAligned true [true, false] none m' (0, 0) ∧
    (science true .ivmSky none [(1, m), (1, m')]).out none = some (3 / 4 * 7 + 1 / 4 * 3) ∧
    m.data 0 0 = some (7 + 1) ∧ m'.data 0 0 = some (3 + 1) ∧ m.level = some 1 ∧ m'.level = some 1 ∧ dvVar m false (0, 0) = 1 ∧ dvVar m' false (0, 0) = 1 ∧
    variance id [true, false] true .ivmSky none 1 [(1, m), (1, m')] false = some (some (1 / 2)) ∧
    (1 / 2 : ℚ) ≠ (3 / 4) ^ 2 * 1 + (1 / 4) ^ 2 * 1 :=
  ⟨dvImage 8 1 1 1 0, dvImage 4 1 1 3 0, dv_image_aligned _ _ _ _ _ _ (by norm_num) (by norm_num),
    dv_image_aligned _ _ _ _ _ _ (by norm_num) (by norm_num), by decide +kernel, by norm_num [dvImage], by norm_num [dvImage], rfl, rfl, rfl, rfl, by decide +kernel,
    by norm_num⟩

end Verif.Thm
