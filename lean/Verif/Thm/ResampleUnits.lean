import Verif.Thm.DrizzleVar

/-! # Resampling data in another unit (C170) -/

set_option linter.unusedSectionVars false

namespace Verif.Thm
open Verif.Resample Verif.Drizzle

variable {ν : Type}

/-- Specification: a variance in another unit. -/
noncomputable def ryVar (k : ℝ) : Fl ℝ → Fl ℝ
  | .num x => .num (k ^ 2 * x)
  | x => x

/-- Specification: the same image with data in another unit: data and sky level times `k`, variances times the square. -/
structure RyUnit (k : ℝ) (m m' : Input ν ℝ) : Prop where
  ny : m'.ny = m.ny
  nx : m'.nx = m.nx
  data : ∀ r c, m'.data r c = (m.data r c).map fun x => k * x
  dq : m'.dq = m.dq
  vars : ∀ n, m'.vars n = (m.vars n).map fun v r c => ryVar k (v r c)
  sky : m'.sky = m.sky.map fun v r c => ryVar k (v r c)
  time : m'.time = m.time
  level : m'.level = m.level.map fun x => k * x
  subtracted : m'.subtracted = m.subtracted
  box : m'.box = m.box
  overlap : m'.overlap = m.overlap

/-- Specification: the array the weights are made of is there. -/
def RyHas (rn : ν) : DrizType → Input ν ℝ → Prop
  | .ivm, m => (m.vars rn).isSome
  | .ivmSky, m => m.sky.isSome
  | _, _ => True

/-- Specification: by how much the weights change. -/
noncomputable def ryFactor (k : ℝ) : DrizType → ℝ
  | .ivm => 1 / k ^ 2
  | .ivmSky => 1 / k ^ 2
  | _ => 1

theorem ry_factor_pos (k : ℝ) (hk : 0 < k) (t : DrizType) : 0 < ryFactor k t := by
  cases t <;> simp only [ryFactor] <;> positivity

theorem ry_inv (k : ℝ) (hk : 0 < k) (v : Fl ℝ) : dzInv (some (ryVar k v)) = 1 / k ^ 2 * dzInv (some v) := by
  cases v with
  | num x =>
    simp only [ryVar, dzInv]
    by_cases hx : x = 0
    · simp [hx]
    · have : k ^ 2 * x ≠ 0 := by positivity
      rw [if_neg this, if_neg hx]
      field_simp
  | _ => simp [ryVar, dzInv]

theorem ry_weight (k : ℝ) (hk : 0 < k) (rn : ν) (t : DrizType) (good : Option Nat) (m m' : Input ν ℝ) (h : RyUnit k m m') (hh : RyHas rn t m)
    (r c : Nat) : m'.weight rn t good r c = ryFactor k t * m.weight rn t good r c := by
  rw [dz_weight, dz_weight]
  have hd : m'.dq r c = m.dq r c := by rw [h.dq]
  by_cases hg : DzGood good (m.dq r c)
  · have hg' : DzGood good (m'.dq r c) := by rwa [hd]
    simp only [dzWt, if_pos hg, if_pos hg']
    cases t with
    | ivm =>
      obtain ⟨v, hv⟩ := Option.isSome_iff_exists.1 hh
      simp only [h.vars, hv, Option.map_some, ryFactor]
      exact ry_inv k hk _
    | ivmSky =>
      obtain ⟨v, hv⟩ := Option.isSome_iff_exists.1 hh
      simp only [h.sky, hv, Option.map_some, ryFactor]
      exact ry_inv k hk _
    | exptime => simp [ryFactor, h.time]
    | unit => simp [ryFactor]
  · have hg' : ¬ DzGood good (m'.dq r c) := by rwa [hd]
    simp only [dzWt, if_neg hg, if_neg hg', mul_zero]

/-- What is kept at an output pixel in the other unit. -/
noncomputable def ryCell (k κ : ℝ) (s : Cell ℝ) : Cell ℝ := ⟨s.img.map fun x => k * x, κ * s.wht⟩

theorem ry_put (k κ : ℝ) (hκ : κ ≠ 0) (s : Cell ℝ) (d : Option ℝ) (w : ℝ) :
    (ryCell k κ s).put (d.map fun x => k * x) (κ * w) = ryCell k κ (s.put d w) := by
  obtain ⟨img, wht⟩ := s
  by_cases hw : w = 0
  · simp [Cell.put, hw]
  · by_cases hs : wht = 0
    · simp [Cell.put, hw, hs, hκ, ryCell]
    · cases img <;> cases d <;> simp only [Cell.put, hw, hs, hκ, ryCell, mul_eq_zero, or_self, if_false, Option.map_some, Option.map_none,
        Cell.mk.injEq, Option.some.injEq, true_and]
      · ring
      · ring
      · ring
      refine ⟨?_, by ring⟩
      rename_i x y
      by_cases h0 : wht + w = 0
      · rw [← mul_add, h0]
        simp
      · rw [← mul_add]
        field_simp

theorem ry_add (k : ℝ) (hk : 0 < k) (rn : ν) (t : DrizType) (good : Option Nat) (m m' : Input ν ℝ) (h : RyUnit k m m') (hh : RyHas rn t m)
    (val val' : Nat → Nat → Option ℝ) (hval : ∀ r c, val' r c = (val r c).map fun x => k * x) (iscale : ℝ) (s : Cell ℝ) :
    addImage rn t good val' iscale m' (ryCell k (ryFactor k t) s) = ryCell k (ryFactor k t) (addImage rn t good val iscale m s) := by
  have hp : m'.pixels = m.pixels := by simp only [Input.pixels, h.ny, h.nx, h.box]
  simp only [addImage, hp]
  induction m.pixels generalizing s with
  | nil => rfl
  | cons p l ih =>
    rw [List.foldl_cons, List.foldl_cons, ← ih]
    congr 1
    rw [← ry_put k _ (ry_factor_pos k hk t).ne', h.overlap, ry_weight k hk rn t good m m' h hh, hval]
    congr 1
    · cases val p.1 p.2 <;> simp [mul_assoc]
    · ring

theorem ry_science (k : ℝ) (m m' : Input ν ℝ) (h : RyUnit k m m') (r c : Nat) :
    m'.science r c = (m.science r c).map fun x => k * x := by
  simp only [Input.science, h.subtracted, h.level, h.data]
  split
  · cases m.level <;> cases m.data r c <;> simp [mul_sub]
  · rfl

/-- **C170**: images in another unit (data and sky level times `k`, variances times its square): the image comes out times `k`, the weights are
those of the new unit. -/
theorem C170_image (k : ℝ) (hk : 0 < k) (rn : ν) (t : DrizType) (good : Option Nat) (ms ms' : List (ℝ × Input ν ℝ))
    (h : List.Forall₂ (fun q q' => q'.1 = q.1 ∧ RyUnit k q.2 q'.2) ms ms') (hh : ∀ q ∈ ms, RyHas rn t q.2) (fill : Option ℝ) :
    (science rn t good ms').out (fill.map fun x => k * x) = ((science rn t good ms).out fill).map (fun x => k * x) ∧
      (science rn t good ms').wht = (match t with | .ivm | .ivmSky => 1 / k ^ 2 | _ => 1) * (science rn t good ms).wht := by
  have key : ∀ s : Cell ℝ, ms'.foldl (fun s q => addImage rn t good q.2.science q.1 q.2 s) (ryCell k (ryFactor k t) s) =
      ryCell k (ryFactor k t) (ms.foldl (fun s q => addImage rn t good q.2.science q.1 q.2 s) s) := by
    induction h with
    | nil => intro s; rfl
    | cons hq _ ih =>
      intro s
      rw [List.foldl_cons, List.foldl_cons, ← ih (fun q hq => hh q (by simp [hq])), hq.1,
        ry_add k hk rn t good _ _ hq.2 (hh _ (by simp)) _ _ (ry_science k _ _ hq.2)]
  have he : ryCell k (ryFactor k t) (Cell.empty : Cell ℝ) = Cell.empty := by simp [ryCell, Cell.empty]
  have := key Cell.empty
  rw [he] at this
  have hs : science rn t good ms' = ryCell k (ryFactor k t) (science rn t good ms) := this
  rw [hs]
  constructor
  · simp only [Cell.out, ryCell, mul_eq_zero, (ry_factor_pos k hk t).ne', false_or]
    split <;> rfl
  · cases t <;> rfl

theorem ry_one (k : ℝ) (hk : 0 < k) (rn : ν) (t : DrizType) (good : Option Nat) (iscale : ℝ) (m m' : Input ν ℝ) (h : RyUnit k m m')
    (hh : RyHas rn t m) (n : ν) :
    oneVariance Real.sqrt rn t good (iscale, m') n =
      (oneVariance Real.sqrt rn t good (iscale, m) n).map fun o => o.map fun x => k ^ 2 * x := by
  simp only [oneVariance, h.vars]
  cases hv : m.vars n with
  | none => rfl
  | some v =>
    simp only [Option.map_some, Option.some.injEq]
    have he : ryCell k (ryFactor k t) (Cell.empty : Cell ℝ) = Cell.empty := by simp [ryCell, Cell.empty]
    have := ry_add k hk rn t good m m' h hh (fun r c => root Real.sqrt (v r c)) (fun r c => root Real.sqrt (ryVar k (v r c))) (by
      intro r c
      cases v r c with
      | num x =>
        simp only [ryVar, root]
        by_cases hx : x < 0
        · have : k ^ 2 * x < 0 := mul_neg_of_pos_of_neg (by positivity) hx
          simp [hx, this]
        · have : ¬ k ^ 2 * x < 0 := not_lt.2 (mul_nonneg (by positivity) (not_lt.1 hx))
          simp only [if_neg hx, if_neg this, Option.map_some, Option.some.injEq]
          rw [Real.sqrt_mul (by positivity), Real.sqrt_sq hk.le]
      | _ => rfl) iscale Cell.empty
    rw [he] at this
    rw [this]
    simp only [Cell.out, ryCell, mul_eq_zero, (ry_factor_pos k hk t).ne', false_or]
    split
    · rfl
    · cases (addImage rn t good (fun r c => root Real.sqrt (v r c)) iscale m Cell.empty).img with
      | none => rfl
      | some x =>
        simp only [Option.map_some, Option.some.injEq]
        ring

/-- **C170**: the variances come out times the square of `k`. -/
theorem C170_variance [DecidableEq ν] (k : ℝ) (hk : 0 < k) (names : List ν) (rn : ν) (hrn : rn ∈ names) (t : DrizType) (good : Option Nat) (scaling : ℝ)
    (ms ms' : List (ℝ × Input ν ℝ)) (h : List.Forall₂ (fun q q' => q'.1 = q.1 ∧ RyUnit k q.2 q'.2) ms ms')
    (hh : ∀ q ∈ ms, RyHas rn t q.2 ∧ (t ≠ .exptime → (q.2.vars rn).isSome)) (n : ν) (hn : n ∈ names) :
    ∃ o, variance Real.sqrt names rn t good scaling ms n = some o ∧
      variance Real.sqrt names rn t good scaling ms' n = some (o.map fun x => k ^ 2 * x) := by
  have hlist : ms'.map (fun q => (⟨oneVariance Real.sqrt rn t good q, q.2.time⟩ : PixModel ν ℝ)) =
      ms.map fun q => ⟨fun n => (oneVariance Real.sqrt rn t good q n).map fun o => o.map fun x => k ^ 2 * x, q.2.time⟩ := by
    induction h with
    | nil => rfl
    | cons hq _ ih =>
      rename_i a b _ _ _
      rw [List.map_cons, List.map_cons, ih fun q hq => hh q (by simp [hq])]
      congr 1
      obtain ⟨a1, a2⟩ := a
      obtain ⟨b1, b2⟩ := b
      have e := hq.1
      dsimp only at e
      subst e
      have := hq.2.time
      dsimp only at this
      rw [this]
      congr 1
      funext n
      exact ry_one k hk rn t good b1 a2 b2 hq.2 (hh (b1, a2) (by simp)).1 n
  have hivm : varType t = .ivm → t ≠ .exptime := by
    rintro h rfl
    cases h
  obtain ⟨i, h1, h2⟩ := C52_combination names rn (varType t) (ms.map fun q => (⟨oneVariance Real.sqrt rn t good q, q.2.time⟩ : PixModel ν ℝ))
    scaling hrn (by
      intro ht m hm
      obtain ⟨q, hq, rfl⟩ := List.mem_map.1 hm
      simpa [oneVariance] using (hh q hq).2 (hivm ht))
  obtain ⟨i', h1', h2'⟩ := C52_combination names rn (varType t) (ms'.map fun q => (⟨oneVariance Real.sqrt rn t good q, q.2.time⟩ : PixModel ν ℝ))
    scaling hrn (by
      intro ht m hm
      rw [hlist] at hm
      obtain ⟨q, hq, rfl⟩ := List.mem_map.1 hm
      simpa [oneVariance] using (hh q hq).2 (hivm ht))
  refine ⟨finalVar scaling (i n), by simp only [variance, h1, Option.map_some], ?_⟩
  simp only [variance, h1', Option.map_some, Option.some.injEq, h2 n hn, h2' n hn]
  classical
  set κ : ℝ := if t = .exptime then 1 else 1 / k ^ 2 with hκ
  have hκp : 0 < κ := by
    rw [hκ]
    split <;> positivity
  have hc : rvContrib rn (varType t) n (ms'.map fun q => (⟨oneVariance Real.sqrt rn t good q, q.2.time⟩ : PixModel ν ℝ)) =
      (rvContrib rn (varType t) n (ms.map fun q => (⟨oneVariance Real.sqrt rn t good q, q.2.time⟩ : PixModel ν ℝ))).map
        fun p => (k ^ 2 * p.1, κ * p.2) := by
    rw [hlist]
    simp only [rvContrib, List.filterMap_map, List.map_filterMap]
    congr 1
    funext q
    simp only [Function.comp]
    have hw : rvWeight rn (varType t) (⟨fun n => (oneVariance Real.sqrt rn t good q n).map fun o => o.map fun x => k ^ 2 * x, q.2.time⟩ :
        PixModel ν ℝ) = κ * rvWeight rn (varType t) ⟨oneVariance Real.sqrt rn t good q, q.2.time⟩ := by
      by_cases ht : t = .exptime
      · subst ht
        simp [rvWeight, varType, hκ]
      · have hv : varType t ≠ .exptime := by
          cases t <;> simp_all [varType]
        simp only [rvWeight, if_neg hv, hκ, if_neg ht]
        rcases hx : oneVariance Real.sqrt rn t good q rn with _ | _ | x
        · simp
        · simp
        · simp only [Option.map_some]
          by_cases h0 : 0 < x
          · have : 0 < k ^ 2 * x := by positivity
            rw [if_pos h0, if_pos this]
            field_simp
          · have : ¬ 0 < k ^ 2 * x := not_lt.2 (mul_nonpos_of_nonneg_of_nonpos (by positivity) (not_lt.1 h0))
            rw [if_neg h0, if_neg this, mul_zero]
    rw [hw]
    rcases hx : oneVariance Real.sqrt rn t good q n with _ | _ | x
    · rfl
    · rfl
    · simp only [Option.map_some]
      have e1 : 0 ≤ k ^ 2 * x ↔ 0 ≤ x := by
        constructor
        · intro h
          by_contra h0
          exact absurd h (not_le.2 (mul_neg_of_pos_of_neg (by positivity) (not_le.1 h0)))
        · intro h
          positivity
      have e2 : ∀ w, 0 < κ * w ↔ 0 < w := fun w => ⟨fun h => by
        by_contra h0
        exact absurd h (not_lt.2 (mul_nonpos_of_nonneg_of_nonpos hκp.le (not_lt.1 h0))), fun h => mul_pos hκp h⟩
      simp only [e1, e2]
      split <;> rfl
  rw [hc]
  simp only [rvVariance, List.map_eq_nil_iff]
  split
  · rfl
  · simp only [Option.map_some, Option.some.injEq, List.map_map]
    generalize rvContrib rn (varType t) n (ms.map fun q => (⟨oneVariance Real.sqrt rn t good q, q.2.time⟩ : PixModel ν ℝ)) = l
    have e1 : (l.map ((fun p : ℝ × ℝ => p.2 ^ 2 * p.1) ∘ fun p => (k ^ 2 * p.1, κ * p.2))).sum =
        (l.map fun p => p.2 ^ 2 * p.1).sum * (κ ^ 2 * k ^ 2) := by
      rw [← List.sum_map_mul_right]
      refine congrArg _ (List.map_congr_left fun p _ => ?_)
      simp only [Function.comp]
      ring
    have e2 : (l.map (Prod.snd ∘ fun p : ℝ × ℝ => (k ^ 2 * p.1, κ * p.2))).sum = (l.map Prod.snd).sum * κ := by
      rw [← List.sum_map_mul_right]
      refine congrArg _ (List.map_congr_left fun p _ => ?_)
      simp only [Function.comp]
      ring
    rw [e1, e2]
    by_cases hz : (l.map Prod.snd).sum = 0
    · simp [hz]
    · field_simp

/-- An image and the same in another unit. -/
noncomputable def ryImage (k d v : ℝ) : Input Unit ℝ :=
  { ny := 2, nx := 2, data := fun _ _ => some (k * d), dq := fun _ _ => 0, vars := fun _ => some fun _ _ => .num (k ^ 2 * v), sky := none, time := 1,
    level := some (k * 1), subtracted := false, box := none, overlap := fun _ _ => 1 }

/-- Both theorems apply to two images in another unit. -/
example : ∃ ms ms' : List (ℝ × Input Unit ℝ), List.Forall₂ (fun q q' => q'.1 = q.1 ∧ RyUnit 3 q.2 q'.2) ms ms' ∧
    (∀ q ∈ ms, RyHas () .ivm q.2 ∧ (DrizType.ivm ≠ .exptime → (q.2.vars ()).isSome)) ∧ ms.length = 2 := by
  have hu : ∀ d v, RyUnit 3 (ryImage 1 d v) (ryImage 3 d v) := by
    intro d v
    constructor <;> simp [ryImage, ryVar]
  refine ⟨[(1, ryImage 1 5 2), (2, ryImage 1 7 4)], [(1, ryImage 3 5 2), (2, ryImage 3 7 4)], ?_, ?_, rfl⟩
  · exact .cons ⟨rfl, hu 5 2⟩ (.cons ⟨rfl, hu 7 4⟩ .nil)
  · intro q hq
    simp only [List.mem_cons, List.not_mem_nil, or_false] at hq
    rcases hq with rfl | rfl <;> simp [RyHas, ryImage]

/-- An image of one pixel with or without read-noise variance. -/
def rySmall (d : ℚ) (v : Option ℚ) : Input Unit ℚ :=
  { ny := 1, nx := 1, data := fun _ _ => some d, dq := fun _ _ => 0, vars := fun _ => v.map fun x _ _ => .num x, sky := none, time := 1,
    level := none, subtracted := true, box := none, overlap := fun _ _ => 1 }

/-- **Finding**: an image whose read-noise variance is missing has weight one beside the inverse variances of the others, so the result depends on
the unit: values 2 and 4 with variance 1 and without variance give 3; with half the unit (4 and 8, variance 4) not 6 but 36/5. -/
theorem C170_missing_noise :
    (science () .ivm none [(1, rySmall 2 (some 1)), (1, rySmall 4 none)]).out none = some 3 ∧
      (science () .ivm none [(1, rySmall (2 * 2) (some (2 ^ 2 * 1))), (1, rySmall (2 * 4) none)]).out none = some (36 / 5) ∧
      (36 / 5 : ℚ) ≠ 2 * 3 := by
  refine ⟨by decide +kernel, by decide +kernel, by norm_num⟩

end Verif.Thm
