import Verif.Thm.Thresholds
import Verif.Thm.OutlierUnits

/-!
# C175: a steady signal on top never adds jumps

Two-point jump detection (jump/twopoint_difference.py, jump/jump.py) on an exposure and on the same exposure with a further
steady source in every pixel.
-/

set_option linter.unusedSectionVars false

namespace Verif.Thm

open Verif Verif.Jump Verif.JumpDriver

section
variable {α : Type} [Field α] [LinearOrder α] [IsStrictOrderedRing α]

/-- Spec: the samples of an exposure with a further signal of rate `b r c`; `T g` is the time of group `g`. -/
def bkAdd (b : Nat → Nat → α) (T : Nat → α) (data : Cube (Option α)) : Cube (Option α) :=
  fun i g r c => (data i g r c).map fun x => x + b r c * T g

/-- A number with `c` added; NaN stays NaN. -/
abbrev bkUp (c : α) (x : Option α) : Option α := uoVal 1 c x

theorem bk_up_some (c x : α) : bkUp c (some x) = some (x + c) := by simp [bkUp, uoVal]

theorem bk_up_inj (c : α) (x y : Option α) : bkUp c x = bkUp c y ↔ x = y := by
  cases x <;> cases y <;> simp [bkUp, uoVal]

theorem bk_finite (c : α) (l : List (Option α)) : finite (l.map (bkUp c)) = (finite l).map fun x => x + c := by
  simp only [finite]
  induction l with
  | nil => rfl
  | cons o l ih => cases o <;> simp [ih, bkUp, uoVal]

theorem bk_median (c : α) (l : List (Option α)) : nanmedian (l.map (bkUp c)) = bkUp c (nanmedian l) := uo_median 1 c one_pos l

theorem bk_max (c : α) (l : List (Option α)) : nanmax (l.map (bkUp c)) = bkUp c (nanmax l) := by
  cases h : nanmax l with
  | none =>
    unfold nanmax at *
    rw [bk_finite]
    rw [List.max?_eq_none_iff] at h
    simp [h, bkUp, uoVal]
  | some m =>
    obtain ⟨h1, h2⟩ := nanmax_spec l m h
    obtain ⟨m', h'⟩ := nanmax_exists (l.map (bkUp c)) (m + c) (List.mem_map.2 ⟨some m, h1, bk_up_some c m⟩)
    obtain ⟨k1, k2⟩ := nanmax_spec _ m' h'
    rw [h', bk_up_some]
    congr 1
    refine le_antisymm ?_ (k2 _ (List.mem_map.2 ⟨some m, h1, bk_up_some c m⟩))
    obtain ⟨o, ho, he⟩ := List.mem_map.1 k1
    cases o with
    | none => simp [bkUp, uoVal] at he
    | some x =>
      rw [bk_up_some] at he
      cases he
      exact add_le_add_left (h2 x ho) c

theorem bk_min (c : α) (l : List (Option α)) : nanmin (l.map (bkUp c)) = bkUp c (nanmin l) := by
  unfold nanmin
  rw [bk_finite]
  cases h : (finite l).min? with
  | none =>
    rw [List.min?_eq_none_iff] at h
    simp [h, bkUp, uoVal]
  | some m =>
    rw [List.min?_eq_some_iff] at h
    rw [bk_up_some, List.min?_eq_some_iff]
    refine ⟨List.mem_map.2 ⟨m, h.1, rfl⟩, fun x hx => ?_⟩
    obtain ⟨y, hy, rfl⟩ := List.mem_map.1 hx
    exact add_le_add_left (h.2 y hy) c

theorem bk_calcMed (c : α) (l : List (Option α)) : calcMed (l.map (bkUp c)) = bkUp c (calcMed l) := by
  have hl : (finite (l.map (bkUp c))).length = (finite l).length := by rw [bk_finite, List.length_map]
  unfold calcMed
  simp only [hl]
  split
  · rfl
  · split
    · exact bk_min c l
    · split
      · rw [bk_max, ← bk_median]
        congr 1
        rw [List.map_map, List.map_map]
        refine List.map_congr_left fun x _ => ?_
        simp only [Function.comp]
        by_cases hx : x = nanmax l
        · rw [if_pos ((bk_up_inj c _ _).2 hx), if_pos hx]
          rfl
        · rw [if_neg (fun h => hx ((bk_up_inj c _ _).1 h)), if_neg hx]
      · exact bk_median c l

theorem bk_median_nonneg (l : List (Option α)) (m : α) (h : nanmedian l = some m) (h0 : ∀ x, some x ∈ l → 0 ≤ x) : 0 ≤ m := by
  have h1 := (nanmedian_spec _ _ h).1
  have hne : finite l ≠ [] := fun h' => by
    rw [(nanmedian_none_iff _).2 h'] at h
    cases h
  have hl := List.length_pos_of_ne_nil hne
  have hpos : 0 < (finite l).countP (fun x => decide (x ≤ m)) := by omega
  obtain ⟨x, hx, hxm⟩ := List.countP_pos_iff.1 hpos
  simp only [finite, List.mem_filterMap] at hx
  obtain ⟨y, hy, rfl⟩ := hx
  exact (h0 x hy).trans (of_decide_eq_true hxm)

theorem bk_calcMed_nonneg (l : List (Option α)) (m : α) (h : calcMed l = some m) (h0 : ∀ x, some x ∈ l → 0 ≤ x) :
    0 ≤ m ∧ ∃ x, some x ∈ l := by
  have hex : ∃ x, some x ∈ l := by
    by_contra hc
    have : finite l = [] := by
      rw [finite, List.filterMap_eq_nil_iff]
      intro a ha
      cases a with
      | none => rfl
      | some x => exact absurd ⟨x, ha⟩ hc
    simp [calcMed, this] at h
  refine ⟨?_, hex⟩
  unfold calcMed at h
  simp only at h
  split at h
  · cases h
  · split at h
    · unfold nanmin at h
      rw [List.min?_eq_some_iff] at h
      have := h.1
      simp only [finite, List.mem_filterMap] at this
      obtain ⟨y, hy, rfl⟩ := this
      exact h0 m hy
    · split at h
      · refine bk_median_nonneg _ m h fun x hx => ?_
        obtain ⟨y, hy, he⟩ := List.mem_map.1 hx
        split at he
        · cases he
        · subst he
          exact h0 x hy
      · exact bk_median_nonneg _ m h h0

/-- Spec: what is asked of the square root. -/
structure BkSqrt (sqrt : α → α) : Prop where
  pos : ∀ x, 0 < x → 0 < sqrt x
  mono : ∀ x y, 0 ≤ x → x ≤ y → sqrt x ≤ sqrt y

/-- Spec: noise of a difference `j` when the median rate is `m`. -/
def bkNoise (p : Params α) (sqrt : α → α) (rn2 m : α) (j : Nat) : α := sqrt (|m| * p.dt j + rn2 / (1 / 2 * p.nReads j)) / p.dt j

variable {p : Params α} {sqrt : α → α} {rn2 c : α}

theorem bk_noise (hq : BkSqrt sqrt) (hdt : ∀ j, 0 < p.dt j) (hn : ∀ j, 0 < p.nReads j) (hrn : 0 < rn2) {m m' : α} (h : |m| ≤ |m'|) (j : Nat) :
    0 < bkNoise p sqrt rn2 m j ∧ bkNoise p sqrt rn2 m j ≤ bkNoise p sqrt rn2 m' j := by
  have h1 := hdt j
  have h2 := hn j
  have hpos : 0 < |m| * p.dt j + rn2 / (1 / 2 * p.nReads j) := add_pos_of_nonneg_of_pos (by positivity) (by positivity)
  have hle : |m| * p.dt j + rn2 / (1 / 2 * p.nReads j) ≤ |m'| * p.dt j + rn2 / (1 / 2 * p.nReads j) :=
    add_le_add_left (mul_le_mul_of_nonneg_right h h1.le) _
  exact ⟨div_pos (hq.pos _ hpos) h1, div_le_div_of_nonneg_right (hq.mono _ _ hpos.le hle) h1.le⟩

theorem bk_sigma (hq : BkSqrt sqrt) (hdt : ∀ j, 0 < p.dt j) (hn : ∀ j, 0 < p.nReads j) (hrn : 0 < rn2) (m : α) (j : Nat) :
    sigma p sqrt rn2 (some m) j = some (bkNoise p sqrt rn2 m j) := by
  have := (bk_noise hq hdt hn hrn (le_refl |m|) j).1
  simp only [sigma]
  rw [if_neg (by exact this.ne')]
  rfl

/-- With a further signal all deviations shrink by a common factor, if all differences are read out alike. -/
theorem bk_ratios (hq : BkSqrt sqrt) (hdt : ∀ j, 0 < p.dt j) (hn : ∀ j, 0 < p.nReads j)
    (hu : ∀ j, p.dt j = p.dt 0 ∧ p.nReads j = p.nReads 0) (hc : 0 ≤ c) (fa : List (List (Option α)))
    (h0 : ∀ x, some x ∈ fa.flatten → 0 ≤ x ∧ 0 < rn2) :
    ∃ k, 0 < k ∧ k ≤ 1 ∧ ratios p sqrt rn2 (fa.map fun row => row.map (bkUp c)) =
      (ratios p sqrt rn2 fa).map fun row => row.map fun x => x.map fun v => v * k := by
  have hfl : (fa.map fun row => row.map (bkUp c)).flatten = fa.flatten.map (bkUp c) := by rw [List.map_flatten]
  cases hm : calcMed fa.flatten with
  | none =>
    refine ⟨1, one_pos, le_rfl, ?_⟩
    have hm' : calcMed (fa.flatten.map (bkUp c)) = none := by rw [bk_calcMed, hm]; rfl
    simp only [ratios, hfl, hm, hm', List.map_map]
    refine List.map_congr_left fun row _ => ?_
    simp only [Function.comp_def]
    rw [List.map_map]
    apply List.ext_getElem
    · simp
    · intro j h1 h2
      simp [ratio]
  | some m =>
    obtain ⟨hm0, x, hx⟩ := bk_calcMed_nonneg _ m hm fun x hx => (h0 x hx).1
    have hrn := (h0 x hx).2
    have hm' : calcMed (fa.flatten.map (bkUp c)) = some (m + c) := by rw [bk_calcMed, hm, bk_up_some]
    have habs : |m| ≤ |m + c| := by
      rw [abs_of_nonneg hm0, abs_of_nonneg (add_nonneg hm0 hc)]
      linarith
    obtain ⟨hs, hss⟩ := bk_noise hq hdt hn hrn habs 0
    have hs' := lt_of_lt_of_le hs hss
    have hj : ∀ m j, bkNoise p sqrt rn2 m j = bkNoise p sqrt rn2 m 0 := by
      intro m j
      simp only [bkNoise, (hu j).1, (hu j).2]
    refine ⟨bkNoise p sqrt rn2 m 0 / bkNoise p sqrt rn2 (m + c) 0, div_pos hs hs', (div_le_one hs').2 hss, ?_⟩
    simp only [ratios, hfl, hm, hm', List.map_map]
    refine List.map_congr_left fun row _ => ?_
    simp only [Function.comp_def]
    rw [List.map_map]
    apply List.ext_getElem
    · simp
    · intro j h1 h2
      simp only [List.getElem_map, List.getElem_zipIdx, Function.comp, bk_sigma hq hdt hn hrn, hj]
      cases row[j]'(by simpa using h2) with
      | none => simp [ratio, bkUp, uoVal]
      | some v =>
        rw [bk_up_some]
        simp only [ratio, Option.map_some]
        congr 1
        rw [add_sub_add_right_eq_sub]
        field_simp

theorem bk_newCr (hq : BkSqrt sqrt) (hdt : ∀ j, 0 < p.dt j) (hn : ∀ j, 0 < p.nReads j)
    (hu : ∀ j, p.dt j = p.dt 0 ∧ p.nReads j = p.nReads 0) (hc : 0 ≤ c) (fa : List (List (Option α)))
    (h0 : ∀ x, some x ∈ fa.flatten → 0 ≤ x ∧ 0 < rn2)
    (h : (newCr p sqrt rn2 (fa.map fun row => row.map (bkUp c))).flatten.any (fun b => b) = true) :
    newCr p sqrt rn2 (fa.map fun row => row.map (bkUp c)) = newCr p sqrt rn2 fa := by
  obtain ⟨k, hk, hk1, hr⟩ := bk_ratios hq hdt hn hu hc fa h0
  have hlen : (finite (fa.map fun row => row.map (bkUp c)).flatten).length = (finite fa.flatten).length := by
    rw [← List.map_flatten, bk_finite, List.length_map]
  rw [any_bat2] at h
  obtain ⟨i, j, h⟩ := h
  rw [newCr_bat2] at h
  obtain ⟨r0, t, hr0, ht, hlt, hmax⟩ := h
  rw [hlen] at ht
  unfold newCr
  simp only [hlen]
  rw [hr] at hr0 hmax ⊢
  have hmx : nanmax ((ratios p sqrt rn2 fa).map fun row => row.map fun x => x.map fun v => v * k).flatten =
      (nanmax (ratios p sqrt rn2 fa).flatten).map fun v => v * k := by
    rw [← List.map_flatten]
    generalize (ratios p sqrt rn2 fa).flatten = l
    cases hm : nanmax l with
    | none =>
      unfold nanmax at *
      rw [List.max?_eq_none_iff] at hm
      have : finite (l.map fun x => x.map fun v => v * k) = [] := by
        rw [finite, List.filterMap_eq_nil_iff] at hm ⊢
        intro a ha
        obtain ⟨b, hb, rfl⟩ := List.mem_map.1 ha
        rw [hm b hb]
        rfl
      rw [this]
      rfl
    | some m =>
      obtain ⟨h1, h2⟩ := nanmax_spec l m hm
      obtain ⟨m', h'⟩ := nanmax_exists (l.map fun x => x.map fun v => v * k) (m * k) (List.mem_map.2 ⟨some m, h1, rfl⟩)
      obtain ⟨k1, k2⟩ := nanmax_spec _ m' h'
      rw [h', Option.map_some]
      congr 1
      refine le_antisymm ?_ (k2 _ (List.mem_map.2 ⟨some m, h1, rfl⟩))
      obtain ⟨o, ho, he⟩ := List.mem_map.1 k1
      cases o with
      | none => cases he
      | some x =>
        cases he
        exact mul_le_mul_of_nonneg_right (h2 x ho) hk.le
  rw [hmx, List.map_map]
  refine List.map_congr_left fun row hrow => ?_
  simp only [Function.comp]
  rw [List.map_map]
  refine List.map_congr_left fun x hx => ?_
  simp only [Function.comp]
  have hinj : (x.map fun v => v * k) = ((nanmax (ratios p sqrt rn2 fa).flatten).map fun v => v * k) ↔ x = nanmax (ratios p sqrt rn2 fa).flatten := by
    generalize nanmax (ratios p sqrt rn2 fa).flatten = y
    cases x <;> cases y <;> simp [hk.ne']
  simp only [hinj, Option.isSome_map]
  by_cases hcc : (x.isSome && decide (x = nanmax (ratios p sqrt rn2 fa).flatten)) = true
  · rw [hcc, Bool.true_and, Bool.true_and]
    rw [Bool.and_eq_true, decide_eq_true_iff] at hcc
    obtain ⟨v, rfl⟩ := Option.isSome_iff_exists.1 hcc.1
    have hv := nanmax_spec _ _ hcc.2.symm
    have hmk : nanmax ((ratios p sqrt rn2 fa).map fun row => row.map fun x => x.map fun v => v * k).flatten = some (v * k) := by
      rw [hmx, ← hcc.2]
      rfl
    have hge : r0 ≤ v * k := (nanmax_spec _ _ hmk).2 r0 ((mem_at2 _ _).2 ⟨i, j, hr0⟩)
    have hx' : some (v * k) ∈ row.map fun x => x.map fun v => v * k := List.mem_map.2 ⟨some v, hx, rfl⟩
    obtain ⟨m', hm'⟩ := nanmax_exists _ (v * k) hx'
    have hvm' : v * k ≤ m' := (nanmax_spec _ _ hm').2 _ hx'
    obtain ⟨m, hm⟩ := nanmax_exists row v hx
    have hvm : v ≤ m := (nanmax_spec _ _ hm).2 v hx
    have hv0 : 0 ≤ v := by
      obtain ⟨a, b, hab⟩ := (mem_at2 _ _).1 hv.1
      rw [ratios_at2] at hab
      unfold ratio at hab
      split at hab
      · rename_i y1 y2 y3 g1 g2 g3
        cases hab
        have hy0 := h0 _ ((mem_at2 _ _).2 ⟨a, b, g1⟩)
        rw [g2, bk_sigma hq hdt hn hy0.2] at g3
        cases g3
        exact div_nonneg (abs_nonneg _) (bk_noise hq hdt hn hy0.2 (le_refl |y2|) b).1.le
      · cases hab
    have hvk : v * k ≤ v := mul_le_of_le_one_right hv0 hk1
    have e1 : crInt p (finite fa.flatten).length (row.map fun x => x.map fun v => v * k) = true := by
      simp only [crInt, ht, hm', gt, decide_eq_true_iff]
      exact lt_of_lt_of_le hlt (hge.trans hvm')
    have e2 : crInt p (finite fa.flatten).length row = true := by
      simp only [crInt, ht, hm, gt, decide_eq_true_iff]
      exact lt_of_lt_of_le hlt (hge.trans (hvk.trans hvm))
    rw [e1, e2]
  · rw [Bool.not_eq_true] at hcc
    rw [hcc, Bool.false_and, Bool.false_and]

theorem bk_mask (fa : List (List (Option α))) (new : List (List Bool)) :
    maskNew (fa.map fun row => row.map (bkUp c)) new = (maskNew fa new).map fun row => row.map (bkUp c) := by
  unfold maskNew
  rw [List.map_zipWith, List.zipWith_map_left]
  congr 1
  funext row bs
  rw [List.map_zipWith, List.zipWith_map_left]
  congr 1
  funext x b
  cases b <;> rfl

theorem bk_mask_mem (fa : List (List (Option α))) (new : List (List Bool)) (x : α) (h : some x ∈ (maskNew fa new).flatten) :
    some x ∈ fa.flatten := by
  rw [List.mem_flatten] at h ⊢
  obtain ⟨row, hr, hx⟩ := h
  unfold maskNew at hr
  rw [List.mem_iff_getElem?] at hr
  obtain ⟨i, hi⟩ := hr
  rw [List.getElem?_zipWith] at hi
  cases h1 : fa[i]? with
  | none => simp [h1] at hi
  | some a =>
    cases h2 : new[i]? with
    | none => simp [h1, h2] at hi
    | some b =>
      simp only [h1, h2] at hi
      cases hi
      refine ⟨a, List.mem_of_getElem? h1, ?_⟩
      rw [List.mem_iff_getElem?] at hx
      obtain ⟨j, hj⟩ := hx
      rw [List.getElem?_zipWith] at hj
      cases h3 : a[j]? with
      | none => simp [h3] at hj
      | some y =>
        cases h4 : b[j]? with
        | none => simp [h3, h4] at hj
        | some z =>
          simp only [h3, h4, Option.some.injEq] at hj
          split at hj
          · cases hj
          · subst hj
            exact List.mem_of_getElem? h3

theorem bk_loop (hq : BkSqrt sqrt) (hdt : ∀ j, 0 < p.dt j) (hn : ∀ j, 0 < p.nReads j)
    (hu : ∀ j, p.dt j = p.dt 0 ∧ p.nReads j = p.nReads 0) (hc : 0 ≤ c) (fuel : Nat) (fa : List (List (Option α)))
    (h0 : ∀ x, some x ∈ fa.flatten → 0 ≤ x ∧ 0 < rn2) (acc : List (List Bool)) (h : SameShape acc fa) (i j : Nat)
    (hb : bat2 (iterLoop p sqrt rn2 fuel (fa.map fun row => row.map (bkUp c)) acc).2 i j = true) :
    bat2 (iterLoop p sqrt rn2 fuel fa acc).2 i j = true := by
  induction fuel generalizing fa acc with
  | zero => exact hb
  | succ fuel ih =>
    by_cases hany : (newCr p sqrt rn2 (fa.map fun row => row.map (bkUp c))).flatten.any (fun b => b) = true
    · have he := bk_newCr hq hdt hn hu hc fa h0 hany
      have hany' := hany
      rw [he] at hany'
      simp only [iterLoop, he, hany', Bool.true_eq_false, if_false, bk_mask] at hb ⊢
      have hn' := sameShape_newCr p sqrt rn2 fa
      have hsh : SameShape acc (newCr p sqrt rn2 fa) := h.trans hn'
      exact ih _ (fun x hx => h0 x (bk_mask_mem _ _ x hx)) _
        ((sameShape_zipWith _ acc _ hsh).symm.trans (h.trans (sameShape_zipWith _ fa _ hn'))) hb
    · rw [Bool.not_eq_true] at hany
      simp only [iterLoop, hany, if_true] at hb
      exact th_acc sqrt rn2 (fuel + 1) fa acc h i j hb

/-! ## The exposure -/

variable (clip : List (Option α) → List Bool) (s : Switch) (d : Dims) (rn : Nat → Nat → α) (data : Cube (Option α)) (gdq : Cube Nat)
  {b : Nat → Nat → α} {T : Nat → α}

/-- Spec: usable neighbouring samples of the ramp of a pixel do not decrease, and its noise is not zero if it has any. -/
def BkRising (p : Params α) (rn : Nat → Nat → α) (data : Cube (Option α)) (gdq : Cube Nat) (r c : Nat) : Prop :=
  ∀ i j x, jdDiff p data gdq i j r c = some x → 0 ≤ x ∧ rn r c ≠ 0

theorem bk_diff (hT : ∀ j, T (j + 1) - T j = p.dt j) (hdt : ∀ j, 0 < p.dt j) (i j r c : Nat) :
    jdDiff p (bkAdd b T data) gdq i j r c = bkUp (b r c) (jdDiff p data gdq i j r c) := by
  unfold jdDiff bkAdd
  split
  · rfl
  · cases data i j r c with
    | none => rfl
    | some x =>
      cases data i (j + 1) r c with
      | none => rfl
      | some y =>
        simp only [Option.map_some]
        rw [bk_up_some]
        congr 1
        have := (hdt j).ne'
        rw [div_add' _ _ _ this, ← hT j]
        ring

theorem bk_diffs (hT : ∀ j, T (j + 1) - T j = p.dt j) (hdt : ∀ j, 0 < p.dt j) (r c : Nat) :
    jdDiffs p d (bkAdd b T data) gdq r c = (jdDiffs p d data gdq r c).map fun row => row.map (bkUp (b r c)) := by
  simp only [jdDiffs, bk_diff data gdq hT hdt, List.map_map, Function.comp_def]

theorem bk_mem {r c : Nat} (hr : BkRising p rn data gdq r c) (x : α) (h : some x ∈ (jdDiffs p d data gdq r c).flatten) : 0 ≤ x ∧ rn r c ≠ 0 := by
  simp only [jdDiffs, List.mem_flatten, List.mem_map, List.mem_range] at h
  obtain ⟨_, ⟨i, -, rfl⟩, hx⟩ := h
  simp only [List.mem_map, List.mem_range] at hx
  obtain ⟨j, -, hj⟩ := hx
  exact hr i j x hj

theorem bk_med (hT : ∀ j, T (j + 1) - T j = p.dt j) (hdt : ∀ j, 0 < p.dt j) (r c : Nat) :
    nanmedian (jdDiffs p d (bkAdd b T data) gdq r c).flatten = bkUp (b r c) (nanmedian (jdDiffs p d data gdq r c).flatten) := by
  rw [bk_diffs d data gdq hT hdt, ← List.map_flatten, bk_median]

theorem bk_large (hT : ∀ j, T (j + 1) - T j = p.dt j) (hdt : ∀ j, 0 < p.dt j) (e : α) (i g r c : Nat) :
    GwLarge p d (bkAdd b T data) gdq e i g r c ↔ GwLarge p d data gdq e i g r c := by
  unfold GwLarge
  rw [bk_diff data gdq hT hdt, bk_med d data gdq hT hdt]
  cases jdDiff p data gdq i (g - 1) r c with
  | none => simp [bkUp, uoVal]
  | some x =>
    cases nanmedian (jdDiffs p d data gdq r c).flatten with
    | none => simp [bkUp, uoVal]
    | some m =>
      simp only [bk_up_some, Option.some.injEq, exists_and_left, exists_eq_left']
      rw [add_sub_add_right_eq_sub]

/-- The deviation of a difference in units of the noise is smaller with the further signal. -/
theorem bk_ratio (hq : BkSqrt sqrt) (hT : ∀ j, T (j + 1) - T j = p.dt j) (hdt : ∀ j, 0 < p.dt j) (hn : ∀ j, 0 < p.nReads j) (i j r c : Nat)
    (hb : 0 ≤ b r c) (hrise : BkRising p rn data gdq r c) (v' : α) (h : ratioPlane p sqrt d rn (bkAdd b T data) gdq i j r c = some v') :
    ∃ v, ratioPlane p sqrt d rn data gdq i j r c = some v ∧ v' ≤ v := by
  unfold ratioPlane medDiff at *
  rw [jd_entry, jd_diffs, bk_diff data gdq hT hdt, bk_med d data gdq hT hdt] at h
  rw [jd_entry, jd_diffs]
  by_cases hij : i < d.ni ∧ j + 1 < d.ng
  · rw [if_pos hij] at h ⊢
    cases hx : jdDiff p data gdq i j r c with
    | none => simp [hx, ratio, bkUp, uoVal] at h
    | some x =>
      cases hm : nanmedian (jdDiffs p d data gdq r c).flatten with
      | none => simp [hx, hm, ratio, bkUp, uoVal] at h
      | some m =>
        have hrn : 0 < rn r c * rn r c := mul_self_pos.2 (hrise i j x hx).2
        have hm0 : 0 ≤ m := bk_median_nonneg _ m hm fun x hx => (bk_mem d rn data gdq hrise x hx).1
        have habs : |m| ≤ |m + b r c| := by
          rw [abs_of_nonneg hm0, abs_of_nonneg (add_nonneg hm0 hb)]
          linarith
        obtain ⟨h1, h2⟩ := bk_noise (p := p) hq hdt hn hrn habs j
        simp only [hx, hm, bk_up_some, bk_sigma hq hdt hn hrn, ratio, Option.some.injEq] at h ⊢
        refine ⟨_, rfl, ?_⟩
        rw [← h, add_sub_add_right_eq_sub]
        exact div_le_div_of_nonneg_left (abs_nonneg _) h1 h2
  · rw [if_neg hij] at h
    simp [ratio] at h

theorem bk_clip (hT : ∀ j, T (j + 1) - T j = p.dt j) (hdt : ∀ j, 0 < p.dt j) (hclip : ∀ c l, clip (l.map (bkUp c)) = clip l) :
    clipDetect p clip s d (bkAdd b T data) gdq = clipDetect p clip s d data gdq := by
  have hw : clipWords p clip s d (bkAdd b T data) gdq = clipWords p clip s d data gdq := by
    funext i g r c
    have hent : ∀ i j, entry none (diffs p d (bkAdd b T data) gdq r c) i j = bkUp (b r c) (entry none (diffs p d data gdq r c) i j) := by
      intro i j
      rw [jd_entry, jd_entry]
      split
      · exact bk_diff data gdq hT hdt i j r c
      · rfl
    have hm : clipMask clip s d (diffs p d (bkAdd b T data) gdq r c) i (g - 1) = clipMask clip s d (diffs p d data gdq r c) i (g - 1) := by
      unfold clipMask
      simp only [hent]
      have e1 : ((List.range d.ni).map fun k => bkUp (b r c) (entry none (diffs p d data gdq r c) k (g - 1))) =
          ((List.range d.ni).map fun k => entry none (diffs p d data gdq r c) k (g - 1)).map (bkUp (b r c)) := by
        rw [List.map_map]
        rfl
      have e2 : (diffs p d (bkAdd b T data) gdq r c).flatten = (diffs p d data gdq r c).flatten.map (bkUp (b r c)) := by
        rw [jd_diffs, jd_diffs, bk_diffs d data gdq hT hdt, List.map_flatten]
      rw [e1, e2, hclip, hclip]
    have hs : (entry none (diffs p d (bkAdd b T data) gdq r c) i (g - 1)).isSome = (entry none (diffs p d data gdq r c) i (g - 1)).isSome := by
      rw [hent, bkUp, uoVal, Option.isSome_map]
    simp only [clipWords, hm, hs]
  unfold clipDetect
  rw [hw]

/-- Spec: no deviation reaches the upper limit for flagging neighbours. -/
def BkBelow (p : Params α) (sqrt : α → α) (d : Dims) (rn : Nat → Nat → α) (data : Cube (Option α)) (gdq : Cube Nat) : Prop :=
  ∀ i j r c x m, jdDiff p data gdq i j r c = some x → nanmedian (jdDiffs p d data gdq r c).flatten = some m →
    |x - m| / bkNoise p sqrt (rn r c * rn r c) m j < p.maxNeighbor

/-- Spec: the circumstances: a square root, times and numbers of reads that are positive and the same for all differences, times of the
groups that go with them, a signal that is not negative, ramps that do not decrease. -/
structure BkCase (p : Params α) (sqrt : α → α) (rn : Nat → Nat → α) (data : Cube (Option α)) (gdq : Cube Nat) (b : Nat → Nat → α)
    (T : Nat → α) : Prop where
  root : BkSqrt sqrt
  times : ∀ j, T (j + 1) - T j = p.dt j
  dt : ∀ j, 0 < p.dt j
  reads : ∀ j, 0 < p.nReads j
  alike : ∀ j, p.dt j = p.dt 0 ∧ p.nReads j = p.nReads 0
  signal : ∀ r c, 0 ≤ b r c
  rising : ∀ r c, BkRising p rn data gdq r c

theorem bk_detect (h : BkCase p sqrt rn data gdq b T) (hclip : ∀ c l, clip (l.map (bkUp c)) = clip l) (i g r c : Nat)
    (hi : i < d.ni) (hg : g < d.ng) :
    ThUp p.jump (detect p sqrt clip s d rn (bkAdd b T data) gdq i g r c) (detect p sqrt clip s d rn data gdq i g r c) := by
  simp only [detect, bk_clip clip s d data gdq h.times h.dt hclip]
  split
  · exact Or.inl rfl
  · split
    · obtain ⟨a1, a2⟩ := jd_single p sqrt d rn data gdq i g r c hi hg
      obtain ⟨b1, b2⟩ := jd_single p sqrt d rn (bkAdd b T data) gdq i g r c hi hg
      by_cases h' : JdOutlier p sqrt d rn (bkAdd b T data) gdq i g r c
      · have h'' : JdOutlier p sqrt d rn data gdq i g r c := by
          obtain ⟨q1, x', m', q2, q3, q4, q5⟩ := h'
          rw [bk_diff data gdq h.times h.dt] at q2
          rw [bk_med d data gdq h.times h.dt] at q3
          cases hx : jdDiff p data gdq i (g - 1) r c with
          | none => simp [hx, bkUp, uoVal] at q2
          | some x =>
            cases hm : nanmedian (jdDiffs p d data gdq r c).flatten with
            | none => simp [hm, bkUp, uoVal] at q3
            | some m =>
              rw [hx, bk_up_some] at q2
              rw [hm, bk_up_some] at q3
              cases q2
              cases q3
              have hrn : 0 < rn r c * rn r c := mul_self_pos.2 (h.rising r c i _ x hx).2
              have hm0 : 0 ≤ m := bk_median_nonneg _ m hm fun x hx => (bk_mem d rn data gdq (h.rising r c) x hx).1
              have habs : |m| ≤ |m + b r c| := by
                rw [abs_of_nonneg hm0, abs_of_nonneg (add_nonneg hm0 (h.signal r c))]
                linarith [h.signal r c]
              obtain ⟨h1, h2⟩ := bk_noise (p := p) h.root h.dt h.reads hrn habs (g - 1)
              refine ⟨q1, x, m, hx, hm, h1.ne', lt_of_lt_of_le q5 ?_⟩
              rw [add_sub_add_right_eq_sub]
              exact div_le_div_of_nonneg_left (abs_nonneg _) h1 h2
        rw [b1 h', a1 h'']
        exact Or.inl rfl
      · rw [b2 h']
        by_cases h'' : JdOutlier p sqrt d rn data gdq i g r c
        · exact Or.inr (a1 h'')
        · exact Or.inl (a2 h'')
    · unfold iterDetect
      by_cases h' : (decide (1 ≤ g) && entry false (iterative p sqrt (rn r c * rn r c) (diffs p d (bkAdd b T data) gdq r c)).2 i (g - 1)) = true
      · have h'' : (decide (1 ≤ g) && entry false (iterative p sqrt (rn r c * rn r c) (diffs p d data gdq r c)).2 i (g - 1)) = true := by
          rw [Bool.and_eq_true, jd_bat2] at h' ⊢
          refine ⟨h'.1, ?_⟩
          have h2 := h'.2
          rw [jd_diffs, bk_diffs d data gdq h.times h.dt] at h2
          rw [jd_diffs]
          have hpos : ∀ x, some x ∈ (jdDiffs p d data gdq r c).flatten → 0 ≤ x ∧ rn r c ≠ 0 := fun x hx =>
            bk_mem d rn data gdq (h.rising r c) x hx
          generalize jdDiffs p d data gdq r c = fd at *
          unfold iterative at *
          have e1 : ((fd.map fun row => row.map (bkUp (b r c))).map fun row => row.map fun x => x.map fun v => |v|) =
              (fd.map fun row => row.map fun x => x.map fun v => |v|).map fun row => row.map (bkUp (b r c)) := by
            rw [List.map_map, List.map_map]
            refine List.map_congr_left fun row hrow => ?_
            simp only [Function.comp]
            rw [List.map_map, List.map_map]
            refine List.map_congr_left fun x hx => ?_
            cases x with
            | none => rfl
            | some v =>
              have hv := (hpos v (List.mem_flatten.2 ⟨row, hrow, hx⟩)).1
              simp only [Function.comp, bk_up_some, Option.map_some]
              rw [abs_of_nonneg hv, abs_of_nonneg (add_nonneg hv (h.signal r c))]
          have e2 : (fd.map fun row => row.map (bkUp (b r c))).flatten.length = fd.flatten.length := by
            rw [← List.map_flatten, List.length_map]
          have e3 : ((fd.map fun row => row.map (bkUp (b r c))).map fun row => row.map fun _ => false) = fd.map fun row => row.map fun _ => false := by
            rw [List.map_map]
            refine List.map_congr_left fun row _ => ?_
            simp only [Function.comp]
            rw [List.map_map]
            rfl
          simp only [e1, e2, e3] at h2
          refine bk_loop h.root h.dt h.reads h.alike (h.signal r c) _ _ ?_ _ ?_ i (g - 1) h2
          · intro x hx
            rw [← List.map_flatten] at hx
            obtain ⟨y, hy, he⟩ := List.mem_map.1 hx
            cases y with
            | none => cases he
            | some v =>
              cases he
              exact ⟨abs_nonneg v, mul_self_pos.2 (hpos v hy).2⟩
          · simp [SameShape, Function.comp_def]
        rw [if_pos h', if_pos h'']
        exact Or.inl rfl
      · rw [if_neg h']
        split
        · exact Or.inr rfl
        · exact Or.inl rfl

theorem bk_primary (h : BkCase p sqrt rn data gdq b T) (hlim : BkBelow p sqrt d rn data gdq) (i j : Nat) {w' w : Img Nat} (r c : Nat)
    (hw : ThUp p.jump (w' r c) (w r c)) (hp : primary p (ratioPlane p sqrt d rn (bkAdd b T data) gdq i j) w' r c = true) :
    primary p (ratioPlane p sqrt d rn data gdq i j) w r c = true := by
  unfold primary at *
  simp only [Bool.and_eq_true, decide_eq_true_iff] at *
  obtain ⟨⟨h1, h2⟩, h3⟩ := hp
  cases hv' : ratioPlane p sqrt d rn (bkAdd b T data) gdq i j r c with
  | none => simp [hv', lt] at h1
  | some v' =>
    obtain ⟨v, hv, hle⟩ := bk_ratio d rn data gdq h.root h.times h.dt h.reads i j r c (h.signal r c) (h.rising r c) v' hv'
    rw [hv'] at h2
    rw [hv]
    refine ⟨⟨?_, ?_⟩, th_up_has _ hw _ h3⟩
    · simp only [lt, decide_eq_true_iff]
      unfold ratioPlane medDiff at hv
      rw [jd_entry, jd_diffs] at hv
      split at hv
      · unfold ratio at hv
        split at hv
        · rename_i x m sg g1 g2 g3
          cases hv
          rw [g2, bk_sigma h.root h.dt h.reads (mul_self_pos.2 (h.rising r c i j x g1).2)] at g3
          cases g3
          exact hlim i j r c x m g1 g2
        · cases hv
      · simp [ratio] at hv
    · simp only [gt, decide_eq_true_iff] at h2 ⊢
      exact lt_of_lt_of_le h2 hle

theorem bk_found (h : BkCase p sqrt rn data gdq b T) (hclip : ∀ c l, clip (l.map (bkUp c)) = clip l)
    (hlim : s.flag4 = true → BkBelow p sqrt d rn data gdq) (a : Nat) (ha : p.jump = 2 ^ a) (hd : p.jump &&& (p.sat ||| p.dnu) = 0)
    (i g : Nat) (hi : i < d.ni) (hg : g < d.ng) :
    let o := findCrs p sqrt clip s d rn data gdq
    let o' := findCrs p sqrt clip s d rn (bkAdd b T data) gdq
    (∀ r < d.nr, ∀ c < d.nc, ThUp p.jump (o'.gdq i g r c) (o.gdq i g r c)) ∧
      (∀ c, ThUp p.jump (o'.below i g c) (o.below i g c)) ∧ ∀ c, ThUp p.jump (o'.above i g c) (o.above i g c) := by
  intro o o'
  by_cases hskip : skips p s d gdq = true
  · simp only [o, o', findCrs, hskip, if_true]
    exact ⟨fun _ _ _ _ => Or.inl rfl, fun _ => Or.inl rfl, fun _ => Or.inl rfl⟩
  · rw [Bool.not_eq_true] at hskip
    have hdet : ∀ g < d.ng, ∀ r c, ThUp p.jump (detect p sqrt clip s d rn (bkAdd b T data) gdq i g r c)
        (detect p sqrt clip s d rn data gdq i g r c) := fun g hg r c => bk_detect clip s d rn data gdq h hclip i g r c hi hg
    have ho : ∀ data, findCrs p sqrt clip s d rn data gdq =
        ⟨transient p d data gdq (fun i g => (neighborPlane p sqrt s d rn data gdq (detect p sqrt clip s d rn data gdq) i g).gdq),
        fun i g => (neighborPlane p sqrt s d rn data gdq (detect p sqrt clip s d rn data gdq) i g).below,
        fun i g => (neighborPlane p sqrt s d rn data gdq (detect p sqrt clip s d rn data gdq) i g).above,
        (findCrs p sqrt clip s d rn data gdq).count, (findCrs p sqrt clip s d rn data gdq).data⟩ := by
      intro data
      simp only [findCrs, hskip, Bool.false_eq_true, if_false]
    have ho1 : o = _ := ho data
    have ho2 : o' = _ := ho (bkAdd b T data)
    generalize detect p sqrt clip s d rn data gdq = w at *
    generalize detect p sqrt clip s d rn (bkAdd b T data) gdq = w' at *
    have hpr : s.flag4 = true → ∀ g < d.ng, ∀ r c, primary p (ratioPlane p sqrt d rn (bkAdd b T data) gdq i (g - 1)) (w' i g) r c = true →
          primary p (ratioPlane p sqrt d rn data gdq i (g - 1)) (w i g) r c = true := fun h4 g hg r c h' =>
      bk_primary d rn data gdq h (hlim h4) i (g - 1) r c (hdet g hg r c) h'
    have hnb : ∀ g < d.ng, ∀ r < d.nr, ∀ c < d.nc, ThUp p.jump ((neighborPlane p sqrt s d rn (bkAdd b T data) gdq w' i g).gdq r c)
        ((neighborPlane p sqrt s d rn data gdq w i g).gdq r c) := by
      intro g hg r hr c hc
      rw [th_neighbor, th_neighbor]
      refine th_up_step _ (p.sat ||| p.dnu) hd (hdet g hg r c) ⟨fun h => if_pos h, fun h => if_neg h⟩
        ⟨fun h => if_pos h, fun h => if_neg h⟩ fun h => ⟨h.1, h.2.1, ?_⟩
      have h3 := h.2.2
      rw [gw_dilate _ _ _ _ _ hr hc] at h3 ⊢
      obtain ⟨r', c', q1, q2⟩ := h3
      exact ⟨r', c', q1, hpr h.1 g hg r' c' q2⟩
    have hedge : ∀ q' q : Bool, (s.flag4 = true → q' = true → q = true) →
        ThUp p.jump (if s.flag4 && decide (1 ≤ g) then (if q' then p.jump else 0) else 0) (if s.flag4 && decide (1 ≤ g) then (if q then p.jump else 0) else 0) := by
      intro q' q hqq
      cases hf : s.flag4 with
      | false => exact Or.inl rfl
      | true => exact th_edge p.jump (fun h => h) (hqq hf) g
    refine ⟨fun r hr c hc => ?_, fun c => ?_, fun c => ?_⟩
    · rw [ho1, ho2]
      simp only
      generalize hx : (fun i g => (neighborPlane p sqrt s d rn data gdq w i g).gdq) = x
      generalize hx' : (fun i g => (neighborPlane p sqrt s d rn (bkAdd b T data) gdq w' i g).gdq) = x'
      have hxx : ∀ g < d.ng, ThUp p.jump (x' i g r c) (x i g r c) := by
        intro g hg
        rw [← hx, ← hx']
        exact hnb g hg r hr c hc
      obtain ⟨a1, a2⟩ := th_transient d data gdq p a ha x i g r c hi hg hc
      obtain ⟨b1, b2⟩ := th_transient d (bkAdd b T data) gdq p a ha x' i g r c hi hg hc
      refine th_up_step p.jump (p.sat ||| p.dnu) hd (hxx g hg) ⟨b1, b2⟩ ⟨a1, a2⟩ ?_
      rintro (⟨g0, q1, q2, q3, q4⟩ | ⟨g0, q1, q2, q3, q4⟩)
      · exact Or.inl ⟨g0, q1, q2, th_up_has _ (hxx g0 (by omega)) _ q3, (bk_large d data gdq h.times h.dt _ i g0 r c).1 q4⟩
      · exact Or.inr ⟨g0, q1, q2, th_up_has _ (hxx g0 (by omega)) _ q3, (bk_large d data gdq h.times h.dt _ i g0 r c).1 q4⟩
    · rw [ho1, ho2]
      simp only
      rw [(th_edges sqrt d rn data gdq p s w i g c).1, (th_edges sqrt d rn (bkAdd b T data) gdq p s w' i g c).1]
      exact hedge _ _ fun h4 => hpr h4 g hg 0 c
    · rw [ho1, ho2]
      simp only
      rw [(th_edges sqrt d rn data gdq p s w i g c).2, (th_edges sqrt d rn (bkAdd b T data) gdq p s w' i g c).2]
      exact hedge _ _ fun h4 => hpr h4 g hg (d.nr - 1) c

theorem bk_multi (h : BkCase p sqrt rn data gdq b T) (hclip : ∀ c l, clip (l.map (bkUp c)) = clip l)
    (hlim : s.flag4 = true → BkBelow p sqrt d rn data gdq) (a : Nat) (ha : p.jump = 2 ^ a) (hd : p.jump &&& (p.sat ||| p.dnu) = 0)
    (i g r c : Nat) (hi : i < d.ni) (hg : g < d.ng) (hr : r < d.nr) (hc : c < d.nc) (n : Nat) (hle : n ≤ d.nr) :
    ThUp p.jump ((multi p sqrt clip s d rn (bkAdd b T data) gdq n).1 i g r c) ((multi p sqrt clip s d rn data gdq n).1 i g r c) := by
  by_cases hn0 : n = 0
  · subst hn0
    simp only [multi, reassemble, List.range_zero, List.foldl_nil]
    exact Or.inl rfl
  · have hy : 1 ≤ d.nr / n := (Nat.le_div_iff_mul_le (by omega)).mpr (by omega)
    have hny : n * (d.nr / n) ≤ d.nr := Nat.mul_div_le _ _
    have hk : ∀ k,
        (∀ r < (if n = k + 1 then d.nr - k * (d.nr / n) else d.nr / n), ∀ c < d.nc, ThUp p.jump
          ((sliceFound p sqrt clip s d rn (bkAdd b T data) gdq n k).gdq i g r c) ((sliceFound p sqrt clip s d rn data gdq n k).gdq i g r c)) ∧
        (∀ c, ThUp p.jump ((sliceFound p sqrt clip s d rn (bkAdd b T data) gdq n k).below i g c)
          ((sliceFound p sqrt clip s d rn data gdq n k).below i g c)) ∧
        ∀ c, ThUp p.jump ((sliceFound p sqrt clip s d rn (bkAdd b T data) gdq n k).above i g c)
          ((sliceFound p sqrt clip s d rn data gdq n k).above i g c) := fun k =>
      bk_found clip s { d with nr := if n = k + 1 then d.nr - k * (d.nr / n) else d.nr / n } (fun r c => rn (r + k * (d.nr / n)) c)
        (fromRow (k * (d.nr / n)) data) (fromRow (k * (d.nr / n)) gdq) (b := fun r c => b (r + k * (d.nr / n)) c)
        ⟨h.root, h.times, h.dt, h.reads, h.alike, fun r c => h.signal _ c, fun r c i j x hx => h.rising (r + k * (d.nr / n)) c i j x hx⟩ hclip
        (fun h4 i j r c x m hx hm => hlim h4 i j (r + k * (d.nr / n)) c x m hx hm) a ha hd i g hi hg
    simp only [multi]
    rw [reassemble_eq _ _ _ _ _ (by omega) hy hny r c hr, reassemble_eq _ _ _ _ _ (by omega) hy hny r c hr]
    generalize sliceFound p sqrt clip s d rn (bkAdd b T data) gdq n = f' at *
    generalize sliceFound p sqrt clip s d rn data gdq n = f at *
    generalize hy' : d.nr / n = y at *
    refine th_up_or _ (th_up_or _ ((hk _).1 _ ?_ c hc) (th_if _ _ ((hk _).2.1 c))) (th_if _ _ ((hk _).2.2 c))
    have hdm := Nat.div_add_mod r y
    have hmod := Nat.mod_lt r (show y > 0 by omega)
    rw [Nat.mul_comm] at hdm
    by_cases hlast : r / y < n - 1
    · rw [Nat.min_eq_left (by omega), if_neg (by omega)]
      omega
    · have hmul : (n - 1) * y ≤ r / y * y := Nat.mul_le_mul_right _ (by omega)
      rw [Nat.min_eq_right (by omega), if_pos (by omega)]
      omega

/-! ## C175 -/

/-- The exposure with a further source of rate `b r c` (in the unit of the data, per second). -/
def bkExposure (b : Nat → Nat → α) (T : Nat → α) (e : Exposure α) : Exposure α := { e with data := bkAdd b T e.data }

/-- C175.  If usable ramps do not decrease, groups are read out alike and sigma clipping looks at deviations only, then a further steady
signal, of any strength in each pixel, leaves the flags of every sample as they were or takes JUMP_DET away; with any number of processes.
With flagging of neighbours this needs an upper limit that no deviation reaches. -/
theorem C175_background (ja jb jc : Nat) (hf : FlagBits p ja jb jc) (e : Exposure α) (hq : BkSqrt sqrt)
    (hT : ∀ j, T (j + 1) - T j = p.dt j) (hdt : ∀ j, 0 < p.dt j) (hn : ∀ j, 0 < p.nReads j)
    (hu : ∀ j, p.dt j = p.dt 0 ∧ p.nReads j = p.nReads 0) (hb : ∀ r c, 0 ≤ b r c)
    (hgain : ∀ r c x, e.gain r c = some x → 0 < x) (hrn : ∀ r c, e.rnoise r c ≠ 0)
    (hrise : ∀ i j r c x y, ¬ Dq.Has (e.gdq i j r c) (p.dnu ||| p.sat) → ¬ Dq.Has (e.gdq i (j + 1) r c) (p.dnu ||| p.sat) →
      e.data i j r c = some x → e.data i (j + 1) r c = some y → x ≤ y)
    (hclip : ∀ c l, clip (l.map fun x => x.map fun v => v + c) = clip l)
    (hlim : s.flag4 = true → BkBelow p sqrt e.d (noiseElectrons e) (electrons e) e.gdq)
    (cores : List Char) (ncpu : Nat) (i g r c : Nat) (hi : i < e.d.ni) (hg : g < e.d.ng) (hr : r < e.d.nr) (hc : c < e.d.nc) :
    let o := (detectJumps p sqrt clip s e cores ncpu).1 i g r c
    let o' := (detectJumps p sqrt clip s (bkExposure b T e) cores ncpu).1 i g r c
    o = o' ∨ o = o' ||| p.jump := by
  have hd := th_disjoint ja jb jc hf
  have hcl : ∀ c l, clip (l.map (bkUp c)) = clip l := by
    intro c l
    rw [← hclip c l]
    congr 1
    refine List.map_congr_left fun x _ => ?_
    cases x <;> simp [bkUp, uoVal]
  have hel : electrons (bkExposure b T e) = bkAdd (fun r c => b r c * (e.gain r c).getD 0) T (electrons e) := by
    funext i g r c
    simp only [electrons, bkExposure, bkAdd]
    cases e.data i g r c with
    | none => rfl
    | some x =>
      cases e.gain r c with
      | none => rfl
      | some y =>
        simp only [Option.map_some, Option.getD_some]
        congr 1
        ring
  have hcase : BkCase (stepParams p e) sqrt (noiseElectrons e) (electrons e) e.gdq (fun r c => b r c * (e.gain r c).getD 0) T := by
    refine ⟨hq, hT, hdt, hn, hu, fun r c => ?_, fun r c i j x hx => ?_⟩
    · refine mul_nonneg (hb r c) ?_
      cases h : e.gain r c with
      | none => exact le_rfl
      | some y => exact (hgain r c y h).le
    · unfold jdDiff at hx
      split at hx
      · cases hx
      · rename_i hbad
        simp only [not_or] at hbad
        split at hx
        · rename_i u v h1 h2
          cases hx
          unfold electrons at h1 h2
          cases hg' : e.gain r c with
          | none => simp [hg'] at h1
          | some y =>
            have hy := hgain r c y hg'
            cases hx1 : e.data i j r c with
            | none => simp [hx1] at h1
            | some x1 =>
              cases hx2 : e.data i (j + 1) r c with
              | none => simp [hx2] at h2
              | some x2 =>
                simp only [hg', hx1, hx2] at h1 h2
                cases h1
                cases h2
                have hle := hrise i j r c x1 x2 hbad.1 hbad.2.1 hx1 hx2
                refine ⟨div_nonneg ?_ (hdt j).le, ?_⟩
                · rw [← sub_mul]
                  exact mul_nonneg (by linarith) hy.le
                · simp only [noiseElectrons, hg', Option.getD_some]
                  exact mul_ne_zero (hrn r c) hy.ne'
        · cases hx
  have hlim' : s.flag4 = true → BkBelow (stepParams p e) sqrt e.d (noiseElectrons e) (electrons e) e.gdq := hlim
  intro o o'
  by_cases hn1 : Slicing.computeNumCores cores e.d.nr ncpu = 1
  · have ho : o = cleanup p ((findCrs (stepParams p e) sqrt clip { s with minGroups := 3 } e.d (noiseElectrons e) (electrons e) e.gdq).gdq i g r c) := by
      simp only [o, detectJumps, twoPoint, hn1, if_true]
    have ho' : o' = cleanup p ((findCrs (stepParams p e) sqrt clip { s with minGroups := 3 } e.d (noiseElectrons e)
        (bkAdd (fun r c => b r c * (e.gain r c).getD 0) T (electrons e)) e.gdq).gdq i g r c) := by
      rw [← hel]
      have hn2 : Slicing.computeNumCores cores (bkExposure b T e).d.nr ncpu = 1 := hn1
      simp only [o', detectJumps, twoPoint, hn2, if_true]
      rfl
    rw [ho, ho']
    exact th_cleanup ja jb jc hf ((bk_found clip { s with minGroups := 3 } e.d (noiseElectrons e) (electrons e) e.gdq hcase hcl hlim' ja hf.1 hd
      i g hi hg).1 r hr c hc)
  · have ho : o = cleanup p ((multi (stepParams p e) sqrt clip s e.d (noiseElectrons e) (electrons e) e.gdq
        (Slicing.computeNumCores cores e.d.nr ncpu)).1 i g r c) := by
      simp only [o, detectJumps, twoPoint, hn1, if_false]
    have ho' : o' = cleanup p ((multi (stepParams p e) sqrt clip s e.d (noiseElectrons e)
        (bkAdd (fun r c => b r c * (e.gain r c).getD 0) T (electrons e)) e.gdq (Slicing.computeNumCores cores e.d.nr ncpu)).1 i g r c) := by
      rw [← hel]
      have hn2 : ¬ Slicing.computeNumCores cores (bkExposure b T e).d.nr ncpu = 1 := hn1
      simp only [o', detectJumps, twoPoint, hn2, if_false]
      rfl
    rw [ho, ho']
    exact th_cleanup ja jb jc hf (bk_multi clip s e.d (noiseElectrons e) (electrons e) e.gdq hcase hcl hlim' ja hf.1 hd
      i g r c hi hg hr hc _ (C01_num_cores cores e.d.nr ncpu).1)

end

/-- Two pixels of six groups; the first gains `hit` at group 3 and `slope` per group. -/
def bkEx (slope hit : ℚ) : Exposure ℚ :=
  ⟨⟨1, 6, 1, 2⟩, fun _ g _ c => some (if c = 0 then (if 3 ≤ g then slope * g + hit else slope * g) else 0), fun _ _ _ _ => 0, fun _ _ => some 1,
    fun _ _ => 1, fun _ _ => 0, 100000, 100000⟩

/-- The flags of both pixels with a further signal. -/
def bkFlags (s : Switch) (e : Exposure ℚ) (rate : ℚ) : List (List Nat) :=
  (List.range 2).map fun c => (List.range 6).map fun g =>
    (detectJumps exJump id (fun l => l.map fun _ => false) s (bkExposure (fun _ _ => rate) (fun g => g) e) "none".toList 4).1 0 g 0 c

/-- Finding (twopoint_difference.py:539).  Neighbours of jumps above the upper limit are not flagged; a steady signal that brings the
deviation below the limit adds flags to the neighbours. -/
theorem C175_neighbors_added : bkFlags ⟨3, 100, 200, true, true⟩ (bkEx 1 1000) 0 = [[0, 0, 0, 4, 0, 0], [0, 0, 0, 0, 0, 0]] ∧
    bkFlags ⟨3, 100, 200, true, true⟩ (bkEx 1 1000) 20 = [[0, 0, 0, 4, 0, 0], [0, 0, 0, 4, 0, 0]] := by
  decide +kernel

/-- Finding (twopoint_difference.py:195-196).  The noise is computed from the size of the median difference, so that a ramp that decreases counts as noisy as
one that increases: here a steady signal that makes up for the decrease adds a jump. -/
theorem C175_decreasing : bkFlags ⟨3, 100, 4, true, false⟩ (bkEx (-100) 30) 0 = [[0, 0, 0, 0, 0, 0], [0, 0, 0, 0, 0, 0]] ∧
    bkFlags ⟨3, 100, 4, true, false⟩ (bkEx (-100) 30) 100 = [[0, 0, 0, 4, 0, 0], [0, 0, 0, 0, 0, 0]] := by
  decide +kernel

/-- The hypotheses of `C175_background` for an increasing ramp with a jump, which a bright background hides. -/
example : FlagBits exJump 2 0 1 ∧ BkSqrt (id : ℚ → ℚ) ∧ (∀ j : Nat, ((j + 1 : Nat) : ℚ) - (j : Nat) = exJump.dt j) ∧
    (∀ i j r c x y, (bkEx 1 30).data i j r c = some x → (bkEx 1 30).data i (j + 1) r c = some y → x ≤ y) ∧
    (∀ (c : ℚ) (l : List (Option ℚ)), (l.map fun x => x.map fun v => v + c).map (fun _ => false) = l.map fun _ => false) ∧
    bkFlags ⟨3, 100, 200, true, false⟩ (bkEx 1 30) 0 = [[0, 0, 0, 4, 0, 0], [0, 0, 0, 0, 0, 0]] ∧
    bkFlags ⟨3, 100, 200, true, false⟩ (bkEx 1 30) 20 = [[0, 0, 0, 0, 0, 0], [0, 0, 0, 0, 0, 0]] := by
  refine ⟨by unfold FlagBits; decide +kernel, ⟨fun _ h => h, fun _ _ _ h => h⟩, fun j => by push_cast; simp [exJump], ?_, ?_, by decide +kernel,
    by decide +kernel⟩
  · intro i j r c x y hx hy
    simp only [bkEx, Option.some.injEq] at hx hy
    subst hx
    subst hy
    push_cast
    split_ifs <;> linarith
  · intro c l
    rw [List.map_map]
    rfl

end Verif.Thm
