import Verif.Thm.Minority

/-!
# C186: half of the differences hit, iterative search

The iterative search (twopoint_difference.py:221-350, reference level 718-770) works on the sizes of the differences and leaves the
largest out of the reference level, so that half of the differences may be hit.
-/

set_option linter.unusedSectionVars false

namespace Verif.Thm
open Verif Verif.Jump Verif.JumpDriver

variable {α : Type} [Field α] [LinearOrder α] [IsStrictOrderedRing α]

/-! ## Specification -/

/-- Specification: no number of a list (NaN left out) is below `lo` and at least half of them are no larger than `hi`. -/
def MiHalf (lo hi : α) (l : List (Option α)) : Prop :=
  (∀ x, some x ∈ l → lo ≤ x) ∧
    (l.countP fun o => o.isSome) ≤ 2 * l.countP fun o => match o with
      | some x => decide (x ≤ hi)
      | none => false

/-- Specification: the thresholds for many, three and two usable differences. -/
def miThresholds (p : Params α) : List α := [p.normalThresh, p.threeThresh, p.twoThresh]

/-! ## The reference level -/

theorem mi_isSome (l : List (Option α)) : (l.countP fun o => o.isSome) = (finite l).length := by
  induction l with
  | nil => rfl
  | cons o l ih => cases o <;> simp_all [finite]

theorem mi_mem (l : List (Option α)) (x : α) : x ∈ finite l ↔ some x ∈ l := by
  simp [finite, List.mem_filterMap]

theorem mi_half (lo hi : α) (l : List (Option α)) : MiHalf lo hi l ↔
    (∀ x ∈ finite l, lo ≤ x) ∧ (finite l).length ≤ 2 * (finite l).countP fun x => decide (x ≤ hi) := by
  have h2 : (l.countP fun o => match o with | some x => decide (x ≤ hi) | none => false) =
      (finite l).countP fun x => decide (x ≤ hi) := by
    induction l with
    | nil => rfl
    | cons o l ih =>
      cases o with
      | none => simpa [finite] using ih
      | some x =>
        rw [List.countP_cons, ih]
        simp only [finite, List.filterMap_cons, List.countP_cons]
  simp only [MiHalf, mi_isSome, h2, mi_mem]

/-- The numbers left after taking out those equal to `mx`. -/
theorem mi_drop (l : List (Option α)) (mx : α) :
    finite (l.map (fun x => if x = some mx then none else x)) = (finite l).filter (fun x => decide (x ≠ mx)) := by
  unfold finite
  induction l with
  | nil => rfl
  | cons y l ih =>
    cases y with
    | none => simpa using ih
    | some v => by_cases h : v = mx <;> simp_all

/-- A list without numbers below `lo` in which more than half are at most `hi` has a strict majority in the range. -/
theorem mi_most (lo hi : α) (l : List (Option α)) (h1 : ∀ x ∈ finite l, lo ≤ x)
    (h2 : (finite l).length < 2 * (finite l).countP fun x => decide (x ≤ hi)) : MnMost lo hi l := by
  rw [mn_countP]
  have : ((finite l).countP fun x => decide (lo ≤ x ∧ x ≤ hi)) = (finite l).countP fun x => decide (x ≤ hi) := by
    refine List.countP_congr fun x hx => ?_
    simp [h1 x hx]
  rw [this]
  exact h2

/-- C186 (reference level).  If no number is below `lo` and at least half of them are at most `hi`, the reference level of the
iterative search lies between `lo` and `hi`; there is one as soon as some number is above `hi`. -/
theorem C186_level (lo hi : α) (l : List (Option α)) (h : MiHalf lo hi l) :
    (∀ m, calcMed l = some m → lo ≤ m ∧ m ≤ hi) ∧
    (∀ x, some x ∈ l → hi < x → ∃ m, calcMed l = some m) := by
  obtain ⟨h1, h2⟩ := (mi_half lo hi l).1 h
  have hdef : calcMed l = if (finite l).length < 2 then none
    else if (finite l).length = 2 then nanmin l
    else if (finite l).length ≥ 4 then
      nanmedian (l.map (fun x => if x = nanmax l then none else x))
    else nanmedian l := rfl
  have hgood : ∀ n, n = (finite l).length → 2 ≤ n → ∃ y ∈ finite l, y ≤ hi := by
    intro n hn hn2
    have : 0 < (finite l).countP fun x => decide (x ≤ hi) := by omega
    rw [List.countP_pos_iff] at this
    obtain ⟨y, hy, hyh⟩ := this
    exact ⟨y, hy, by simpa using hyh⟩
  by_cases hn : (finite l).length < 2
  · rw [hdef, if_pos hn]
    refine ⟨fun m hm => (by simp at hm), fun x hx hhi => ?_⟩
    have hx' := (mi_mem l x).2 hx
    exfalso
    obtain ⟨y, hy⟩ : ∃ y, finite l = [y] := by
      rcases hl : finite l with _ | ⟨y, _ | ⟨z, t⟩⟩
      · rw [hl] at hx'; cases hx'
      · exact ⟨y, rfl⟩
      · rw [hl] at hn; simp only [List.length_cons] at hn; omega
    rw [hy] at hx' h2
    simp only [List.mem_singleton] at hx'
    subst hx'
    simp [not_le.2 hhi] at h2
  rw [hdef, if_neg hn]
  by_cases hn2 : (finite l).length = 2
  · rw [if_pos hn2]
    constructor
    · intro m hm
      unfold nanmin at hm
      rw [List.min?_eq_some_iff] at hm
      obtain ⟨y, hy, hyh⟩ := hgood _ rfl (by omega)
      exact ⟨h1 m hm.1, (hm.2 y hy).trans hyh⟩
    · intro x _ _
      unfold nanmin
      rcases hl : finite l with _ | ⟨y, t⟩
      · rw [hl] at hn2; simp at hn2
      · exact ⟨_, List.min?_cons'⟩
  rw [if_neg hn2]
  by_cases hn4 : (finite l).length ≥ 4
  · rw [if_pos hn4]
    obtain ⟨mx, hmx⟩ : ∃ mx, nanmax l = some mx := by
      obtain ⟨y, hy, -⟩ := hgood _ rfl (by omega)
      exact nanmax_exists l y ((mi_mem l y).1 hy)
    obtain ⟨hm1, hm2⟩ := nanmax_spec l mx hmx
    rw [hmx]
    have hf := mi_drop l mx
    have hsub : ∀ x ∈ finite (l.map (fun x => if x = some mx then none else x)), lo ≤ x := by
      intro x hx
      rw [hf, List.mem_filter] at hx
      exact h1 x hx.1
    by_cases hhit : hi < mx
    · have hlt : (finite (l.map (fun x => if x = some mx then none else x))).length < (finite l).length := by
        rw [hf]
        refine lt_of_le_of_ne (List.length_filter_le _ _) fun e => ?_
        have := List.length_filter_eq_length_iff.1 e mx ((mi_mem l mx).2 hm1)
        simp at this
      have hcnt : ((finite (l.map (fun x => if x = some mx then none else x))).countP fun x => decide (x ≤ hi)) =
          (finite l).countP fun x => decide (x ≤ hi) := by
        rw [hf, List.countP_filter]
        refine List.countP_congr fun x _ => ?_
        simp only [Bool.and_eq_true, decide_eq_true_eq, and_iff_left_iff_imp]
        rintro hx rfl
        exact absurd hhit (not_lt.2 hx)
      obtain ⟨m, hm, hlo, hhi⟩ := C183_median lo hi _ (mi_most lo hi _ hsub (by omega))
      refine ⟨fun m' hm' => ?_, fun _ _ _ => ⟨m, hm⟩⟩
      rw [hm] at hm'
      cases hm'
      exact ⟨hlo, hhi⟩
    · refine ⟨fun m' hm' => ?_, fun x hx hlt => absurd (hlt.trans_le (hm2 x hx)) hhit⟩
      have hall : ∀ x ∈ finite (l.map (fun x => if x = some mx then none else x)), x ≤ hi := by
        intro x hx
        rw [hf, List.mem_filter] at hx
        exact (hm2 x ((mi_mem l x).1 hx.1)).trans (not_lt.1 hhit)
      have hcnt : ((finite (l.map (fun x => if x = some mx then none else x))).countP fun x => decide (x ≤ hi)) =
          (finite (l.map (fun x => if x = some mx then none else x))).length := by
        rw [List.countP_eq_length]
        intro x hx
        simpa using hall x hx
      have hpos : 0 < (finite (l.map (fun x => if x = some mx then none else x))).length := by
        by_contra h0
        have h0' : finite (l.map (fun x => if x = some mx then none else x)) = [] := by
          rw [← List.length_eq_zero_iff]; omega
        simp [nanmedian, h0', medianSorted] at hm'
      obtain ⟨m, hm, hlo, hhi⟩ := C183_median lo hi _ (mi_most lo hi _ hsub (by omega))
      rw [hm] at hm'
      cases hm'
      exact ⟨hlo, hhi⟩
  · rw [if_neg hn4]
    obtain ⟨m, hm, hlo, hhi⟩ := C183_median lo hi _ (mi_most lo hi l h1 (by omega))
    refine ⟨fun m' hm' => ?_, fun _ _ _ => ⟨m, hm⟩⟩
    rw [hm] at hm'
    cases hm'
    exact ⟨hlo, hhi⟩

/-! ## The loop -/

theorem mi_mask_row (hi : α) (row : List (Option α)) (b : List Bool) (hl : row.length = b.length)
    (h : ∀ (j : Nat) (x : α), row[j]? = some (some x) → x ≤ hi → b[j]? = some false) :
    ((List.zipWith (fun x b => if b then none else x) row b).countP fun o => match o with
      | some x => decide (x ≤ hi) | none => false) =
    row.countP fun o => match o with | some x => decide (x ≤ hi) | none => false := by
  induction row generalizing b with
  | nil => simp
  | cons o row ih =>
    cases b with
    | nil => simp at hl
    | cons f b =>
      have := ih b (by simpa using hl) fun j x hx hle => by
        have := h (j + 1) x (by simpa using hx) hle
        simpa using this
      rw [List.zipWith_cons_cons, List.countP_cons, List.countP_cons, this]
      congr 1
      cases o with
      | none => cases f <;> simp
      | some x =>
        by_cases hle : x ≤ hi
        · have h0 := h 0 x (by simp) hle
          simp only [List.getElem?_cons_zero, Option.some.injEq] at h0
          subst h0
          simp
        · cases f <;> simp [hle]

theorem mi_mask_count (hi : α) (fa : List (List (Option α))) (new : List (List Bool)) (hsh : SameShape fa new)
    (h : ∀ i j x, at2 fa i j = some x → x ≤ hi → bat2 new i j = false) :
    ((maskNew fa new).flatten.countP fun o => match o with | some x => decide (x ≤ hi) | none => false) =
    fa.flatten.countP fun o => match o with | some x => decide (x ≤ hi) | none => false := by
  induction fa generalizing new with
  | nil => simp [maskNew]
  | cons row fa ih =>
    cases new with
    | nil => simp [SameShape] at hsh
    | cons b new =>
      have e : maskNew (row :: fa) (b :: new) =
          List.zipWith (fun x b => if b then none else x) row b :: maskNew fa new := rfl
      simp only [SameShape, List.map_cons, List.cons.injEq] at hsh
      rw [e, List.flatten_cons, List.flatten_cons, List.countP_append, List.countP_append,
        ih new hsh.2 fun i j x hx hle => by
          have := h (i + 1) j x (by simpa [at2] using hx) hle
          simpa [bat2] using this]
      rw [mi_mask_row hi row b hsh.1]
      intro j x hx hle
      have := h 0 j x (by simp [at2, hx]) hle
      have hj : j < b.length := hsh.1 ▸ (List.getElem?_eq_some_iff.1 hx).1
      simp only [bat2, List.getElem?_cons_zero, Option.getD_some, List.getElem?_eq_getElem hj] at this
      rw [List.getElem?_eq_getElem hj, this]

theorem mi_mask (lo hi : α) (fa : List (List (Option α))) (new : List (List Bool)) (hsh : SameShape fa new)
    (h : ∀ i j x, at2 fa i j = some x → x ≤ hi → bat2 new i j = false) (hh : MiHalf lo hi fa.flatten) :
    MiHalf lo hi (maskNew fa new).flatten := by
  refine ⟨fun x hx => ?_, ?_⟩
  · obtain ⟨i, j, hij⟩ := (mem_at2 _ x).1 hx
    rw [maskNew_at2 fa new hsh] at hij
    split at hij
    · cases hij
    · exact hh.1 x ((mem_at2 _ x).2 ⟨i, j, hij⟩)
  · have h1 := (finite_maskNew fa new).1
    have h2 := hh.2
    rw [mi_isSome] at h2
    rw [mi_isSome, mi_mask_count hi fa new hsh h]
    exact h1.trans h2

theorem mi_applies (p : Params α) (n : Nat) (t : α) (h : threshold p n = some t) : t ∈ miThresholds p := by
  rw [applies_iff] at h
  rcases h with ⟨_, rfl⟩ | ⟨_, rfl⟩ | ⟨_, rfl⟩ <;> simp [miThresholds]

section
variable (p : Params α) (sqrt : α → α) (rn lo hi : α)

/-- Positive group time and reads, and a range no wider than any threshold times the smallest noise, for difference `j`. -/
def MiFine (j : Nat) : Prop :=
  0 < p.dt j ∧ 0 < p.nReads j ∧ ∀ t ∈ miThresholds p, 0 ≤ t ∧ hi - lo ≤ t * mnNoise p sqrt rn lo j

variable (hmono : ∀ x y, 0 ≤ x → x ≤ y → sqrt x ≤ sqrt y) (hpos : ∀ x, 0 < x → 0 < sqrt x) (hrn : rn ≠ 0) (hlo0 : 0 ≤ lo)

include hpos hrn in
theorem mi_noise_pos (a : α) (ha : 0 ≤ a) (j : Nat) (hdt : 0 < p.dt j) (hn : 0 < p.nReads j) :
    0 < mnNoise p sqrt rn a j :=
  div_pos (hpos _ (add_pos_of_nonneg_of_pos (mul_nonneg ha hdt.le) (div_pos (mul_self_pos.2 hrn) (by positivity)))) hdt

include hmono in
theorem mi_noise_mono (a b : α) (ha : 0 ≤ a) (hab : a ≤ b) (j : Nat) (hdt : 0 < p.dt j) (hn : 0 < p.nReads j) :
    mnNoise p sqrt rn a j ≤ mnNoise p sqrt rn b j := by
  refine div_le_div_of_nonneg_right (hmono _ _ ?_ ?_) hdt.le
  · exact add_nonneg (mul_nonneg ha hdt.le) (div_nonneg (mul_self_nonneg _) (by positivity))
  · have := mul_le_mul_of_nonneg_right hab hdt.le
    linarith

include hmono hpos hrn hlo0 in
/-- In one round no difference of the range is flagged. -/
theorem mi_round (fa : List (List (Option α))) (hh : MiHalf lo hi fa.flatten)
    (hfine : ∀ i j x, at2 fa i j = some x → MiFine p sqrt rn lo hi j) (i j : Nat) (x : α) (hx : at2 fa i j = some x)
    (hle : x ≤ hi) : bat2 (newCr p sqrt (rn * rn) fa) i j = false := by
  rw [← Bool.not_eq_true, newCr_bat2]
  rintro ⟨r, t, hr, ht, hlt, -⟩
  obtain ⟨d, m, hd, hm, hs0, hre⟩ := (deviates_iff _ _ _ _ _ _ _).1 hr
  rw [hx] at hd
  cases hd
  obtain ⟨h1, h2⟩ := (C186_level lo hi _ hh).1 m hm
  obtain ⟨hdt, hn, hw⟩ := hfine i j x hx
  obtain ⟨ht0, hw⟩ := hw t (mi_applies p _ t ht)
  have hm0 : 0 ≤ m := hlo0.trans h1
  have hx1 := hh.1 x ((mem_at2 _ x).2 ⟨i, j, hx⟩)
  change r = |x - m| / mnNoise p sqrt rn |m| j at hre
  rw [abs_of_nonneg hm0] at hre
  have hsig := mi_noise_pos p sqrt rn hpos hrn m hm0 j hdt hn
  have hmo := mi_noise_mono p sqrt rn hmono lo m hlo0 h1 j hdt hn
  rw [hre, lt_div_iff₀ hsig] at hlt
  have := mul_le_mul_of_nonneg_left hmo ht0
  have habs : |x - m| ≤ hi - lo := by
    rw [abs_le]
    constructor <;> linarith
  linarith

include hmono hpos hrn hlo0 in
theorem mi_loop (fuel : Nat) (fa : List (List (Option α))) (acc : List (List Bool)) (hsh : SameShape fa acc)
    (hh : MiHalf lo hi fa.flatten) (hfine : ∀ i j x, at2 fa i j = some x → MiFine p sqrt rn lo hi j) :
    MiHalf lo hi (iterLoop p sqrt (rn * rn) fuel fa acc).1.flatten ∧
    ∀ i j x, at2 fa i j = some x → x ≤ hi → bat2 acc i j = false →
      bat2 (iterLoop p sqrt (rn * rn) fuel fa acc).2 i j = false := by
  induction fuel generalizing fa acc with
  | zero => exact ⟨hh, fun _ _ _ _ _ h => h⟩
  | succ fuel ih =>
    have hdef : iterLoop p sqrt (rn * rn) (fuel + 1) fa acc =
        if (newCr p sqrt (rn * rn) fa).flatten.any (fun b => b) = false then (fa, acc)
        else iterLoop p sqrt (rn * rn) fuel (maskNew fa (newCr p sqrt (rn * rn) fa))
          (orFlags acc (newCr p sqrt (rn * rn) fa)) := rfl
    rw [hdef]
    split
    · exact ⟨hh, fun _ _ _ _ _ h => h⟩
    · have hround := mi_round p sqrt rn lo hi hmono hpos hrn hlo0 fa hh hfine
      have hnsh := sameShape_newCr p sqrt (rn * rn) fa
      generalize newCr p sqrt (rn * rn) fa = new at hround hnsh
      have hanew : SameShape acc new := hsh.symm.trans hnsh
      obtain ⟨a, b⟩ := ih (maskNew fa new) (orFlags acc new)
        ((sameShape_zipWith _ _ _ hnsh : SameShape fa (maskNew fa new)).symm.trans
          (hsh.trans (sameShape_zipWith _ _ _ hanew)))
        (mi_mask lo hi fa new hnsh hround hh)
        (by
          intro i j x hx
          rw [maskNew_at2 fa new hnsh] at hx
          split at hx
          · cases hx
          · exact hfine i j x hx)
      refine ⟨a, fun i j x hx hle hacc => b i j x ?_ hle ?_⟩
      · rw [maskNew_at2 fa new hnsh, if_neg (by rw [hround i j x hx hle]; simp)]
        exact hx
      · rw [orFlags_bat2 acc new hanew, hacc, hround i j x hx hle]
        rfl

include hmono hpos hrn hlo0 in
/-- The search on one pixel. -/
theorem mi_pixel (fds : List (List (Option α))) (hh : MiHalf lo hi (absDiffs fds).flatten)
    (hfine : ∀ i j x, at2 (absDiffs fds) i j = some x → MiFine p sqrt rn lo hi j) (i j : Nat) (x : α)
    (hx : at2 (absDiffs fds) i j = some x) :
    (x ≤ hi → bat2 (iterative p sqrt (rn * rn) fds).2 i j = false) ∧
    ((∀ t ∈ miThresholds p, hi + t * mnNoise p sqrt rn hi j < x) → bat2 (iterative p sqrt (rn * rn) fds).2 i j = true) := by
  have hacc : ∀ i j, bat2 (fds.map (fun row => row.map (fun _ => false))) i j = false := by
    intro i j
    unfold bat2
    simp only [List.getElem?_map]
    cases fds[i]? with
    | none => simp
    | some row =>
      simp only [Option.map_some, Option.getD_some, List.getElem?_map]
      cases row[j]? <;> simp
  have hsh : SameShape (absDiffs fds) (fds.map (fun row => row.map (fun _ => false))) := by
    simp [SameShape, absDiffs, Function.comp_def]
  obtain ⟨ha, hb⟩ := mi_loop p sqrt rn lo hi hmono hpos hrn hlo0 fds.flatten.length (absDiffs fds) _ hsh hh hfine
  refine ⟨fun hle => hb i j x hx hle (hacc i j), fun hout => ?_⟩
  obtain ⟨-, h2, -, h5⟩ := C66_iterative_fixpoint p sqrt (rn * rn) fds
  change MiHalf lo hi (iterative p sqrt (rn * rn) fds).1.flatten at ha
  by_contra hno
  have hx' := h2 i j
  rw [if_neg hno, hx] at hx'
  obtain ⟨hdt, hn, hw⟩ := hfine i j x hx
  have hlohi : lo ≤ hi := by
    have hg : 0 < (absDiffs fds).flatten.countP fun o => match o with | some x => decide (x ≤ hi) | none => false := by
      have hc := hh.2
      have : 0 < (absDiffs fds).flatten.countP fun o => o.isSome := by
        rw [List.countP_pos_iff]
        exact ⟨some x, (mem_at2 _ x).2 ⟨i, j, hx⟩, rfl⟩
      omega
    rw [List.countP_pos_iff] at hg
    obtain ⟨o, ho, hoh⟩ := hg
    cases o with
    | none => cases hoh
    | some y => exact (hh.1 y ho).trans (by simpa using hoh)
  have hhit : hi < x := by
    have h1 := hout p.normalThresh (by simp [miThresholds])
    have h2 := (hw p.normalThresh (by simp [miThresholds])).1
    have h3 := mi_noise_pos p sqrt rn hpos hrn hi (hlo0.trans hlohi) j hdt hn
    have := mul_nonneg h2 h3.le
    linarith
  have hmem := (mem_at2 _ x).2 ⟨i, j, hx'⟩
  obtain ⟨m, hm⟩ := (C186_level lo hi _ ha).2 x hmem hhit
  obtain ⟨l1, l2⟩ := (C186_level lo hi _ ha).1 m hm
  have hm0 := hlo0.trans l1
  have hsig := mi_noise_pos p sqrt rn hpos hrn m hm0 j hdt hn
  have hdev : Deviates p sqrt (rn * rn) (iterative p sqrt (rn * rn) fds).1 i j (|x - m| / mnNoise p sqrt rn |m| j) :=
    ⟨x, m, hx', hm, by rw [abs_of_nonneg hm0]; exact hsig.ne', rfl⟩
  obtain ⟨t, ht⟩ : ∃ t, threshold p (finite (iterative p sqrt (rn * rn) fds).1.flatten).length = some t := by
    have := (C66_reference_level _ m hm).1
    unfold threshold
    change 2 ≤ (finite (iterative p sqrt (rn * rn) fds).1.flatten).length at this
    split
    · exact ⟨_, rfl⟩
    · split
      · exact ⟨_, rfl⟩
      · split
        · exact ⟨_, rfl⟩
        · omega
  have hap := (applies_iff _ _ _).1 ht
  rw [← inUse_eq] at hap
  have hle := h5 i j _ t hdev hap
  have htm := mi_applies p _ t ht
  rw [abs_of_nonneg hm0, div_le_iff₀ hsig] at hle
  have hmo := mul_le_mul_of_nonneg_left (mi_noise_mono p sqrt rn hmono m hi hm0 l2 j hdt hn) (hw t htm).1
  have h3 := hout t htm
  have h4 := le_abs_self (x - m)
  linarith

end

/-! ## The exposure -/

/-- C186.  Let the sizes of the usable differences of a pixel be at least `lo ≥ 0` and at least half of them at most `hi`, with `hi - lo`
no more than each threshold times the smallest noise of such differences.  The iterative search flags every difference whose size is
above `hi` by more than the thresholds times the noise at `hi`, and none whose size is at most `hi`, however large and however many (up
to one half) the others are. -/
theorem C186_iterative (p : Params α) (sqrt : α → α) (clip : List (Option α) → List Bool) (s : Switch) (d : Dims)
    (rn : Nat → Nat → α) (data : Cube (Option α)) (gdq : Cube Nat) (hfew : ¬ JdTooFew p s d gdq)
    (hclip : ¬ JdClip p s d gdq) (hs : ∃ i < d.ni, jdUsable p d gdq i ≤ s.minSingle) (h4 : s.flag4 = false)
    (h1 : p.n1 = 0) (h2 : p.n2 = 0) (hmono : ∀ x y, 0 ≤ x → x ≤ y → sqrt x ≤ sqrt y) (hpos : ∀ x, 0 < x → 0 < sqrt x)
    (r c : Nat) (hrn : rn r c ≠ 0) (lo hi' : α) (hlo0 : 0 ≤ lo)
    (hhalf : MiHalf lo hi' ((jdDiffs p d data gdq r c).flatten.map (Option.map fun x => |x|)))
    (hfine : ∀ j, j + 1 < d.ng → 0 < p.dt j ∧ 0 < p.nReads j ∧
      ∀ t ∈ miThresholds p, 0 ≤ t ∧ hi' - lo ≤ t * mnNoise p sqrt (rn r c) lo j)
    (i g : Nat) (hi : i < d.ni) (hg1 : 1 ≤ g) (hg : g < d.ng) (x : α) (hx : jdDiff p data gdq i (g - 1) r c = some x) :
    (|x| ≤ hi' → (findCrs p sqrt clip s d rn data gdq).gdq i g r c = gdq i g r c) ∧
    ((∀ t ∈ miThresholds p, hi' + t * mnNoise p sqrt (rn r c) hi' (g - 1) < |x|) →
      (findCrs p sqrt clip s d rn data gdq).gdq i g r c = gdq i g r c ||| p.jump) := by
  obtain ⟨k, hk, hu⟩ := hs
  have hni : 0 < d.ni := by omega
  have hc : usesClip p s d gdq = false := by
    rw [← Bool.not_eq_true, jd_usesClip]; exact hclip
  have hsg : usesSingle p s d gdq = false := by
    rw [← Bool.not_eq_true, jd_usesSingle p s d gdq hni]
    intro h
    have := h k hk
    omega
  have hfind : (findCrs p sqrt clip s d rn data gdq).gdq = iterDetect p sqrt rn d data gdq := by
    rw [jd_plain p sqrt clip s d rn data gdq hni hfew h4 h1 h2]
    simp only [detect, hc, hsg, Bool.false_eq_true, if_false]
  have hat : ∀ i j, at2 (absDiffs (jdDiffs p d data gdq r c)) i j =
      if i < d.ni ∧ j < d.ng - 1 then (jdDiff p data gdq i j r c).map (fun x => |x|) else none := by
    intro i j
    by_cases hi : i < d.ni
    · by_cases hj : j < d.ng - 1
      · simp [at2, absDiffs, jdDiffs, hi, hj]
      · simp [at2, absDiffs, jdDiffs, hi, hj]
    · simp [at2, absDiffs, jdDiffs, hi]
  have hfl : (absDiffs (jdDiffs p d data gdq r c)).flatten =
      (jdDiffs p d data gdq r c).flatten.map (Option.map fun x => |x|) := by
    simp only [absDiffs]
    rw [List.map_flatten]
  obtain ⟨a, b⟩ := mi_pixel p sqrt (rn r c) lo hi' hmono hpos hrn hlo0 (jdDiffs p d data gdq r c) (hfl ▸ hhalf)
    (by
      intro i' j x' hx'
      rw [hat] at hx'
      split at hx'
      · rename_i h'
        exact hfine j (by omega)
      · cases hx') i (g - 1) |x| (by rw [hat, if_pos ⟨hi, by omega⟩, hx]; rfl)
  rw [hfind]
  simp only [iterDetect, jd_bat2, jd_diffs]
  refine ⟨fun h => ?_, fun h => ?_⟩
  · rw [a h]
    simp
  · rw [b h]
    simp [hg1]

/-! ## Sharpness and examples -/

instance (lo : ℚ) (l : List (Option ℚ)) : Decidable (∀ x, some x ∈ l → lo ≤ x) :=
  decidable_of_iff (∀ x ∈ l.filterMap id, lo ≤ x) (by simp [List.mem_filterMap])

instance (lo hi : ℚ) (l : List (Option ℚ)) : Decidable (MiHalf lo hi l) := by unfold MiHalf; infer_instance

/-- Example: the iterative search, on a pixel with the differences `a`. -/
def miWords (a : List ℚ) : List Nat :=
  (List.range (a.length + 1)).map fun g => (findCrs { exJump with n1 := 0, n2 := 0, normalThresh := 3 } (fun x => x) jdClipRule
    { jdSw with flag4 := false, minSingle := 9 } ⟨1, a.length + 1, 1, 1⟩ (fun _ _ => 1) (mnData a) jdClean).gdq 0 g 0 0

/-- Half may be hit: both of two hits among four differences are found, which the single pass misses (`C183_half`).  Three hits among
five are too many.  A majority of three equal differences is flagged itself if two others are smaller, since all that equal the
largest are left out of the reference level. -/
theorem C186_limits :
    miWords [1, 500, 1, 500] = [0, 0, 4, 0, 4] ∧ miWords [1, 500, 1, 505, 503] = [0, 0, 0, 0, 0, 0] ∧
    miWords [500, 1, 500, 1, 500] = [0, 4, 0, 4, 0, 4] ∧ MnMost (500 : ℚ) 500 [some 500, some 1, some 500, some 1, some 500] := by
  decide +kernel

-- C186_iterative: three of six differences are hit, one of them downwards; the others are between 1 and 2
example :
    let p := { exJump with n1 := 0, n2 := 0, normalThresh := 3 }
    let d : Dims := ⟨1, 7, 1, 1⟩
    let s : Switch := { jdSw with flag4 := false, minSingle := 9 }
    let a : List ℚ := [1, 500, 2, -90, 1, 70]
    ¬ JdTooFew p s d jdClean ∧ jdUsable p d jdClean 0 ≤ s.minSingle ∧
    MiHalf 1 2 ((jdDiffs p d (mnData a) jdClean 0 0).flatten.map (Option.map fun x => |x|)) ∧
    (∀ j < 6, ∀ t ∈ miThresholds p, 0 ≤ t ∧ 2 - 1 ≤ t * mnNoise p (fun x => x) 1 1 j) ∧
    (∀ t ∈ miThresholds p, 2 + t * mnNoise p (fun x => x) 1 2 1 < 500 ∧ 2 + t * mnNoise p (fun x => x) 1 2 3 < |-90| ∧
      2 + t * mnNoise p (fun x => x) 1 2 5 < 70) ∧
    miWords a = [0, 0, 4, 0, 4, 0, 4] := by decide +kernel

-- C186_level
example : MiHalf (1 : ℚ) 2 [some 1, none, some 500, some 2, some 70] ∧ calcMed [some (1 : ℚ), none, some 500, some 2, some 70] = some 2 := by
  decide +kernel

end Verif.Thm
