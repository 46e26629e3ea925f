import Verif.Model.Shower
import Verif.Thm.Snowball
import Verif.Thm.Jump
import Mathlib.Algebra.Order.BigOperators.Ring.Finset

/-! # Detection of showers: properties C105, C106 -/

namespace Verif.Thm

open Verif.Jump (Img nanmedian)
open Verif.Snowball (Ellipse Env Cube4 nanInvalid maskRef findFaintExtended approxRate)
open Verif.Shower

set_option linter.unusedSectionVars false

section
variable {α : Type} [Field α] [LinearOrder α] [IsStrictOrderedRing α]

/-! ## C105: smoothing with missing pixels -/

/-- The offsets of a kernel of width `2·half + 1`. -/
def swOffsets (half : Nat) : Finset (Int × Int) := Finset.Icc (-(half : Int)) half ×ˢ Finset.Icc (-(half : Int)) half

/-- Position `(i, j)` is a pixel of the image. -/
def SwPixel (nrows ncols : Nat) (i j : Int) : Prop := 0 ≤ i ∧ i < nrows ∧ 0 ≤ j ∧ j < ncols

instance (nrows ncols : Nat) (i j : Int) : Decidable (SwPixel nrows ncols i j) := by unfold SwPixel; infer_instance

/-- The pixels under the kernel with a value. -/
def swGood (nrows ncols half : Nat) (x : Img (Option α)) (r c : Nat) : Finset (Int × Int) :=
  (swOffsets half).filter fun o => SwPixel nrows ncols (r - o.1) (c - o.2) ∧ x (r - o.1).toNat (c - o.2).toNat ≠ none

/-- The positions under the kernel outside the image. -/
def swOut (nrows ncols half : Nat) (r c : Nat) : Finset (Int × Int) :=
  (swOffsets half).filter fun o => ¬ SwPixel nrows ncols (r - o.1) (c - o.2)

theorem sw_conv (half : Nat) (k f : Int → Int → α) (r c : Int) :
    conv half k f r c = ∑ o ∈ swOffsets half, k o.1 o.2 * f (r - o.1) (c - o.2) := by
  rw [conv, swOffsets, Finset.sum_product]

theorem sw_inside (nrows ncols : Nat) (i j : Int) : inside nrows ncols i j = decide (SwPixel nrows ncols i j) := rfl

theorem sw_num (nrows ncols half : Nat) (k : Int → Int → α) (x : Img (Option α)) (r c : Nat) :
    conv half k (fun i j : Int => if inside nrows ncols i j then (x i.toNat j.toNat).getD 0 else 0) r c
      = ∑ o ∈ swGood nrows ncols half x r c, k o.1 o.2 * (x (r - o.1).toNat (c - o.2).toNat).getD 0 := by
  rw [sw_conv, swGood, Finset.sum_filter]
  refine Finset.sum_congr rfl fun o _ => ?_
  by_cases h : SwPixel nrows ncols (r - o.1) (c - o.2)
  · cases hx : x ((r : Int) - o.1).toNat ((c : Int) - o.2).toNat <;> simp [sw_inside, h]
  · simp [sw_inside, h]

theorem sw_den (nrows ncols half : Nat) (k : Int → Int → α) (x : Img (Option α)) (r c : Nat) :
    conv half k (fun i j : Int => if inside nrows ncols i j then (if (x i.toNat j.toNat).isSome then (1 : α) else 0) else 1) r c
      = ∑ o ∈ swGood nrows ncols half x r c, k o.1 o.2 + ∑ o ∈ swOut nrows ncols half r c, k o.1 o.2 := by
  rw [sw_conv, swGood, swOut, Finset.sum_filter, Finset.sum_filter, ← Finset.sum_add_distrib]
  refine Finset.sum_congr rfl fun o _ => ?_
  by_cases h : SwPixel nrows ncols (r - o.1) (c - o.2)
  · cases hx : x ((r : Int) - o.1).toNat ((c : Int) - o.2).toNat <;> simp [sw_inside, h]
  · simp [sw_inside, h]

/-- A pixel without value has none afterwards; otherwise the result, if any, is the sum of kernel times value over the pixels
with a value, divided by the kernel sum over these pixels and the positions outside the image (which count as zero); there is
a result unless that kernel sum is at most a thousandth of the mean of the kernel. -/
theorem C105_weighted_mean (nrows ncols half : Nat) (k : Int → Int → α) (x : Img (Option α)) (r c : Nat) (N : α)
    (hN : N = ∑ o ∈ swGood nrows ncols half x r c, k o.1 o.2 + ∑ o ∈ swOut nrows ncols half r c, k o.1 o.2) :
    (x r c = none → convolveFast nrows ncols half k x r c = none)
    ∧ (x r c ≠ none →
      convolveFast nrows ncols half k x r c
        = if (∑ o ∈ swOffsets half, k o.1 o.2) / ((2 * half + 1) ^ 2 : Nat) < 1000 * N then
            some ((∑ o ∈ swGood nrows ncols half x r c, k o.1 o.2 * (x (r - o.1).toNat (c - o.2).toNat).getD 0) / N)
          else none) := by
  have hm : conv half k (fun _ _ => (1 : α)) 0 0 = ∑ o ∈ swOffsets half, k o.1 o.2 := by simp [sw_conv]
  have e2 : (2 * half + 1) * (2 * half + 1) = (2 * half + 1) ^ 2 := by ring
  constructor
  · intro h
    simp [convolveFast, h]
  · intro h
    have h' : (x r c).isSome = true := Option.isSome_iff_ne_none.2 h
    simp only [convolveFast, h', true_and, sw_num, sw_den, ← hN, hm, e2, gt_iff_lt]
    refine if_congr ?_ rfl rfl
    generalize (∑ o ∈ swOffsets half, k o.1 o.2) / (((2 * half + 1) ^ 2 : Nat) : α) = m
    constructor <;> intro h <;> linarith

/-- With a kernel that is nowhere negative, the smoothed value lies between any bounds of the values under the kernel, if zero
does too or the kernel is inside the image: missing pixels do not lower or raise it. -/
theorem C105_bounds (nrows ncols half : Nat) (k : Int → Int → α) (hk : ∀ u v, 0 ≤ k u v) (x : Img (Option α)) (r c : Nat)
    (lo hi : α) (h0 : swOut nrows ncols half r c = ∅ ∨ lo ≤ 0 ∧ 0 ≤ hi)
    (hb : ∀ i j y, i < nrows → j < ncols → x i j = some y → lo ≤ y ∧ y ≤ hi) (y : α)
    (hy : convolveFast nrows ncols half k x r c = some y) : lo ≤ y ∧ y ≤ hi := by
  obtain ⟨h1, h2⟩ := C105_weighted_mean nrows ncols half k x r c _ rfl
  by_cases hx : x r c = none
  · rw [h1 hx] at hy; simp at hy
  rw [h2 hx] at hy
  split at hy
  swap
  · simp at hy
  rename_i hpos
  simp only [Option.some.injEq] at hy
  subst hy
  set G := swGood nrows ncols half x r c
  set O := swOut nrows ncols half r c
  have hO : 0 ≤ ∑ o ∈ O, k o.1 o.2 := Finset.sum_nonneg fun o _ => hk _ _
  have hS : 0 ≤ (∑ o ∈ swOffsets half, k o.1 o.2) / (((2 * half + 1) ^ 2 : Nat) : α) :=
    div_nonneg (Finset.sum_nonneg fun o _ => hk _ _) (Nat.cast_nonneg _)
  have hN : 0 < ∑ o ∈ G, k o.1 o.2 + ∑ o ∈ O, k o.1 o.2 := by linarith
  have hv : ∀ o ∈ G, lo ≤ (x (r - o.1).toNat (c - o.2).toNat).getD 0 ∧ (x (r - o.1).toNat (c - o.2).toNat).getD 0 ≤ hi := by
    intro o ho
    obtain ⟨-, ⟨a, b, d, e⟩, hne⟩ := Finset.mem_filter.1 ho
    obtain ⟨z, hz⟩ := Option.ne_none_iff_exists'.1 hne
    rw [hz, Option.getD_some]
    exact hb _ _ z (by omega) (by omega) hz
  have l1 : lo * ∑ o ∈ G, k o.1 o.2 ≤ ∑ o ∈ G, k o.1 o.2 * (x (r - o.1).toNat (c - o.2).toNat).getD 0 := by
    rw [Finset.mul_sum]
    exact Finset.sum_le_sum fun o ho => by nlinarith [hk o.1 o.2, (hv o ho).1]
  have l2 : ∑ o ∈ G, k o.1 o.2 * (x (r - o.1).toNat (c - o.2).toNat).getD 0 ≤ hi * ∑ o ∈ G, k o.1 o.2 := by
    rw [Finset.mul_sum]
    exact Finset.sum_le_sum fun o ho => by nlinarith [hk o.1 o.2, (hv o ho).2]
  have z1 : lo * ∑ o ∈ O, k o.1 o.2 ≤ 0 ∧ 0 ≤ hi * ∑ o ∈ O, k o.1 o.2 := by
    rcases h0 with h | ⟨a, b⟩
    · rw [h]; simp
    · exact ⟨mul_nonpos_of_nonpos_of_nonneg a hO, mul_nonneg b hO⟩
  rw [le_div_iff₀ hN, div_le_iff₀ hN]
  constructor <;> nlinarith [z1.1, z1.2]

/-- A pixel whose sample or pixel flags contain JUMP_DET, SATURATED or DO_NOT_USE is no emission, and its ratio has no influence
on any other pixel. -/
theorem C105_flagged_ignored (e : Env α) (d : Det α) (nrows ncols : Nat) (gdq pdq : Img Nat) (x x' : Img (Option α))
    (h : ∀ r c, (gdq r c ||| pdq r c) &&& (e.jump ||| e.sat ||| e.dnu) = 0 → x r c = x' r c) :
    emission e d nrows ncols gdq pdq x = emission e d nrows ncols gdq pdq x'
    ∧ ∀ r c, (gdq r c ||| pdq r c) &&& (e.jump ||| e.sat ||| e.dnu) ≠ 0 → emission e d nrows ncols gdq pdq x r c = false := by
  have hm : masked e gdq pdq x = masked e gdq pdq x' := by
    funext r c
    simp only [masked]
    split
    · rfl
    · rename_i hz
      exact h r c (by simpa using hz)
  refine ⟨by funext r c; simp only [emission, hm], fun r c hf => ?_⟩
  have : masked e gdq pdq x r c = none := by simp only [masked]; rw [if_pos hf]
  simp only [emission, (C105_weighted_mean nrows ncols d.half d.kernel (masked e gdq pdq x) r c _ rfl).1 this]
  split <;> rfl

/-- If no unflagged pixel of the plane exceeds the threshold, there is no emission. -/
theorem C105_below_threshold (e : Env α) (d : Det α) (hk : ∀ u v, 0 ≤ d.kernel u v) (ht : 0 ≤ d.threshold) (nrows ncols : Nat)
    (gdq pdq : Img Nat) (x : Img (Option α))
    (h : ∀ r c y, r < nrows → c < ncols → (gdq r c ||| pdq r c) &&& (e.jump ||| e.sat ||| e.dnu) = 0 → x r c = some y →
      y ≤ d.threshold) : ∀ r c, emission e d nrows ncols gdq pdq x r c = false := by
  intro r c
  simp only [emission]
  split
  swap
  · rfl
  split
  swap
  · rfl
  rename_i y hy
  -- a lower bound of the finitely many values
  obtain ⟨lo, hlo0, hlo⟩ : ∃ lo : α, lo ≤ 0 ∧ ∀ i j z, i < nrows → j < ncols → masked e gdq pdq x i j = some z → lo ≤ z := by
    let s : Finset α := insert 0 ((Finset.range nrows ×ˢ Finset.range ncols).image fun o =>
      (masked e gdq pdq x o.1 o.2).getD 0)
    refine ⟨s.min' ⟨0, by simp [s]⟩, Finset.min'_le _ _ (by simp [s]), fun i j z hi hj hz => Finset.min'_le _ _ ?_⟩
    refine Finset.mem_insert_of_mem (Finset.mem_image.2 ⟨(i, j), by simp [hi, hj], by simp [hz]⟩)
  have := (C105_bounds nrows ncols d.half d.kernel hk _ r c lo d.threshold (Or.inr ⟨hlo0, ht⟩)
    (fun i j z hi hj hz => ⟨hlo i j z hi hj hz, ?_⟩) y hy).2
  · exact decide_eq_false (not_lt.2 this)
  · simp only [masked] at hz
    split at hz
    · simp at hz
    · rename_i hq
      exact h i j z hi hj (by simpa using hq) hz

/-! ## C106: which groups are searched, and false alarms -/

/-- Every sample of the plane is unusable. -/
def SwDead (dnu nrows ncols : Nat) (gdq : Img Nat) : Prop := ∀ r c, r < nrows → c < ncols → gdq r c &&& dnu ≠ 0

theorem sw_dead (dnu nrows ncols : Nat) (gdq : Img Nat) :
    ((List.range nrows).all fun r => (List.range ncols).all fun c => decide (gdq r c &&& dnu ≠ 0)) = true
      ↔ SwDead dnu nrows ncols gdq := by
  simp only [List.all_eq_true, List.mem_range, decide_eq_true_eq, SwDead]
  exact ⟨fun h r c hr hc => h r hr c hc, fun h r hr c hc => h r c hr hc⟩

/-- The first good group is the first with a usable sample; if there is none it is group 0. -/
theorem C106_first_good (dnu ngrps nrows ncols : Nat) (gdq : Nat → Img Nat) (f : Nat)
    (hf : f = firstGood dnu ngrps nrows ncols gdq) :
    ((∀ g, g < ngrps → SwDead dnu nrows ncols (gdq g)) → f = 0)
    ∧ ((∃ g, g < ngrps ∧ ¬ SwDead dnu nrows ncols (gdq g)) →
      f < ngrps ∧ ¬ SwDead dnu nrows ncols (gdq f) ∧ ∀ g, g < f → SwDead dnu nrows ncols (gdq g)) := by
  set P : Nat → Bool := fun g =>
    !((List.range nrows).all fun r => (List.range ncols).all fun c => decide (gdq g r c &&& dnu ≠ 0)) with hP
  have hPg : ∀ g, P g = true ↔ ¬ SwDead dnu nrows ncols (gdq g) := by
    intro g
    rw [hP, ← sw_dead]
    simp only [Bool.not_eq_true', Bool.not_eq_true]
  have hf' : f = ((List.range ngrps).find? P).getD 0 := hf
  constructor
  · intro h
    rw [hf', List.find?_eq_none.2 fun g hg => by
      rw [hPg]; exact fun hc => hc (h g (List.mem_range.1 hg))]
    rfl
  · rintro ⟨g, hg, hd⟩
    cases hr : (List.range ngrps).find? P with
    | none => exact absurd ((hPg g).2 hd) (List.find?_eq_none.1 hr g (List.mem_range.2 hg))
    | some q =>
      rw [hr] at hf'
      simp only [Option.getD_some] at hf'
      subst hf'
      rw [List.find?_range_eq_some] at hr
      obtain ⟨a, b, c⟩ := hr
      refine ⟨List.mem_range.1 b, (hPg f).1 a, fun g hg => ?_⟩
      have := c g hg
      by_contra hc
      rw [(hPg g).2 hc] at this
      simp at this

/-- The number of unusable groups is the number of pairs of integration and group without usable sample. -/
theorem C106_count (dnu nints ngrps nrows ncols : Nat) (gdq : Cube4) [∀ g : Img Nat, Decidable (SwDead dnu nrows ncols g)] :
    countDnu dnu nints ngrps nrows ncols gdq
      = ((Finset.range nints ×ˢ Finset.range ngrps).filter fun o => SwDead dnu nrows ncols (gdq o.1 o.2)).card := by
  rw [Finset.card_filter, Finset.sum_product, countDnu, ← List.sum_toFinset _ List.nodup_range]
  refine Finset.sum_congr (by ext; simp) fun i _ => ?_
  rw [← Finset.card_filter, ← List.toFinset_card_of_nodup (List.nodup_range.filter _)]
  congr 1
  ext g
  simp only [List.mem_toFinset, List.mem_filter, List.mem_range, Finset.mem_filter, Finset.mem_range, sw_dead]

/-- The showers are the non-empty results of the search in the groups after the first good one of each integration. -/
theorem C106_searched (e : Env α) (d : Det α) (nints ngrps nrows ncols : Nat) (data : Nat → Nat → Nat → Nat → Option α)
    (rn : Img (Option α)) (pdq : Img Nat) (ingdq : Cube4) (i g : Nat) (els : List (Ellipse α)) :
    (i, g, els) ∈ showers e d nints ngrps nrows ncols data rn pdq ingdq ↔
      i < nints ∧ firstGood e.dnu ngrps nrows ncols (maskRef e pdq ingdq i) < g ∧ g < ngrps ∧ els ≠ []
      ∧ els = d.findBig (emission e d nrows ncols (maskRef e pdq ingdq i g) pdq
          (ratio e d nints ngrps data rn ingdq i g)) := by
  simp only [showers, List.mem_flatMap, List.mem_range, List.mem_filter, List.mem_map, List.mem_range'_1, decide_eq_true_eq]
  constructor
  · rintro ⟨i', hi, ⟨g', hg, heq⟩, hl⟩
    simp only [Prod.mk.injEq] at heq
    obtain ⟨rfl, rfl, rfl⟩ := heq
    exact ⟨hi, by omega, by omega, List.ne_nil_of_length_pos hl, rfl⟩
  · rintro ⟨hi, h1, h2, h3, rfl⟩
    exact ⟨i, hi, ⟨g, by omega, rfl⟩, List.length_pos_of_ne_nil h3⟩

theorem sw_nothing (e : Env α) (hd : e.dnu ≠ 0) (nints ngrps nrows ncols minDiffs cnt num : Nat) (expansion : α)
    (data : Nat → Nat → Nat → Nat → Option α) (pdq : Img Nat) (ingdq : Cube4) :
    findFaintExtended e nints ngrps nrows ncols minDiffs cnt num expansion [] data pdq ingdq = ingdq := by
  funext i g r c
  simp only [findFaintExtended, Verif.Snowball.flagShowers, List.foldl_nil]
  split
  · rfl
  simp only [Verif.Snowball.maxFluxShowers]
  split
  · rfl
  rename_i hrev
  by_cases hp : pdq r c = e.ref
  · exfalso
    apply hrev
    have : approxRate e ngrps (fun g => data i g r c) (fun g => maskRef e pdq ingdq i g r c) = none := by
      refine approxRate_none e ngrps _ _ fun g => ?_
      simp only [maskRef, hp, if_true]
      rw [Nat.and_or_distrib_left, Nat.and_or_distrib_left, Nat.and_self]
      intro hz
      rw [Nat.or_eq_zero_iff, Nat.or_eq_zero_iff] at hz
      exact hd hz.1.1
    rw [this]
    simp [Verif.Snowball.reverted]
  · simp [maskRef, hp]

/-- If the ratio exceeds the threshold at no unflagged pixel of any group, the flags come back unchanged, those of the reference
pixels included. -/
theorem C106_no_false_alarm (e : Env α) (hd : e.dnu ≠ 0) (d : Det α) (hk : ∀ u v, 0 ≤ d.kernel u v) (ht : 0 ≤ d.threshold)
    (hbig : d.findBig (fun _ _ => false) = []) (nints ngrps nrows ncols minDiffs num : Nat) (expansion : α)
    (data : Nat → Nat → Nat → Nat → Option α) (rn : Img (Option α)) (pdq : Img Nat) (ingdq : Cube4)
    (h : ∀ i g r c y, i < nints → 0 < g → g < ngrps → r < nrows → c < ncols →
      ratio e d nints ngrps data rn ingdq i g r c = some y → y ≤ d.threshold) :
    findFaint e d nints ngrps nrows ncols minDiffs num expansion data rn pdq ingdq = ingdq := by
  have hs : showers e d nints ngrps nrows ncols data rn pdq ingdq = [] := by
    refine List.eq_nil_iff_forall_not_mem.2 ?_
    rintro ⟨i, g, els⟩ hm
    obtain ⟨hi, hg, hg2, hne, rfl⟩ := (C106_searched e d nints ngrps nrows ncols data rn pdq ingdq i g els).1 hm
    refine hne ?_
    have : emission e d nrows ncols (maskRef e pdq ingdq i g) pdq (ratio e d nints ngrps data rn ingdq i g)
        = fun _ _ => false := by
      funext r c
      exact C105_below_threshold e d hk ht nrows ncols _ _ _
        (fun r c y hr hc _ hy => h i g r c y hi (by omega) hg2 hr hc hy) r c
    rw [this, hbig]
  rw [findFaint, hs, sw_nothing e hd]

/-- FINDING.  With `nframes` zero (a model with a read pattern but without `nframes`) and fewer integrations than
`minimum_sigclip_groups`, no shower is ever found, whatever the data. -/
theorem C106_zero_nframes_finds_nothing (e : Env α) (hd : e.dnu ≠ 0) (d : Det α) (hk : ∀ u v, 0 ≤ d.kernel u v)
    (ht : 0 ≤ d.threshold) (hbig : d.findBig (fun _ _ => false) = []) (hn : d.nframes = 0)
    (nints ngrps nrows ncols minDiffs num : Nat) (hsig : nints < d.minSigclip) (expansion : α)
    (data : Nat → Nat → Nat → Nat → Option α) (rn : Img (Option α)) (pdq : Img Nat) (ingdq : Cube4) :
    findFaint e d nints ngrps nrows ncols minDiffs num expansion data rn pdq ingdq = ingdq := by
  refine C106_no_false_alarm e hd d hk ht hbig nints ngrps nrows ncols minDiffs num expansion data rn pdq ingdq ?_
  intro i g r c y _ _ _ _ _ hy
  simp only [ratio] at hy
  rw [if_neg (by omega)] at hy
  simp only [ratioInt] at hy
  split at hy
  · rw [if_pos hn] at hy
    split at hy
    · simp at hy
    · simp only [Option.some.injEq] at hy
      subst hy
      exact ht
  · simp at hy

theorem sw_median (l : List (Option α)) (v : α) (h : ∀ y, some y ∈ l → y = v) (m : α) (hm : nanmedian l = some m) : m = v := by
  obtain ⟨h1, h2⟩ := C25_median_is_median l
  obtain ⟨a, b⟩ := h2 m hm
  have hpos : 0 < (l.filterMap id).length := by
    rw [List.length_pos_iff]
    intro hnil
    rw [List.filterMap_eq_nil_iff] at hnil
    rw [h1.2 hnil] at hm
    simp at hm
  have hv : ∀ x ∈ l.filterMap id, x = v := by
    intro x hx
    obtain ⟨o, ho, hox⟩ := List.mem_filterMap.1 hx
    simp only [id_eq] at hox
    subst hox
    exact h x ho
  obtain ⟨x, hx, hx'⟩ := List.countP_pos_iff.1 (show 0 < (l.filterMap id).countP (fun x => decide (x ≤ m)) by omega)
  obtain ⟨z, hz, hz'⟩ := List.countP_pos_iff.1 (show 0 < (l.filterMap id).countP (fun x => decide (m ≤ x)) by omega)
  have e1 := of_decide_eq_true hx'
  have e2 := of_decide_eq_true hz'
  rw [hv x hx] at e1
  rw [hv z hz] at e2
  exact le_antisymm e2 e1

/-- The words whose samples are ignored in the differences: JUMP_DET, SATURATED, DO_NOT_USE, and one of the first two with the
third. -/
def SwIgnored (e : Env α) (w : Nat) : Prop :=
  w = e.jump ∨ w = e.sat ∨ w = e.dnu ∨ w = e.jump + e.dnu ∨ w = e.sat + e.dnu

open Classical in
/-- Specification: the difference of a sample and the one before it, if both are there and neither is ignored. -/
noncomputable def swStep (e : Env α) (data : Nat → Nat → Nat → Nat → Option α) (gdq : Cube4) (i g r c : Nat) : Option α :=
  if SwIgnored e (gdq i g r c) ∨ SwIgnored e (gdq i (g + 1) r c) then none
  else (data i (g + 1) r c).bind fun b => (data i g r c).map fun a => b - a

theorem sw_firstDiff (e : Env α) (data : Nat → Nat → Nat → Nat → Option α) (gdq : Cube4) (i g r c : Nat) :
    firstDiff e data gdq i g r c = swStep e data gdq i g r c := by
  have hn : ∀ (w : Nat) (x : Option α), SwIgnored e w → nanInvalid e w x = none := by
    intro w x h
    simp only [nanInvalid]
    rw [if_pos]
    simp only [SwIgnored] at h
    tauto
  have hs : ∀ (w : Nat) (x : Option α), ¬ SwIgnored e w → nanInvalid e w x = x := by
    intro w x h
    simp only [nanInvalid]
    rw [if_neg]
    simp only [SwIgnored] at h
    tauto
  simp only [firstDiff, swStep]
  by_cases h1 : SwIgnored e (gdq i g r c)
  · rw [hn _ _ h1, if_pos (Or.inl h1)]
  by_cases h2 : SwIgnored e (gdq i (g + 1) r c)
  · rw [hn _ (data i (g + 1) r c) h2, if_pos (Or.inr h2)]
    cases nanInvalid e (gdq i g r c) (data i g r c) <;> rfl
  · rw [hs _ _ h1, hs _ _ h2, if_neg (by tauto)]
    cases data i g r c <;> cases data i (g + 1) r c <;> rfl

/-- C106 (the statistic).  With fewer integrations than `minimum_sigclip_groups` the value searched in group `g` is the distance
of the difference from the median of all usable differences of the pixel, in units of `sqrt(|median| + rn²/nframes)`; otherwise
it is the distance from the clipped median over the integrations of that difference, in units of the clipped deviation; it is
missing if the difference is. -/
theorem C106_ratio (e : Env α) (d : Det α) (nints ngrps : Nat) (data : Nat → Nat → Nat → Nat → Option α)
    (rn : Img (Option α)) (gdq : Cube4) (i g r c : Nat) :
    (swStep e data gdq i g r c = none → ratio e d nints ngrps data rn gdq i (g + 1) r c = none) ∧
    (nints < d.minSigclip → d.nframes ≠ 0 → ∀ x m v,
      swStep e data gdq i g r c = some x → rn r c = some v →
      nanmedian ((List.range nints).flatMap fun j => (List.range (ngrps - 1)).map fun k => swStep e data gdq j k r c) = some m →
      d.sqrt (|m| + v ^ 2 / (d.nframes : α)) ≠ 0 →
      ratio e d nints ngrps data rn gdq i (g + 1) r c = some (|x - m| / d.sqrt (|m| + v ^ 2 / (d.nframes : α)))) ∧
    (d.minSigclip ≤ nints → ∀ x m s, swStep e data gdq i g r c = some x →
      d.clip ((List.range nints).map fun j => swStep e data gdq j g r c) = (some m, some s) → s ≠ 0 →
      ratio e d nints ngrps data rn gdq i (g + 1) r c = some (|x - m| / s)) := by
  simp only [ratio, Nat.add_sub_cancel, sw_firstDiff]
  refine ⟨?_, ?_, ?_⟩
  · intro h
    rw [h]
    split
    · simp only [ratioGrp]
      split <;> simp_all
    · simp only [ratioInt]
      split <;> simp_all
  · intro h1 h2 x m v hx hv hm hs
    rw [if_neg (by omega), hx, hv, hm]
    simp only [ratioInt, h2, if_false, hs]
  · intro h1 x m s hx hc hs
    rw [if_pos h1, hx, hc]
    simp only [ratioGrp, hs, if_false]

/-- Clipped statistics of values that are all the same have that value as median. -/
def SwClipOk (clip : List (Option α) → Option α × Option α) : Prop :=
  ∀ l x m, (∀ y, some y ∈ l → y = x) → (clip l).1 = some m → (∃ y, some y ∈ l) → m = x

/-- An exposure in which every pixel has the same difference between all its usable groups is not flagged, in either branch of
the statistics. -/
theorem C106_straight_ramps (e : Env α) (hd : e.dnu ≠ 0) (d : Det α) (hk : ∀ u v, 0 ≤ d.kernel u v) (ht : 0 ≤ d.threshold)
    (hbig : d.findBig (fun _ _ => false) = []) (hclip : SwClipOk d.clip) (nints ngrps nrows ncols minDiffs num : Nat)
    (expansion : α) (data : Nat → Nat → Nat → Nat → Option α) (rn : Img (Option α)) (pdq : Img Nat) (ingdq : Cube4)
    (slope : Nat → Nat → α)
    (hs : ∀ i g r c a b, i < nints → g + 1 < ngrps → ¬ SwIgnored e (ingdq i g r c) → ¬ SwIgnored e (ingdq i (g + 1) r c) →
      data i g r c = some a → data i (g + 1) r c = some b → b - a = slope r c) :
    findFaint e d nints ngrps nrows ncols minDiffs num expansion data rn pdq ingdq = ingdq := by
  refine C106_no_false_alarm e hd d hk ht hbig nints ngrps nrows ncols minDiffs num expansion data rn pdq ingdq ?_
  intro i g r c y hi hg hg2 _ _ hy
  have hdiff : ∀ j q x, j < nints → q + 1 < ngrps → firstDiff e data ingdq j q r c = some x → x = slope r c := by
    intro j q x hj hq hx
    simp only [firstDiff] at hx
    split at hx
    · rename_i a b ha hb
      simp only [Option.some.injEq] at hx
      subst hx
      have h1 : ∀ (w : Nat) (z : Option α) (v : α), nanInvalid e w z = some v →
          ¬ SwIgnored e w ∧ z = some v := by
        intro w z v hv
        simp only [nanInvalid] at hv
        split at hv
        · simp at hv
        · rename_i hw
          exact ⟨fun hc => hw (by unfold SwIgnored at hc; tauto), hv⟩
      exact hs j q r c a b hj hq (h1 _ _ _ ha).1 (h1 _ _ _ hb).1 (h1 _ _ _ ha).2 (h1 _ _ _ hb).2
    · simp at hx
  simp only [ratio] at hy
  split at hy
  · simp only [ratioGrp] at hy
    split at hy
    · rename_i m s x hm hsd hx
      split at hy
      · simp at hy
      simp only [Option.some.injEq] at hy
      have e1 := hdiff i (g - 1) x hi (by omega) hx
      have e2 : m = slope r c := hclip _ _ _ (fun z hz => by
        obtain ⟨j, hj, hjz⟩ := List.mem_map.1 hz
        exact hdiff j (g - 1) z (List.mem_range.1 hj) (by omega) hjz) hm
        ⟨x, List.mem_map.2 ⟨i, List.mem_range.2 hi, hx⟩⟩
      rw [e1, e2, sub_self, abs_zero, zero_div] at hy
      rw [← hy]; exact ht
    · simp at hy
  · simp only [ratioInt] at hy
    split at hy
    · rename_i rn' m x hr hm hx
      split at hy
      · split at hy
        · simp at hy
        · simp only [Option.some.injEq] at hy
          rw [← hy]; exact ht
      · split at hy
        · simp at hy
        simp only [Option.some.injEq] at hy
        have e1 := hdiff i (g - 1) x hi (by omega) hx
        have e2 : m = slope r c := by
          refine sw_median _ _ (fun z hz => ?_) m hm
          obtain ⟨j, hj, hjz⟩ := List.mem_flatMap.1 hz
          obtain ⟨q, hq, hqz⟩ := List.mem_map.1 hjz
          rw [List.mem_range] at hq
          exact hdiff j q z (List.mem_range.1 hj) (by omega) hqz
        rw [e1, e2, sub_self, abs_zero, zero_div] at hy
        rw [← hy]; exact ht
    · simp at hy

end

/-! A ring of eight pixels as kernel; an image of five by five pixels with one missing; four groups of one integration, all
differences 2 except for a block of three by three pixels in the last. -/

def swRing : Int → Int → ℚ := fun u v => if u = 0 ∧ v = 0 then 0 else 1
def swImage : Img (Option ℚ) := fun r c => if r = 1 ∧ c = 2 then none else some 7
def swDet (nframes : Nat) : Det ℚ :=
  { threshold := 1, minSigclip := 100, nframes := nframes, half := 1, kernel := swRing, sqrt := fun x => x,
    clip := fun _ => (none, none), findBig := fun m => if m 2 2 then [⟨2, 2, 3, 3, 0⟩] else [] }
def swEnv : Env ℚ :=
  { jump := 4, sat := 2, dnu := 1, ref := 8, satRequired := false, expandFactor := 2, satExpand := 1, minSatRadius := 1,
    maxWidth := 200, edgeSize := 0, maskPersist := false, persistGrps := 0, maxShower := 1000, rnd := fun x => ⌊x + 1 / 2⌋,
    cos := fun _ => 1, sin := fun _ => 0, findSat := fun _ => [], findJump := fun _ => [] }
def swData (bright : ℚ) : Nat → Nat → Nat → Nat → Option ℚ := fun _ g r c =>
  some (2 * (g : ℚ) + if g = 3 ∧ 1 ≤ r ∧ r ≤ 3 ∧ 1 ≤ c ∧ c ≤ 3 then bright else 0)

example : convolveFast 5 5 1 swRing swImage 2 2 = some 7 ∧ convolveFast 5 5 1 swRing swImage 1 2 = none
    ∧ convolveFast 5 5 1 swRing swImage 4 4 = some (21 / 8) := by decide +kernel
example : swOut 5 5 1 2 2 = ∅ := by decide +kernel
example : (∀ u v, 0 ≤ (swDet 1).kernel u v) ∧ 0 ≤ (swDet 1).threshold ∧ (swDet 1).findBig (fun _ _ => false) = []
    ∧ swEnv.dnu ≠ 0 ∧ SwClipOk (swDet 1).clip :=
  ⟨fun u v => by simp only [swDet, swRing]; split <;> norm_num, by norm_num [swDet], rfl, by decide,
    fun _ _ _ _ h _ => by simp [swDet] at h⟩
-- C106_ratio: the bright block, group 3
example : swStep swEnv (swData 60) (fun _ _ _ _ => 0) 0 2 2 2 = some 62
    ∧ (nanmedian ((List.range 1).flatMap fun j => (List.range 3).map fun k => swStep swEnv (swData 60) (fun _ _ _ _ => 0) j k 2 2)
      = some 2) ∧ (swDet 1).sqrt (|(2 : ℚ)| + 1 ^ 2 / (1 : ℕ)) = 3
    ∧ ratio swEnv (swDet 1) 1 4 (swData 60) (fun _ _ => some 1) (fun _ _ _ _ => 0) 0 3 2 2 = some 20 := by
  simp only [← sw_firstDiff]
  decide +kernel
example : showers swEnv (swDet 1) 1 4 5 5 (swData 60) (fun _ _ => some 1) (fun _ _ => 0) (fun _ _ _ _ => 0)
    = [(0, 3, [⟨2, 2, 3, 3, 0⟩])] := by decide +kernel
example : showers swEnv (swDet 1) 1 4 5 5 (swData 0) (fun _ _ => some 1) (fun _ _ => 0) (fun _ _ _ _ => 0) = [] := by
  decide +kernel
example : showers swEnv (swDet 0) 1 4 5 5 (swData 60) (fun _ _ => some 1) (fun _ _ => 0) (fun _ _ _ _ => 0) = [] := by
  decide +kernel
example : firstGood 1 3 2 2 (fun g _ _ => if g = 0 then 1 else 0) = 1 ∧ countDnu 1 2 3 2 2 (fun i g _ _ => if g ≤ i then 1 else 0) = 3 := by
  decide +kernel

end Verif.Thm
