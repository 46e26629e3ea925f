import Verif.Thm.JumpDriver
import Verif.Thm.OutlierUnits

/-!
# C183: values spoiled in a minority of the samples

The median of the differences of a pixel (twopoint_difference.py:188, 353-399) and the median of the images (median.py:21-138,
224-391) when fewer than half of the values are spoiled by an arbitrary amount.
-/

set_option linter.unusedSectionVars false

namespace Verif.Thm
open Verif Verif.Jump Verif.JumpDriver

variable {α : Type} [Field α] [LinearOrder α] [IsStrictOrderedRing α]

/-! ## Specification -/

/-- Specification: more than half of the numbers of a list (NaN left out) lie between `lo` and `hi`. -/
def MnMost (lo hi : α) (l : List (Option α)) : Prop :=
  (l.countP fun o => o.isSome) < 2 * l.countP fun o => match o with
    | some x => decide (lo ≤ x ∧ x ≤ hi)
    | none => false

instance (lo hi : α) (l : List (Option α)) : Decidable (MnMost lo hi l) := by unfold MnMost; infer_instance

/-- Specification: noise of the difference `j` of a pixel with read noise `rn` if the differences are of size `a`. -/
def mnNoise (p : Params α) (sqrt : α → α) (rn a : α) (j : Nat) : α :=
  sqrt (a * p.dt j + rn * rn / (1 / 2 * p.nReads j)) / p.dt j

/-! ## The median -/

theorem mn_countP (lo hi : α) (l : List (Option α)) : MnMost lo hi l ↔
    (finite l).length < 2 * (finite l).countP fun x => decide (lo ≤ x ∧ x ≤ hi) := by
  have h1 : (l.countP fun o => o.isSome) = (finite l).length := by
    induction l with
    | nil => rfl
    | cons o l ih => cases o <;> simp_all [finite]
  have h2 : (l.countP fun o => match o with | some x => decide (lo ≤ x ∧ x ≤ hi) | none => false) =
      (finite l).countP fun x => decide (lo ≤ x ∧ x ≤ hi) := by
    clear h1
    induction l with
    | nil => rfl
    | cons o l ih =>
      cases o with
      | none => simpa [finite] using ih
      | some x =>
        rw [List.countP_cons, ih]
        simp only [finite, List.filterMap_cons, List.countP_cons]
  simp only [MnMost, h1, h2]

/-- An element of a sorted list with less than half of the list on either side is among the values of the majority. -/
theorem mn_sorted (s : List α) (hs : s.Pairwise (· ≤ ·)) (lo hi : α)
    (h : s.length < 2 * s.countP fun x => decide (lo ≤ x ∧ x ≤ hi)) (k : Nat) (x : α) (hk : s[k]? = some x)
    (h1 : s.length ≤ 2 * (k + 1)) (h2 : 2 * k ≤ s.length) : lo ≤ x ∧ x ≤ hi := by
  obtain ⟨hlt, hx⟩ := List.getElem?_eq_some_iff.1 hk
  have hsplit : (s.countP fun x => decide (lo ≤ x ∧ x ≤ hi)) =
      ((s.take k).countP fun x => decide (lo ≤ x ∧ x ≤ hi)) + (s.drop k).countP fun x => decide (lo ≤ x ∧ x ≤ hi) := by
    rw [← List.countP_append, List.take_append_drop]
  have hsplit' : (s.countP fun x => decide (lo ≤ x ∧ x ≤ hi)) =
      ((s.take (k + 1)).countP fun x => decide (lo ≤ x ∧ x ≤ hi)) + (s.drop (k + 1)).countP fun x => decide (lo ≤ x ∧ x ≤ hi) := by
    rw [← List.countP_append, List.take_append_drop]
  constructor
  · by_contra hc
    have hz : ((s.take (k + 1)).countP fun x => decide (lo ≤ x ∧ x ≤ hi)) = 0 := by
      rw [List.countP_eq_zero]
      intro y hy
      obtain ⟨i, hi'⟩ := List.mem_iff_getElem?.1 hy
      rw [List.getElem?_take] at hi'
      split at hi'
      · rename_i hik
        obtain ⟨hil, hyi⟩ := List.getElem?_eq_some_iff.1 hi'
        have hle : y ≤ x := by
          rw [← hyi, ← hx]
          rcases Nat.lt_or_ge i k with hlt' | hge
          · exact List.pairwise_iff_getElem.1 hs i k hil hlt hlt'
          · have : i = k := by omega
            subst this
            exact le_refl _
        simp only [decide_eq_true_eq, not_and]
        intro h'
        exact absurd (h'.trans hle) hc
      · cases hi'
    have hle := List.countP_le_length (p := fun x => decide (lo ≤ x ∧ x ≤ hi)) (l := s.drop (k + 1))
    rw [List.length_drop] at hle
    omega
  · by_contra hc
    have hz : ((s.drop k).countP fun x => decide (lo ≤ x ∧ x ≤ hi)) = 0 := by
      rw [List.countP_eq_zero]
      intro y hy
      obtain ⟨i, hi'⟩ := List.mem_iff_getElem?.1 hy
      rw [List.getElem?_drop] at hi'
      obtain ⟨hil, hyi⟩ := List.getElem?_eq_some_iff.1 hi'
      have hle : x ≤ y := by
        rw [← hyi, ← hx]
        rcases Nat.eq_zero_or_pos i with rfl | hpos
        · exact le_refl _
        · exact List.pairwise_iff_getElem.1 hs k (k + i) hlt hil (by omega)
      simp only [decide_eq_true_eq, not_and]
      intro _ h'
      exact hc (hle.trans h')
    have hle := List.countP_le_length (p := fun x => decide (lo ≤ x ∧ x ≤ hi)) (l := s.take k)
    rw [List.length_take] at hle
    omega

/-- C183 (reference level).  If more than half of the numbers lie between `lo` and `hi`, so does the median, whatever the other
numbers are. -/
theorem C183_median (lo hi : α) (l : List (Option α)) (h : MnMost lo hi l) : ∃ m, nanmedian l = some m ∧ lo ≤ m ∧ m ≤ hi := by
  rw [mn_countP] at h
  have hperm := List.perm_insertionSort (· ≤ ·) (finite l)
  have hs := List.pairwise_insertionSort (· ≤ ·) (finite l)
  rw [← hperm.length_eq, ← hperm.countP_eq] at h
  simp only [nanmedian]
  generalize (finite l).insertionSort (· ≤ ·) = s at h hs
  have hle := List.countP_le_length (p := fun x => decide (lo ≤ x ∧ x ≤ hi)) (l := s)
  have hpos : s.length ≠ 0 := by omega
  simp only [medianSorted, if_neg hpos]
  split
  · obtain ⟨x, hx⟩ : ∃ x, s[s.length / 2]? = some x := ⟨_, List.getElem?_eq_getElem (by omega)⟩
    exact ⟨x, hx, mn_sorted s hs lo hi h _ x hx (by omega) (by omega)⟩
  · obtain ⟨x, hx⟩ : ∃ x, s[s.length / 2 - 1]? = some x := ⟨_, List.getElem?_eq_getElem (by omega)⟩
    obtain ⟨y, hy⟩ : ∃ y, s[s.length / 2]? = some y := ⟨_, List.getElem?_eq_getElem (by omega)⟩
    obtain ⟨a1, a2⟩ := mn_sorted s hs lo hi h _ x hx (by omega) (by omega)
    obtain ⟨b1, b2⟩ := mn_sorted s hs lo hi h _ y hy (by omega) (by omega)
    rw [hx, hy]
    exact ⟨(x + y) / 2, rfl, by linarith, by linarith⟩

/-! ## Jump detection -/

/-- C183 (hits are found).  Let more than half of the usable differences of a pixel lie between `lo` and `hi`, however large the
others are.  A difference outside this range by more than the threshold times the largest noise of such differences is flagged
(single pass; neighbour and after-jump flagging switched off). -/
theorem C183_hit_found (p : Params α) (sqrt : α → α) (clip : List (Option α) → List Bool) (s : Switch) (d : Dims)
    (rn : Nat → Nat → α) (data : Cube (Option α)) (gdq : Cube Nat) (hfew : ¬ JdTooFew p s d gdq)
    (hclip : ¬ JdClip p s d gdq) (hs : ∀ i < d.ni, s.minSingle < jdUsable p d gdq i) (h4 : s.flag4 = false)
    (h1 : p.n1 = 0) (h2 : p.n2 = 0) (hmono : ∀ x y, 0 ≤ x → x ≤ y → sqrt x ≤ sqrt y) (hpos : ∀ x, 0 < x → 0 < sqrt x)
    (hT : 0 ≤ p.normalThresh) (i g r c : Nat) (hi : i < d.ni) (hg1 : 1 ≤ g) (hg : g < d.ng) (hdt : 0 < p.dt (g - 1))
    (hn : 0 < p.nReads (g - 1)) (hrn : rn r c ≠ 0) (lo hi' x : α) (hmost : MnMost lo hi' (jdDiffs p d data gdq r c).flatten)
    (hx : jdDiff p data gdq i (g - 1) r c = some x)
    (hout : hi' + p.normalThresh * mnNoise p sqrt (rn r c) (max |lo| |hi'|) (g - 1) < x ∨
      x < lo - p.normalThresh * mnNoise p sqrt (rn r c) (max |lo| |hi'|) (g - 1)) :
    (findCrs p sqrt clip s d rn data gdq).gdq i g r c = gdq i g r c ||| p.jump := by
  refine (C97_single_pass p sqrt clip s d rn data gdq hfew hclip hs h4 h1 h2 i g r c hi hg).1 ?_
  obtain ⟨m, hm, hlo, hhi⟩ := C183_median lo hi' _ hmost
  have hc0 : 0 < rn r c * rn r c / (1 / 2 * p.nReads (g - 1)) :=
    div_pos (mul_self_pos.2 hrn) (by positivity)
  have hsig : 0 < mnNoise p sqrt (rn r c) |m| (g - 1) :=
    div_pos (hpos _ (add_pos_of_nonneg_of_pos (mul_nonneg (abs_nonneg m) hdt.le) hc0)) hdt
  have habs : |m| ≤ max |lo| |hi'| := by
    rw [abs_le]
    have a1 := neg_abs_le lo
    have a2 := le_abs_self hi'
    have a3 := le_max_left |lo| |hi'|
    have a4 := le_max_right |lo| |hi'|
    constructor <;> linarith
  have hle : mnNoise p sqrt (rn r c) |m| (g - 1) ≤ mnNoise p sqrt (rn r c) (max |lo| |hi'|) (g - 1) := by
    refine div_le_div_of_nonneg_right (hmono _ _ ?_ ?_) hdt.le
    · exact (add_pos_of_nonneg_of_pos (mul_nonneg (abs_nonneg m) hdt.le) hc0).le
    · have := mul_le_mul_of_nonneg_right habs hdt.le
      linarith
  refine ⟨hg1, x, m, hx, hm, hsig.ne', ?_⟩
  show p.normalThresh < |x - m| / mnNoise p sqrt (rn r c) |m| (g - 1)
  rw [lt_div_iff₀ hsig]
  have hm2 := mul_le_mul_of_nonneg_left hle hT
  rcases hout with hout | hout
  · exact lt_of_lt_of_le (by linarith) (le_abs_self (x - m))
  · exact lt_of_lt_of_le (by linarith) (neg_le_abs (x - m))

/-- C183 (nothing else is flagged).  If, moreover, the range of the majority is positive and no wider than the threshold times the
smallest noise of such differences, no difference within the range is flagged. -/
theorem C183_rest_kept (p : Params α) (sqrt : α → α) (clip : List (Option α) → List Bool) (s : Switch) (d : Dims)
    (rn : Nat → Nat → α) (data : Cube (Option α)) (gdq : Cube Nat) (hfew : ¬ JdTooFew p s d gdq)
    (hclip : ¬ JdClip p s d gdq) (hs : ∀ i < d.ni, s.minSingle < jdUsable p d gdq i) (h4 : s.flag4 = false)
    (h1 : p.n1 = 0) (h2 : p.n2 = 0) (hmono : ∀ x y, 0 ≤ x → x ≤ y → sqrt x ≤ sqrt y) (hpos : ∀ x, 0 < x → 0 < sqrt x)
    (hT : 0 ≤ p.normalThresh) (i g r c : Nat) (hi : i < d.ni) (hg : g < d.ng) (hdt : 0 < p.dt (g - 1))
    (hn : 0 < p.nReads (g - 1)) (hrn : rn r c ≠ 0) (lo hi' x : α) (hlo0 : 0 ≤ lo)
    (hmost : MnMost lo hi' (jdDiffs p d data gdq r c).flatten) (hx : jdDiff p data gdq i (g - 1) r c = some x)
    (hin : lo ≤ x ∧ x ≤ hi') (hwidth : hi' - lo ≤ p.normalThresh * mnNoise p sqrt (rn r c) lo (g - 1)) :
    (findCrs p sqrt clip s d rn data gdq).gdq i g r c = gdq i g r c := by
  refine (C97_single_pass p sqrt clip s d rn data gdq hfew hclip hs h4 h1 h2 i g r c hi hg).2 ?_
  rintro ⟨-, y, m', hy, hm', hne, hlt⟩
  obtain ⟨m, hm, hlo, hhi⟩ := C183_median lo hi' _ hmost
  obtain rfl : m = m' := by
    rw [hm] at hm'
    exact Option.some.inj hm'
  rw [hx] at hy
  cases hy
  have hc0 : 0 < rn r c * rn r c / (1 / 2 * p.nReads (g - 1)) :=
    div_pos (mul_self_pos.2 hrn) (by positivity)
  have hsig : 0 < mnNoise p sqrt (rn r c) |m| (g - 1) :=
    div_pos (hpos _ (add_pos_of_nonneg_of_pos (mul_nonneg (abs_nonneg m) hdt.le) hc0)) hdt
  have hle : mnNoise p sqrt (rn r c) lo (g - 1) ≤ mnNoise p sqrt (rn r c) |m| (g - 1) := by
    refine div_le_div_of_nonneg_right (hmono _ _ ?_ ?_) hdt.le
    · exact (add_pos_of_nonneg_of_pos (mul_nonneg hlo0 hdt.le) hc0).le
    · have := mul_le_mul_of_nonneg_right (hlo.trans (le_abs_self m)) hdt.le
      linarith
  change p.normalThresh < |x - m| / mnNoise p sqrt (rn r c) |m| (g - 1) at hlt
  rw [lt_div_iff₀ hsig] at hlt
  have hm2 := mul_le_mul_of_nonneg_left hle hT
  have habs : |x - m| ≤ hi' - lo := by
    rw [abs_le]
    constructor <;> linarith [hin.1, hin.2]
  linarith

/-! ## Images -/

open Verif.Outlier in
/-- C183 (images).  If in more than half of the images that have a value at a pixel this value lies between `lo` and `hi`, the median
image does as well, in memory and on disk. -/
theorem C183_images (n rows cols item buffer : Nat) (hr : 1 ≤ rows) (imgs : List (Outlier.Img (Option α)))
    (himg : ∀ img ∈ imgs, MdShape rows cols img) (d : Disk (Option α))
    (hd : (Disk.init (Option α) n rows cols item buffer).addAll imgs = some d) (r c : Nat) (hrr : r < rows) (hc : c < cols)
    (lo hi : α) (h : MnMost lo hi (imgs.filterMap fun img => mdPix img r c)) :
    ∃ m, lo ≤ m ∧ m ≤ hi ∧ memMedian nanmedian imgs r c = some m ∧ d.median nanmedian none r c = some m := by
  obtain ⟨m, hm, h1, h2⟩ := C183_median lo hi _ h
  refine ⟨m, h1, h2, hm, ?_⟩
  rw [C46_disk_is_memory nanmedian none n rows cols item buffer hr imgs himg d hd r c hrr hc]
  exact hm

open Verif.Outlier in
/-- C183 (outliers).  Let the blotted median lie between `lo` and `hi` at a pixel.  Then `flag_crs` flags a value outside this range by
more than the noise limit, and no value inside it if the range is no wider than the limit. -/
theorem C183_flag_crs (sci err blot : Arr2 α) (snr lo hi m x e : α) (r c : Nat) (hb : blot r c = some m) (hm : lo ≤ m ∧ m ≤ hi)
    (hx : sci r c = some x) (he : err r c = some e) :
    ((hi + snr * e < x ∨ x < lo - snr * e) → flagCrs sci err blot snr r c = true) ∧
    (lo ≤ x ∧ x ≤ hi ∧ hi - lo ≤ snr * e → flagCrs sci err blot snr r c = false) := by
  have hval : flagCrs sci err blot snr r c = decide (snr * e < |x - m|) := by
    simp only [flagCrs, hx, hb, he]
    rfl
  rw [hval, decide_eq_true_eq, decide_eq_false_iff_not, not_lt]
  refine ⟨?_, ?_⟩
  · rintro (h | h)
    · exact lt_of_lt_of_le (by linarith [hm.2]) (le_abs_self _)
    · exact lt_of_lt_of_le (by linarith [hm.1]) (neg_le_abs _)
  · rintro ⟨h1, h2, h3⟩
    rw [abs_le]
    constructor <;> linarith [hm.1, hm.2]

/-! ## Sharpness and examples -/

/-- Example: a ramp with the differences `a`. -/
def mnData (a : List ℚ) : Cube (Option ℚ) := fun _ g _ _ => some (a.take g).sum

/-- Half is too many: with one of four differences hit the hit is found, with two of four both hits are missed, although the two other
differences are equal and the hits far above them. -/
theorem C183_half :
    let p := { exJump with n1 := 0, n2 := 0, normalThresh := 3 }
    let f := fun a => (findCrs p (fun x => x) jdClipRule { jdSw with flag4 := false } ⟨1, 5, 1, 1⟩ (fun _ _ => 1) (mnData a) jdClean).gdq 0
    MnMost 1 1 (jdDiffs p ⟨1, 5, 1, 1⟩ (mnData [1, 500, 1, 1]) jdClean 0 0).flatten ∧
    ¬ MnMost 1 1 (jdDiffs p ⟨1, 5, 1, 1⟩ (mnData [1, 500, 1, 500]) jdClean 0 0).flatten ∧
    (f [1, 500, 1, 1] 2 0 0 = 4) ∧ (f [1, 500, 1, 500] 2 0 0 = 0) ∧ (f [1, 500, 1, 500] 4 0 0 = 0) := by decide +kernel

-- C183_hit_found, C183_rest_kept: two of five differences are hit, one of them downwards; the others are between 1 and 2
example :
    let p := { exJump with n1 := 0, n2 := 0 }
    let d : Dims := ⟨1, 6, 1, 1⟩
    let f := (findCrs p (fun x => x) jdClipRule { jdSw with flag4 := false } d (fun _ _ => 1) (mnData [1, 500, 2, -90, 1]) jdClean).gdq 0
    ¬ JdTooFew p { jdSw with flag4 := false } d jdClean ∧ jdSw.minSingle < jdUsable p d jdClean 0 ∧
    MnMost 1 2 (jdDiffs p d (mnData [1, 500, 2, -90, 1]) jdClean 0 0).flatten ∧
    2 + p.normalThresh * mnNoise p (fun x => x) 1 (max |1| |2|) 1 < 500 ∧
    -90 < 1 - p.normalThresh * mnNoise p (fun x => x) 1 (max |1| |2|) 3 ∧
    2 - 1 ≤ p.normalThresh * mnNoise p (fun x => x) 1 1 2 ∧
    f 1 0 0 = 0 ∧ f 2 0 0 = 4 ∧ f 3 0 0 = 0 ∧ f 4 0 0 = 4 ∧ f 5 0 0 = 0 := by decide +kernel

example : ¬ JdClip exJump jdSw ⟨1, 6, 1, 1⟩ jdClean := by
  intro h
  have := h.2.1 rfl
  revert this
  decide

-- C183_images: two of five images are spoiled, one has no value
example : MnMost (3 : ℚ) 5 [some 3, some 900, none, some 4, some 5, some (-70)] ∧
    nanmedian [some (3 : ℚ), some 900, none, some 4, some 5, some (-70)] = some 4 := by decide +kernel

end Verif.Thm
