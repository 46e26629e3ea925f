import Verif.Thm.OutlierWhole

/-!
# C157: unit and zero level of the images in outlier detection

The median of the images (median.py:21-138, 224-391), the blotted median (utils.py:219-297) and the flags (utils.py:89-216) when all
images are given in another unit, or have a constant added.
-/

set_option linter.unusedSectionVars false

namespace Verif.Thm

open Verif Verif.Outlier
open Verif.Jump (nanmedian finite medianSorted)

variable {α : Type} [Field α] [LinearOrder α] [IsStrictOrderedRing α]

/-- Spec: a value in another unit (factor `k`) and with another zero level (`z`); NaN stays NaN. -/
def uoVal (k z : α) (x : Option α) : Option α := x.map fun v => k * v + z

/-- Spec: an image in another unit and with another zero level. -/
def uoImg (k z : α) (img : Img (Option α)) : Img (Option α) := img.map fun row => row.map (uoVal k z)

theorem uo_median (k z : α) (hk : 0 < k) (l : List (Option α)) : nanmedian (l.map (uoVal k z)) = uoVal k z (nanmedian l) := by
  have hfin : finite (l.map (uoVal k z)) = (finite l).map fun x => k * x + z := by
    simp only [finite]
    induction l with
    | nil => rfl
    | cons o l ih => cases o <;> simp [ih, uoVal]
  have hsort : ((finite l).map fun x => k * x + z).insertionSort (· ≤ ·) = ((finite l).insertionSort (· ≤ ·)).map fun x => k * x + z := by
    refine (List.map_insertionSort (· ≤ ·) (· ≤ ·) (fun x => k * x + z) (finite l) fun a _ b _ => ?_).symm
    rw [add_le_add_iff_right, mul_le_mul_iff_right₀ hk]
  rw [nanmedian, hfin, hsort, nanmedian]
  generalize (finite l).insertionSort (· ≤ ·) = s
  simp only [medianSorted, List.length_map, List.getElem?_map]
  split_ifs with h1 h2
  · rfl
  · rfl
  · cases s[s.length / 2 - 1]? with
    | none => rfl
    | some a =>
      cases s[s.length / 2]? with
      | none => rfl
      | some b =>
        simp only [Option.map_some, uoVal]
        congr 1
        field_simp
        ring

/-- C157, median.  The median image of images in another unit and with another zero level is the median image in that unit and with
that zero level, in memory and on disk, for every number of sections. -/
theorem C157_median (k z : α) (hk : 0 < k) (n rows cols item buffer : Nat) (hr : 1 ≤ rows) (imgs : List (Img (Option α)))
    (himg : ∀ img ∈ imgs, MdShape rows cols img) (d d' : Disk (Option α))
    (hd : (Disk.init (Option α) n rows cols item buffer).addAll imgs = some d)
    (hd' : (Disk.init (Option α) n rows cols item buffer).addAll (imgs.map (uoImg k z)) = some d') (r c : Nat) (hrr : r < rows)
    (hc : c < cols) :
    memMedian nanmedian (imgs.map (uoImg k z)) r c = uoVal k z (memMedian nanmedian imgs r c)
    ∧ d'.median nanmedian none r c = uoVal k z (d.median nanmedian none r c) := by
  have hmem : memMedian nanmedian (imgs.map (uoImg k z)) r c = uoVal k z (memMedian nanmedian imgs r c) := by
    rw [memMedian, memMedian, ← uo_median k z hk]
    congr 1
    rw [List.filterMap_map, List.map_filterMap]
    apply List.filterMap_congr
    intro img _
    simp only [Function.comp, uoImg, List.getElem?_map]
    cases img[r]? with
    | none => rfl
    | some row => simp [List.getElem?_map]
  refine ⟨hmem, ?_⟩
  rw [C46_disk_is_memory nanmedian none n rows cols item buffer hr imgs himg d hd r c hrr hc,
    C46_disk_is_memory nanmedian none n rows cols item buffer hr _ ?_ d' hd' r c hrr hc, hmem]
  intro img h
  obtain ⟨img0, h0, rfl⟩ := List.mem_map.1 h
  obtain ⟨e1, e2⟩ := himg img0 h0
  refine ⟨by simp [uoImg, e1], fun row hrow => ?_⟩
  simp only [uoImg, List.mem_map] at hrow
  obtain ⟨row0, h1, rfl⟩ := hrow
  simp [e2 row0 h1]

/-- C157, median: the images in the other unit are accepted just as the original ones are. -/
theorem C157_accepted (k z : α) (n rows cols item buffer : Nat) (hr : 1 ≤ rows) (imgs : List (Img (Option α)))
    (himg : ∀ img ∈ imgs, MdShape rows cols img) :
    ((Disk.init (Option α) n rows cols item buffer).addAll (imgs.map (uoImg k z))).isSome
      = ((Disk.init (Option α) n rows cols item buffer).addAll imgs).isSome := by
  rw [md_addAll n rows cols item buffer imgs hr himg, md_addAll n rows cols item buffer (imgs.map (uoImg k z)) hr ?_]
  · simp only [List.length_map]
    split <;> rfl
  · intro img h
    obtain ⟨img0, h0, rfl⟩ := List.mem_map.1 h
    obtain ⟨e1, e2⟩ := himg img0 h0
    refine ⟨by simp [uoImg, e1], fun row hrow => ?_⟩
    simp only [uoImg, List.mem_map] at hrow
    obtain ⟨row0, h1, rfl⟩ := hrow
    simp [e2 row0 h1]

/-- Spec: an array in another unit and with another zero level. -/
def uoArr (k z : α) (a : Arr2 α) : Arr2 α := fun r c => uoVal k z (a r c)

theorem uo_absDiff (k z : α) (hk : 0 < k) (a b : Option α) : absDiff (uoVal k z a) (uoVal k z b) = uoVal k 0 (absDiff a b) := by
  cases a <;> cases b <;> simp only [absDiff, uoVal, Option.map_none, Option.map_some, add_sub_add_right_eq_sub, add_zero]
  rw [← mul_sub, abs_mul, abs_of_pos hk]

theorem uo_gt (k : α) (hk : 0 < k) (a b : Option α) : gt (uoVal k 0 a) (uoVal k 0 b) = gt a b := by
  cases a <;> cases b <;> simp [gt, uoVal, hk]

theorem uo_deriv (k z : α) (hk : 0 < k) (h w : Nat) (a : Arr2 α) : absDeriv h w (uoArr k z a) = uoArr k 0 (absDeriv h w a) := by
  have h1 : deriv1 (uoArr k z a) = uoArr k 0 (deriv1 a) := by
    funext r c
    simp only [deriv1, uoArr, uo_absDiff k z hk]
    cases a r c <;> simp only [uoVal, Option.map_none, Option.map_some, absDiff] <;> split
    · rfl
    · rfl
    · cases a (r - 1) c <;> simp
    · simp
  have hs : ∀ p q : Option α, (if gt (uoVal k 0 p) (uoVal k 0 q) then uoVal k 0 p else uoVal k 0 q) = uoVal k 0 (if gt p q then p else q) := by
    intro p q
    rw [uo_gt k hk]
    split <;> rfl
  have h2 : ∀ o, deriv2 h (uoArr k z a) (uoArr k 0 o) = uoArr k 0 (deriv2 h a o) := by
    intro o
    funext r c
    simp only [deriv2, uoArr, uo_absDiff k z hk, hs]
    split <;> rfl
  have h3 : ∀ o, deriv3 (uoArr k z a) (uoArr k 0 o) = uoArr k 0 (deriv3 a o) := by
    intro o
    funext r c
    simp only [deriv3, uoArr, uo_absDiff k z hk, hs]
    split <;> rfl
  have h4 : ∀ o, deriv4 w (uoArr k z a) (uoArr k 0 o) = uoArr k 0 (deriv4 w a o) := by
    intro o
    funext r c
    simp only [deriv4, uoArr, uo_absDiff k z hk, hs]
    split <;> rfl
  simp only [absDeriv, h1, h2, h3, h4]

theorem uo_num (k : α) (x : Option α) : nanToNum (uoVal k 0 x) = k * nanToNum x := by
  cases x <;> simp [nanToNum, uoVal]

/-- C157, flags.  With the image and the blotted median in another unit and with another (common) zero level, the errors and the
background in that unit, `flag_crs` and `flag_resampled_crs` flag the same pixels. -/
theorem C157_flags (k z : α) (hk : 0 < k) (h w : Nat) (sci err blot : Arr2 α) (snr snr1 snr2 scale1 scale2 backg : α) :
    flagCrs (uoArr k z sci) (uoArr k 0 err) (uoArr k z blot) snr = flagCrs sci err blot snr
    ∧ flagResampled h w (uoArr k z sci) (uoArr k 0 err) (uoArr k z blot) snr1 snr2 scale1 scale2 (k * backg)
      = flagResampled h w sci err blot snr1 snr2 scale1 scale2 backg := by
  constructor
  · funext r c
    simp only [flagCrs, uoArr, uo_absDiff k z hk, uo_num]
    rw [show (some (snr * (k * nanToNum (err r c))) : Option α) = uoVal k 0 (some (snr * nanToNum (err r c))) from by
      simp only [uoVal, Option.map_some, add_zero]; congr 1; ring, uo_gt k hk]
  · have hdn : diffNoise (uoArr k z sci) (uoArr k z blot) (k * backg) = uoArr k 0 (diffNoise sci blot backg) := by
      funext r c
      simp only [diffNoise, uoArr]
      cases sci r c <;> cases blot r c <;> simp only [uoVal, Option.map_none, Option.map_some, add_sub_add_right_eq_sub, add_zero]
      rw [← mul_sub, ← mul_sub, abs_mul, abs_of_pos hk]
    have ht : ∀ scale snr, threshold scale snr (absDeriv h w (uoArr k z blot)) (uoArr k 0 err)
        = uoArr k 0 (threshold scale snr (absDeriv h w blot) err) := by
      intro scale snr
      rw [uo_deriv k z hk]
      funext r c
      simp only [threshold, uoArr, uo_num]
      cases absDeriv h w blot r c <;> simp only [uoVal, Option.map_none, Option.map_some, add_zero]
      congr 1
      ring
    have hm : ∀ scale snr, (fun r c => gt (diffNoise (uoArr k z sci) (uoArr k z blot) (k * backg) r c)
          (threshold scale snr (absDeriv h w (uoArr k z blot)) (uoArr k 0 err) r c))
        = fun r c => gt (diffNoise sci blot backg r c) (threshold scale snr (absDeriv h w blot) err r c) := by
      intro scale snr
      funext r c
      rw [hdn, ht]
      exact uo_gt k hk _ _
    funext r c
    have h1 := hm scale1 snr1
    have h2 := congrFun (congrFun (hm scale2 snr2) r) c
    simp only [flagResampled, h1, h2]

/-- C157, blot.  With an interpolation that follows unit and zero level, as every average with weights of sum one does, and a fill
value in the new unit (NaN stays NaN), the blotted image follows them too. -/
theorem C157_blot [FloorRing α] (k z : α) (interp interp' : α × α → Option (Option α))
    (hi : ∀ p, interp' p = (interp p).map (uoVal k z)) (spline : Nat → List α → List α → List (List α) → α → α → α)
    (T : Option (Pixmap.Box α) → Option (Pixmap.Box α) → Option (α × α → Option α × Option α)) (boxBlot boxMedian : Option (Pixmap.Box α))
    (shape : Nat × Nat) (fill : Option α) (step : α) (order : Nat) :
    Blot.gwcsBlot interp' spline T boxBlot boxMedian shape (uoVal k z fill) step order
      = (Blot.gwcsBlot interp spline T boxBlot boxMedian shape fill step order).map (uoArr k z) := by
  simp only [Blot.gwcsBlot, Option.map_map]
  congr 1
  funext m r c
  simp only [Blot.blotImage, Function.comp, uoArr, hi]
  cases interp (Blot.coord (m.2 r c).1, Blot.coord (m.2 r c).2) <;> rfl

/-- C157, the median filter follows the unit. -/
theorem C157_medfilt (k : α) (hk : 0 < k) (h w kr kc : Nat) (a : Arr2 α) :
    (medfilt h w kr kc (uoArr k 0 a)).1 = (medfilt h w kr kc a).1
    ∧ (medfilt h w kr kc (uoArr k 0 a)).2 = uoArr k 0 (medfilt h w kr kc a).2 := by
  refine ⟨rfl, ?_⟩
  funext r c
  simp only [medfilt, uoArr]
  rw [← uo_median k 0 hk, List.map_flatMap]
  congr 1
  apply List.flatMap_congr
  intro i _
  rw [List.map_map]
  apply List.map_congr_left
  intro j _
  simp only [Function.comp, padZero]
  split
  · rfl
  · simp [uoVal]

/-- The median filter does not follow the zero level: outside the array it sees zeros, so that a constant image has other values at
its corners, which depend on its level (utils.py:47). -/
theorem C157_medfilt_level :
    (medfilt 3 3 3 3 (fun _ _ => some (5 : ℚ))).2 0 0 = some 0 ∧ (medfilt 3 3 3 3 (fun _ _ => some (5 : ℚ))).2 1 1 = some 5 := by
  decide +kernel

-- C157_median, C157_flags: images in another unit and with another zero level
example : memMedian nanmedian ([[[some 1, none]], [[some (4 : ℚ), some 7]], [[some 2, some 3]]].map (uoImg 10 3)) 0 1 = some 53
    ∧ ((Disk.init (Option ℚ) 3 1 2 8 0).addAll [[[some 1, none]]]).isSome = true := by
  decide +kernel

example : flagResampled 2 2 (fun r c => some (if r = 0 ∧ c = 0 then (90 : ℚ) else 1)) (fun _ _ => some 1) (fun _ _ => some 1) 3 2 1 1 0 0 0 = true
    ∧ flagResampled 2 2 (uoArr 4 7 fun r c => some (if r = 0 ∧ c = 0 then (90 : ℚ) else 1)) (uoArr 4 0 fun _ _ => some 1)
      (uoArr 4 7 fun _ _ => some 1) 3 2 1 1 (4 * 0) 0 0 = true := by
  decide +kernel

end Verif.Thm
