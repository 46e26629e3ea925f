import Verif.Thm.Blot
import Verif.Thm.Median
import Verif.Proof.Jump

/-!
# C134: outlier detection as a whole: median of the images, blotting, comparison

The images show one scene.  At every pixel of the common grid the values of more than half of the images that have one are within
`tol` of the scene; the others are arbitrary.
-/

namespace Verif.Thm

open Verif.Pixmap Verif.Outlier Verif.Blot
open Verif.Jump (finite nanmedian nanmedian_spec nanmedian_none_iff)

variable {α : Type} [Field α] [LinearOrder α] [IsStrictOrderedRing α]

/-! ### The median of a good majority -/

omit [Field α] [LinearOrder α] [IsStrictOrderedRing α] in
theorem ow_counts (l : List α) (p q : α → Bool) (h : ∀ x, p x = true → q x = false) : l.countP p + l.countP q ≤ l.length := by
  induction l with
  | nil => simp
  | cons x l ih =>
    rw [List.countP_cons, List.countP_cons, List.length_cons]
    cases hp : p x with
    | false =>
      have : (if q x = true then 1 else 0) ≤ 1 := by split <;> omega
      simp only [Bool.false_eq_true, if_false]
      omega
    | true => simp [h x hp]; omega

/-- More than half of the numbers within `[lo, hi]`: so is the median. -/
theorem ow_median (l : List (Option α)) (lo hi : α)
    (h : (finite l).length < 2 * (finite l).countP fun x => decide (lo ≤ x ∧ x ≤ hi)) :
    ∃ m, nanmedian l = some m ∧ lo ≤ m ∧ m ≤ hi := by
  cases hm : nanmedian l with
  | none =>
    rw [nanmedian_none_iff] at hm
    rw [hm] at h
    simp at h
  | some m =>
    obtain ⟨h1, h2⟩ := nanmedian_spec l m hm
    refine ⟨m, rfl, ?_, ?_⟩
    · by_contra hlt
      have := ow_counts (finite l) (fun x => decide (lo ≤ x ∧ x ≤ hi)) (fun x => decide (x ≤ m)) (by
        intro x hx
        simp only [decide_eq_true_eq] at hx
        simp only [decide_eq_false_iff_not]
        intro hxm
        exact hlt (hx.1.trans hxm))
      omega
    · by_contra hlt
      have := ow_counts (finite l) (fun x => decide (lo ≤ x ∧ x ≤ hi)) (fun x => decide (m ≤ x)) (by
        intro x hx
        simp only [decide_eq_true_eq] at hx
        simp only [decide_eq_false_iff_not]
        intro hxm
        exact hlt (hxm.trans hx.2))
      omega

/-- The value of an image at a pixel; `none` for NaN. -/
def owAt (img : Img (Option α)) (r c : Nat) : Option α := (img.getD r []).getD c none

/-- At pixel `(r, c)` more images have a value within `tol` of `v` than have another value. -/
def OwMost (imgs : List (Img (Option α))) (r c : Nat) (v tol : α) : Prop :=
  (imgs.filter fun img => (owAt img r c).any fun x => decide (¬ |x - v| ≤ tol)).length <
    (imgs.filter fun img => (owAt img r c).any fun x => decide (|x - v| ≤ tol)).length

omit [Field α] [LinearOrder α] [IsStrictOrderedRing α] in
theorem ow_read (rows cols : Nat) (imgs : List (Img (Option α))) (himg : ∀ img ∈ imgs, MdShape rows cols img) (r c : Nat)
    (hr : r < rows) (hc : c < cols) :
    (imgs.filterMap fun img => img[r]?.bind fun row => row[c]?) = imgs.map fun img => owAt img r c := by
  induction imgs with
  | nil => rfl
  | cons img imgs ih =>
    have h := himg img (by simp)
    have hr' : r < img.length := by rw [h.1]; exact hr
    have hrow : img[r]? = some img[r] := List.getElem?_eq_getElem hr'
    have hc' : c < img[r].length := by rw [h.2 _ (List.getElem_mem hr')]; exact hc
    have hcell : img[r][c]? = some img[r][c] := List.getElem?_eq_getElem hc'
    rw [List.filterMap_cons, hrow, Option.bind_some, hcell, List.map_cons, ih fun i hi => himg i (by simp [hi])]
    simp [owAt, List.getD_eq_getElem?_getD, hrow, hcell]

omit [Field α] [LinearOrder α] [IsStrictOrderedRing α] in
theorem ow_countP (imgs : List (Img (Option α))) (r c : Nat) (q : α → Bool) :
    (finite (imgs.map fun img => owAt img r c)).countP q = (imgs.filter fun img => (owAt img r c).any q).length := by
  induction imgs with
  | nil => rfl
  | cons img imgs ih =>
    unfold finite at ih ⊢
    rw [List.map_cons]
    cases hx : owAt img r c with
    | none => rw [List.filterMap_cons_none (by simp), List.filter_cons_of_neg (by simp [hx]), ih]
    | some x =>
      rw [List.filterMap_cons_some (b := x) (by simp), List.countP_cons, ih]
      cases hq : q x with
      | true => rw [List.filter_cons_of_pos (by simp [hx, hq]), List.length_cons]; simp
      | false => rw [List.filter_cons_of_neg (by simp [hx, hq])]; simp

/-- C134: the median computed on disk, section by section, is within `tol` of the scene at every pixel where most images are. -/
theorem C134_median (n rows cols item buffer : Nat) (hr : 1 ≤ rows) (imgs : List (Img (Option α)))
    (himg : ∀ img ∈ imgs, MdShape rows cols img) (d : Disk (Option α))
    (hd : (Disk.init (Option α) n rows cols item buffer).addAll imgs = some d) (r c : Nat) (hrr : r < rows) (hc : c < cols)
    (v tol : α) (hm : OwMost imgs r c v tol) : ∃ m, d.median nanmedian none r c = some m ∧ |m - v| ≤ tol := by
  rw [C46_disk_is_memory nanmedian none n rows cols item buffer hr imgs himg d hd r c hrr hc, memMedian,
    ow_read rows cols imgs himg r c hrr hc]
  set l := imgs.map fun img => owAt img r c with hl
  have heq : (fun x : α => decide (v - tol ≤ x ∧ x ≤ v + tol)) = fun x => decide (|x - v| ≤ tol) := by
    funext x
    rw [decide_eq_decide, abs_le]
    constructor
    · rintro ⟨h1, h2⟩; constructor <;> linarith
    · rintro ⟨h1, h2⟩; constructor <;> linarith
  obtain ⟨m, e, h1, h2⟩ := ow_median l (v - tol) (v + tol) (by
    rw [heq]
    have hlen : (finite l).length = (finite l).countP (fun x => decide (|x - v| ≤ tol)) +
        (finite l).countP (fun x => decide (¬ |x - v| ≤ tol)) := by
      rw [List.length_eq_countP_add_countP (fun x => decide (|x - v| ≤ tol))]
      simp
    rw [hlen]
    have := hm
    unfold OwMost at this
    rw [← ow_countP, ← ow_countP, ← hl] at this
    omega)
  exact ⟨m, e, by rw [abs_le]; constructor <;> linarith⟩

/-- (Limit) C134 needs a majority: with two images the median is half way between them, so that the good pixel and the hit one
differ from it equally and no threshold separates them. -/
theorem C134_two_images (rows cols : Nat) (img₁ img₂ : Img (Option α)) (h₁ : MdShape rows cols img₁) (h₂ : MdShape rows cols img₂)
    (r c : Nat) (hr : r < rows) (hc : c < cols) (x y : α) (hx : owAt img₁ r c = some x) (hy : owAt img₂ r c = some y) :
    ∃ m, memMedian nanmedian [img₁, img₂] r c = some m ∧ |x - m| = |y - m| := by
  rw [memMedian, ow_read rows cols _ (by simp [h₁, h₂]) r c hr hc]
  refine ⟨(x + y) / 2, ?_, ?_⟩
  · simp only [List.map_cons, List.map_nil, hx, hy, nanmedian, finite]
    by_cases h : x ≤ y
    · simp [List.insertionSort, h, Verif.Jump.medianSorted]
    · simp [List.insertionSort, List.orderedInsert, h, Verif.Jump.medianSorted, add_comm]
  · rw [show x - (x + y) / 2 = -(y - (x + y) / 2) by ring, abs_neg]

/-! ### The comparison -/

/-- The scene at the position of pixel `(r, c)` of an image shifted by whole pixels: the pixel lies in the box of the image and on
the grid, where most images agree with `v` within `tol`. -/
def OwSees (imgs : List (Img (Option α))) (rows cols : Nat) (scene : Nat → Nat → α) (tol : α) (a b : Int) (shape : Nat × Nat)
    (box : Option (Box α)) (r c : Nat) (v : α) : Prop :=
  PmIn (↑shape.1, ↑shape.2) box r c ∧ ∃ r' c' : Nat, (r' : Int) = r + b ∧ (c' : Int) = c + a ∧ r' < rows ∧ c' < cols ∧
    v = scene r' c' ∧ OwMost imgs r' c' v tol

section
variable [FloorRing α]

/-- The whole detection for one image: the median of all images on the common grid, blotted to the grid of the image, which is
shifted by `a` columns and `b` rows. -/
structure OwRun (imgs : List (Img (Option α))) (rows cols : Nat) (a b : Int) (shape : Nat × Nat) (box : Option (Box α))
    (blot : Arr2 α) : Prop where
  pos : 1 ≤ rows
  shapes : ∀ img ∈ imgs, MdShape rows cols img
  two : PmTwo box
  made : ∃ (n item buffer : Nat) (d : Disk (Option α)) (interp : α × α → Option (Option α))
    (spline : Nat → List α → List α → List (List α) → α → α → α)
    (T : Option (Box α) → Option (Box α) → Option (α × α → Option α × Option α)) (boxMedian : Option (Box α))
    (fill : Option α) (step : α) (order : Nat),
    (Disk.init (Option α) n rows cols item buffer).addAll imgs = some d ∧
    BtInterp interp (d.median nanmedian none) rows cols ∧ (order = 1 ∨ order = 3) ∧ PmReproduces spline order ∧
    T box none = some (fun p => (some (p.1 + (a : α)), some (p.2 + (b : α)))) ∧
    gwcsBlot interp spline T box boxMedian shape fill step order = some blot

variable {imgs : List (Img (Option α))} {rows cols : Nat} {a b : Int} {shape : Nat × Nat} {box : Option (Box α)}
  {blot : Arr2 α} {scene : Nat → Nat → α} {tol : α}

/-- The blotted value is within `tol` of the scene. -/
theorem ow_blot (h : OwRun imgs rows cols a b shape box blot) (r c : Nat) (v : α)
    (hs : OwSees imgs rows cols scene tol a b shape box r c v) : ∃ m, blot r c = some m ∧ |m - v| ≤ tol := by
  obtain ⟨hp, r', c', hr', hc', hrr, hcc, rfl, hm⟩ := hs
  obtain ⟨n, item, buffer, d, interp, spline, T, boxMedian, fill, step, order, hd, hi, ho, hrep, hT, e⟩ := h.made
  obtain ⟨m, hmed, hle⟩ := C134_median n rows cols item buffer h.pos imgs h.shapes d hd r' c' hrr hcc _ tol hm
  refine ⟨m, ?_, hle⟩
  rw [(C126_shift interp _ rows cols hi spline T box boxMedian shape fill step order h.two ho hrep a b hT blot e r c hp).1
    r' c' hr' hc' hrr hcc, hmed]

/-- C134, `flag_crs`: a pixel that differs from the scene by more than the threshold plus `tol` is flagged, and one that differs
by at most the threshold less `tol` is not.  With `tol = 0` this decides every pixel. -/
theorem C134_simple (h : OwRun imgs rows cols a b shape box blot) (r c : Nat) (v : α)
    (hs : OwSees imgs rows cols scene tol a b shape box r c v) (sci err : Arr2 α) (x snr : α) (hx : sci r c = some x) :
    (snr * (err r c).getD 0 + tol < |x - v| → flagCrs sci err blot snr r c = true) ∧
      (|x - v| ≤ snr * (err r c).getD 0 - tol → flagCrs sci err blot snr r c = false) := by
  obtain ⟨m, hm, hle⟩ := ow_blot h r c v hs
  have hiff : flagCrs sci err blot snr r c = true ↔ |x - m| > snr * (err r c).getD 0 := by
    rw [C48_simple]
    simp [hx, hm]
  have t1 : |x - v| ≤ |x - m| + |m - v| := abs_sub_le x m v
  have t2 : |x - m| ≤ |x - v| + |v - m| := abs_sub_le x v m
  rw [abs_sub_comm v m] at t2
  constructor
  · intro hgt
    rw [hiff]
    linarith
  · intro hgt
    rw [Bool.eq_false_iff, Ne, hiff]
    push Not
    linarith

/-- C134, `flag_resampled_crs`: a pixel within the second noise threshold of scene plus background, less `tol`, is not flagged.
A pixel that exceeds both thresholds by `tol` is flagged, where the thresholds use a bound `g` for the differences of the scene
with the four neighbours (plus `2 tol`). -/
theorem C134_resampled (h : OwRun imgs rows cols a b shape box blot) (r c : Nat) (v : α)
    (hs : OwSees imgs rows cols scene tol a b shape box r c v) (sci err : Arr2 α) (x snr1 snr2 scale1 scale2 backg : α)
    (hx : sci r c = some x) (hs1 : 0 ≤ scale1) (hs2 : 0 ≤ scale2) :
    (|x - v - backg| ≤ snr2 * (err r c).getD 0 - tol →
        flagResampled shape.1 shape.2 sci err blot snr1 snr2 scale1 scale2 backg r c = false) ∧
      ∀ g, 0 ≤ g → (∀ r' c', OlNeighbour shape.1 shape.2 r c r' c' →
          ∃ v', OwSees imgs rows cols scene tol a b shape box r' c' v' ∧ |v - v'| ≤ g) →
        scale1 * (g + 2 * tol) + snr1 * (err r c).getD 0 + tol < |x - v - backg| →
        scale2 * (g + 2 * tol) + snr2 * (err r c).getD 0 + tol < |x - v - backg| →
        flagResampled shape.1 shape.2 sci err blot snr1 snr2 scale1 scale2 backg r c = true := by
  obtain ⟨m, hm, hle⟩ := ow_blot h r c v hs
  have hrr : r < shape.1 := by have := hs.1.1; simpa using this
  have hcc : c < shape.2 := by have := hs.1.2.1; simpa using this
  obtain ⟨D, hD, hg⟩ := (C49_derivative shape.1 shape.2 blot r hrr c hcc).2 _ hm
  have h0 : 0 ≤ D := hg.2 (Or.inl rfl)
  have t1 : |x - v - backg| ≤ |x - m - backg| + |m - v| := by
    have := abs_add_le (x - m - backg) (m - v)
    rwa [show x - m - backg + (m - v) = x - v - backg by ring] at this
  have t2 : |x - m - backg| ≤ |x - v - backg| + |v - m| := by
    have := abs_add_le (x - v - backg) (v - m)
    rwa [show x - v - backg + (v - m) = x - m - backg by ring] at this
  rw [abs_sub_comm v m] at t2
  have htol : 0 ≤ tol := (abs_nonneg _).trans hle
  rw [Bool.eq_false_iff, Ne,
    C48_resampled shape.1 shape.2 sci err blot _ snr1 snr2 scale1 scale2 backg (C49_derivative shape.1 shape.2 blot) r c hrr hcc]
  have hex : ∀ scale snr, scale * D + snr * (err r c).getD 0 < |x - m - backg| →
      OlExceeds sci err blot (absDeriv shape.1 shape.2 blot) scale snr backg r c := by
    intro scale snr hlt
    exact ⟨x, m, D, hx, hm, hD, hlt⟩
  constructor
  · rintro hsmall ⟨⟨s, bb, D', e1, e2, e3, e4⟩, -⟩
    rw [hx, Option.some.injEq] at e1
    rw [hm, Option.some.injEq] at e2
    rw [hD, Option.some.injEq] at e3
    subst e1 e2 e3
    have := mul_nonneg hs2 h0
    linarith
  · intro g hg0 hn hb1 hb2
    have hDle : D ≤ g + 2 * tol := by
      rcases hg.1 with h1 | ⟨r', c', u, hnb, hu, h1⟩
      · rw [h1]; linarith
      · obtain ⟨v', hv', hd⟩ := hn r' c' hnb
        obtain ⟨m', hm', hle'⟩ := ow_blot h r' c' v' hv'
        rw [hu, Option.some.injEq] at hm'
        subst hm'
        rw [h1, abs_le]
        rw [abs_le] at hd hle hle'
        constructor <;> linarith [hd.1, hd.2, hle.1, hle.2, hle'.1, hle'.2]
    have b1 := mul_le_mul_of_nonneg_left hDle hs1
    have b2 := mul_le_mul_of_nonneg_left hDle hs2
    exact ⟨hex _ _ (by linarith), r, c, hrr, hcc, by omega, by omega, by omega, by omega, hex _ _ (by linarith)⟩

end

/-! ### Examples -/

/-- Three images of three rows and three columns: the scene is `10 r + c` within 1/2, and the second image has a cosmic ray at
(1, 1); the third has no value at (0, 2). -/
def owImgs : List (Img (Option ℚ)) :=
  [[[some 0, some 1, some 2], [some 10, some 11, some 12], [some 20, some 21, some 22]],
   [[some (1/2), some 1, some 2], [some 10, some 90, some 12], [some 20, some (41/2), some 22]],
   [[some 0, some 1, none], [some 10, some (45/4), some 12], [some 20, some 21, some 22]]]

def owScene (r c : Nat) : ℚ := 10 * r + c

/-- Nearest pixel of a 3 by 3 image. -/
def owInterp (med : Arr2 ℚ) (p : ℚ × ℚ) : Option (Option ℚ) :=
  if p.1 < 0 ∨ p.2 < 0 ∨ 3 ≤ p.1 ∨ 3 ≤ p.2 then none else some (med ⌊p.2⌋.toNat ⌊p.1⌋.toNat)

theorem ow_interp (med : Arr2 ℚ) : BtInterp (owInterp med) med 3 3 := by
  constructor
  · intro r hr c hc
    have h1 : (c : ℚ) < 3 := by exact_mod_cast hc
    have h2 : (r : ℚ) < 3 := by exact_mod_cast hr
    have h3 : (0 : ℚ) ≤ c := Nat.cast_nonneg c
    have h4 : (0 : ℚ) ≤ r := Nat.cast_nonneg r
    rw [owInterp, if_neg (by push Not; exact ⟨h3, h4, h1, h2⟩)]
    simp
  · intro x y h
    rw [owInterp, if_pos (by simpa using h)]

theorem ow_most : ∀ r < 3, ∀ c < 3, OwMost owImgs r c (owScene r c) (1/2) := by
  unfold OwMost
  decide +kernel

/-- The images run through, and every pixel of the second image sees the scene. -/
theorem ow_example : ∃ blot, OwRun owImgs 3 3 0 0 (3, 3) none blot ∧
    ∀ r < 3, ∀ c < 3, OwSees owImgs 3 3 owScene (1/2) 0 0 (3, 3) none r c (owScene r c) := by
  have hd : ((Disk.init (Option ℚ) 3 3 3 4 0).addAll owImgs).isSome = true := by decide +kernel
  obtain ⟨d, hd⟩ := Option.isSome_iff_exists.mp hd
  obtain ⟨blot, hb, -⟩ := C126_value (owInterp (d.median nanmedian none)) (d.median nanmedian none) 3 3 (ow_interp _) pmS
    (fun _ _ => some fun p => (some (p.1 + ((0 : Int) : ℚ)), some (p.2 + ((0 : Int) : ℚ)))) none none (3, 3) (some 0) 1 1
    (by intro b h; simp at h) (Or.inl rfl) _ rfl
  refine ⟨blot, ⟨by norm_num, ?_, by intro b h; simp at h, ⟨3, 4, 0, d, _, pmS, _, none, some 0, 1, 1, hd, ow_interp _, Or.inl rfl,
    C122_bilinear pmS rfl, rfl, hb⟩⟩, ?_⟩
  · intro img h
    simp only [owImgs, List.mem_cons, List.not_mem_nil, or_false] at h
    rcases h with rfl | rfl | rfl <;> simp [MdShape]
  · intro r hr c hc
    exact ⟨⟨by simpa using hr, by simpa using hc, by simp⟩, r, c, by simp, by simp, hr, hc, rfl, ow_most r hr c hc⟩

/-- With errors of 1 and thresholds of 5 the cosmic ray is the only outlier of the second image, for both functions. -/
example : ∃ blot, OwRun owImgs 3 3 0 0 (3, 3) none blot ∧ ∀ r < 3, ∀ c < 3,
    (flagCrs (owAt (owImgs.getD 1 [])) (fun _ _ => some 1) blot 5 r c = true ↔ r = 1 ∧ c = 1) ∧
    (flagResampled 3 3 (owAt (owImgs.getD 1 [])) (fun _ _ => some 1) blot 5 4 (12/10) (7/10) 0 r c = true ↔ r = 1 ∧ c = 1) := by
  obtain ⟨blot, h, hs⟩ := ow_example
  refine ⟨blot, h, fun r hr c hc => ?_⟩
  have hval : ∃ x, owAt (owImgs.getD 1 []) r c = some x ∧ (r = 1 ∧ c = 1 → x = 90) ∧
      (¬ (r = 1 ∧ c = 1) → |x - owScene r c| ≤ 1/2) := by
    have : ∀ r < 3, ∀ c < 3, (owAt (owImgs.getD 1 []) r c).any (fun x => decide ((r = 1 ∧ c = 1 → x = 90) ∧
      (¬ (r = 1 ∧ c = 1) → |x - owScene r c| ≤ 1/2))) = true := by decide +kernel
    have := this r hr c hc
    rw [Option.any_eq_true] at this
    obtain ⟨x, hx, hp⟩ := this
    exact ⟨x, hx, of_decide_eq_true hp⟩
  obtain ⟨x, hx, hhit, hgood⟩ := hval
  obtain ⟨s1, s2⟩ := C134_simple h r c _ (hs r hr c hc) _ (fun _ _ => some 1) x 5 hx
  obtain ⟨r1, r2⟩ := C134_resampled h r c _ (hs r hr c hc) _ (fun _ _ => some 1) x 5 4 (12/10) (7/10) 0 hx (by norm_num) (by norm_num)
  by_cases hrc : r = 1 ∧ c = 1
  · have hv : owScene r c = 11 := by rw [hrc.1, hrc.2]; norm_num [owScene]
    rw [hv, hhit hrc] at s1
    rw [hv, hhit hrc] at r2
    refine ⟨iff_of_true (s1 (by norm_num [abs_of_pos])) hrc, iff_of_true (r2 10 (by norm_num) ?_ (by norm_num [abs_of_pos])
      (by norm_num [abs_of_pos])) hrc⟩
    rintro r' c' ⟨h1, h2, hn⟩
    refine ⟨_, hs r' h1 c' h2, ?_⟩
    obtain ⟨rfl, rfl⟩ := hrc
    have : (r' = 1 ∧ (c' = 2 ∨ c' = 0)) ∨ (c' = 1 ∧ (r' = 2 ∨ r' = 0)) := by omega
    rcases this with ⟨rfl, rfl | rfl⟩ | ⟨rfl, rfl | rfl⟩ <;> norm_num [owScene, abs_le]
  · have hg := hgood hrc
    refine ⟨iff_of_false ?_ hrc, iff_of_false ?_ hrc⟩
    · rw [s2 (by norm_num; linarith)]; simp
    · rw [r1 (by norm_num; linarith)]; simp

end Verif.Thm
