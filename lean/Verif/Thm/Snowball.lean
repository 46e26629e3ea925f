import Verif.Proof.Snowball
import Mathlib.Algebra.Field.Rat
import Mathlib.Algebra.Order.Ring.Rat
import Mathlib.Data.Rat.Floor

/-!
# Snowballs and showers: properties C26, C67-C70
-/

set_option linter.unusedSectionVars false

namespace Verif.Thm

open Verif Verif.Snowball Verif.Jump

variable {α : Type} [Field α] [LinearOrder α]

/-- Specification: pixel `(r, c)` lies in the ellipse with centre rounded from
`(cx, cy)` (column, row), integer semi-axes `a0` (columns) and `a1` (rows),
rotated by `theta`. -/
def Covers (e : Env α) (el : Ellipse α) (a0 a1 : Int) (r c : Nat) : Prop :=
  0 < a0 ∧ 0 < a1 ∧
    let dr : α := (((r : Int) - e.rnd el.cy : Int) : α)
    let dc : α := (((c : Int) - e.rnd el.cx : Int) : α)
    let cs := e.cos el.theta
    let sn := e.sin el.theta
    ((dr * cs + dc * sn) / a1) ^ 2 + ((dr * sn - dc * cs) / a0) ^ 2 < 1

/-- The drawing without the detour through the sub-image. -/
theorem drawn_eq (e : Env α) (el : Ellipse α) (axis1 axis2 : α) (nrows ncols r c : Nat) :
    drawn e el axis1 axis2 nrows ncols r c =
      (decide (max (e.rnd el.cy - (max (e.rnd (axis1 / 2)) (e.rnd (axis2 / 2)) + 2)) 0 ≤ (r : Int) ∧
        (r : Int) < min (e.rnd el.cy + (max (e.rnd (axis1 / 2)) (e.rnd (axis2 / 2)) + 2) + 1) nrows ∧
        max (e.rnd el.cx - (max (e.rnd (axis1 / 2)) (e.rnd (axis2 / 2)) + 2)) 0 ≤ (c : Int) ∧
        (c : Int) < min (e.rnd el.cx + (max (e.rnd (axis1 / 2)) (e.rnd (axis2 / 2)) + 2) + 1) ncols) &&
      decide (e.rnd (axis2 / 2) ≠ 0 ∧ e.rnd (axis1 / 2) ≠ 0) &&
      inBox ((e.rnd (axis2 / 2) : Int) : α) ((e.rnd (axis1 / 2) : Int) : α)
        (e.cos el.theta) (e.sin el.theta) (((r : Int) - e.rnd el.cy : Int) : α)
        (((c : Int) - e.rnd el.cx : Int) : α) &&
      inEllipse ((e.rnd (axis2 / 2) : Int) : α) ((e.rnd (axis1 / 2) : Int) : α)
        (e.cos el.theta) (e.sin el.theta) (((r : Int) - e.rnd el.cy : Int) : α)
        (((c : Int) - e.rnd el.cx : Int) : α)) := by
  simp only [drawn, window]
  rw [show (r : Int) - max (e.rnd el.cy - (max (e.rnd (axis1 / 2)) (e.rnd (axis2 / 2)) + 2)) 0 -
      (e.rnd el.cy - max (e.rnd el.cy - (max (e.rnd (axis1 / 2)) (e.rnd (axis2 / 2)) + 2)) 0) = (r : Int) - e.rnd el.cy by
      omega,
    show (c : Int) - max (e.rnd el.cx - (max (e.rnd (axis1 / 2)) (e.rnd (axis2 / 2)) + 2)) 0 -
      (e.rnd el.cx - max (e.rnd el.cx - (max (e.rnd (axis1 / 2)) (e.rnd (axis2 / 2)) + 2)) 0) = (c : Int) - e.rnd el.cx by
      omega]
  rfl

/-- C68.  Drawing an ellipse in a small sub-image and pasting it marks exactly the
pixels of the image that lie in the ellipse: the sub-image never cuts it off, and
nothing outside the image is marked - wherever the centre lies and however close
to an edge. -/
theorem C68_subimage_exact [IsStrictOrderedRing α] (e : Env α) (el : Ellipse α)
    (axis1 axis2 : α) (nrows ncols : Nat) (h0 : 0 ≤ e.rnd (axis1 / 2)) (h1 : 0 ≤ e.rnd (axis2 / 2))
    (hcs : e.cos el.theta ^ 2 + e.sin el.theta ^ 2 = 1) (r c : Nat) :
    drawn e el axis1 axis2 nrows ncols r c = true ↔
      r < nrows ∧ c < ncols ∧ Covers e el (e.rnd (axis1 / 2)) (e.rnd (axis2 / 2)) r c := by
  have key : drawn e el axis1 axis2 nrows ncols r c =
      (decide (max (e.rnd el.cy - (max (e.rnd (axis1 / 2)) (e.rnd (axis2 / 2)) + 2)) 0 ≤ (r : Int) ∧
        (r : Int) < min (e.rnd el.cy + (max (e.rnd (axis1 / 2)) (e.rnd (axis2 / 2)) + 2) + 1) nrows ∧
        max (e.rnd el.cx - (max (e.rnd (axis1 / 2)) (e.rnd (axis2 / 2)) + 2)) 0 ≤ (c : Int) ∧
        (c : Int) < min (e.rnd el.cx + (max (e.rnd (axis1 / 2)) (e.rnd (axis2 / 2)) + 2) + 1) ncols) &&
      decide (e.rnd (axis2 / 2) ≠ 0 ∧ e.rnd (axis1 / 2) ≠ 0) &&
      inBox ((e.rnd (axis2 / 2) : Int) : α) ((e.rnd (axis1 / 2) : Int) : α)
        (e.cos el.theta) (e.sin el.theta) (((r : Int) - e.rnd el.cy : Int) : α)
        (((c : Int) - e.rnd el.cx : Int) : α) &&
      inEllipse ((e.rnd (axis2 / 2) : Int) : α) ((e.rnd (axis1 / 2) : Int) : α)
        (e.cos el.theta) (e.sin el.theta) (((r : Int) - e.rnd el.cy : Int) : α)
        (((c : Int) - e.rnd el.cx : Int) : α)) := drawn_eq e el axis1 axis2 nrows ncols r c
  rw [key, Bool.and_eq_true, Bool.and_eq_true, Bool.and_eq_true, decide_eq_true_iff, decide_eq_true_iff]
  unfold Covers
  generalize hA : e.rnd (axis1 / 2) = A at h0 ⊢
  generalize hB : e.rnd (axis2 / 2) = B at h1 ⊢
  constructor
  · rintro ⟨⟨⟨⟨_, w2, _, w4⟩, ha⟩, -⟩, hin⟩
    have l1 := lt_of_lt_of_le w2 (min_le_right _ _)
    have l2 := lt_of_lt_of_le w4 (min_le_right _ _)
    refine ⟨by omega, by omega, by omega, by omega, ?_⟩
    unfold inEllipse at hin
    exact of_decide_eq_true hin
  · rintro ⟨hr, hc, ha0, ha1, hin⟩
    have hin' : inEllipse (B : α) (A : α)
        (e.cos el.theta) (e.sin el.theta) (((r : Int) - e.rnd el.cy : Int) : α)
        (((c : Int) - e.rnd el.cx : Int) : α) = true := by
      unfold inEllipse
      exact decide_eq_true hin
    obtain ⟨b1, b2⟩ := inEllipse_int _ _ ha1 ha0 _ _ hcs _ _ hin'
    rw [abs_lt] at b1 b2
    rw [max_comm B A] at b1 b2
    generalize max A B = M at b1 b2 ⊢
    refine ⟨⟨⟨⟨?_, ?_, ?_, ?_⟩, by omega, by omega⟩,
      inEllipse_box _ _ (by exact_mod_cast ha1) (by exact_mod_cast ha0) _ _ _ _ hcs hin'⟩, hin'⟩
    · rw [max_le_iff]; omega
    · rw [lt_min_iff]; omega
    · rw [max_le_iff]; omega
    · rw [lt_min_iff]; omega

/-- C68, events one pixel wide.  The axes of a region are its axis lengths less one, so the shorter axis of such an event is
-1 and its enlarged semi-axis negative.  If the event lies along a row (cosine 0) nothing at all is drawn for it. -/
theorem C68_thin_row [IsStrictOrderedRing α] (e : Env α) (el : Ellipse α) (axis1 axis2 : α) (nrows ncols : Nat)
    (h0 : e.rnd (axis1 / 2) < 0) (hc : e.cos el.theta = 0) (hs : e.sin el.theta ^ 2 = 1) (r c : Nat) :
    drawn e el axis1 axis2 nrows ncols r c = false := by
  have hs1 : |e.sin el.theta| = 1 := by
    rw [← abs_one (α := α)]
    exact (sq_eq_sq_iff_abs_eq_abs _ _).mp (by rw [hs, one_pow])
  have hb : inBox ((e.rnd (axis2 / 2) : Int) : α) ((e.rnd (axis1 / 2) : Int) : α)
      (e.cos el.theta) (e.sin el.theta) (((r : Int) - e.rnd el.cy : Int) : α)
      (((c : Int) - e.rnd el.cx : Int) : α) = false := by
    unfold inBox
    rw [Bool.and_eq_false_iff]
    left
    rw [decide_eq_false_iff_not, hc, hs1, mul_zero, abs_zero, zero_add, mul_one, not_le]
    exact lt_of_lt_of_le (by exact_mod_cast h0) (abs_nonneg _)
  rw [drawn_eq, hb]
  simp

/-- C68, events one pixel wide.  If the event lies along a column (sine 0) it is drawn as with the positive semi-axis. -/
theorem C68_thin_column [IsStrictOrderedRing α] (e : Env α) (el : Ellipse α) (axis1 axis2 : α) (nrows ncols : Nat)
    (h0 : e.rnd (axis1 / 2) < 0) (h1 : 0 < e.rnd (axis2 / 2)) (hlt : -e.rnd (axis1 / 2) ≤ e.rnd (axis2 / 2))
    (hs : e.sin el.theta = 0) (hc : e.cos el.theta ^ 2 = 1) (r c : Nat) :
    drawn e el axis1 axis2 nrows ncols r c = true ↔
      r < nrows ∧ c < ncols ∧ Covers e el (-e.rnd (axis1 / 2)) (e.rnd (axis2 / 2)) r c := by
  have hc1 : |e.cos el.theta| = 1 := by
    rw [← abs_one (α := α)]
    exact (sq_eq_sq_iff_abs_eq_abs _ _).mp (by rw [hc, one_pow])
  have hcs : e.cos el.theta ^ 2 + e.sin el.theta ^ 2 = 1 := by rw [hs, hc]; ring
  rw [drawn_eq, Bool.and_eq_true, Bool.and_eq_true, Bool.and_eq_true, decide_eq_true_iff, decide_eq_true_iff]
  unfold Covers
  generalize hA : e.rnd (axis1 / 2) = A at h0 hlt ⊢
  generalize hB : e.rnd (axis2 / 2) = B at h1 hlt ⊢
  rw [max_eq_right (show A ≤ B by omega)]
  have hsq : ∀ x : α, (x / ((-A : Int) : α)) ^ 2 = (x / (A : α)) ^ 2 := by
    intro x
    rw [Int.cast_neg, div_neg, neg_sq]
  constructor
  · rintro ⟨⟨⟨⟨_, w2, _, w4⟩, _⟩, -⟩, hin⟩
    have l1 := lt_of_lt_of_le w2 (min_le_right _ _)
    have l2 := lt_of_lt_of_le w4 (min_le_right _ _)
    refine ⟨by omega, by omega, by omega, by omega, ?_⟩
    unfold inEllipse at hin
    simp only [hsq]
    exact of_decide_eq_true hin
  · rintro ⟨hr, hcc, ha0, ha1, hin⟩
    have hin1 : inEllipse (B : α) ((-A : Int) : α)
        (e.cos el.theta) (e.sin el.theta) (((r : Int) - e.rnd el.cy : Int) : α)
        (((c : Int) - e.rnd el.cx : Int) : α) = true := by
      unfold inEllipse
      exact decide_eq_true hin
    have hbox := inEllipse_box _ _ (by exact_mod_cast ha1) (by exact_mod_cast ha0) _ _ _ _ hcs hin1
    obtain ⟨b1, b2⟩ := inEllipse_int _ _ ha1 ha0 _ _ hcs _ _ hin1
    rw [max_eq_left hlt, abs_lt] at b1 b2
    refine ⟨⟨⟨⟨?_, ?_, ?_, ?_⟩, by omega, by omega⟩, ?_⟩, ?_⟩
    · rw [max_le_iff]; omega
    · rw [lt_min_iff]; omega
    · rw [max_le_iff]; omega
    · rw [lt_min_iff]; omega
    · unfold inBox at hbox ⊢
      simpa [hs] using hbox
    · unfold inEllipse at hin1 ⊢
      simpa only [hsq] using hin1

/-- Example environment: exact rounding of rationals, no rotation. -/
def exEnv : Env ℚ :=
  { jump := 4, sat := 2, dnu := 1, ref := 16, satRequired := true, expandFactor := 2,
    satExpand := 2, minSatRadius := 1, maxWidth := 100, edgeSize := 0, maskPersist := true,
    persistGrps := 3, maxShower := 5, rnd := fun x => round x, cos := fun _ => 1, sin := fun _ => 0,
    findSat := fun _ => [], findJump := fun _ => [] }

example : (List.range 3).map (fun r => (List.range 5).map (fun c =>
    drawn exEnv ⟨1, 0, 4, 2, 0⟩ 4 2 3 5 r c)) =
    [[true, true, true, false, false], [false, false, false, false, false],
     [false, false, false, false, false]] := by decide +kernel

/-- Events of length 7 and width 1, enlarged by a factor 2, along a row and along a column. -/
example : (List.range 7).map (fun c => drawn { exEnv with cos := fun _ => 0, sin := fun _ => 1 } ⟨3, 1, -1, 7, 90⟩ (-2) 6 3 7 1 c) =
    [false, false, false, false, false, false, false] := by decide +kernel

example : (List.range 7).map (fun r => drawn exEnv ⟨1, 3, -1, 7, 0⟩ (-2) 6 7 3 r 1) =
    [false, true, true, true, true, true, false] := by decide +kernel

/-- Specification of the enlarged semi-axes: both full axes grow by
`(expansion - 1)` times the smaller one, are limited to the maximal width, and are
halved and rounded. -/
def grown (e : Env α) (el : Ellipse α) (expansion : α) (a : α) : Int :=
  e.rnd (min (a + (expansion - 1) * min el.ax0 el.ax1) e.maxWidth / 2)

theorem computeAxes_ratio (e : Env α) (el : Ellipse α) (expansion : α) :
    computeAxes e true el expansion =
      (grown e el expansion el.ax0, grown e el expansion el.ax1) := by
  simp only [computeAxes, grown, if_true]
  split
  · rename_i h
    rw [min_eq_right h.le]
    have : el.ax1 * expansion = el.ax1 + (expansion - 1) * el.ax1 := by ring
    simp only [this]
  · rename_i h
    push Not at h
    rw [min_eq_left h]
    have : el.ax0 * expansion = el.ax0 + (expansion - 1) * el.ax0 := by ring
    simp only [this]

/-- C26 (jumps).  Expanding a list of events from group `grp` over the following
`num` groups adds JUMP_DET exactly to the pixels inside one of the enlarged
ellipses, in groups `grp .. grp+num` of the ramp, as long as the pixel has not been
saturated since `grp`; every other word is unchanged. -/
theorem C26_expansion_exact [IsStrictOrderedRing α] (e : Env α) (hjs : e.jump &&& e.sat = 0)
    (hrnd : ∀ n : Int, e.rnd (n : α) = n)
    (ngroups nrows ncols grp num : Nat) (expansion : α) (els : List (Ellipse α)) (gdq : Cube)
    (hcs : ∀ el ∈ els, e.cos el.theta ^ 2 + e.sin el.theta ^ 2 = 1)
    (hax : ∀ el ∈ els, 0 ≤ grown e el expansion el.ax0 ∧ 0 ≤ grown e el expansion el.ax1)
    (g r c : Nat) (hr : r < nrows) (hc : c < ncols) :
    let new := extendEllipses e ngroups nrows ncols grp num true expansion els gdq
    let hit := grp ≤ g ∧ g ≤ grp + num ∧ g < ngroups ∧
      (∃ el ∈ els, Covers e el (grown e el expansion el.ax0) (grown e el expansion el.ax1) r c) ∧
      ∀ g', grp ≤ g' → g' ≤ g → gdq g' r c &&& e.sat ≠ e.sat
    (hit → new g r c = gdq g r c ||| e.jump) ∧ (¬ hit → new g r c = gdq g r c) := by
  intro new hit
  have hdrawn : ∀ el ∈ els, (drawn e el (((computeAxes e true el expansion).1 : α) * 2)
      (((computeAxes e true el expansion).2 : α) * 2) nrows ncols r c = true ↔
      Covers e el (grown e el expansion el.ax0) (grown e el expansion el.ax1) r c) := by
    intro el hel
    have h2 : (2 : α) ≠ 0 := two_ne_zero
    have e1 : ∀ n : Int, e.rnd ((n : α) * 2 / 2) = n := by
      intro n; rw [mul_div_assoc, div_self h2, mul_one, hrnd]
    rw [computeAxes_ratio]
    rw [C68_subimage_exact e el _ _ nrows ncols (by rw [e1]; exact (hax el hel).1)
      (by rw [e1]; exact (hax el hel).2) (hcs el hel), e1, e1]
    constructor
    · exact fun h => h.2.2
    · exact fun h => ⟨hr, hc, h⟩
  have heq : new g r c = _ := extendEllipses_eq e hjs ngroups nrows ncols grp num true expansion els gdq g r c
  constructor
  · rintro ⟨a, b, c1, ⟨el, hel, hcov⟩, hs⟩
    rw [heq, if_pos]
    exact ⟨⟨a, b, c1⟩, ⟨el, hel, (hdrawn el hel).mpr hcov⟩, hs⟩
  · intro hn
    rw [heq, if_neg]
    rintro ⟨⟨a, b, c1⟩, ⟨el, hel, hcov⟩, hs⟩
    exact hn ⟨a, b, c1, ⟨el, hel, (hdrawn el hel).mp hcov⟩, hs⟩

/-- Example: an event of full axes 2, doubled, in group 1 with one following group;
the pixel to the right is saturated. -/
example : (List.range 4).map (fun g => (List.range 5).map (fun c =>
    extendEllipses exEnv 4 1 5 1 1 true 2 [⟨1, 0, 2, 2, 0⟩]
      (fun g _ c => if c = 2 ∧ g = 1 then 2 else 8) g 0 c)) =
    [[8, 8, 8, 8, 8], [12, 12, 2, 8, 8], [12, 12, 8, 8, 8], [8, 8, 8, 8, 8]] := by
  decide +kernel

/-- C26 (saturation), partial.  Expanding the saturated cores sets SATURATED in all
groups from `grp` on for the pixels of the enlarged cores that are large enough,
and changes neither earlier groups nor other pixels.  Missing from the full claim:
"keeps the flags already present", which is false, see
`C26_saturation_overwrites_flags`. -/
theorem C26_saturation_expansion_partial [IsStrictOrderedRing α] (e : Env α) (hsat : e.sat ≠ 0)
    (nrows ncols grp : Nat) (els : List (Ellipse α)) (gdq : Cube) (persist : Img Nat)
    (hcs : ∀ el ∈ els, e.cos el.theta ^ 2 + e.sin el.theta ^ 2 = 1)
    (hax : ∀ el ∈ els, 0 ≤ e.rnd (min (el.ax0 + e.satExpand) e.maxWidth / 2) ∧
      0 ≤ e.rnd (min (el.ax1 + e.satExpand) e.maxWidth / 2))
    (g r c : Nat) (hr : r < nrows) (hc : c < ncols) :
    let new := (extendSaturation e nrows ncols grp els gdq persist).1
    let hit := grp ≤ g ∧ ∃ el ∈ els, e.minSatRadius < min el.ax0 el.ax1 ∧
      Covers e el (e.rnd (min (el.ax0 + e.satExpand) e.maxWidth / 2))
        (e.rnd (min (el.ax1 + e.satExpand) e.maxWidth / 2)) r c
    (hit → Dq.Has (new g r c) e.sat) ∧ (¬ hit → new g r c = gdq g r c) := by
  intro new hit
  have heq : new g r c = _ := (extendSaturation_eq e nrows ncols grp els gdq persist).1 g r c
  have hd : ∀ el ∈ els, (drawn e el (min (el.ax0 + e.satExpand) e.maxWidth)
      (min (el.ax1 + e.satExpand) e.maxWidth) nrows ncols r c = true ↔
      Covers e el (e.rnd (min (el.ax0 + e.satExpand) e.maxWidth / 2))
        (e.rnd (min (el.ax1 + e.satExpand) e.maxWidth / 2)) r c) := by
    intro el hel
    rw [C68_subimage_exact e el _ _ nrows ncols (hax el hel).1 (hax el hel).2 (hcs el hel)]
    constructor
    · exact fun h => h.2.2
    · exact fun h => ⟨hr, hc, h⟩
  constructor
  · rintro ⟨hg, el, hel, hm, hcov⟩
    rw [heq, if_pos ⟨hg, el, hel, by rw [min_comm]; exact hm, (hd el hel).mpr hcov⟩]
    exact Dq.has_self.mpr hsat
  · intro hn
    rw [heq, if_neg]
    rintro ⟨hg, el, hel, hm, hcov⟩
    exact hn ⟨hg, el, hel, by rw [min_comm]; exact hm, (hd el hel).mp hcov⟩

/-- C26 (finding).  A pixel reached by the expansion of a saturated core loses every
flag other than SATURATED - for instance DO_NOT_USE. -/
theorem C26_saturation_overwrites_flags (e : Env α) (nrows ncols grp : Nat)
    (els : List (Ellipse α)) (gdq : Cube) (persist : Img Nat) (g r c : Nat) (f : Nat)
    (hf : e.sat &&& f = 0) (hg : grp ≤ g) (el : Ellipse α) (hel : el ∈ els)
    (hm : e.minSatRadius < min el.ax1 el.ax0)
    (hd : drawn e el (min (el.ax0 + e.satExpand) e.maxWidth) (min (el.ax1 + e.satExpand) e.maxWidth)
      nrows ncols r c = true) :
    ¬ Dq.Has ((extendSaturation e nrows ncols grp els gdq persist).1 g r c) f := by
  rw [(extendSaturation_eq e nrows ncols grp els gdq persist).1 g r c,
    if_pos ⟨hg, el, hel, hm, hd⟩]
  unfold Dq.Has
  simp [hf]

example : (extendSaturation exEnv 1 4 1 [⟨1, 0, 2, 2, 0⟩] (fun _ _ _ => 1) (fun _ _ => 0)).1 2 0 1 = 2 ∧
    (extendSaturation exEnv 1 4 1 [⟨1, 0, 2, 2, 0⟩] (fun _ _ _ => 1) (fun _ _ => 0)).1 0 0 1 = 1 := by
  decide +kernel

/-! ## C69: snowball selection and the whole pass -/

/-- Spec: the point lies in the ellipse with the given centre, full axes and position angle (in degrees), the angle being measured from the
columns: with `u`, `v` its offsets along the axes of the ellipse, `(2 u / a)² + (2 v / b)² ≤ 1`, for the longer axis `a` and the shorter
axis `b`.  The angle of a region is however measured from the rows, so that this is the mirror image of the region's ellipse
(`C163_test_mirrored`). -/
def SnInside (cos sin : α → α) (px py : α) (x : Ellipse α) : Prop :=
  let u := (px - x.cx) * cos (180 - x.theta) - (py - x.cy) * sin (180 - x.theta)
  let v := (px - x.cx) * sin (180 - x.theta) + (py - x.cy) * cos (180 - x.theta)
  let a := max x.ax0 x.ax1
  let b := min x.ax0 x.ax1
  x.ax0 ≠ 0 ∧ x.ax1 ≠ 0 ∧ 4 * (u ^ 2 * b ^ 2 + v ^ 2 * a ^ 2) ≤ a ^ 2 * b ^ 2

theorem sn_inside [IsStrictOrderedRing α] (e : Env α) (px py : α) (x : Ellipse α) :
    pointInside e px py x = true ↔ SnInside e.cos e.sin px py x := by
  have ha : (if x.ax1 ≥ x.ax0 then x.ax1 else x.ax0) = max x.ax0 x.ax1 := by
    rw [max_def]
  have hb : (if x.ax1 ≥ x.ax0 then x.ax0 else x.ax1) = min x.ax0 x.ax1 := by
    rw [min_def]
  simp only [pointInside, SnInside, ha, hb, Bool.and_eq_true, decide_eq_true_eq]
  generalize (px - x.cx) * e.cos (180 - x.theta) - (py - x.cy) * e.sin (180 - x.theta) = u
  generalize (px - x.cx) * e.sin (180 - x.theta) + (py - x.cy) * e.cos (180 - x.theta) = v
  have hz : (max x.ax0 x.ax1 / 2 ≠ 0 ∧ min x.ax0 x.ax1 / 2 ≠ 0) ↔ x.ax0 ≠ 0 ∧ x.ax1 ≠ 0 := by
    rcases le_total x.ax0 x.ax1 with h | h
    · rw [max_eq_right h, min_eq_left h]; simp [and_comm]
    · rw [max_eq_left h, min_eq_right h]; simp
  rw [← and_assoc, hz]
  refine and_congr_right fun h => ?_
  have h' := hz.2 h
  have h2 : (2 : α) ≠ 0 := two_ne_zero
  have ha0 : max x.ax0 x.ax1 ≠ 0 := fun h0 => h'.1 (by rw [h0, zero_div])
  have hb0 : min x.ax0 x.ax1 ≠ 0 := fun h0 => h'.2 (by rw [h0, zero_div])
  generalize max x.ax0 x.ax1 = a at ha0
  generalize min x.ax0 x.ax1 = b at hb0
  have e1 : u ^ 2 / (a / 2) ^ 2 + v ^ 2 / (b / 2) ^ 2 = 4 * (u ^ 2 * b ^ 2 + v ^ 2 * a ^ 2) / (a ^ 2 * b ^ 2) := by
    field_simp
    ring
  have hp : 0 < a ^ 2 * b ^ 2 := by positivity
  rw [e1, div_le_one hp]

/-- C69 (selection).  With a saturated core required, a jump region is a snowball
exactly if its centre is near an edge, or it contains (in the sense of `SnInside`) the centre of a region newly
saturated in this group, or (not in the last group) in the next group. -/
theorem C69_selection_exact [IsStrictOrderedRing α] (e : Env α) (nrows ngroups group : Nat)
    (jumps sats nextSats : List (Ellipse α)) (x : Ellipse α) :
    x ∈ selectSnowballs e nrows ngroups group jumps sats nextSats ↔
      x ∈ jumps ∧ (nearEdge e nrows x = true ∨
        (∃ s ∈ sats, SnInside e.cos e.sin s.cx s.cy x) ∨
        (group + 1 < ngroups ∧ ∃ s ∈ nextSats, SnInside e.cos e.sin s.cx s.cy x)) := by
  rw [mem_selectSnowballs]
  have : group < ngroups - 1 ↔ group + 1 < ngroups := by omega
  rw [this]
  simp only [sn_inside]

/-- C69 (edge test), partial.  On square images the edge test is right: a centre
is "near an edge" exactly if one of its coordinates is below `edge_size` or beyond
the image size minus `edge_size`.  Missing: images with different numbers of rows
and columns, see `C69_edge_test_uses_rows_for_columns`. -/
theorem C69_near_edge_square_partial [IsStrictOrderedRing α] (e : Env α) (n : Nat) (x : Ellipse α)
    (hn : e.edgeSize ≤ (n : α)) :
    nearEdge e n x = true ↔
      (x.cx < e.edgeSize ∨ (n : α) - e.edgeSize < x.cx) ∨
      (x.cy < e.edgeSize ∨ (n : α) - e.edgeSize < x.cy) := by
  have hmax : max 0 ((n : α) - e.edgeSize) = (n : α) - e.edgeSize :=
    max_eq_right (sub_nonneg.mpr hn)
  unfold nearEdge
  simp only [hmax, Bool.or_eq_true, decide_eq_true_eq, gt_iff_lt]
  tauto

/-- C69 (finding).  The column coordinate is compared with the number of rows: in an
image with more columns than rows, a region in a column beyond the number of rows
counts as "near an edge" however far it is from the right border. -/
theorem C69_edge_test_uses_rows_for_columns [IsStrictOrderedRing α] (e : Env α) (nrows : Nat)
    (x : Ellipse α) (hpos : 0 ≤ e.edgeSize) (hx : (nrows : α) < x.cx) :
    nearEdge e nrows x = true := by
  unfold nearEdge
  simp only [Bool.or_eq_true, decide_eq_true_eq, gt_iff_lt]
  refine Or.inl (Or.inr ?_)
  rw [max_lt_iff]
  constructor
  · exact lt_of_le_of_lt (Nat.cast_nonneg _) hx
  · exact lt_of_le_of_lt (sub_le_self _ hpos) hx

example : nearEdge { exEnv with edgeSize := 25 } 64 ⟨100, 32, 4, 4, 0⟩ = true ∧
    nearEdge { exEnv with edgeSize := 25 } 64 ⟨32, 32, 4, 4, 0⟩ = false := by decide +kernel

theorem mem_schedule (nints ngrps : Nat) (q : Nat × Nat) :
    q ∈ schedule nints ngrps ↔ q.1 < nints ∧ 1 ≤ q.2 ∧ q.2 < ngrps := by
  unfold schedule
  simp only [List.mem_flatMap, List.mem_range, List.mem_map, List.mem_range'_1]
  constructor
  · rintro ⟨i, hi, g, hg, rfl⟩; exact ⟨hi, by omega, by omega⟩
  · rintro ⟨h1, h2, h3⟩; exact ⟨q.1, h1, q.2, ⟨by omega, by omega⟩, rfl⟩

/-- C69 (whole pass), partial.  Whatever regions are found: for every exposure whose
ramps do not have exactly two groups the pass completes; then SATURATED is never
removed, no flags other than JUMP_DET and SATURATED are added, and the first group
of every ramp is unchanged.  Missing: two-group ramps, see
`C69_two_groups_fail`. -/
theorem C69_large_events_partial (e : Env α) (hsat : e.sat ≠ 0) (hjs : e.jump &&& e.sat = 0)
    (nints ngrps nrows ncols : Nat) (hng : ngrps ≠ 2) (gdq : Cube4) :
    ∃ out, flagLargeEvents e nints ngrps nrows ncols gdq = some out ∧
      ∀ i g r c, (Dq.Has (gdq i g r c) e.sat → Dq.Has (out i g r c) e.sat) ∧
        (∀ b, (out i g r c).testBit b = true →
          (gdq i g r c).testBit b = true ∨ e.jump.testBit b = true ∨ e.sat.testBit b = true) ∧
        (g = 0 → out i g r c = gdq i g r c) := by
  have hsome : (flagLoop e ngrps nrows ncols (schedule nints ngrps)
      { gdq := gdq, persist := fun _ _ _ => 0, next := none }).isSome = true := by
    rcases Nat.lt_or_ge ngrps 2 with hlt | hge
    · have : schedule nints ngrps = [] := by
        rw [List.eq_nil_iff_forall_not_mem]
        intro q hq
        have := (mem_schedule nints ngrps q).mp hq
        omega
      rw [this]; rfl
    · cases nints with
      | zero => simp [schedule, flagLoop]
      | succ k =>
        obtain ⟨m, hm⟩ : ∃ m, ngrps - 1 = m + 1 := ⟨ngrps - 2, by omega⟩
        obtain ⟨rest, hrest⟩ : ∃ rest, schedule (k + 1) ngrps = (0, 1) :: rest := by
          unfold schedule
          rw [List.range_succ_eq_map, List.flatMap_cons, hm]
          rw [List.range'_succ, List.map_cons, List.cons_append]
          exact ⟨_, rfl⟩
        rw [hrest]
        obtain ⟨s', h1, h2⟩ := flagGroup_some e ngrps nrows ncols 0 1
          { gdq := gdq, persist := fun _ _ _ => 0, next := none } (Or.inr (by omega))
        simp only [flagLoop, h1]
        exact flagLoop_some e ngrps nrows ncols rest s' h2
  obtain ⟨s', hs'⟩ := Option.isSome_iff_exists.mp hsome
  have hinv0 : Inv e gdq { gdq := gdq, persist := fun _ _ _ => 0, next := none } :=
    ⟨fun _ _ _ _ => Grow.refl e _, fun _ _ _ => rfl, fun _ _ _ => Or.inl rfl⟩
  obtain ⟨i1, i2, i3⟩ := flagLoop_inv e hsat hjs ngrps nrows ncols gdq _
    (fun q hq => ((mem_schedule nints ngrps q).mp hq).2.1) _ s' hinv0 hs'
  refine ⟨persistFlags e nints ngrps s'.persist s'.gdq, by simp [flagLargeEvents, hs'], ?_⟩
  intro i g r c
  have hgrow : Grow e (gdq i g r c) (persistFlags e nints ngrps s'.persist s'.gdq i g r c) := by
    unfold persistFlags
    split
    · dsimp only
      split
      · refine (i1 i g r c).trans (grow_or e _ _ ?_)
        intro b hb
        rcases i3 (i - 1) r c with h | h
        · rw [h] at hb; simp at hb
        · rw [h] at hb; exact hb
      · exact i1 i g r c
    · exact i1 i g r c
  refine ⟨hgrow.1, hgrow.2, ?_⟩
  rintro rfl
  unfold persistFlags
  split
  · dsimp only
    rw [if_neg (by omega)]
    exact i2 i r c
  · exact i2 i r c

/-- C69 (finding).  Two-group ramps make the pass fail (the Python variable
`next_new_sat` is used before any assignment), whatever the data. -/
theorem C69_two_groups_fail (e : Env α) (nints nrows ncols : Nat) (hn : 1 ≤ nints) (gdq : Cube4) :
    flagLargeEvents e nints 2 nrows ncols gdq = none := by
  obtain ⟨k, rfl⟩ : ∃ k, nints = k + 1 := ⟨nints - 1, by omega⟩
  obtain ⟨rest, hrest⟩ : ∃ rest, schedule (k + 1) 2 = (0, 1) :: rest := by
    unfold schedule
    rw [List.range_succ_eq_map, List.flatMap_cons]
    exact ⟨_, rfl⟩
  unfold flagLargeEvents
  rw [hrest]
  simp [flagLoop, flagGroup]

/-- Example: a jump at the edge in group 1 and persistence into integration 1. -/
def exEnv2 : Env ℚ :=
  { exEnv with findJump := fun p => if p 0 0 = 4 then [⟨0, 0, 2, 2, 0⟩] else [],
               findSat := fun p => if p 0 0 = 2 then [⟨0, 0, 2, 2, 0⟩] else [], edgeSize := 1 }

example : (flagLargeEvents exEnv2 2 3 1 3
    (fun i g _ c => if i = 0 ∧ g = 1 ∧ c = 0 then 4 else if i = 0 ∧ g = 2 ∧ c = 0 then 2 else 0)).map
      (fun o => (List.range 2).map (fun i => (List.range 3).map (fun g =>
        (List.range 3).map (fun c => o i g 0 c)))) =
    some [[[0, 0, 0], [4, 4, 0], [2, 2, 0]], [[0, 0, 0], [4, 0, 0], [4, 0, 0]]] := by
  decide +kernel

/-! ## C67: showers -/

theorem flagShowers_word (e : Env α) (hjs : e.jump &&& e.sat = 0) (ngroups nrows ncols num : Nat)
    (expansion : α) (showers : List (Nat × Nat × List (Ellipse α))) :
    ∀ (gdq : Cube4) (i g r c : Nat),
      flagShowers e ngroups nrows ncols num expansion showers gdq i g r c = gdq i g r c ∨
      (flagShowers e ngroups nrows ncols num expansion showers gdq i g r c =
        gdq i g r c ||| e.jump ∧ gdq i g r c &&& e.sat ≠ e.sat) := by
  classical
  induction showers with
  | nil => intro gdq i g r c; exact Or.inl rfl
  | cons s showers ih =>
    intro gdq i g r c
    have hstep : flagShowers e ngroups nrows ncols num expansion (s :: showers) gdq =
        flagShowers e ngroups nrows ncols num expansion showers (fun i =>
          if i = s.1 then extendEllipses e ngroups nrows ncols s.2.1 num true expansion s.2.2 (gdq i)
          else gdq i) := rfl
    rw [hstep]
    set q : Cube4 := fun i =>
          if i = s.1 then extendEllipses e ngroups nrows ncols s.2.1 num true expansion s.2.2 (gdq i)
          else gdq i with hq
    have hqw : q i g r c = gdq i g r c ∨ (q i g r c = gdq i g r c ||| e.jump ∧
        gdq i g r c &&& e.sat ≠ e.sat) := by
      simp only [hq]
      split
      · rw [extendEllipses_eq e hjs]
        split
        · rename_i h
          exact Or.inr ⟨rfl, h.2.2 g h.1.1 le_rfl⟩
        · exact Or.inl rfl
      · exact Or.inl rfl
    rcases ih q i g r c with h | ⟨h, hs⟩
    · rw [h]; exact hqw
    · rw [h]
      rcases hqw with h' | ⟨h', hs'⟩
      · rw [h'] at hs ⊢; exact Or.inr ⟨rfl, hs⟩
      · rw [h', Nat.or_assoc, Nat.or_self]; exact Or.inr ⟨rfl, hs'⟩

theorem approxRate_none (e : Env α) (ngroups : Nat) (data : Nat → Option α)
    (dq : Nat → Nat) (h : ∀ g, dq g &&& (e.dnu ||| e.sat ||| e.jump) ≠ 0) :
    approxRate e ngroups data dq = none := by
  unfold approxRate
  dsimp only
  rw [if_pos]
  rw [List.length_eq_zero_iff]
  unfold Verif.Jump.finite
  rw [List.filterMap_eq_nil_iff]
  intro x hx
  obtain ⟨g, _, rfl⟩ := List.mem_map.mp hx
  simp [h]

/-- C67.  Whatever showers are detected, the shower pass changes a group word only
by adding JUMP_DET, only on groups that are not saturated; and the words of a pixel
in an integration change at all only if its approximate rate (mean difference of
the usable groups) is defined before and after and changed by at most
`max_shower_amplitude`. -/
theorem C67_showers_bounded (e : Env α) (hjs : e.jump &&& e.sat = 0) (hd : e.dnu ≠ 0)
    (nints ngroups nrows ncols minDiffs dnuGroups num : Nat) (expansion : α)
    (showers : List (Nat × Nat × List (Ellipse α)))
    (data : Nat → Nat → Nat → Nat → Option α) (pdq : Img Nat) (ingdq : Cube4) (i r c : Nat) :
    let out := findFaintExtended e nints ngroups nrows ncols minDiffs dnuGroups num expansion
      showers data pdq ingdq
    (∀ g, out i g r c = ingdq i g r c ∨
      (out i g r c = ingdq i g r c ||| e.jump ∧ ingdq i g r c &&& e.sat ≠ e.sat)) ∧
    ((∃ g, out i g r c ≠ ingdq i g r c) → ∃ a b,
      approxRate e ngroups (fun g => data i g r c) (fun g => ingdq i g r c) = some a ∧
      approxRate e ngroups (fun g => data i g r c) (fun g => out i g r c) = some b ∧
      |a - b| ≤ e.maxShower) := by
  intro out
  have hout : out = if (nints : Int) * ((ngroups : Int) - 1) - dnuGroups < minDiffs then ingdq
      else maxFluxShowers e ngroups data ingdq
        (flagShowers e ngroups nrows ncols num expansion showers (maskRef e pdq ingdq)) := rfl
  by_cases hm : (nints : Int) * ((ngroups : Int) - 1) - dnuGroups < minDiffs
  · rw [if_pos hm] at hout
    rw [hout]
    exact ⟨fun g => Or.inl rfl, fun ⟨g, h⟩ => absurd rfl h⟩
  rw [if_neg hm] at hout
  set fl := flagShowers e ngroups nrows ncols num expansion showers (maskRef e pdq ingdq) with hfl
  set a := approxRate e ngroups (fun g => data i g r c) (fun g => ingdq i g r c) with ha
  set b := approxRate e ngroups (fun g => data i g r c) (fun g => fl i g r c) with hb
  have hval : ∀ g, out i g r c = if reverted e a b then ingdq i g r c else fl i g r c := by
    intro g; rw [hout]; rfl
  by_cases hrev : reverted e a b = true
  · have : ∀ g, out i g r c = ingdq i g r c := fun g => by rw [hval, if_pos hrev]
    exact ⟨fun g => Or.inl (this g), fun ⟨g, h⟩ => absurd (this g) h⟩
  · have hfo : ∀ g, out i g r c = fl i g r c := fun g => by rw [hval, if_neg hrev]
    -- not a reference pixel
    have href : pdq r c ≠ e.ref := by
      intro hr
      apply hrev
      have hnone : b = none := by
        rw [hb]
        apply approxRate_none e
        intro g
        have hw : fl i g r c = e.dnu ∨ fl i g r c = e.dnu ||| e.jump := by
          rcases flagShowers_word e hjs ngroups nrows ncols num expansion showers
            (maskRef e pdq ingdq) i g r c with h | h
          · left; rw [hfl, h]; simp [maskRef, hr]
          · right; rw [hfl, h.1]; simp [maskRef, hr]
        have hz : e.dnu &&& (e.dnu ||| e.sat ||| e.jump) = e.dnu := by
          apply Nat.eq_of_testBit_eq
          intro k
          simp only [Nat.testBit_and, Nat.testBit_or]
          cases e.dnu.testBit k <;> simp
        rcases hw with h | h
        · rw [h, hz]; exact hd
        · rw [h, Nat.and_or_distrib_right, hz]
          intro h0
          exact hd (Nat.or_eq_zero_iff.mp h0).1
      rw [hnone]
      unfold reverted
      cases a <;> rfl
    constructor
    · intro g
      rw [hfo]
      have := flagShowers_word e hjs ngroups nrows ncols num expansion showers
        (maskRef e pdq ingdq) i g r c
      have hm : maskRef e pdq ingdq i g r c = ingdq i g r c := by simp [maskRef, href]
      rw [hm] at this
      exact this
    · intro _
      have hb' : approxRate e ngroups (fun g => data i g r c) (fun g => out i g r c) = b := by
        rw [hb]; congr 1; funext g; exact hfo g
      rw [hb']
      cases ha' : a with
      | none => rw [ha'] at hrev; exact absurd rfl hrev
      | some x =>
        cases hb'' : b with
        | none => rw [ha', hb''] at hrev; exact absurd rfl hrev
        | some y =>
          refine ⟨x, y, rfl, rfl, ?_⟩
          rw [ha', hb''] at hrev
          simpa [reverted] using hrev

/-- Example: two showers; column 0 keeps the flag, column 3 (its rate would change by
more than 5) is restored. -/
example : (List.range 4).map (fun c => (List.range 4).map (fun g =>
    findFaintExtended exEnv 1 4 1 4 1 0 0 1 [(0, 1, [⟨0, 0, 2, 2, 0⟩, ⟨3, 0, 2, 2, 0⟩])]
      (fun _ g _ c => if c = 3 ∧ g ≥ 1 then some (g + 1000) else some g) (fun _ _ => 0)
      (fun _ _ _ _ => 0) 0 g 0 c)) =
    [[0, 4, 0, 0], [0, 0, 0, 0], [0, 0, 0, 0], [0, 0, 0, 0]] := by decide +kernel

/-! ## C70: preparation of the inputs -/

/-- C70 (gain), every pixel: a pixel whose gain is not a positive number gets both
NO_GAIN_VALUE and DO_NOT_USE, any other keeps its word. -/
theorem C70_bad_gain_flagged (dnu ngv : Nat) (gain : Option α) (w : Nat) :
    ((∀ g, gain = some g → g ≤ 0) → setupPdq dnu ngv gain w = w ||| ngv ||| dnu) ∧
    (∀ g, gain = some g → 0 < g → setupPdq dnu ngv gain w = w) := by
  constructor
  · intro h
    cases gain with
    | none => simp [setupPdq, Nat.or_assoc]
    | some g => simp [setupPdq, h g rfl, Nat.or_assoc]
  · rintro g rfl hg
    simp [setupPdq, not_le.mpr hg]

/-- C70 (shower data), partial.  Samples flagged with nothing else than JUMP_DET,
SATURATED, DO_NOT_USE, or one of the first two with DO_NOT_USE are ignored, unflagged
samples are kept.  Missing: samples with further flags, see
`C70_extra_flag_is_used`. -/
theorem C70_flagged_ignored_partial (e : Env α) (hj : e.jump &&& e.dnu = 0)
    (hs : e.sat &&& e.dnu = 0) (hd0 : e.dnu ≠ 0) (hj0 : e.jump ≠ 0) (hs0 : e.sat ≠ 0)
    (x : Option α) :
    nanInvalid e e.jump x = none ∧ nanInvalid e e.sat x = none ∧ nanInvalid e e.dnu x = none ∧
    nanInvalid e (e.jump ||| e.dnu) x = none ∧ nanInvalid e (e.sat ||| e.dnu) x = none ∧
    nanInvalid e 0 x = x := by
  have h1 : e.jump + e.dnu = e.jump ||| e.dnu := add_eq_or e.jump e.dnu hj
  have h2 : e.sat + e.dnu = e.sat ||| e.dnu := add_eq_or e.sat e.dnu hs
  refine ⟨by simp [nanInvalid], by simp [nanInvalid], by simp [nanInvalid], ?_, ?_, ?_⟩
  · simp [nanInvalid, h1]
  · simp [nanInvalid, h2]
  · unfold nanInvalid
    rw [if_neg]
    omega

/-- C70 (finding).  A sample that carries a further flag besides JUMP_DET or SATURATED
is used by the shower search as if it were good; in particular one flagged both
JUMP_DET and SATURATED. -/
theorem C70_extra_flag_is_used (e : Env α) (hjs : e.jump &&& e.sat = 0) (hj : e.jump &&& e.dnu = 0)
    (hsd : e.sat &&& e.dnu = 0) (hj0 : e.jump ≠ 0) (hs0 : e.sat ≠ 0) (x : Option α) :
    nanInvalid e (e.jump ||| e.sat) x = x := by
  have h1 : e.jump + e.dnu = e.jump ||| e.dnu := add_eq_or e.jump e.dnu hj
  have h2 : e.sat + e.dnu = e.sat ||| e.dnu := add_eq_or e.sat e.dnu hsd
  have a1 : (e.jump ||| e.sat) &&& e.sat = e.sat := by
    rw [Nat.and_or_distrib_right, hjs, Nat.zero_or, Nat.and_self]
  have a2 : (e.jump ||| e.sat) &&& e.jump = e.jump := by
    rw [Nat.and_or_distrib_right, Nat.and_self, Nat.and_comm, hjs, Nat.or_zero]
  have c1 : e.dnu &&& e.sat = 0 := by rw [Nat.and_comm]; exact hsd
  have c2 : e.dnu &&& e.jump = 0 := by rw [Nat.and_comm]; exact hj
  have c3 : e.sat &&& e.jump = 0 := by rw [Nat.and_comm]; exact hjs
  unfold nanInvalid
  rw [if_neg]
  rw [h1, h2]
  rintro (h | h | h | h | h)
  · rw [h, Nat.and_or_distrib_right, hjs, c1] at a1; exact hs0 a1.symm
  · rw [h, Nat.and_or_distrib_right, c3, c2] at a2; exact hj0 a2.symm
  · rw [h, c3] at a2; exact hj0 a2.symm
  · rw [h, hjs] at a1; exact hs0 a1.symm
  · rw [h, c1] at a1; exact hs0 a1.symm

example : nanInvalid exEnv 6 (some 1) = some 1 ∧ nanInvalid exEnv 5 (some 1) = none := by
  decide +kernel

end Verif.Thm
