import Verif.Model.Blot
import Verif.Thm.Pixmap
import Verif.Thm.Outlier

/-!
# C126: blotted median images and the outliers found with them
-/

namespace Verif.Thm

open Verif.Pixmap Verif.Outlier Verif.Blot

variable {α : Type} [Field α] [LinearOrder α] [IsStrictOrderedRing α] [FloorRing α]

/-- The interpolation gives back the pixels of the `h` by `w` median image at their centres, and nothing outside the pixels. -/
structure BtInterp (interp : α × α → Option (Option α)) (med : Arr2 α) (h w : Nat) : Prop where
  centre : ∀ r < h, ∀ c < w, interp ((c : α), (r : α)) = some (med r c)
  outside : ∀ x y, x < 0 ∨ y < 0 ∨ (w : α) ≤ x ∨ (h : α) ≤ y → interp (x, y) = none

/-- C126.  With all pixels mapped, each pixel of the result is the interpolated median at its position; pixels without position, or
with a position outside the median, have the fill value.  The bounding box of the median is not in effect. -/
theorem C126_value (interp : α × α → Option (Option α)) (med : Arr2 α) (h w : Nat) (hi : BtInterp interp med h w)
    (spline : Nat → List α → List α → List (List α) → α → α → α)
    (T : Option (Box α) → Option (Box α) → Option (α × α → Option α × Option α)) (boxBlot boxMedian : Option (Box α))
    (shape : Nat × Nat) (fill : Option α) (step : α) (order : Nat) (h2 : PmTwo boxBlot) (hs : step = 1 ∨ shape.1 ≤ 10 ∧ shape.2 ≤ 10)
    (t : α × α → Option α × Option α) (hT : T boxBlot none = some t) :
    ∃ out, gwcsBlot interp spline T boxBlot boxMedian shape fill step order = some out ∧ ∀ r c : Nat,
      (∀ x y, t ((c : α), (r : α)) = (some x, some y) → out r c = (interp (x, y)).getD fill) ∧
      ((t ((c : α), (r : α))).1 = none ∨ (t ((c : α), (r : α))).2 = none → out r c = fill) := by
  have e := C121_every_pixel spline T boxBlot boxMedian none shape "to" step order h2 hs
  rw [show pmFrom "to" boxBlot = boxBlot from rfl, show pmTo "to" boxMedian = none from rfl, hT, Option.map_some] at e
  refine ⟨_, by rw [gwcsBlot, e, Option.map_some], fun r c => ⟨?_, ?_⟩⟩
  · intro x y ht
    simp only [blotImage, ht, coord, Option.getD_some]
  · intro ht
    simp only [blotImage]
    rw [hi.outside, Option.getD_none]
    rcases ht with ht | ht
    · exact Or.inl (by simp [coord, ht])
    · exact Or.inr (Or.inl (by simp [coord, ht]))

/-- C126.  Pixels outside the bounding box of the image have the fill value, also with a coarse map, if the transform has no value there. -/
theorem C126_outside_box (interp : α × α → Option (Option α)) (med : Arr2 α) (h w : Nat) (hi : BtInterp interp med h w)
    (spline : Nat → List α → List α → List (List α) → α → α → α)
    (T : Option (Box α) → Option (Box α) → Option (α × α → Option α × Option α)) (boxBlot boxMedian : Option (Box α))
    (shape : Nat × Nat) (fill : Option α) (step : α) (order : Nat) (h2 : PmTwo boxBlot)
    (t : α × α → Option α × Option α) (hT : T boxBlot none = some t) (out : Arr2 α)
    (e : gwcsBlot interp spline T boxBlot boxMedian shape fill step order = some out) (r c : Nat)
    (ho : ¬ PmIn (↑shape.1, ↑shape.2) boxBlot r c) (ht : t ((c : α), (r : α)) = (none, none)) : out r c = fill := by
  simp only [gwcsBlot, Option.map_eq_some_iff] at e
  obtain ⟨⟨sh, m⟩, hm, rfl⟩ := e
  have hsh := (C121_shape _ _ _ _ _ _ _ _ _ h2 _ _ hm).1 shape rfl
  subst hsh
  obtain ⟨t', ht', hc⟩ := C121_where _ _ _ _ _ _ _ _ _ h2 _ _ hm
  rw [show pmFrom "to" boxBlot = boxBlot from rfl, show pmTo "to" boxMedian = none from rfl, hT, Option.some.injEq] at ht'
  subst ht'
  have hn : m r c = (none, none) := by
    rcases hc with hc | hc
    · rw [hc, ht]
    · exact (hc r c).2 ho
  simp only [blotImage, hn, coord, Option.getD_none]
  rw [hi.outside _ _ (Or.inl (by simp)), Option.getD_none]

/-- Coefficients of `x + a` and `y + b`. -/
def btX (a : Int) (i j : Nat) : α := if i = 1 ∧ j = 0 then 1 else if i = 0 ∧ j = 0 then (a : α) else 0
def btY (b : Int) (i j : Nat) : α := if i = 0 ∧ j = 1 then 1 else if i = 0 ∧ j = 0 then (b : α) else 0

omit [LinearOrder α] [IsStrictOrderedRing α] [FloorRing α] in
theorem bt_poly (k : Nat) (hk : k = 1 ∨ k = 3) (a : Int) (x y : α) : pmPoly k (btX a) x y = x + a ∧ pmPoly k (btY a) x y = y + a := by
  rcases hk with rfl | rfl
  · constructor <;> simp [pmPoly, Finset.sum_range_succ, btX, btY] <;> ring
  · constructor <;> simp [pmPoly, Finset.sum_range_succ, btX, btY] <;> ring

/-- C126.  Images that are shifted by whole pixels against the median (`a` columns, `b` rows): each pixel within the bounding box gets the value of its
median pixel, and the fill value if there is none; at every step size, and for every interpolation of the map that reproduces
polynomials of its order. -/
theorem C126_shift (interp : α × α → Option (Option α)) (med : Arr2 α) (h w : Nat) (hi : BtInterp interp med h w)
    (spline : Nat → List α → List α → List (List α) → α → α → α)
    (T : Option (Box α) → Option (Box α) → Option (α × α → Option α × Option α)) (boxBlot boxMedian : Option (Box α))
    (shape : Nat × Nat) (fill : Option α) (step : α) (order : Nat) (h2 : PmTwo boxBlot) (ho : order = 1 ∨ order = 3)
    (hr : PmReproduces spline order) (a b : Int) (hT : T boxBlot none = some fun p => (some (p.1 + (a : α)), some (p.2 + (b : α)))) (out : Arr2 α)
    (e : gwcsBlot interp spline T boxBlot boxMedian shape fill step order = some out) (r c : Nat)
    (hp : PmIn (↑shape.1, ↑shape.2) boxBlot r c) :
    (∀ r' c' : Nat, (r' : Int) = r + b → (c' : Int) = c + a → r' < h → c' < w → out r c = med r' c') ∧
      ((r : Int) + b < 0 ∨ (h : Int) ≤ r + b ∨ (c : Int) + a < 0 ∨ (w : Int) ≤ c + a → out r c = fill) := by
  simp only [gwcsBlot, Option.map_eq_some_iff] at e
  obtain ⟨⟨sh, m⟩, hm, rfl⟩ := e
  have hsh := (C121_shape _ _ _ _ _ _ _ _ _ h2 _ _ hm).1 shape rfl
  subst hsh
  have hT' : T (pmFrom "to" boxBlot) (pmTo "to" boxMedian) =
      some fun p => (some (pmPoly order (btX a) p.1 p.2), some (pmPoly order (btY b) p.1 p.2)) := by
    rw [show pmFrom "to" boxBlot = boxBlot from rfl, show pmTo "to" boxMedian = none from rfl, hT]
    simp only [(bt_poly order ho a _ _).1, (bt_poly order ho b _ _).2]
  have hx := C122_exact spline T boxBlot boxMedian none (some shape) "to" step order h2 hr _ _ hT' _ _ hm r c hp
  rw [(bt_poly order ho a _ _).1, (bt_poly order ho b _ _).2] at hx
  have ec : ((c : α) + (a : α)) = (((c : Int) + a : Int) : α) := by push_cast; ring
  have er : ((r : α) + (b : α)) = (((r : Int) + b : Int) : α) := by push_cast; ring
  simp only [blotImage, hx, coord, Option.getD_some, ec, er]
  constructor
  · intro r' c' h1 h2 h3 h4
    rw [← h1, ← h2]
    simp only [Int.cast_natCast, hi.centre r' h3 c' h4, Option.getD_some]
  · intro hout
    rw [hi.outside, Option.getD_none]
    rcases hout with h1 | h1 | h1 | h1
    · exact Or.inr (Or.inl (by exact_mod_cast h1))
    · exact Or.inr (Or.inr (Or.inr (by exact_mod_cast h1)))
    · exact Or.inl (by exact_mod_cast h1)
    · exact Or.inr (Or.inr (Or.inl (by exact_mod_cast h1)))

/-- C126.  The outliers of such an image: a pixel whose value is its median plus `d` is flagged by `flag_crs` exactly if `|d|` exceeds the
threshold; `flag_resampled_crs` with non-negative settings does not flag it if `d` equals the background. -/
theorem C126_flags (interp : α × α → Option (Option α)) (med : Arr2 α) (h w : Nat) (hi : BtInterp interp med h w)
    (spline : Nat → List α → List α → List (List α) → α → α → α)
    (T : Option (Box α) → Option (Box α) → Option (α × α → Option α × Option α)) (boxBlot boxMedian : Option (Box α))
    (shape : Nat × Nat) (fill : Option α) (step : α) (order : Nat) (h2 : PmTwo boxBlot) (ho : order = 1 ∨ order = 3)
    (hr : PmReproduces spline order) (a b : Int) (hT : T boxBlot none = some fun p => (some (p.1 + (a : α)), some (p.2 + (b : α)))) (out : Arr2 α)
    (e : gwcsBlot interp spline T boxBlot boxMedian shape fill step order = some out) (r c r' c' : Nat)
    (hp : PmIn (↑shape.1, ↑shape.2) boxBlot r c) (hr' : (r' : Int) = r + b) (hc' : (c' : Int) = c + a) (hh : r' < h) (hw : c' < w)
    (sci err : Arr2 α) (v d : α) (hv : med r' c' = some v) (hs : sci r c = some (v + d)) :
    (∀ snr, flagCrs sci err out snr r c = true ↔ |d| > snr * ((err r c).getD 0)) ∧
      ∀ snr1 snr2 scale1 scale2, 0 ≤ snr2 → 0 ≤ scale2 → 0 ≤ (err r c).getD 0 →
        flagResampled shape.1 shape.2 sci err out snr1 snr2 scale1 scale2 d r c = false := by
  have ho' := (C126_shift interp med h w hi spline T boxBlot boxMedian shape fill step order h2 ho hr a b hT out e r c hp).1 r' c' hr' hc' hh hw
  rw [hv] at ho'
  constructor
  · intro snr
    rw [C48_simple]
    simp only [hs, ho', Option.some.injEq]
    constructor
    · rintro ⟨s, b, rfl, rfl, h⟩
      simpa using h
    · intro h
      exact ⟨_, _, rfl, rfl, by simpa using h⟩
  · intro snr1 snr2 scale1 scale2 h3 h4 h5
    rw [Bool.eq_false_iff]
    intro hf
    have hrr : r < shape.1 := by have := hp.1; simpa using this
    have hcc : c < shape.2 := by have := hp.2.1; simpa using this
    obtain ⟨⟨s, b, D, e1, e2, e3, e4⟩, -⟩ :=
      (C48_resampled shape.1 shape.2 sci err out _ snr1 snr2 scale1 scale2 d (C49_derivative shape.1 shape.2 out) r c
        hrr hcc).mp hf
    rw [hs, Option.some.injEq] at e1
    rw [ho', Option.some.injEq] at e2
    subst e1 e2
    obtain ⟨D', hD', hg⟩ := (C49_derivative shape.1 shape.2 out r hrr c hcc).2 _ ho'
    rw [e3, Option.some.injEq] at hD'
    subst hD'
    have h0 : 0 ≤ D := hg.2 (Or.inl rfl)
    have := mul_nonneg h4 h0
    have := mul_nonneg h3 h5
    simp only [add_sub_cancel_left, sub_self, abs_zero, gt_iff_lt] at e4
    linarith

omit [FloorRing α] in
/-- C126.  A pixel that gets the fill value: with NaN it is not flagged.  (Finding) With the default 0 it is flagged whenever its value is large enough by
itself, although there is nothing to compare it with. -/
theorem C126_fill (sci err out : Arr2 α) (shape : Nat × Nat) (r c : Nat) (hr : r < shape.1) (hc : c < shape.2) :
    (out r c = none → (∀ snr, flagCrs sci err out snr r c = false) ∧
      ∀ snr1 snr2 scale1 scale2 backg, flagResampled shape.1 shape.2 sci err out snr1 snr2 scale1 scale2 backg r c = false) ∧
    (out r c = some 0 → ∀ v, sci r c = some v → ∀ snr, flagCrs sci err out snr r c = true ↔ |v| > snr * ((err r c).getD 0)) := by
  constructor
  · intro h
    exact ⟨fun snr => (C48_nan_not_flagged shape.1 shape.2 sci err out snr 0 0 0 0 0 r c hr hc (Or.inr h)).2,
      fun snr1 snr2 scale1 scale2 backg => (C48_nan_not_flagged shape.1 shape.2 sci err out 0 snr1 snr2 scale1 scale2 backg r c hr hc (Or.inr h)).1⟩
  · intro h v hv snr
    rw [C48_simple]
    simp [hv, h]

/-! ### Examples -/

/-- A median of 3 by 4 pixels and its nearest-pixel interpolation. -/
def btMed : Arr2 ℚ := fun r c => if r = 1 ∧ c = 2 then none else some (10 * r + c)

def btInterp (p : ℚ × ℚ) : Option (Option ℚ) :=
  if p.1 < 0 ∨ p.2 < 0 ∨ 4 ≤ p.1 ∨ 3 ≤ p.2 then none else some (btMed ⌊p.2⌋.toNat ⌊p.1⌋.toNat)

theorem bt_example : BtInterp btInterp btMed 3 4 := by
  constructor
  · intro r hr c hc
    have h1 : (c : ℚ) < 4 := by exact_mod_cast hc
    have h2 : (r : ℚ) < 3 := by exact_mod_cast hr
    have h3 : (0 : ℚ) ≤ c := Nat.cast_nonneg c
    have h4 : (0 : ℚ) ≤ r := Nat.cast_nonneg r
    rw [btInterp, if_neg (by push Not; exact ⟨h3, h4, h1, h2⟩)]
    simp
  · intro x y h
    rw [btInterp, if_pos (by simpa using h)]

/-- A shift by one column and minus one row: the first row and the last column have no median pixel. -/
example : ((gwcsBlot btInterp pmS (fun _ _ => some fun p => (some (p.1 + 1), some (p.2 - 1))) (some [(-1/2, 7/2), (-1/2, 5/2)]) none (3, 4) (some (-7)) 1 1).map
    fun out => (List.range 3).map fun r => (List.range 4).map fun c => out r c) =
    some [[some (-7), some (-7), some (-7), some (-7)], [some 1, some 2, some 3, some (-7)], [some 11, none, some 13, some (-7)]] := by
  decide +kernel

end Verif.Thm
