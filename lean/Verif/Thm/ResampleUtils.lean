import Mathlib.Tactic.Linarith
import Mathlib.Tactic.FieldSimp
import Mathlib.Tactic.Ring
import Mathlib.Tactic.Positivity
import Verif.Model.Resample

/-! # Resampling: weights, range of pixels, outline of the image (C53, C54, C55, C80) -/

set_option linter.unusedSectionVars false

namespace Verif.Thm
open Verif.Resample

section Weight
variable {α : Type} [Field α] [LinearOrder α] [IsStrictOrderedRing α]

theorem ru_clear (d g : Nat) : Verif.Dq.clear d g = 0 ↔ ∀ i, d.testBit i = true → g.testBit i = true := by
  constructor
  · intro h i hd
    by_contra hg
    have := Verif.Dq.testBit_clear (d := d) (m := g) (i := i)
    rw [h] at this
    simp [hd, hg] at this
  · intro h
    apply Nat.eq_of_testBit_eq
    intro i
    rw [Verif.Dq.testBit_clear]
    by_cases hd : d.testBit i = true
    · simp [hd, h i hd]
    · simp [hd]

/-- **C53**: a pixel with a DQ bit outside the good bits has weight zero, whatever its variance (a finite exposure time
given). -/
theorem C53_bad_is_zero (t : DrizType) (dq good i : Nat) (hd : dq.testBit i = true) (hg : good.testBit i = false)
    (rnoise sky : Option (Fl α)) (time : α) :
    drizWeight t dq (some good) rnoise sky (.num time) = .num 0 := by
  have hm : dqMask dq (some good) = false := by
    simp only [dqMask, decide_eq_false_iff_not, ru_clear]
    intro h
    rw [h i hd] at hg
    simp at hg
  have hinv : ∀ a : Option (Fl α), (invVariance a).mulMask false = .num 0 := by
    intro a
    rcases a with _ | v
    · rfl
    · simp only [invVariance]
      split
      · rename_i h
        rcases hr : v.recip with x | _ | _ | _
        · rfl
        all_goals simp [hr, Fl.isFinite] at h
      · rfl
  cases t <;> simp only [drizWeight, hm]
  · exact hinv _
  · exact hinv _
  · rfl
  · rfl

/-- **C53**: every weight is a number. -/
theorem C53_finite (t : DrizType) (dq : Nat) (good : Option Nat) (rnoise sky : Option (Fl α)) (time : α) :
    ∃ w, drizWeight t dq good rnoise sky (.num time) = .num w := by
  have hinv : ∀ a : Option (Fl α), ∃ x, invVariance a = .num x := by
    intro a
    rcases a with _ | v
    · exact ⟨1, rfl⟩
    · simp only [invVariance]
      split
      · rename_i h
        rcases hr : v.recip with x | _ | _ | _
        · exact ⟨x, rfl⟩
        all_goals simp [hr, Fl.isFinite] at h
      · exact ⟨0, rfl⟩
  have hmul : ∀ (x : α) (b : Bool), ∃ w, (Fl.num x).mulMask b = .num w := by
    intro x b
    cases b
    · exact ⟨0, rfl⟩
    · exact ⟨x, rfl⟩
  cases t <;> simp only [drizWeight]
  · obtain ⟨x, hx⟩ := hinv rnoise
    rw [hx]; exact hmul _ _
  · obtain ⟨x, hx⟩ := hinv sky
    rw [hx]; exact hmul _ _
  · exact hmul _ _
  · exact hmul _ _

/-- Specification: the weight of a good pixel with the variance `arr`. -/
def RuInverse (arr : Option (Fl α)) (w : α) : Prop :=
  (arr = none → w = 1) ∧ (∀ x, arr = some (.num x) → x ≠ 0 → w * x = 1) ∧
  ((arr = some (.num 0) ∨ arr = some .nan ∨ arr = some .posInf ∨ arr = some .negInf) → w = 0)

/-- **C53**: a pixel all of whose DQ bits are good bits (any pixel if no good bits are given) has the weight of its type. -/
theorem C53_good_pixel (dq : Nat) (good : Option Nat)
    (hgood : ∀ g, good = some g → ∀ i, dq.testBit i = true → g.testBit i = true) (rnoise sky : Option (Fl α)) (time : α) :
    (∃ w, drizWeight .ivm dq good rnoise sky (.num time) = .num w ∧ RuInverse rnoise w) ∧
    (∃ w, drizWeight .ivmSky dq good rnoise sky (.num time) = .num w ∧ RuInverse sky w) ∧
    drizWeight .exptime dq good rnoise sky (.num time) = .num time ∧
    drizWeight .unit dq good rnoise sky (.num time) = .num 1 := by
  have hm : dqMask dq good = true := by
    rcases good with _ | g
    · rfl
    · simp only [dqMask, decide_eq_true_eq, ru_clear]
      exact hgood g rfl
  have hinv : ∀ a : Option (Fl α), ∃ w, invVariance a = .num w ∧ RuInverse a w := by
    intro a
    rcases a with _ | x | _ | _ | _
    · exact ⟨1, rfl, by simp [RuInverse]⟩
    · by_cases hx : x = 0
      · refine ⟨0, by simp [invVariance, Fl.recip, hx, Fl.isFinite], ?_⟩
        simp [RuInverse, hx]
      · refine ⟨x⁻¹, by simp [invVariance, Fl.recip, hx, Fl.isFinite], ?_⟩
        refine ⟨by simp, ?_, by simp [hx]⟩
        intro y hy hy0
        simp only [Option.some.injEq, Fl.num.injEq] at hy
        subst hy
        exact inv_mul_cancel₀ hx
    all_goals exact ⟨0, rfl, by simp [RuInverse]⟩
  have hmul : ∀ x : Fl α, x.mulMask true = x := by
    intro x; cases x <;> rfl
  simp only [drizWeight, hm, hmul]
  exact ⟨hinv _, hinv _, trivial, trivial⟩

example : (5 : Nat).testBit 2 = true ∧ (3 : Nat).testBit 2 = false := by decide
example : ∀ g, (some 7 : Option Nat) = some g → ∀ i, (5 : Nat).testBit i = true → g.testBit i = true := by
  intro g hg
  cases hg
  exact (ru_clear 5 7).1 (by decide)

/-- Finding: a negative variance gives a negative weight. -/
theorem C53_negative_variance (dq : Nat) (x : α) (hx : x < 0) (sky : Option (Fl α)) (time : α) :
    ∃ w < 0, drizWeight .ivm dq none (some (.num x)) sky (.num time) = .num w := by
  refine ⟨x⁻¹, inv_lt_zero.2 hx, ?_⟩
  simp [drizWeight, invVariance, Fl.recip, hx.ne, Fl.isFinite, dqMask, Fl.mulMask]

example : (-1 : ℚ) < 0 := by norm_num

end Weight

section Range
variable {α : Type} [Field α] [LinearOrder α] [IsStrictOrderedRing α] [FloorRing α]

/-- Truncation towards zero, for the arguments not below -1. -/
theorem ru_trunc_max (x : α) (k : Int) (hk : 0 < k) : k ≤ trunc x ↔ (k : α) ≤ x := by
  simp only [trunc]
  split
  · exact Int.le_floor
  · rename_i h
    push Not at h
    have h1 : ⌈x⌉ ≤ 0 := Int.ceil_le.2 (by simpa using h.le)
    have h2 : (0 : α) < k := by exact_mod_cast hk
    constructor
    · intro h'; omega
    · intro h'; linarith

theorem ru_trunc_nonneg (x : α) : 0 ≤ trunc x ↔ -1 < x := by
  simp only [trunc]
  split
  · rename_i h
    exact ⟨fun _ => by linarith, fun _ => Int.floor_nonneg.2 h⟩
  · have : (0 : Int) ≤ ⌈x⌉ ↔ (-1 : Int) < ⌈x⌉ := by omega
    rw [this, Int.lt_ceil]
    simp

/-- Specification: pixel `(x, y)` is in the range `((xmin, xmax), (ymin, ymax))`. -/
def RuIn (r : (Int × Int) × (Int × Int)) (x y : Int) : Prop := (r.1.1 ≤ x ∧ x ≤ r.1.2) ∧ (r.2.1 ≤ y ∧ y ≤ r.2.2)

/-- **C54**: without a bounding box the whole image is resampled. -/
theorem C54_no_box (ny nx : Nat) (hy : 0 < ny) (hx : 0 < nx) (x y : Int) :
    RuIn (resampleRange (α := α) ny nx none) x y ↔ (0 ≤ x ∧ x < nx) ∧ (0 ≤ y ∧ y < ny) := by
  simp only [RuIn, resampleRange, Option.map_none, range1]
  omega

theorem ru_trunc_le (x : α) (k : Int) (hk : 0 ≤ k) : trunc x ≤ k ↔ x < k + 1 := by
  have := ru_trunc_max x (k + 1) (by omega)
  rw [← not_iff_not, not_le, not_lt, ← Int.add_one_le_iff, this]
  push_cast
  rfl

theorem ru_trunc_mono (x y : α) (h : x ≤ y) : trunc x ≤ trunc y := by
  simp only [trunc]
  split <;> split
  · exact Int.floor_mono h
  · linarith
  · rename_i h1 h2
    push Not at h1
    have h3 : ⌈x⌉ ≤ 0 := Int.ceil_le.2 (by simpa using h1.le)
    have h4 : 0 ≤ ⌊y⌋ := Int.floor_nonneg.2 h2
    omega
  · exact Int.ceil_mono h

/-- **C54**: the range is never empty. -/
theorem C54_not_empty (ny nx : Nat) (box : Option ((α × α) × (α × α))) :
    ∃ x y, RuIn (resampleRange ny nx box) x y := by
  refine ⟨(resampleRange ny nx box).1.1, (resampleRange ny nx box).2.1, ?_⟩
  rcases box with _ | ⟨⟨a, b⟩, ⟨c, d⟩⟩
  · simp only [RuIn, resampleRange, Option.map_none, range1]; omega
  · simp only [RuIn, resampleRange, Option.map_some, range1]; omega

theorem ru_range1 (n : Nat) (hn : 0 < n) (x1 x2 : α) (h12 : x1 ≤ x2) (hlo : -(1 / 2) ≤ x2)
    (hhi : x1 < n - 1 / 2) (k : Int) :
    ((range1 n (some (x1, x2))).1 ≤ k ∧ k ≤ (range1 n (some (x1, x2))).2) ↔
      (0 ≤ k ∧ k < n ∧ x1 < k + 1 / 2 ∧ (k : α) - 1 / 2 ≤ x2) := by
  have hb : trunc (x1 + 1 / 2) ≤ (n : Int) - 1 := by
    rw [ru_trunc_le _ _ (by omega)]
    push_cast
    linarith
  have hm := ru_trunc_mono (x1 + 1 / 2) (x2 + 1 / 2) (by linarith)
  have h0 : 0 ≤ trunc (x2 + 1 / 2) := (ru_trunc_nonneg _).2 (by linarith)
  simp only [range1]
  have key : ∀ k : Int, 0 ≤ k → ((trunc (x1 + 1 / 2) ≤ k ↔ x1 < k + 1 / 2) ∧
      (k ≤ trunc (x2 + 1 / 2) ↔ (k : α) - 1 / 2 ≤ x2)) := by
    intro k hk
    constructor
    · rw [ru_trunc_le _ _ hk]
      constructor <;> intro h <;> linarith
    · rcases hk.eq_or_lt with rfl | hk
      · simp only [h0, true_iff, Int.cast_zero]
        linarith
      · rw [ru_trunc_max _ _ hk]
        constructor <;> intro h <;> linarith
  constructor
  · rintro ⟨h1, h2⟩
    have hk : 0 ≤ k := by omega
    obtain ⟨a, b⟩ := key k hk
    exact ⟨hk, by omega, a.1 (by omega), b.1 (by omega)⟩
  · rintro ⟨hk, hkn, h1, h2⟩
    obtain ⟨a, b⟩ := key k hk
    have := a.2 h1
    have := b.2 h2
    omega

/-- **C54**, partial: when the bounding box overlaps the image, the range is inside the image and consists of the pixels
that the box touches, `x1 < k + 1/2` and `k - 1/2 ≤ x2`; in particular of all pixels whose centres lie in the box.  Missing:
pixels whose centres are outside the box are included as well (`C54_centre_outside`). -/
theorem C54_touched_partial (ny nx : Nat) (hny : 0 < ny) (hnx : 0 < nx) (x1 x2 y1 y2 : α) (hx : x1 ≤ x2) (hy : y1 ≤ y2)
    (hxlo : -(1 / 2) ≤ x2) (hxhi : x1 < nx - 1 / 2) (hylo : -(1 / 2) ≤ y2) (hyhi : y1 < ny - 1 / 2) (x y : Int) :
    RuIn (resampleRange ny nx (some ((x1, x2), (y1, y2)))) x y ↔
      (0 ≤ x ∧ x < nx ∧ x1 < x + 1 / 2 ∧ (x : α) - 1 / 2 ≤ x2) ∧
      (0 ≤ y ∧ y < ny ∧ y1 < y + 1 / 2 ∧ (y : α) - 1 / 2 ≤ y2) := by
  simp only [RuIn, resampleRange, Option.map_some]
  rw [ru_range1 nx hnx x1 x2 hx hxlo hxhi x, ru_range1 ny hny y1 y2 hy hylo hyhi y]

/-- **C54**: every pixel of the image whose centre lies in the bounding box is in the range. -/
theorem C54_centres (ny nx : Nat) (x1 x2 y1 y2 : α) (x y : Int) (hx : 0 ≤ x ∧ x < nx) (hy : 0 ≤ y ∧ y < ny)
    (hbx : x1 ≤ x ∧ (x : α) ≤ x2) (hby : y1 ≤ y ∧ (y : α) ≤ y2) :
    RuIn (resampleRange ny nx (some ((x1, x2), (y1, y2)))) x y := by
  have h1 : (0 : α) ≤ x := by exact_mod_cast hx.1
  have h2 : (0 : α) ≤ y := by exact_mod_cast hy.1
  have h3 : (x : α) + 1 ≤ nx := by exact_mod_cast hx.2
  have h4 : (y : α) + 1 ≤ ny := by exact_mod_cast hy.2
  rw [C54_touched_partial ny nx (by omega) (by omega) x1 x2 y1 y2 (by linarith) (by linarith) (by linarith) (by linarith)
    (by linarith) (by linarith)]
  exact ⟨⟨hx.1, hx.2, by linarith, by linarith⟩, ⟨hy.1, hy.2, by linarith, by linarith⟩⟩

/-- **C54**, finding: a pixel whose centre lies outside the bounding box can be in the range, on either side. -/
theorem C54_centre_outside :
    range1 (α := ℚ) 10 (some (3 / 10, 11 / 2)) = (0, 6) ∧ ¬ (3 / 10 : ℚ) ≤ 0 ∧ ¬ (6 : ℚ) ≤ 11 / 2 := by
  refine ⟨by decide +kernel, by norm_num, by norm_num⟩

/-- **C54**, finding: for a box beyond the upper edge the range is outside the image. -/
theorem C54_box_beyond (n : Nat) (x1 x2 : α) (h : (n : α) - 1 / 2 ≤ x1) (hn : 0 < n) :
    (n : Int) ≤ (range1 n (some (x1, x2))).1 := by
  have : (n : Int) ≤ trunc (x1 + 1 / 2) := by
    rw [ru_trunc_max _ _ (by exact_mod_cast hn)]
    push_cast
    linarith
  simp only [range1]
  omega

example : (0 : Nat) < 10 ∧ (3 / 2 : ℚ) ≤ 7 ∧ -(1 / 2) ≤ (7 : ℚ) ∧ (3 / 2 : ℚ) < (10 : Nat) - 1 / 2 := by norm_num
example : range1 (α := ℚ) 10 (some (3 / 2, 7)) = (2, 7) := by decide +kernel
example : ((10 : Nat) : ℚ) - 1 / 2 ≤ 12 := by norm_num

/-! ### The outline -/

/-- Specification: a point on the perimeter of a rectangle. -/
def RuPerimeter (r : Rect) (p : α × α) : Prop :=
  (r.xmin : α) ≤ p.1 ∧ p.1 ≤ r.xmax ∧ (r.ymin : α) ≤ p.2 ∧ p.2 ≤ r.ymax ∧
  (p.1 = r.xmin ∨ p.1 = r.xmax ∨ p.2 = r.ymin ∨ p.2 = r.ymax)

/-- Specification: a rectangle inside another. -/
def RuInside (a b : Rect) : Prop := b.xmin ≤ a.xmin ∧ a.xmax ≤ b.xmax ∧ b.ymin ≤ a.ymin ∧ a.ymax ≤ b.ymax

theorem ru_linspace_mem (a b : α) (n : Nat) (x : α) (hx : x ∈ linspace a b n) : min a b ≤ x ∧ x ≤ max a b := by
  simp only [linspace, List.mem_map, List.mem_range] at hx
  obtain ⟨i, hi, rfl⟩ := hx
  have hn : (0 : α) < n := by exact_mod_cast (by omega : 0 < n)
  have hin : (i : α) ≤ n := by exact_mod_cast hi.le
  have h0 : (0 : α) ≤ i := by positivity
  have ht0 : (0 : α) ≤ i / n := by positivity
  have ht1 : (i : α) / n ≤ 1 := by rw [div_le_one hn]; exact hin
  have e : a + i * ((b - a) / n) = a + (i / n) * (b - a) := by ring
  rw [e]
  generalize (i : α) / n = t at *
  rcases le_total a b with h | h
  · rw [min_eq_left h, max_eq_right h]
    constructor <;> nlinarith
  · rw [min_eq_right h, max_eq_left h]
    constructor <;> nlinarith

theorem ru_edges_perimeter (r : Rect) (hx : r.xmin < r.xmax) (hy : r.ymin < r.ymax) :
    ∀ e ∈ r.edges (α := α), ∀ p ∈ e, RuPerimeter r p := by
  have hx' : (r.xmin : α) ≤ r.xmax := by exact_mod_cast hx.le
  have hy' : (r.ymin : α) ≤ r.ymax := by exact_mod_cast hy.le
  intro e he p hp
  simp only [Rect.edges, edges, List.mem_cons, List.not_mem_nil, or_false] at he
  rcases he with rfl | rfl | rfl | rfl
  all_goals
    obtain ⟨t, ht, rfl⟩ := List.mem_map.1 hp
    have := ru_linspace_mem _ _ _ _ ht
    simp only [min_eq_left hx', max_eq_right hx', min_eq_left hy', max_eq_right hy', min_eq_right hx', max_eq_left hx',
      min_eq_right hy', max_eq_left hy'] at this
    simp [RuPerimeter, this, hx', hy']

theorem ru_firstBad_none (fin : α × α → Bool) (r : Rect) (k : Nat) (hk : k < 4) (h : firstBad fin r.edges k 4 = none) :
    ∀ e ∈ r.edges (α := α), ∀ p ∈ e, fin p = true := by
  have hlen : r.edges (α := α) = [r.edges.getD 0 [], r.edges.getD 1 [], r.edges.getD 2 [], r.edges.getD 3 []] := rfl
  generalize r.edges (α := α) = es at *
  have hall : (es.getD 0 []).all fin ∧ (es.getD 1 []).all fin ∧ (es.getD 2 []).all fin ∧ (es.getD 3 []).all fin := by
    have hk : k = 0 ∨ k = 1 ∨ k = 2 ∨ k = 3 := by omega
    rcases hk with rfl | rfl | rfl | rfl <;> (simp only [firstBad] at h; norm_num at h; grind)
  intro e he p hp
  rw [hlen] at he
  simp only [List.mem_cons, List.not_mem_nil, or_false] at he
  simp only [List.all_eq_true] at hall
  rcases he with rfl | rfl | rfl | rfl
  · exact hall.1 p hp
  · exact hall.2.1 p hp
  · exact hall.2.2.1 p hp
  · exact hall.2.2.2 p hp

theorem ru_firstBad_some (fin : α × α → Bool) (r : Rect) (n : Nat) : ∀ k j, k < 4 → firstBad fin r.edges k n = some j →
    j < 4 ∧ ∃ e ∈ r.edges (α := α), ∃ p ∈ e, fin p = false := by
  induction n with
  | zero => intro k j _ h; simp [firstBad] at h
  | succ n ih =>
    intro k j hk h
    simp only [firstBad] at h
    split at h
    · exact ih _ j (Nat.mod_lt _ (by omega)) h
    · rename_i hb
      injection h with h
      subst h
      refine ⟨hk, ?_⟩
      simp only [Bool.not_eq_true, List.all_eq_false] at hb
      obtain ⟨p, hp, hfp⟩ := hb
      refine ⟨_, ?_, p, hp, by simpa using hfp⟩
      have hl : k < (r.edges (α := α)).length := hk
      rw [List.getD_eq_getElem _ _ hl]
      exact List.getElem_mem hl

theorem ru_shrink_inside (r : Rect) (k : Nat) : RuInside (r.shrink k) r := by
  simp only [Rect.shrink, RuInside]
  split <;> simp only <;> omega

theorem ru_search (fin : α × α → Bool) (r : Rect) (k : Nat) (hk : k < 4) :
    (∀ q, (search fin r k).2 = some q → q.xmin < q.xmax ∧ q.ymin < q.ymax ∧ RuInside q r ∧
      ∀ e ∈ q.edges (α := α), ∀ p ∈ e, fin p = true) ∧
    ((search fin r k).2 = none → ∀ q ∈ (search fin r k).1, ∃ e ∈ q.edges (α := α), ∃ p ∈ e, fin p = false) ∧
    (∀ q ∈ (search fin r k).1, RuInside q r) ∧
    (r.xmin < r.xmax → r.ymin < r.ymax → r ∈ (search fin r k).1) ∧
    ((search fin r k).1.length : Int) ≤ max 0 ((r.xmax - r.xmin) + (r.ymax - r.ymin)) := by
  induction hd : ((r.xmax - r.xmin) + (r.ymax - r.ymin)).toNat using Nat.strong_induction_on generalizing r k with
  | _ d ih =>
    rw [search]
    by_cases hc : r.xmin < r.xmax ∧ r.ymin < r.ymax
    · rw [if_pos hc]
      rcases hb : firstBad fin r.edges k 4 with _ | j
      · simp only
        refine ⟨?_, by simp, ?_, by simp, ?_⟩
        · intro q hq
          injection hq with hq
          subst hq
          exact ⟨hc.1, hc.2, by simp [RuInside], ru_firstBad_none fin r k hk hb⟩
        · simp [RuInside]
        · simp only [List.length_singleton, Nat.cast_one]
          omega
      · obtain ⟨hj, hbad⟩ := ru_firstBad_some fin r 4 k j hk hb
        have hsh : (r.shrink j).xmax - (r.shrink j).xmin + ((r.shrink j).ymax - (r.shrink j).ymin) =
            (r.xmax - r.xmin) + (r.ymax - r.ymin) - 1 := by
          simp only [Rect.shrink]
          split <;> simp only <;> omega
        obtain ⟨i1, i2, i3, i4, i5⟩ := ih _ (by omega) (r.shrink j) ((j + 1) % 4) (Nat.mod_lt _ (by omega)) rfl
        have hins := ru_shrink_inside r j
        have trans : ∀ q, RuInside q (r.shrink j) → RuInside q r := by
          intro q hq
          simp only [RuInside] at *
          omega
        simp only
        refine ⟨?_, ?_, ?_, by simp, ?_⟩
        · intro q hq
          obtain ⟨a, b, c, d⟩ := i1 q hq
          exact ⟨a, b, trans q c, d⟩
        · intro hn q hq
          rcases List.mem_cons.1 hq with rfl | hq
          · exact hbad
          · exact i2 hn q hq
        · intro q hq
          rcases List.mem_cons.1 hq with rfl | hq
          · simp [RuInside]
          · exact trans q (i3 q hq)
        · rw [List.length_cons]
          push_cast
          omega
    · rw [if_neg hc]
      refine ⟨by simp, by simp, by simp, ?_, by simp⟩
      intro h1 h2
      exact absurd ⟨h1, h2⟩ hc

/-- **C55**: if an outline is found, it runs along the perimeter of a rectangle of at least two by two pixels inside the
image, and all its points have finite sky coordinates. -/
theorem C55_found (fin : α × α → Bool) (ny nx : Nat) (box : Option ((α × α) × (α × α))) (r : Rect) (pts : List (α × α))
    (h : outline fin ny nx box = some (r, pts)) :
    0 ≤ r.xmin ∧ r.xmin < r.xmax ∧ r.xmax < nx ∧ 0 ≤ r.ymin ∧ r.ymin < r.ymax ∧ r.ymax < ny ∧
    (∀ p ∈ pts, fin p = true ∧ RuPerimeter r p) ∧
    (∀ c ∈ [((r.xmin : α), (r.ymin : α)), ((r.xmax : α), (r.ymin : α)), ((r.xmax : α), (r.ymax : α)),
      ((r.xmin : α), (r.ymax : α))], c ∈ pts) := by
  simp only [outline, Option.map_eq_some_iff] at h
  obtain ⟨q, hq, hqr⟩ := h
  injection hqr with h1 h2
  subst h1
  obtain ⟨a, b, c, d⟩ := (ru_search fin (firstRect ny nx box) 0 (by omega)).1 q hq
  have hin : 0 ≤ (firstRect ny nx box).xmin ∧ (firstRect ny nx box).xmax ≤ (nx : Int) - 1 ∧
      0 ≤ (firstRect ny nx box).ymin ∧ (firstRect ny nx box).ymax ≤ (ny : Int) - 1 := by
    simp only [firstRect]
    omega
  simp only [RuInside] at c
  refine ⟨by omega, a, by omega, by omega, b, by omega, ?_, ?_⟩
  · intro p hp
    rw [← h2, List.mem_flatten] at hp
    obtain ⟨e, he, hpe⟩ := hp
    exact ⟨d e he p hpe, ru_edges_perimeter q a b e he p hpe⟩
  · have hpos : ∀ lo hi d : Int, 0 < edgeCount lo hi d := by
      intro lo hi d
      simp only [edgeCount]
      omega
    have hfst : ∀ (a b : α) (n : Nat), 0 < n → a ∈ linspace a b n := by
      intro a b n hn
      simp only [linspace, List.mem_map, List.mem_range]
      exact ⟨0, hn, by simp⟩
    intro c hc
    rw [← h2]
    simp only [List.mem_cons, List.not_mem_nil, or_false] at hc
    simp only [Rect.edges, edges, List.mem_flatten, List.mem_cons, List.not_mem_nil, or_false, exists_eq_or_imp,
      exists_eq_left, List.mem_map]
    rcases hc with rfl | rfl | rfl | rfl
    · exact Or.inl ⟨_, hfst _ _ _ (hpos _ _ _), rfl⟩
    · exact Or.inr (Or.inl ⟨_, hfst _ _ _ (hpos _ _ _), rfl⟩)
    · exact Or.inr (Or.inr (Or.inl ⟨_, hfst _ _ _ (hpos _ _ _), rfl⟩))
    · exact Or.inr (Or.inr (Or.inr ⟨_, hfst _ _ _ (hpos _ _ _), rfl⟩))

/-- **C55**: if no outline is found, every rectangle tried had an edge with a point without finite sky coordinates. -/
theorem C55_failed (fin : α × α → Bool) (ny nx : Nat) (box : Option ((α × α) × (α × α)))
    (h : outline fin ny nx box = none) :
    ∀ q ∈ (search fin (firstRect ny nx box) 0).1, ∃ e ∈ q.edges (α := α), ∃ p ∈ e, fin p = false := by
  simp only [outline, Option.map_eq_none_iff] at h
  exact (ru_search fin (firstRect ny nx box) 0 (by omega)).2.1 h

/-- **C55**: the search ends after at most as many rectangles as half the perimeter of the first one, which is tried
first unless it is degenerate; in particular, if the outline of the first rectangle is finite it is found. -/
theorem C55_terminates (fin : α × α → Bool) (ny nx : Nat) (box : Option ((α × α) × (α × α))) :
    ((search fin (firstRect ny nx box) 0).1.length : Int) ≤ max 0 (((nx : Int) - 1) + ((ny : Int) - 1)) ∧
    ((firstRect ny nx box).xmin < (firstRect ny nx box).xmax → (firstRect ny nx box).ymin < (firstRect ny nx box).ymax →
      (∀ e ∈ (firstRect ny nx box).edges (α := α), ∀ p ∈ e, fin p = true) →
      outline fin ny nx box = some (firstRect ny nx box, (firstRect ny nx box).edges.flatten)) := by
  constructor
  · have := (ru_search fin (firstRect ny nx box) 0 (by omega)).2.2.2.2
    refine this.trans ?_
    simp only [firstRect]
    omega
  · intro hx hy hf
    have : firstBad fin (firstRect ny nx box).edges 0 4 = none := by
      rcases hb : firstBad fin (firstRect ny nx box).edges 0 4 with _ | j
      · rfl
      · obtain ⟨-, e, he, p, hp, hbad⟩ := ru_firstBad_some fin (firstRect ny nx box) 4 0 j (by omega) hb
        rw [hf e he p hp] at hbad
        simp at hbad
    simp only [outline]
    rw [search, if_pos ⟨hx, hy⟩, this]
    rfl

/-- Specification: `b` is `a` with one side moved inwards by a pixel, a side on which some point has no finite sky
coordinates. -/
def RuMoved (fin : α × α → Bool) (a b : Rect) : Prop :=
  (b = ⟨a.xmin, a.xmax, a.ymin + 1, a.ymax⟩ ∧
    ∃ x : α, (a.xmin : α) ≤ x ∧ x ≤ a.xmax ∧ fin (x, (a.ymin : α)) = false) ∨
  (b = ⟨a.xmin, a.xmax - 1, a.ymin, a.ymax⟩ ∧
    ∃ y : α, (a.ymin : α) ≤ y ∧ y ≤ a.ymax ∧ fin ((a.xmax : α), y) = false) ∨
  (b = ⟨a.xmin, a.xmax, a.ymin, a.ymax - 1⟩ ∧
    ∃ x : α, (a.xmin : α) ≤ x ∧ x ≤ a.xmax ∧ fin (x, (a.ymax : α)) = false) ∨
  (b = ⟨a.xmin + 1, a.xmax, a.ymin, a.ymax⟩ ∧
    ∃ y : α, (a.ymin : α) ≤ y ∧ y ≤ a.ymax ∧ fin ((a.xmin : α), y) = false)

theorem ru_firstBad_edge (fin : α × α → Bool) (es : List (List (α × α))) (n : Nat) : ∀ k j, k < 4 →
    firstBad fin es k n = some j → j < 4 ∧ ∃ p ∈ es.getD j [], fin p = false := by
  induction n with
  | zero => intro k j _ h; simp [firstBad] at h
  | succ n ih =>
    intro k j hk h
    simp only [firstBad] at h
    split at h
    · exact ih _ j (Nat.mod_lt _ (by omega)) h
    · rename_i hb
      injection h with h
      subst h
      simp only [Bool.not_eq_true, List.all_eq_false] at hb
      obtain ⟨p, hp, hfp⟩ := hb
      exact ⟨hk, p, hp, by simpa using hfp⟩

theorem ru_moved (fin : α × α → Bool) (r : Rect) (hx : r.xmin < r.xmax) (hy : r.ymin < r.ymax) (k j : Nat) (hk : k < 4)
    (h : firstBad fin r.edges k 4 = some j) : RuMoved fin r (r.shrink j) := by
  have hx' : (r.xmin : α) ≤ r.xmax := by exact_mod_cast hx.le
  have hy' : (r.ymin : α) ≤ r.ymax := by exact_mod_cast hy.le
  obtain ⟨hj, p, hp, hf⟩ := ru_firstBad_edge fin r.edges 4 k j hk h
  have hj : j = 0 ∨ j = 1 ∨ j = 2 ∨ j = 3 := by omega
  rcases hj with rfl | rfl | rfl | rfl
  all_goals
    simp only [Rect.edges, edges, List.getD_cons_zero, List.getD_cons_succ] at hp
    obtain ⟨t, ht, rfl⟩ := List.mem_map.1 hp
    have := ru_linspace_mem _ _ _ _ ht
    simp only [min_eq_left hx', max_eq_right hx', min_eq_left hy', max_eq_right hy', min_eq_right hx', max_eq_left hx',
      min_eq_right hy', max_eq_left hy'] at this
  · exact Or.inl ⟨rfl, t, this.1, this.2, hf⟩
  · exact Or.inr (Or.inl ⟨rfl, t, this.1, this.2, hf⟩)
  · exact Or.inr (Or.inr (Or.inl ⟨rfl, t, this.1, this.2, hf⟩))
  · exact Or.inr (Or.inr (Or.inr ⟨rfl, t, this.1, this.2, hf⟩))

theorem ru_search_chain (fin : α × α → Bool) (r : Rect) (k : Nat) (hk : k < 4) :
    List.IsChain (RuMoved fin) (search fin r k).1 ∧ (∀ a ∈ (search fin r k).1.head?, a = r) ∧
    (∀ q, (search fin r k).2 = some q → (search fin r k).1.getLast? = some q) := by
  induction hd : ((r.xmax - r.xmin) + (r.ymax - r.ymin)).toNat using Nat.strong_induction_on generalizing r k with
  | _ d ih =>
    rw [search]
    by_cases hc : r.xmin < r.xmax ∧ r.ymin < r.ymax
    · rw [if_pos hc]
      rcases hb : firstBad fin r.edges k 4 with _ | j
      · simp
      · have hm := ru_moved fin r hc.1 hc.2 k j hk hb
        have hsh : (r.shrink j).xmax - (r.shrink j).xmin + ((r.shrink j).ymax - (r.shrink j).ymin) =
            (r.xmax - r.xmin) + (r.ymax - r.ymin) - 1 := by
          simp only [Rect.shrink]
          split <;> simp only <;> omega
        obtain ⟨i1, i2, i3⟩ := ih _ (by omega) (r.shrink j) ((j + 1) % 4) (Nat.mod_lt _ (by omega)) rfl
        simp only
        refine ⟨?_, by simp, ?_⟩
        · rw [List.isChain_cons]
          refine ⟨?_, i1⟩
          intro y hy
          rw [i2 y hy]
          exact hm
        · intro q hq
          rw [List.getLast?_cons, i3 q hq]
          rfl
    · rw [if_neg hc]
      simp

/-- **C55**: the rectangles tried: from one to the next a single side moves inwards by one pixel, and some point of that
side has no finite sky coordinates.  The rectangle found is the last one tried. -/
theorem C55_moves (fin : α × α → Bool) (ny nx : Nat) (box : Option ((α × α) × (α × α))) :
    List.IsChain (RuMoved fin) (search fin (firstRect ny nx box) 0).1 ∧
    (∀ a ∈ (search fin (firstRect ny nx box) 0).1.head?, a = firstRect ny nx box) ∧
    (∀ r pts, outline fin ny nx box = some (r, pts) → (search fin (firstRect ny nx box) 0).1.getLast? = some r) := by
  obtain ⟨a, b, c⟩ := ru_search_chain fin (firstRect ny nx box) 0 (by omega)
  refine ⟨a, b, ?_⟩
  intro r pts h
  simp only [outline, Option.map_eq_some_iff] at h
  obtain ⟨q, hq, hqr⟩ := h
  injection hqr with h1 _
  subst h1
  exact c q hq

/-- **C55**: the first rectangle tried is the whole image without a bounding box.  With a box whose upper ends
are at least 1/2 it consists of the pixels whose upper edge is in the box, `x1 < i + 1/2 ≤ x2`, in whichever
order the box gives its ends. -/
theorem C55_start (ny nx : Nat) :
    (firstRect (α := α) ny nx none = ⟨0, nx - 1, 0, ny - 1⟩ ∨ nx = 0 ∨ ny = 0) ∧
    ∀ x1 x2 y1 y2 : α, 1 / 2 ≤ max x1 x2 → 1 / 2 ≤ max y1 y2 → ∀ i : Int, 0 ≤ i →
      (((firstRect ny nx (some ((x1, x2), (y1, y2)))).xmin ≤ i ∧ i ≤ (firstRect ny nx (some ((x1, x2), (y1, y2)))).xmax) ↔
        (i < nx ∧ min x1 x2 < i + 1 / 2 ∧ (i : α) + 1 / 2 ≤ max x1 x2)) ∧
      (((firstRect ny nx (some ((x1, x2), (y1, y2)))).ymin ≤ i ∧ i ≤ (firstRect ny nx (some ((x1, x2), (y1, y2)))).ymax) ↔
        (i < ny ∧ min y1 y2 < i + 1 / 2 ∧ (i : α) + 1 / 2 ≤ max y1 y2)) := by
  have axis : ∀ (n : Nat) (x1 x2 : α), 1 / 2 ≤ x2 → ∀ i : Int, 0 ≤ i →
      ((max 0 (trunc (x1 + 1 / 2)) ≤ i ∧ i ≤ min ((n : Int) - 1) (trunc (x2 - 1 / 2))) ↔
        (i < n ∧ x1 < i + 1 / 2 ∧ (i : α) + 1 / 2 ≤ x2)) := by
    intro n x1 x2 h2 i hi
    have e1 : trunc (x1 + 1 / 2) ≤ i ↔ x1 < i + 1 / 2 := by
      rw [ru_trunc_le _ _ hi]
      constructor <;> intro h <;> linarith
    have e2 : i ≤ trunc (x2 - 1 / 2) ↔ (i : α) + 1 / 2 ≤ x2 := by
      have h0 : (0 : α) ≤ x2 - 1 / 2 := by linarith
      simp only [trunc, if_pos h0, Int.le_floor]
      constructor <;> intro h <;> linarith
    rw [max_le_iff, le_min_iff, e1, e2]
    constructor
    · rintro ⟨⟨-, b⟩, c, d⟩
      exact ⟨by omega, b, d⟩
    · rintro ⟨a, b, c⟩
      exact ⟨⟨hi, b⟩, by omega, c⟩
  constructor
  · by_cases hx : nx = 0
    · exact Or.inr (Or.inl hx)
    by_cases hy : ny = 0
    · exact Or.inr (Or.inr hy)
    left
    have whole : ∀ n : Nat, n ≠ 0 → min (-(1 / 2) : α) ((n : α) - 1 / 2) + 1 / 2 = 0 ∧
        max (-(1 / 2) : α) ((n : α) - 1 / 2) - 1 / 2 = ((n : Int) - 1 : Int) ∧ (0 : α) ≤ ((n : Int) - 1 : Int) := by
      intro n hn
      have : (1 : α) ≤ n := by exact_mod_cast (by omega : 1 ≤ n)
      rw [min_eq_left (by linarith), max_eq_right (by linarith)]
      push_cast
      refine ⟨by ring, by ring, by linarith⟩
    obtain ⟨a, b, c⟩ := whole nx hx
    obtain ⟨a', b', c'⟩ := whole ny hy
    simp only [firstRect, Option.getD_none, a, b, a', b', trunc, if_pos c, if_pos c', le_refl, if_true, Int.floor_zero,
      Int.floor_intCast, min_self, max_self]
  · intro x1 x2 y1 y2 hx hy i hi
    exact ⟨axis nx _ _ hx i hi, axis ny _ _ hy i hi⟩

example : firstRect (α := ℚ) 6 7 (some ((5, 3 / 2), (-3, 20))) = ⟨2, 4, 0, 5⟩ := by decide +kernel

/-! ### Spacing of the points -/

/-- Specification: two points at most `d` apart along an axis. -/
def RuNear (d : α) (p q : α × α) : Prop := |p.1 - q.1| + |p.2 - q.2| ≤ d

theorem ru_edgeCount (lo hi : Int) (h : lo < hi) :
    ((hi : α) - lo) / (edgeCount lo hi (min ((hi - lo) / 4) 15) : α) ≤ 15 ∧ 0 < edgeCount lo hi (min ((hi - lo) / 4) 15) := by
  have hpos : 0 < edgeCount lo hi (min ((hi - lo) / 4) 15) := by
    simp only [edgeCount]
    omega
  refine ⟨?_, hpos⟩
  have hc : (0 : α) < (edgeCount lo hi (min ((hi - lo) / 4) 15) : α) := by exact_mod_cast hpos
  rw [div_le_iff₀ hc]
  have key : hi - lo ≤ 15 * (edgeCount lo hi (min ((hi - lo) / 4) 15) : Int) := by
    simp only [edgeCount]
    by_cases hd : min ((hi - lo) / 4) 15 ≤ 0
    · have : hi - lo < 4 := by omega
      omega
    · rw [if_neg hd]
      push Not at hd
      generalize hdd : min ((hi - lo) / 4) 15 = d at *
      have hd15 : d ≤ 15 := by omega
      have hq : (0 : ℚ) < d := by exact_mod_cast hd
      have h1 : ((hi - lo + 1 : Int) : ℚ) / d ≤ (⌈((hi - lo + 1 : Int) : ℚ) / d⌉ : Int) := Int.le_ceil _
      rw [div_le_iff₀ hq] at h1
      have h2 : hi - lo + 1 ≤ ⌈((hi - lo + 1 : Int) : ℚ) / d⌉ * d := by exact_mod_cast h1
      generalize ⌈((hi - lo + 1 : Int) : ℚ) / d⌉ = c at *
      have hc0 : 0 < c := by
        by_contra hcn
        push Not at hcn
        have : c * d ≤ 0 := mul_nonpos_of_nonpos_of_nonneg hcn hd.le
        omega
      have h3 : c * d ≤ c * 15 := mul_le_mul_of_nonneg_left hd15 hc0.le
      have h4 : ((max 1 c).toNat : Int) = c := by omega
      rw [h4]
      omega
  exact_mod_cast key

theorem ru_linspace_chain (f : α → α × α) (a b d : α) (n : Nat) (hn : 0 < n)
    (hf : ∀ s t, RuNear |s - t| (f s) (f t)) (hd : |b - a| / n ≤ d) :
    List.IsChain (RuNear d) ((linspace a b n).map f ++ [f b]) := by
  have hn' : (0 : α) < n := by exact_mod_cast hn
  have e : (linspace a b n).map f ++ [f b] = (List.range (n + 1)).map fun (i : Nat) => f (a + (i : α) * ((b - a) / n)) := by
    rw [List.range_succ, List.map_append, linspace, List.map_map]
    congr 1
    simp only [List.map_cons, List.map_nil]
    congr 2
    field_simp
    ring
  rw [e, List.isChain_map]
  rw [List.isChain_iff_getElem]
  intro i hi
  simp only [List.getElem_range]
  refine le_trans (hf _ _) ?_
  have : a + (i : α) * ((b - a) / n) - (a + ((i + 1 : Nat) : α) * ((b - a) / n)) = -((b - a) / n) := by
    push_cast
    ring
  rw [this, abs_neg, abs_div, abs_of_pos hn']
  exact hd

theorem ru_linspace_cons (a b : α) (n : Nat) (hn : 0 < n) : ∃ t, linspace a b n = a :: t := by
  obtain ⟨m, rfl⟩ : ∃ m, n = m + 1 := ⟨n - 1, by omega⟩
  simp only [linspace, List.range_succ_eq_map, List.map_cons]
  exact ⟨_, by rw [Nat.cast_zero, zero_mul, add_zero]⟩

/-- **C80**: neighbouring points of the outline, the last and the first included, are at most 15 pixels apart. -/
theorem C80_spacing (fin : α × α → Bool) (ny nx : Nat) (box : Option ((α × α) × (α × α))) (r : Rect) (pts : List (α × α))
    (h : outline fin ny nx box = some (r, pts)) :
    List.IsChain (RuNear 15) (pts ++ [((r.xmin : α), (r.ymin : α))]) ∧ pts.head? = some ((r.xmin : α), (r.ymin : α)) := by
  have hfound := C55_found fin ny nx box r pts h
  obtain ⟨-, hx, -, -, hy, -, -, -⟩ := hfound
  simp only [outline, Option.map_eq_some_iff] at h
  obtain ⟨q, hq, hqr⟩ := h
  injection hqr with h1 h2
  subst h1
  rw [← h2]
  simp only [Rect.edges, edges, List.flatten_cons, List.flatten_nil, List.append_nil]
  obtain ⟨sx, px⟩ := ru_edgeCount (α := α) q.xmin q.xmax hx
  obtain ⟨sy, py⟩ := ru_edgeCount (α := α) q.ymin q.ymax hy
  generalize edgeCount q.xmin q.xmax _ = cx at *
  generalize edgeCount q.ymin q.ymax _ = cy at *
  have hx' : (q.xmin : α) ≤ q.xmax := by exact_mod_cast hx.le
  have hy' : (q.ymin : α) ≤ q.ymax := by exact_mod_cast hy.le
  have fx : ∀ c s t : α, RuNear |s - t| (s, c) (t, c) := by intro c s t; simp [RuNear]
  have fy : ∀ c s t : α, RuNear |s - t| (c, s) (c, t) := by intro c s t; simp [RuNear]
  have c1 := ru_linspace_chain (fun x => (x, (q.ymin : α))) q.xmin q.xmax 15 cx px (fx _)
    (by rw [abs_of_nonneg (by linarith)]; exact sx)
  have c2 := ru_linspace_chain (fun y => ((q.xmax : α), y)) q.ymin q.ymax 15 cy py (fy _)
    (by rw [abs_of_nonneg (by linarith)]; exact sy)
  have c3 := ru_linspace_chain (fun x => (x, (q.ymax : α))) q.xmax q.xmin 15 cx px (fx _)
    (by rw [abs_sub_comm, abs_of_nonneg (by linarith)]; exact sx)
  have c4 := ru_linspace_chain (fun y => ((q.xmin : α), y)) q.ymax q.ymin 15 cy py (fy _)
    (by rw [abs_sub_comm, abs_of_nonneg (by linarith)]; exact sy)
  obtain ⟨t1, e1⟩ := ru_linspace_cons (q.xmin : α) q.xmax cx px
  obtain ⟨t2, e2⟩ := ru_linspace_cons (q.ymin : α) q.ymax cy py
  obtain ⟨t3, e3⟩ := ru_linspace_cons (q.xmax : α) q.xmin cx px
  obtain ⟨t4, e4⟩ := ru_linspace_cons (q.ymax : α) q.ymin cy py
  rw [e1] at c1 ⊢
  rw [e2] at c2 ⊢
  rw [e3] at c3 ⊢
  rw [e4] at c4 ⊢
  refine ⟨?_, by simp⟩
  simp only [List.map_cons, List.append_assoc, List.cons_append] at *
  rw [← List.cons_append, List.isChain_split]
  refine ⟨c1, ?_⟩
  rw [← List.cons_append, List.isChain_split]
  refine ⟨c2, ?_⟩
  rw [← List.cons_append, List.isChain_split]
  exact ⟨c3, c4⟩

/-- An image with a column without sky coordinates at its left edge. -/
def ruFin (p : ℚ × ℚ) : Bool := decide (1 / 2 < p.1)

/-- The rectangle is shrunk at the bottom and at the left before it is found. -/
example : ∃ pts, outline ruFin 6 7 none = some (⟨1, 6, 1, 5⟩, pts) := by
  have h : (search ruFin (firstRect (α := ℚ) 6 7 none) 0).2 = some ⟨1, 6, 1, 5⟩ := by
    rw [show firstRect (α := ℚ) 6 7 none = ⟨0, 6, 0, 5⟩ by decide +kernel]
    rw [search, if_pos (by decide), show firstBad ruFin (Rect.edges ⟨0, 6, 0, 5⟩) 0 4 = some 0 by decide +kernel]
    simp only [Rect.shrink]
    rw [search, if_pos (by decide), show firstBad ruFin (Rect.edges ⟨0, 6, 0 + 1, 5⟩) ((0 + 1) % 4) 4 = some 3 by decide +kernel]
    simp only [Rect.shrink]
    rw [search, if_pos (by decide),
      show firstBad ruFin (Rect.edges ⟨0 + 1, 6, 0 + 1, 5⟩) ((3 + 1) % 4) 4 = none by decide +kernel]
    rfl
  exact ⟨_, by rw [outline, h]; rfl⟩

/-- No outline is found. -/
example : outline (fun p : ℚ × ℚ => decide (p.1 < 1)) 2 3 none = none := by
  have h : (search (fun p : ℚ × ℚ => decide (p.1 < 1)) (firstRect (α := ℚ) 2 3 none) 0).2 = none := by
    rw [show firstRect (α := ℚ) 2 3 none = ⟨0, 2, 0, 1⟩ by decide +kernel]
    rw [search, if_pos (by decide),
      show firstBad (fun p : ℚ × ℚ => decide (p.1 < 1)) (Rect.edges ⟨0, 2, 0, 1⟩) 0 4 = some 1 by decide +kernel]
    simp only [Rect.shrink]
    rw [search, if_pos (by decide),
      show firstBad (fun p : ℚ × ℚ => decide (p.1 < 1)) (Rect.edges ⟨0, 2 - 1, 0, 1⟩) ((1 + 1) % 4) 4 = some 2 by
        decide +kernel]
    simp only [Rect.shrink]
    rw [search, if_neg (by decide)]
  rw [outline, h]
  rfl

end Range

end Verif.Thm
