import Verif.Model.Region
import Verif.Thm.Snowball
import Mathlib.Analysis.Real.Pi.Bounds

/-! # The ellipse of a region of flagged pixels (C163) -/

namespace Verif.Thm

open Verif.Snowball Verif.Region

/-- The mean square of the offsets of the pixels of a region from their centroid along the direction `(x, y)` (row,
column). -/
noncomputable def rgSpread (g : Reg) (x y : ℝ) : ℝ :=
  (g.pixels.map fun p =>
    (x * ((p.1 : ℝ) - (g.pixels.map fun q => (q.1 : ℝ)).sum / g.pixels.length)
      + y * ((p.2 : ℝ) - (g.pixels.map fun q => (q.2 : ℝ)).sum / g.pixels.length)) ^ 2).sum / g.pixels.length

theorem rg_spread (g : Reg) (x y : ℝ) :
    rgSpread g x y = x ^ 2 * (inertia g).2.2 - 2 * x * y * (inertia g).2.1 + y ^ 2 * (inertia g).1 := by
  simp only [rgSpread, inertia, mean, centroid]
  generalize (g.pixels.map fun q => (q.1 : ℝ)).sum / g.pixels.length = m
  generalize (g.pixels.map fun q => (q.2 : ℝ)).sum / g.pixels.length = n
  have : ∀ l : List (Nat × Nat), (l.map fun p => (x * ((p.1 : ℝ) - m) + y * ((p.2 : ℝ) - n)) ^ 2).sum
      = x ^ 2 * (l.map fun p => ((p.1 : ℝ) - m) ^ 2).sum
        + 2 * x * y * (l.map fun p => ((p.1 : ℝ) - m) * ((p.2 : ℝ) - n)).sum
        + y ^ 2 * (l.map fun p => ((p.2 : ℝ) - n) ^ 2).sum := by
    intro l
    induction l with
    | nil => simp
    | cons p l ih => simp only [List.map_cons, List.sum_cons, ih]; ring
  rw [this]
  ring

theorem rg_eig (t : ℝ × ℝ × ℝ) :
    (eigvals t).1 + (eigvals t).2 = t.1 + t.2.2
    ∧ (eigvals t).1 - (eigvals t).2 = Real.sqrt ((t.1 - t.2.2) ^ 2 + 4 * t.2.1 ^ 2) := by
  constructor <;> (simp only [eigvals]; ring)

/-- The double angle of the orientation. -/
theorem rg_double (t : ℝ × ℝ × ℝ) :
    Real.sqrt ((t.1 - t.2.2) ^ 2 + 4 * t.2.1 ^ 2) * Real.cos (2 * orientation t) = t.2.2 - t.1
    ∧ Real.sqrt ((t.1 - t.2.2) ^ 2 + 4 * t.2.1 ^ 2) * Real.sin (2 * orientation t) = -2 * t.2.1 := by
  obtain ⟨a, b, c⟩ := t
  simp only [orientation]
  by_cases h : a - c = 0
  · rw [if_pos h]
    have hd : Real.sqrt ((a - c) ^ 2 + 4 * b ^ 2) = 2 * |b| := by
      rw [h]
      have : (0 : ℝ) ^ 2 + 4 * b ^ 2 = (2 * |b|) ^ 2 := by rw [mul_pow, sq_abs]; ring
      rw [this, Real.sqrt_sq (by positivity)]
    rw [hd]
    by_cases hb : b < 0
    · rw [if_pos hb, abs_of_neg hb]
      have : 2 * (Real.pi / 4) = Real.pi / 2 := by ring
      rw [this, Real.cos_pi_div_two, Real.sin_pi_div_two]
      constructor <;> linarith
    · rw [if_neg hb, abs_of_nonneg (not_lt.1 hb)]
      have : 2 * -(Real.pi / 4) = -(Real.pi / 2) := by ring
      rw [this, Real.cos_neg, Real.sin_neg, Real.cos_pi_div_two, Real.sin_pi_div_two]
      constructor <;> linarith
  · rw [if_neg h]
    have e : 2 * (Complex.arg ⟨c - a, -2 * b⟩ / 2) = Complex.arg ⟨c - a, -2 * b⟩ := by ring
    have hn : Real.sqrt ((a - c) ^ 2 + 4 * b ^ 2) = ‖(⟨c - a, -2 * b⟩ : ℂ)‖ := by
      rw [Complex.norm_def, Complex.normSq_mk]
      congr 1
      ring
    rw [e, hn, Complex.norm_mul_cos_arg, Complex.norm_mul_sin_arg]
    exact ⟨rfl, rfl⟩

/-- Along the orientation the quadratic form has the larger eigenvalue, across it the smaller one; every direction is between. -/
theorem rg_form (t : ℝ × ℝ × ℝ) (x y : ℝ) :
    let θ := orientation t
    x ^ 2 * t.2.2 - 2 * x * y * t.2.1 + y ^ 2 * t.1
      = (eigvals t).1 * (x * Real.cos θ + y * Real.sin θ) ^ 2 + (eigvals t).2 * (x * Real.sin θ - y * Real.cos θ) ^ 2 := by
  intro θ
  obtain ⟨h1, h2⟩ := rg_double t
  obtain ⟨e1, e2⟩ := rg_eig t
  generalize hD : Real.sqrt ((t.1 - t.2.2) ^ 2 + 4 * t.2.1 ^ 2) = D at h1 h2 e2
  have hc : Real.cos (2 * orientation t) = 2 * Real.cos θ ^ 2 - 1 := Real.cos_two_mul _
  have hs : Real.sin (2 * orientation t) = 2 * Real.sin θ * Real.cos θ := Real.sin_two_mul _
  have hp : Real.sin θ ^ 2 = 1 - Real.cos θ ^ 2 := by linarith [Real.sin_sq_add_cos_sq θ]
  rw [hc] at h1
  rw [hs] at h2
  have l1 : (eigvals t).1 = (t.1 + t.2.2 + D) / 2 := by linarith
  have l2 : (eigvals t).2 = (t.1 + t.2.2 - D) / 2 := by linarith
  rw [l1, l2]
  have hb : t.2.1 = -(D * (Real.sin θ * Real.cos θ)) := by linarith
  have ha : t.1 = t.2.2 - D * (2 * Real.cos θ ^ 2 - 1) := by linarith
  rw [hb, ha]
  generalize Real.cos θ = c at *
  generalize Real.sin θ = s at *
  linear_combination ((D * c ^ 2 - t.2.2 - D / 2) * (x ^ 2 + y ^ 2) - D / 2 * (y ^ 2 - x ^ 2)) * hp

theorem rg_eig_le (t : ℝ × ℝ × ℝ) : (eigvals t).2 ≤ (eigvals t).1 := by
  have := (rg_eig t).2
  have := Real.sqrt_nonneg ((t.1 - t.2.2) ^ 2 + 4 * t.2.1 ^ 2)
  linarith

theorem rg_spread_nonneg (g : Reg) (x y : ℝ) : 0 ≤ rgSpread g x y := by
  unfold rgSpread
  refine div_nonneg (List.sum_nonneg fun v hv => ?_) (Nat.cast_nonneg _)
  obtain ⟨p, -, rfl⟩ := List.mem_map.1 hv
  positivity

theorem rg_form' (g : Reg) (x y : ℝ) :
    rgSpread g x y = (eigvals (inertia g)).1 * (x * Real.cos (orientation (inertia g)) + y * Real.sin (orientation (inertia g))) ^ 2
      + (eigvals (inertia g)).2 * (x * Real.sin (orientation (inertia g)) - y * Real.cos (orientation (inertia g))) ^ 2 := by
  rw [rg_spread, rg_form]

theorem rg_eig_spread (g : Reg) :
    rgSpread g (Real.cos (orientation (inertia g))) (Real.sin (orientation (inertia g))) = (eigvals (inertia g)).1
    ∧ rgSpread g (Real.sin (orientation (inertia g))) (-Real.cos (orientation (inertia g))) = (eigvals (inertia g)).2 := by
  have hp := Real.sin_sq_add_cos_sq (orientation (inertia g))
  rw [rg_form', rg_form']
  generalize Real.cos (orientation (inertia g)) = c at *
  generalize Real.sin (orientation (inertia g)) = s at *
  have e1 : c * c + s * s = 1 := by linarith [hp, sq c, sq s]
  have e2 : s * s - -c * c = 1 := by linarith [hp, sq c, sq s]
  constructor
  · rw [e1]; ring
  · rw [e2]; ring

/-- The angle of an ellipse in radians. -/
noncomputable def rgAngle (el : Ellipse ℝ) : ℝ := el.theta * (Real.pi / 180)

theorem rg_angle (g : Reg) : rgAngle (ellipseOf g) = orientation (inertia g) := by
  simp only [rgAngle, ellipseOf]
  have := Real.pi_ne_zero
  field_simp

theorem rg_axes (g : Reg) :
    ((ellipseOf g).ax1 + 1) ^ 2 = 16 * (eigvals (inertia g)).1 ∧ ((ellipseOf g).ax0 + 1) ^ 2 = 16 * (eigvals (inertia g)).2 := by
  have h1 : 0 ≤ (eigvals (inertia g)).1 := by rw [← (rg_eig_spread g).1]; exact rg_spread_nonneg _ _ _
  have h2 : 0 ≤ (eigvals (inertia g)).2 := by rw [← (rg_eig_spread g).2]; exact rg_spread_nonneg _ _ _
  simp only [ellipseOf, max_eq_left h1, max_eq_left h2, sub_add_cancel, mul_pow, Real.sq_sqrt h1, Real.sq_sqrt h2]
  constructor <;> norm_num

/-- The ellipse of a region describes its pixels: its centre is their mean position, inside their bounding box; the second axis
length is the longer one; the angle, measured from the direction of the rows towards that of the columns, is the direction
in which the pixels spread most, and the axis lengths are four times the root mean square offsets along and across that
direction, less one. -/
theorem C163_describes (g : Reg) (hne : g.pixels ≠ []) :
    let el := ellipseOf g
    (el.cy * g.pixels.length = (g.pixels.map fun p => (p.1 : ℝ)).sum
      ∧ el.cx * g.pixels.length = (g.pixels.map fun p => (p.2 : ℝ)).sum)
    ∧ (∀ r0 r1 c0 c1 : Nat, (∀ p ∈ g.pixels, r0 ≤ p.1 ∧ p.1 ≤ r1 ∧ c0 ≤ p.2 ∧ p.2 ≤ c1) →
      (r0 : ℝ) ≤ el.cy ∧ el.cy ≤ r1 ∧ (c0 : ℝ) ≤ el.cx ∧ el.cx ≤ c1)
    ∧ -1 ≤ el.ax0 ∧ el.ax0 ≤ el.ax1
    ∧ (∀ x y : ℝ, x ^ 2 + y ^ 2 = 1 → rgSpread g x y ≤ rgSpread g (Real.cos (rgAngle el)) (Real.sin (rgAngle el))
      ∧ rgSpread g (Real.sin (rgAngle el)) (-Real.cos (rgAngle el)) ≤ rgSpread g x y)
    ∧ (el.ax1 + 1) ^ 2 = 16 * rgSpread g (Real.cos (rgAngle el)) (Real.sin (rgAngle el))
    ∧ (el.ax0 + 1) ^ 2 = 16 * rgSpread g (Real.sin (rgAngle el)) (-Real.cos (rgAngle el)) := by
  intro el
  have hl : (0 : ℝ) < g.pixels.length := by
    have := List.length_pos_iff.2 hne
    exact_mod_cast this
  have hb : ∀ (f : Nat × Nat → Nat) (a b : Nat), (∀ p ∈ g.pixels, a ≤ f p ∧ f p ≤ b) →
      (a : ℝ) ≤ mean g (fun p => (f p : ℝ)) ∧ mean g (fun p => (f p : ℝ)) ≤ b := by
    intro f a b h
    have key : ∀ l : List (Nat × Nat), (∀ p ∈ l, a ≤ f p ∧ f p ≤ b) →
        (a : ℝ) * l.length ≤ (l.map fun p => (f p : ℝ)).sum ∧ (l.map fun p => (f p : ℝ)).sum ≤ b * l.length := by
      intro l
      induction l with
      | nil => intro _; simp
      | cons p l ih =>
        intro h
        obtain ⟨i1, i2⟩ := ih fun q hq => h q (List.mem_cons_of_mem _ hq)
        obtain ⟨j1, j2⟩ := h p (List.mem_cons_self ..)
        have j1' : (a : ℝ) ≤ f p := by exact_mod_cast j1
        have j2' : (f p : ℝ) ≤ b := by exact_mod_cast j2
        simp only [List.map_cons, List.sum_cons, List.length_cons, Nat.cast_add, Nat.cast_one]
        constructor <;> linarith
    obtain ⟨k1, k2⟩ := key _ h
    unfold mean
    exact ⟨(le_div_iff₀ hl).2 k1, (div_le_iff₀ hl).2 k2⟩
  have hA := rg_eig_spread g
  have h2 : 0 ≤ (eigvals (inertia g)).2 := by rw [← hA.2]; exact rg_spread_nonneg _ _ _
  have h12 := rg_eig_le (inertia g)
  refine ⟨⟨div_mul_cancel₀ _ hl.ne', div_mul_cancel₀ _ hl.ne'⟩, fun r0 r1 c0 c1 h => ?_, ?_, ?_, fun x y hxy => ?_, ?_, ?_⟩
  · obtain ⟨a1, a2⟩ := hb (fun p => p.1) r0 r1 fun p hp => ⟨(h p hp).1, (h p hp).2.1⟩
    obtain ⟨b1, b2⟩ := hb (fun p => p.2) c0 c1 fun p hp => ⟨(h p hp).2.2.1, (h p hp).2.2.2⟩
    exact ⟨a1, a2, b1, b2⟩
  · have : (0 : ℝ) ≤ 4 * Real.sqrt (max (eigvals (inertia g)).2 0) := by positivity
    simp only [el, ellipseOf]; linarith
  · simp only [el, ellipseOf]
    have := Real.sqrt_le_sqrt (max_le_max_right 0 h12)
    linarith
  · rw [rg_angle, hA.1, hA.2, rg_form']
    have hp := Real.sin_sq_add_cos_sq (orientation (inertia g))
    generalize Real.cos (orientation (inertia g)) = c at *
    generalize Real.sin (orientation (inertia g)) = s at *
    have e : (x * c + y * s) ^ 2 + (x * s - y * c) ^ 2 = 1 := by
      linear_combination (x ^ 2 + y ^ 2) * hp + hxy
    have u1 := sq_nonneg (x * c + y * s)
    have u2 := sq_nonneg (x * s - y * c)
    constructor <;> nlinarith
  · rw [rg_angle, hA.1]; exact (rg_axes g).1
  · rw [rg_angle, hA.2]; exact (rg_axes g).2

/-- Exactly the regions whose area, with holes filled, reaches the minimum are returned. -/
theorem C163_area (label : Verif.Jump.Img Nat → List Reg) (plane : Verif.Jump.Img Nat) (m : Nat) (minArea : ℝ) (el : Ellipse ℝ) :
    (el ∈ findEllipses label plane (some m) minArea ↔
      ∃ g ∈ label (fun r c => plane r c &&& m), minArea ≤ g.filled ∧ el = ellipseOf g)
    ∧ (el ∈ findEllipses label plane none minArea ↔ ∃ g ∈ label plane, minArea ≤ g.filled ∧ el = ellipseOf g) := by
  have key : ∀ l : List Reg, el ∈ filterAreas l minArea ↔ ∃ g ∈ l, minArea ≤ g.filled ∧ el = ellipseOf g := by
    intro l
    simp only [filterAreas, List.mem_filterMap]
    refine exists_congr fun g => and_congr_right fun _ => ?_
    split
    · rename_i h; simp [not_le.2 h]
    · rename_i h; simp [not_lt.1 h, eq_comm]
  exact ⟨key _, key _⟩

/-- The environment with the real trigonometric functions of an angle in degrees. -/
def RgReal (e : Env ℝ) : Prop :=
  (∀ x, e.cos x = Real.cos (x * (Real.pi / 180))) ∧ ∀ x, e.sin x = Real.sin (x * (Real.pi / 180))

/-- Specification: the point with column `px` and row `py` lies in the ellipse of a region: with `u` its offset from the centre
along the direction of the angle (from the rows towards the columns) and `v` across, `(2u/ax1)² + (2v/ax0)² ≤ 1`. -/
def RgInside (px py : ℝ) (el : Ellipse ℝ) : Prop :=
  let u := (py - el.cy) * Real.cos (rgAngle el) + (px - el.cx) * Real.sin (rgAngle el)
  let v := (py - el.cy) * Real.sin (rgAngle el) - (px - el.cx) * Real.cos (rgAngle el)
  el.ax0 ≠ 0 ∧ el.ax1 ≠ 0 ∧ (2 * u / el.ax1) ^ 2 + (2 * v / el.ax0) ^ 2 ≤ 1

/-- The drawing follows the region: its pixels are those within the ellipse with the direction of the region's spread as long axis. -/
theorem C163_drawn_aligned (e : Env ℝ) (he : RgReal e) (el : Ellipse ℝ) (axis1 axis2 : ℝ) (nrows ncols : Nat)
    (h0 : 0 < e.rnd (axis1 / 2)) (h1 : 0 < e.rnd (axis2 / 2)) (r c : Nat) :
    drawn e el axis1 axis2 nrows ncols r c = true ↔
      r < nrows ∧ c < ncols ∧
      ∃ u v : ℝ, ((r : ℝ) - e.rnd el.cy = u * Real.cos (rgAngle el) + v * Real.sin (rgAngle el))
        ∧ ((c : ℝ) - e.rnd el.cx = u * Real.sin (rgAngle el) - v * Real.cos (rgAngle el))
        ∧ (u / e.rnd (axis2 / 2)) ^ 2 + (v / e.rnd (axis1 / 2)) ^ 2 < 1 := by
  have hcs : e.cos el.theta ^ 2 + e.sin el.theta ^ 2 = 1 := by
    rw [he.1, he.2]; exact Real.cos_sq_add_sin_sq _
  rw [C68_subimage_exact e el axis1 axis2 nrows ncols h0.le h1.le hcs]
  refine and_congr_right fun _ => and_congr_right fun _ => ?_
  have hp := Real.sin_sq_add_cos_sq (rgAngle el)
  have ec : e.cos el.theta = Real.cos (rgAngle el) := he.1 _
  have es : e.sin el.theta = Real.sin (rgAngle el) := he.2 _
  simp only [Covers, h0, h1, true_and, ec, es]
  push_cast
  generalize (r : ℝ) - (e.rnd el.cy : ℝ) = dr
  generalize (c : ℝ) - (e.rnd el.cx : ℝ) = dc
  generalize Real.cos (rgAngle el) = cs at *
  generalize Real.sin (rgAngle el) = sn at *
  constructor
  · intro h
    refine ⟨dr * cs + dc * sn, dr * sn - dc * cs, ?_, ?_, h⟩
    · linear_combination (-dr) * hp
    · linear_combination (-dc) * hp
  · rintro ⟨u, v, rfl, rfl, h⟩
    have e1 : (u * cs + v * sn) * cs + (u * sn - v * cs) * sn = u := by linear_combination u * hp
    have e2 : (u * cs + v * sn) * sn - (u * sn - v * cs) * cs = v := by linear_combination v * hp
    rw [e1, e2]; exact h

/-- The test whether a point lies in the ellipse of a region uses the mirror image of the ellipse about the diagonal through its centre: a
point is accepted exactly if the point with the column and row offsets exchanged lies in the ellipse. -/
theorem C163_test_mirrored (e : Env ℝ) (he : RgReal e) (el : Ellipse ℝ) (hax : el.ax0 ≤ el.ax1) (dx dy : ℝ) :
    pointInside e (el.cx + dx) (el.cy + dy) el = true ↔ RgInside (el.cx + dy) (el.cy + dx) el := by
  have h180 : (180 - el.theta) * (Real.pi / 180) = Real.pi - rgAngle el := by
    unfold rgAngle; ring
  have ec : e.cos (180 - el.theta) = -Real.cos (rgAngle el) := by rw [he.1, h180, Real.cos_pi_sub]
  have es : e.sin (180 - el.theta) = Real.sin (rgAngle el) := by rw [he.2, h180, Real.sin_pi_sub]
  simp only [pointInside, RgInside, ec, es, ge_iff_le, if_pos hax, add_sub_cancel_left, Bool.and_eq_true, decide_eq_true_eq]
  generalize Real.cos (rgAngle el) = cs
  generalize Real.sin (rgAngle el) = sn
  by_cases h0 : el.ax0 = 0
  · simp [h0]
  by_cases h1 : el.ax1 = 0
  · simp [h1]
  have : (dx * -cs - dy * sn) ^ 2 / (el.ax1 / 2) ^ 2 + (dx * sn + dy * -cs) ^ 2 / (el.ax0 / 2) ^ 2
      = (2 * (dx * cs + dy * sn) / el.ax1) ^ 2 + (2 * (dx * sn - dy * cs) / el.ax0) ^ 2 := by
    field_simp; ring
  rw [this]
  simp [h0, h1]

/-- Partial: the test is right for regions whose two axes are equal or whose long axis lies along the diagonal (45 or -45 degrees).
Missing: all other regions, see `C163_core_missed`. -/
theorem C163_test_partial (e : Env ℝ) (he : RgReal e) (el : Ellipse ℝ) (hax : el.ax0 ≤ el.ax1)
    (h : el.ax0 = el.ax1 ∨ Real.cos (rgAngle el) = Real.sin (rgAngle el) ∨ Real.cos (rgAngle el) = -Real.sin (rgAngle el))
    (px py : ℝ) : pointInside e px py el = true ↔ RgInside px py el := by
  have := C163_test_mirrored e he el hax (px - el.cx) (py - el.cy)
  rw [add_sub_cancel, add_sub_cancel] at this
  rw [this]
  simp only [RgInside, add_sub_cancel_left]
  refine and_congr_right fun h0 => and_congr_right fun h1 => ?_
  have key : (2 * ((px - el.cx) * Real.cos (rgAngle el) + (py - el.cy) * Real.sin (rgAngle el)) / el.ax1) ^ 2
      + (2 * ((px - el.cx) * Real.sin (rgAngle el) - (py - el.cy) * Real.cos (rgAngle el)) / el.ax0) ^ 2
      = (2 * ((py - el.cy) * Real.cos (rgAngle el) + (px - el.cx) * Real.sin (rgAngle el)) / el.ax1) ^ 2
      + (2 * ((py - el.cy) * Real.sin (rgAngle el) - (px - el.cx) * Real.cos (rgAngle el)) / el.ax0) ^ 2 := by
    rcases h with h | h | h
    · rw [h]; field_simp; ring
    · rw [h]; ring
    · rw [h]; ring
  rw [key]

/-- A jump of five rows by two columns, and a saturated core in its last two rows. -/
def rgJump : Reg := ⟨[(0, 0), (0, 1), (1, 0), (1, 1), (2, 0), (2, 1), (3, 0), (3, 1), (4, 0), (4, 1)], 10⟩
def rgCore : Reg := ⟨[(3, 0), (3, 1), (4, 0), (4, 1)], 4⟩

theorem rg_jump : inertia rgJump = (1 / 4, 0, 2) ∧ centroid rgJump = (2, 1 / 2) := by
  simp only [inertia, centroid, mean, rgJump]
  constructor <;> norm_num

theorem rg_core : centroid rgCore = (7 / 2, 1 / 2) := by
  simp only [centroid, mean, rgCore]
  norm_num

theorem rg_jump_el : (ellipseOf rgJump).cx = 1 / 2 ∧ (ellipseOf rgJump).cy = 2 ∧ (ellipseOf rgJump).ax0 = 1
    ∧ (ellipseOf rgJump).ax1 = 4 * Real.sqrt 2 - 1 ∧ rgAngle (ellipseOf rgJump) = 0 := by
  refine ⟨by simp [ellipseOf, rg_jump.2], by simp [ellipseOf, rg_jump.2], ?_, ?_, ?_⟩
  · simp only [ellipseOf, rg_jump.1, eigvals]
    have h1 : Real.sqrt ((1 / 4 - 2 : ℝ) ^ 2 + 4 * 0 ^ 2) = 7 / 4 := by
      rw [show ((1 / 4 - 2 : ℝ) ^ 2 + 4 * 0 ^ 2) = (7 / 4) ^ 2 by norm_num, Real.sqrt_sq (by norm_num)]
    rw [h1]
    have h2 : Real.sqrt (max ((1 / 4 + 2 - 7 / 4 : ℝ) / 2) 0) = 1 / 2 := by
      rw [max_eq_left (by norm_num), show ((1 / 4 + 2 - 7 / 4 : ℝ) / 2) = (1 / 2) ^ 2 by norm_num,
        Real.sqrt_sq (by norm_num)]
    rw [h2]; norm_num
  · simp only [ellipseOf, rg_jump.1, eigvals]
    have h1 : Real.sqrt ((1 / 4 - 2 : ℝ) ^ 2 + 4 * 0 ^ 2) = 7 / 4 := by
      rw [show ((1 / 4 - 2 : ℝ) ^ 2 + 4 * 0 ^ 2) = (7 / 4) ^ 2 by norm_num, Real.sqrt_sq (by norm_num)]
    rw [h1, max_eq_left (by norm_num), show ((1 / 4 + 2 + 7 / 4 : ℝ) / 2) = 2 by norm_num]
  · rw [rg_angle, rg_jump.1, orientation, if_neg (by norm_num)]
    have : (⟨2 - 1 / 4, -2 * 0⟩ : ℂ) = ((7 / 4 : ℝ) : ℂ) := by
      apply Complex.ext
      · simp; norm_num
      · simp
    simp only
    rw [this, Complex.arg_ofReal_of_nonneg (by norm_num), zero_div]

theorem rg_sqrt2 : 7 / 5 < Real.sqrt 2 ∧ Real.sqrt 2 < 3 / 2 := by
  constructor
  · rw [Real.lt_sqrt (by norm_num)]; norm_num
  · rw [Real.sqrt_lt' (by norm_num)]; norm_num

/-- Finding: an elongated snowball is missed.  The jump of five rows by two columns contains the saturated core, all of whose pixels
belong to it, and the centre of the core lies in the ellipse of the jump; but the test, which looks in the ellipse turned to the
other diagonal side, denies it, and the jump is not selected as a snowball. -/
theorem C163_core_missed (e : Env ℝ) (he : RgReal e) (hedge : e.edgeSize = 0) (ngroups group : Nat) :
    (∀ p ∈ rgCore.pixels, p ∈ rgJump.pixels)
    ∧ RgInside (ellipseOf rgCore).cx (ellipseOf rgCore).cy (ellipseOf rgJump)
    ∧ pointInside e (ellipseOf rgCore).cx (ellipseOf rgCore).cy (ellipseOf rgJump) = false
    ∧ selectSnowballs e 100 ngroups group [ellipseOf rgJump] [ellipseOf rgCore] [] = [] := by
  obtain ⟨j1, j2, j3, j4, j5⟩ := rg_jump_el
  obtain ⟨q1, q2⟩ := rg_sqrt2
  have c1 : (ellipseOf rgCore).cx = 1 / 2 := by simp [ellipseOf, rg_core]
  have c2 : (ellipseOf rgCore).cy = 7 / 2 := by simp [ellipseOf, rg_core]
  have hax : (ellipseOf rgJump).ax0 ≤ (ellipseOf rgJump).ax1 := by rw [j3, j4]; linarith
  have hin : pointInside e (ellipseOf rgCore).cx (ellipseOf rgCore).cy (ellipseOf rgJump) = false := by
    rw [Bool.eq_false_iff, ne_eq]
    have := C163_test_mirrored e he (ellipseOf rgJump) hax 0 (3 / 2)
    rw [j1, j2] at this
    rw [c1, c2, show (1 / 2 : ℝ) = 1 / 2 + 0 by norm_num, show (7 / 2 : ℝ) = 2 + 3 / 2 by norm_num, this]
    simp only [RgInside, j1, j2, j3, j4, j5, Real.cos_zero, Real.sin_zero]
    rintro ⟨-, -, h⟩
    norm_num at h
  refine ⟨by decide, ?_, hin, ?_⟩
  · simp only [RgInside, j1, j2, j3, j4, j5, c1, c2, Real.cos_zero, Real.sin_zero]
    refine ⟨by norm_num, by linarith, ?_⟩
    have h4 : (4 : ℝ) < 4 * Real.sqrt 2 - 1 := by linarith
    have : (2 * ((7 / 2 - 2 : ℝ) * 1 + (1 / 2 - 1 / 2) * 0) / (4 * Real.sqrt 2 - 1)) ^ 2 ≤ 1 := by
      rw [div_pow, div_le_one (by positivity)]
      nlinarith
    norm_num at this ⊢
    exact this
  · have hne : nearEdge e 100 (ellipseOf rgJump) = false := by
      simp only [nearEdge, hedge, j1, j2]
      norm_num
    simp [selectSnowballs, hne, addIfCore, hin]

/-- The hypotheses can be met, and the region is not degenerate. -/
noncomputable def rgEnv : Env ℝ :=
  { jump := 4, sat := 2, dnu := 1, ref := 8, satRequired := true, expandFactor := 2, satExpand := 2, minSatRadius := 1
    maxWidth := 200, edgeSize := 0, maskPersist := false, persistGrps := 0, maxShower := 1, rnd := fun x => ⌊x⌋
    cos := fun x => Real.cos (x * (Real.pi / 180)), sin := fun x => Real.sin (x * (Real.pi / 180)), findSat := fun _ => []
    findJump := fun _ => [] }

example : RgReal rgEnv := ⟨fun _ => rfl, fun _ => rfl⟩
example : rgJump.pixels ≠ [] := by decide
example : (ellipseOf rgJump).ax0 < (ellipseOf rgJump).ax1 := by
  rw [rg_jump_el.2.2.1, rg_jump_el.2.2.2.1]
  linarith [rg_sqrt2.1]
example : filterAreas [rgJump, rgCore] 5 = [ellipseOf rgJump] := by
  simp [filterAreas, rgJump, rgCore]

/-- A region for which the test is right. -/
example : (ellipseOf rgCore).ax0 = (ellipseOf rgCore).ax1 := by
  have h : inertia rgCore = (1 / 4, 0, 1 / 4) := by
    simp only [inertia, centroid, mean, rgCore]
    norm_num
  simp only [ellipseOf, h, eigvals]
  norm_num

end Verif.Thm
