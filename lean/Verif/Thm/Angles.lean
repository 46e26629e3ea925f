import Verif.Model.Angles
import Verif.Thm.Aberration
import Mathlib.Analysis.SpecialFunctions.Complex.Arg
import Mathlib.Tactic.Ring
import Mathlib.Tactic.FieldSimp
import Mathlib.Tactic.Linarith
import Mathlib.Tactic.Positivity
import Mathlib.Tactic.NormNum

/-!
# C110-C112: fiducial point, pixel scale and apparent positions
-/

namespace Verif.Thm

open Verif.Angles
open Verif.Aberration (Vec dot vaEffects)

/-! ## Angles and vectors -/

/-- Specification: the unit vector towards longitude `lon` and latitude `lat` in degrees. -/
noncomputable def anUnit (lon lat : ℝ) : Vec :=
  ⟨Real.cos (lat * Real.pi / 180) * Real.cos (lon * Real.pi / 180), Real.cos (lat * Real.pi / 180) * Real.sin (lon * Real.pi / 180),
    Real.sin (lat * Real.pi / 180)⟩

/-- A multiple of a vector. -/
def anScale (r : ℝ) (v : Vec) : Vec := ⟨r * v.x, r * v.y, r * v.z⟩

/-- Two angles are the same up to full turns. -/
def AnSame (a b : ℝ) : Prop := ∃ n : ℤ, a = b + 360 * n

theorem an_toVec (p : ℝ × ℝ) : toVec p = anUnit p.1 p.2 := by
  simp only [toVec, anUnit, rad]
  congr 2 <;> ring_nf

theorem an_ext (a b : Vec) (hx : a.x = b.x) (hy : a.y = b.y) (hz : a.z = b.z) : a = b := by
  cases a; cases b; simp_all

theorem an_mod (t : ℝ) : 0 ≤ mod360 t ∧ mod360 t < 360 ∧ AnSame (mod360 t) t := by
  simp only [mod360, AnSame]
  have h1 := Int.floor_le (t / 360)
  have h2 := Int.lt_floor_add_one (t / 360)
  refine ⟨by linarith, by linarith, -⌊t / 360⌋, by push_cast; ring⟩

theorem an_mod_unique (a b : ℝ) (ha : 0 ≤ a ∧ a < 360) (hb : 0 ≤ b ∧ b < 360) (h : AnSame a b) : a = b := by
  obtain ⟨n, hn⟩ := h
  have h1 : (n : ℝ) < 1 := by linarith
  have h2 : (-1 : ℝ) < n := by linarith
  have h3 : n < 1 := by exact_mod_cast h1
  have h4 : -1 < n := by exact_mod_cast h2
  have h5 : n = 0 := by omega
  rw [h5] at hn
  simpa using hn

theorem an_same_trans {a b c : ℝ} (h1 : AnSame a b) (h2 : AnSame b c) : AnSame a c := by
  obtain ⟨n, rfl⟩ := h1
  obtain ⟨m, rfl⟩ := h2
  exact ⟨m + n, by push_cast; ring⟩

theorem an_same_symm {a b : ℝ} (h : AnSame a b) : AnSame b a := by
  obtain ⟨n, rfl⟩ := h
  exact ⟨-n, by push_cast; ring⟩

theorem an_mod_same (a b : ℝ) : mod360 a = mod360 b ↔ AnSame a b := by
  obtain ⟨a1, a2, a3⟩ := an_mod a
  obtain ⟨b1, b2, b3⟩ := an_mod b
  constructor
  · intro h
    rw [h] at a3
    exact an_same_trans (an_same_symm a3) b3
  · intro h
    exact an_mod_unique _ _ ⟨a1, a2⟩ ⟨b1, b2⟩ (an_same_trans a3 (an_same_trans h (an_same_symm b3)))

theorem an_cos_same (a b : ℝ) (h : AnSame a b) :
    Real.cos (a * Real.pi / 180) = Real.cos (b * Real.pi / 180) ∧ Real.sin (a * Real.pi / 180) = Real.sin (b * Real.pi / 180) := by
  obtain ⟨n, rfl⟩ := h
  have e : (b + 360 * (n : ℝ)) * Real.pi / 180 = b * Real.pi / 180 + n * (2 * Real.pi) := by ring
  rw [e]
  exact ⟨Real.cos_add_int_mul_two_pi _ n, Real.sin_add_int_mul_two_pi _ n⟩

theorem an_deg_rad (t : ℝ) : deg t * Real.pi / 180 = t := by
  simp only [deg]
  field_simp [Real.pi_ne_zero]

/-- The angles of a vector are in range, and the vector points there. -/
theorem an_angles (v : Vec) :
    (0 ≤ (toAngles v).1 ∧ (toAngles v).1 < 360) ∧ (-90 ≤ (toAngles v).2 ∧ (toAngles v).2 ≤ 90) ∧
    v = anScale (Real.sqrt (v.x ^ 2 + v.y ^ 2 + v.z ^ 2)) (anUnit (toAngles v).1 (toAngles v).2) := by
  have hpi := Real.pi_pos
  obtain ⟨m1, m2, m3⟩ := an_mod (deg (Complex.arg ⟨v.x, v.y⟩))
  refine ⟨⟨m1, m2⟩, ?_, ?_⟩
  · have h : |Complex.arg ⟨Real.sqrt (v.x ^ 2 + v.y ^ 2), v.z⟩| ≤ Real.pi / 2 :=
      Complex.abs_arg_le_pi_div_two_iff.2 (Real.sqrt_nonneg _)
    have h' := abs_le.1 h
    have e : (toAngles v).2 = Complex.arg ⟨Real.sqrt (v.x ^ 2 + v.y ^ 2), v.z⟩ * (180 / Real.pi) := rfl
    have hk : 0 < 180 / Real.pi := by positivity
    have hk2 : Real.pi / 2 * (180 / Real.pi) = 90 := by field_simp; norm_num
    rw [e]
    constructor
    · have := mul_le_mul_of_nonneg_right h'.1 hk.le
      have e2 : -(Real.pi / 2) * (180 / Real.pi) = -90 := by rw [neg_mul, hk2]
      rw [e2] at this; exact this
    · have := mul_le_mul_of_nonneg_right h'.2 hk.le
      rw [hk2] at this; exact this
  · obtain ⟨c1, c2⟩ := an_cos_same _ _ m3
    rw [an_deg_rad] at c1 c2
    set w : ℂ := ⟨v.x, v.y⟩ with hw
    set h := Real.sqrt (v.x ^ 2 + v.y ^ 2) with hh
    set u : ℂ := ⟨h, v.z⟩ with hu
    have hwn : ‖w‖ = h := by rw [Complex.norm_def, Complex.normSq_apply, hh]; congr 1; simp [hw]; ring
    have hh2 : h ^ 2 = v.x ^ 2 + v.y ^ 2 := Real.sq_sqrt (by positivity)
    have hun : ‖u‖ = Real.sqrt (v.x ^ 2 + v.y ^ 2 + v.z ^ 2) := by
      rw [Complex.norm_def, Complex.normSq_apply]; congr 1; simp [hu]; nlinarith
    have u1 : ‖u‖ * Real.cos (Complex.arg u) = h := by rw [Complex.norm_mul_cos_arg]
    have u2 : ‖u‖ * Real.sin (Complex.arg u) = v.z := by rw [Complex.norm_mul_sin_arg]
    have w1 : h * Real.cos (Complex.arg w) = v.x := by rw [← hwn, Complex.norm_mul_cos_arg]
    have w2 : h * Real.sin (Complex.arg w) = v.y := by rw [← hwn, Complex.norm_mul_sin_arg]
    have elon : (toAngles v).1 = mod360 (deg (Complex.arg w)) := rfl
    have elat : (toAngles v).2 = deg (Complex.arg u) := rfl
    rw [← hun]
    apply an_ext <;> simp only [anScale, anUnit, elon, elat, an_deg_rad, c1, c2]
    · rw [← mul_assoc, u1, w1]
    · rw [← mul_assoc, u1, w2]
    · rw [u2]

/-- The angles of a multiple of a unit vector away from the poles. -/
theorem an_angles_unit (r lon lat : ℝ) (hr : 0 < r) (hl : -90 < lat ∧ lat < 90) :
    toAngles (anScale r (anUnit lon lat)) = (mod360 lon, lat) := by
  have hpi := Real.pi_pos
  set b := lat * Real.pi / 180 with hb
  set a := lon * Real.pi / 180 with ha
  have hb1 : -(Real.pi / 2) < b := by rw [hb]; nlinarith
  have hb2 : b < Real.pi / 2 := by rw [hb]; nlinarith
  have hcos : 0 < Real.cos b := Real.cos_pos_of_mem_Ioo ⟨hb1, hb2⟩
  have hk : 0 < r * Real.cos b := mul_pos hr hcos
  have e1 : (⟨r * (Real.cos b * Real.cos a), r * (Real.cos b * Real.sin a)⟩ : ℂ)
      = ((r * Real.cos b : ℝ) : ℂ) * (Complex.cos a + Complex.sin a * Complex.I) := by
    apply Complex.ext
    · simp [Complex.cos_ofReal_re, Complex.sin_ofReal_re, Complex.cos_ofReal_im, Complex.sin_ofReal_im]; ring
    · simp [Complex.cos_ofReal_re, Complex.sin_ofReal_re, Complex.cos_ofReal_im, Complex.sin_ofReal_im]; ring
  have e2 : Real.sqrt ((r * (Real.cos b * Real.cos a)) ^ 2 + (r * (Real.cos b * Real.sin a)) ^ 2) = r * Real.cos b := by
    have : (r * (Real.cos b * Real.cos a)) ^ 2 + (r * (Real.cos b * Real.sin a)) ^ 2 = (r * Real.cos b) ^ 2 := by
      have := Real.sin_sq_add_cos_sq a
      calc _ = (r * Real.cos b) ^ 2 * (Real.sin a ^ 2 + Real.cos a ^ 2) := by ring
        _ = _ := by rw [this, mul_one]
    rw [this, Real.sqrt_sq hk.le]
  have e3 : (⟨r * Real.cos b, r * Real.sin b⟩ : ℂ) = ((r : ℝ) : ℂ) * (Complex.cos b + Complex.sin b * Complex.I) := by
    apply Complex.ext
    · simp [Complex.cos_ofReal_re, Complex.sin_ofReal_re, Complex.cos_ofReal_im, Complex.sin_ofReal_im]
    · simp [Complex.cos_ofReal_re, Complex.sin_ofReal_re, Complex.cos_ofReal_im, Complex.sin_ofReal_im]
  have elon : deg (Complex.arg ⟨r * (Real.cos b * Real.cos a), r * (Real.cos b * Real.sin a)⟩) =
      deg (toIocMod Real.two_pi_pos (-Real.pi) a) := by
    rw [e1, Complex.arg_mul_cos_add_sin_mul_I_eq_toIocMod hk]
  have hsame : AnSame (deg (toIocMod Real.two_pi_pos (-Real.pi) a)) lon := by
    refine ⟨-toIocDiv Real.two_pi_pos (-Real.pi) a, ?_⟩
    rw [toIocMod, deg, ha]
    push_cast
    rw [zsmul_eq_mul]
    field_simp
    ring
  have elat : deg (Complex.arg ⟨r * Real.cos b, r * Real.sin b⟩) = lat := by
    rw [e3, Complex.arg_mul_cos_add_sin_mul_I hr ⟨by linarith, by linarith⟩, deg, hb]
    field_simp
  simp only [toAngles, anScale, anUnit]
  rw [e2, elat, elon, (an_mod_same _ _).2 hsame]

/-! ## C110: the fiducial point -/

theorem an_mid (l : List ℝ) (hl : l ≠ []) :
    ∃ M m, M ∈ l ∧ m ∈ l ∧ (∀ x ∈ l, m ≤ x ∧ x ≤ M) ∧ mid l = some ((M + m) / 2) := by
  obtain ⟨M, hM⟩ : ∃ M, l.max? = some M := by
    cases h : l.max? with
    | none => exact absurd (List.max?_eq_none_iff.1 h) hl
    | some M => exact ⟨M, rfl⟩
  obtain ⟨m, hm⟩ : ∃ m, l.min? = some m := by
    cases h : l.min? with
    | none => exact absurd (List.min?_eq_none_iff.1 h) hl
    | some m => exact ⟨m, rfl⟩
  have h1 := List.max?_eq_some_iff.1 hM
  have h2 := List.min?_eq_some_iff.1 hm
  exact ⟨M, m, h1.1, h2.1, fun x hx => ⟨h2.2 x hx, h1.2 x hx⟩, by simp [mid, hM, hm]⟩

/-- `c` is half way between the least and the greatest of the values. -/
def AnHalf (s : Set ℝ) (c : ℝ) : Prop := ∃ M m, IsGreatest s M ∧ IsLeast s m ∧ c = (M + m) / 2

theorem an_half (l : List ℝ) (hl : l ≠ []) : ∃ c, mid l = some c ∧ AnHalf {x | x ∈ l} c := by
  obtain ⟨M, m, h1, h2, h3, h4⟩ := an_mid l hl
  exact ⟨_, h4, M, m, ⟨h1, fun x hx => (h3 x hx).2⟩, ⟨h2, fun x hx => (h3 x hx).1⟩, rfl⟩

theorem an_half_unique (s : Set ℝ) (a b : ℝ) (ha : AnHalf s a) (hb : AnHalf s b) : a = b := by
  obtain ⟨M, m, h1, h2, rfl⟩ := ha
  obtain ⟨M', m', h1', h2', rfl⟩ := hb
  rw [h1.unique h1', h2.unique h2']

/-- The centre of the box that contains all directions: half way between the least and the greatest of each coordinate. -/
def AnCentre (pts : List (ℝ × ℝ)) (c : Vec) : Prop :=
  AnHalf {x | ∃ p ∈ pts, x = (anUnit p.1 p.2).x} c.x ∧ AnHalf {y | ∃ p ∈ pts, y = (anUnit p.1 p.2).y} c.y ∧
  AnHalf {z | ∃ p ∈ pts, z = (anUnit p.1 p.2).z} c.z

theorem an_fiducial (pts : List (ℝ × ℝ)) (hne : pts ≠ []) :
    ∃ c, AnCentre pts c ∧ fiducialNum pts = some (toAngles c) := by
  have hv : ∀ f : Vec → ℝ, ((pts.map toVec).map f) ≠ [] := by
    intro f; simpa using hne
  obtain ⟨x, x1, x2⟩ := an_half _ (hv Vec.x)
  obtain ⟨y, y1, y2⟩ := an_half _ (hv Vec.y)
  obtain ⟨z, z1, z2⟩ := an_half _ (hv Vec.z)
  have hset : ∀ f : Vec → ℝ, {t | t ∈ (pts.map toVec).map f} = {t | ∃ p ∈ pts, t = f (anUnit p.1 p.2)} := by
    intro f
    ext t
    simp only [List.map_map, List.mem_map, Function.comp, Set.mem_ofPred_eq, an_toVec]
    constructor
    · rintro ⟨p, hp, rfl⟩; exact ⟨p, hp, rfl⟩
    · rintro ⟨p, hp, rfl⟩; exact ⟨p, hp, rfl⟩
  rw [hset] at x2 y2 z2
  exact ⟨⟨x, y, z⟩, ⟨x2, y2, z2⟩, by simp only [fiducialNum, x1, y1, z1]⟩

theorem an_centre_unique (pts : List (ℝ × ℝ)) (a b : Vec) (ha : AnCentre pts a) (hb : AnCentre pts b) : a = b :=
  an_ext _ _ (an_half_unique _ _ _ ha.1 hb.1) (an_half_unique _ _ _ ha.2.1 hb.2.1) (an_half_unique _ _ _ ha.2.2 hb.2.2)

/-- C110 (direction).  The fiducial point of footprints with at least one vertex is a longitude in [0, 360) and a latitude in
[-90, 90]; it is the direction of the centre of the box that contains the directions of all vertices. -/
theorem C110_direction (footprints : List (List (ℝ × ℝ))) (hne : footprints.flatten ≠ []) :
    ∃ lon lat r c, calculateFiducial (footprints.map fun f => f.map fun p => (some p.1, some p.2)) none = some (some (lon, lat)) ∧
      (0 ≤ lon ∧ lon < 360) ∧ (-90 ≤ lat ∧ lat ≤ 90) ∧ 0 ≤ r ∧ AnCentre footprints.flatten c ∧ c = anScale r (anUnit lon lat) := by
  obtain ⟨c, hc, hf⟩ := an_fiducial _ hne
  obtain ⟨h1, h2, h3⟩ := an_angles c
  refine ⟨_, _, _, c, ?_, h1, h2, Real.sqrt_nonneg _, hc, h3⟩
  have hn : ∀ l : List (ℝ × ℝ), numbers (l.map fun p => (some p.1, some p.2)) = some l := by
    intro l
    induction l with
    | nil => rfl
    | cons p l ih =>
      simp only [numbers, List.map_cons, ih, Option.map_some]
  simp only [calculateFiducial, ← List.map_flatten, fiducial, hn, hf, Option.map_some]

/-- C110 (what counts).  Only the set of directions matters: not the order of the vertices, how often they occur, the footprint they
belong to, or whole turns of a longitude. -/
theorem C110_directions_only (p q : List (ℝ × ℝ))
    (h : ∀ v, (∃ a ∈ p, v = anUnit a.1 a.2) ↔ ∃ a ∈ q, v = anUnit a.1 a.2) : fiducialNum p = fiducialNum q := by
  by_cases hp : p = []
  · have hq : q = [] := by
      rw [List.eq_nil_iff_forall_not_mem]
      intro a ha
      obtain ⟨b, hb, -⟩ := (h _).2 ⟨a, ha, rfl⟩
      rw [hp] at hb
      exact absurd hb (by simp)
    rw [hp, hq]
  · have hq : q ≠ [] := by
      obtain ⟨a, ha⟩ := List.exists_mem_of_ne_nil _ hp
      obtain ⟨b, hb, -⟩ := (h _).1 ⟨a, ha, rfl⟩
      exact List.ne_nil_of_mem hb
    obtain ⟨c, hc, hf⟩ := an_fiducial p hp
    obtain ⟨d, hd, hg⟩ := an_fiducial q hq
    have hs : ∀ f : Vec → ℝ, {t | ∃ a ∈ p, t = f (anUnit a.1 a.2)} = {t | ∃ a ∈ q, t = f (anUnit a.1 a.2)} := by
      intro f
      ext t
      constructor
      · rintro ⟨a, ha, rfl⟩
        obtain ⟨b, hb, e⟩ := (h _).1 ⟨a, ha, rfl⟩
        exact ⟨b, hb, by rw [e]⟩
      · rintro ⟨a, ha, rfl⟩
        obtain ⟨b, hb, e⟩ := (h _).2 ⟨a, ha, rfl⟩
        exact ⟨b, hb, by rw [e]⟩
    have hc' : AnCentre q c := by
      unfold AnCentre at hc ⊢
      rw [← hs Vec.x, ← hs Vec.y, ← hs Vec.z]
      exact hc
    rw [hf, hg, an_centre_unique q c d hc' hd]

theorem an_turn (lon lat : ℝ) (n : ℤ) : anUnit (lon + 360 * n) lat = anUnit lon lat := by
  obtain ⟨h1, h2⟩ := an_cos_same (lon + 360 * n) lon ⟨n, rfl⟩
  simp only [anUnit, h1, h2]

/-- C110 (wrap).  Adding whole turns to longitudes, differently for each vertex, changes nothing; in particular footprints across
longitude zero need no care. -/
theorem C110_turns (p : List (ℝ × ℝ)) (k : ℝ × ℝ → ℤ) :
    fiducialNum (p.map fun a => (a.1 + 360 * k a, a.2)) = fiducialNum p := by
  apply C110_directions_only
  intro v
  constructor
  · rintro ⟨a, ha, rfl⟩
    rw [List.mem_map] at ha
    obtain ⟨b, hb, rfl⟩ := ha
    exact ⟨b, hb, an_turn ..⟩
  · rintro ⟨a, ha, rfl⟩
    exact ⟨_, List.mem_map_of_mem ha, (an_turn ..).symm⟩

/-- C110 (one direction).  The fiducial point of a footprint that is one point, away from the poles, is that point. -/
theorem C110_one_point (lon lat : ℝ) (hl : -90 < lat ∧ lat < 90) (n : Nat) :
    fiducialNum (List.replicate (n + 1) (lon, lat)) = some (mod360 lon, lat) := by
  obtain ⟨c, hc, hf⟩ := an_fiducial (List.replicate (n + 1) (lon, lat)) (by simp)
  have he : ∀ f : Vec → ℝ, AnHalf {t | ∃ p ∈ List.replicate (n + 1) (lon, lat), t = f (anUnit p.1 p.2)} (f (anUnit lon lat)) := by
    intro f
    have hs : {t | ∃ p ∈ List.replicate (n + 1) (lon, lat), t = f (anUnit p.1 p.2)} = {f (anUnit lon lat)} := by
      ext t
      simp
    rw [hs]
    exact ⟨_, _, isGreatest_singleton, isLeast_singleton, by ring⟩
  have hc2 : c = anUnit lon lat := an_centre_unique _ _ _ hc ⟨he Vec.x, he Vec.y, he Vec.z⟩
  have hone : anUnit lon lat = anScale 1 (anUnit lon lat) := by simp [anScale]
  rw [hf, hc2, hone, an_angles_unit 1 lon lat one_pos hl]

/-- C110 (two directions).  The fiducial point of two vertices is equally far from both: it lies half way on the great circle. -/
theorem C110_two_points (a b : ℝ × ℝ) :
    ∃ lon lat r, fiducialNum [a, b] = some (lon, lat) ∧ 0 ≤ r ∧
      (∀ f : Vec → ℝ, f = Vec.x ∨ f = Vec.y ∨ f = Vec.z →
        (f (anUnit a.1 a.2) + f (anUnit b.1 b.2)) / 2 = f (anScale r (anUnit lon lat))) ∧
      (r ≠ 0 → dot (anUnit a.1 a.2) (anUnit lon lat) = dot (anUnit b.1 b.2) (anUnit lon lat)) := by
  obtain ⟨c, hc, hf⟩ := an_fiducial [a, b] (by simp)
  obtain ⟨-, -, h3⟩ := an_angles c
  have he : ∀ f : Vec → ℝ, AnHalf {t | ∃ p ∈ [a, b], t = f (anUnit p.1 p.2)} ((f (anUnit a.1 a.2) + f (anUnit b.1 b.2)) / 2) := by
    intro f
    have hs : {t | ∃ p ∈ [a, b], t = f (anUnit p.1 p.2)} = {f (anUnit a.1 a.2), f (anUnit b.1 b.2)} := by
      ext t
      simp
    rw [hs]
    refine ⟨max (f (anUnit a.1 a.2)) (f (anUnit b.1 b.2)), min (f (anUnit a.1 a.2)) (f (anUnit b.1 b.2)), ?_, ?_, ?_⟩
    · exact isGreatest_pair
    · exact isLeast_pair
    · rw [max_add_min]
  have hx := an_half_unique _ _ _ hc.1 (he Vec.x)
  have hy := an_half_unique _ _ _ hc.2.1 (he Vec.y)
  have hz := an_half_unique _ _ _ hc.2.2 (he Vec.z)
  set r := Real.sqrt (c.x ^ 2 + c.y ^ 2 + c.z ^ 2) with hr
  set u := anUnit (toAngles c).1 (toAngles c).2 with hu
  have kx : c.x = r * u.x := by rw [h3]; rfl
  have ky : c.y = r * u.y := by rw [h3]; rfl
  have kz : c.z = r * u.z := by rw [h3]; rfl
  refine ⟨_, _, r, hf, Real.sqrt_nonneg _, ?_, ?_⟩
  · rintro f (rfl | rfl | rfl)
    · rw [← hx]; exact kx
    · rw [← hy]; exact ky
    · rw [← hz]; exact kz
  · intro hr0
    have one : ∀ lon lat : ℝ, (anUnit lon lat).x ^ 2 + (anUnit lon lat).y ^ 2 + (anUnit lon lat).z ^ 2 = 1 := by
      intro lon lat
      simp only [anUnit]
      have h1 := Real.sin_sq_add_cos_sq (lon * Real.pi / 180)
      have h2 := Real.sin_sq_add_cos_sq (lat * Real.pi / 180)
      calc _ = Real.cos (lat * Real.pi / 180) ^ 2 * (Real.sin (lon * Real.pi / 180) ^ 2 + Real.cos (lon * Real.pi / 180) ^ 2)
            + Real.sin (lat * Real.pi / 180) ^ 2 := by ring
        _ = 1 := by rw [h1]; linarith
    have oa := one a.1 a.2
    have ob := one b.1 b.2
    have key : r * dot (anUnit a.1 a.2) u = r * dot (anUnit b.1 b.2) u := by
      have e : ∀ w : Vec, r * dot w u = w.x * c.x + w.y * c.y + w.z * c.z := by
        intro w; rw [kx, ky, kz]; simp only [dot]; ring
      rw [e, e, hx, hy, hz]
      nlinarith
    exact mul_left_cancel₀ hr0 key

/-- C110 (given reference).  A given `crval` is the fiducial point; without one, a NaN among the coordinates makes the result NaN,
and no vertices are an error. -/
theorem C110_special (footprints : List (List (Option ℝ × Option ℝ))) (c : ℝ × ℝ) :
    calculateFiducial footprints (some c) = some (some c) ∧
    (calculateFiducial footprints none = some none ↔ ∃ f ∈ footprints, ∃ p ∈ f, p.1 = none ∨ p.2 = none) ∧
    (calculateFiducial footprints none = none ↔ ∀ f ∈ footprints, f = []) := by
  have hnum : ∀ l : List (Option ℝ × Option ℝ), (numbers l = none ↔ ∃ p ∈ l, p.1 = none ∨ p.2 = none) ∧
      (numbers l = some [] ↔ l = []) := by
    intro l
    induction l with
    | nil => simp [numbers]
    | cons p l ih =>
      obtain ⟨a, b⟩ := p
      cases a with
      | none => simp [numbers]
      | some a =>
        cases b with
        | none => simp [numbers]
        | some b =>
          cases hm : numbers l with
          | none =>
            have := ih.1.1 hm
            simp [numbers, hm, this]
          | some t =>
            have := ih.1
            rw [hm] at this
            simp only [reduceCtorEq, false_iff] at this
            simp [numbers, hm, this]
  have hempty : footprints.flatten = [] ↔ ∀ f ∈ footprints, f = [] := List.flatten_eq_nil_iff
  refine ⟨rfl, ?_, ?_⟩
  · simp only [calculateFiducial, fiducial]
    cases hm : numbers footprints.flatten with
    | none =>
      have := (hnum _).1.1 hm
      simp only [List.mem_flatten] at this
      obtain ⟨p, ⟨f, hf, hp⟩, h⟩ := this
      simp only [true_iff]
      exact ⟨f, hf, p, hp, h⟩
    | some t =>
      have h1 : ¬ ∃ p ∈ footprints.flatten, p.1 = none ∨ p.2 = none := by
        rw [← (hnum _).1, hm]; simp
      constructor
      · intro h
        cases hf : fiducialNum t <;> simp [hf] at h
      · rintro ⟨f, hf, p, hp, h⟩
        exact absurd ⟨p, List.mem_flatten.2 ⟨f, hf, hp⟩, h⟩ h1
  · rw [← hempty, ← (hnum _).2]
    simp only [calculateFiducial, fiducial]
    cases hm : numbers footprints.flatten with
    | none => simp
    | some t =>
      by_cases ht : t = []
      · subst ht
        simp [fiducialNum, mid]
      · obtain ⟨c, -, hf⟩ := an_fiducial t ht
        simp [hf, ht]

/-- C110 (wavelength).  The spectral fiducial is the least wavelength. -/
theorem C110_wavelength (junk : (ℝ × ℝ) × ℝ) (spatial : List (ℝ × ℝ)) (waves : List ℝ) (hw : ∃ w ∈ waves, w ≠ 0)
    (r : (ℝ × ℝ) × ℝ) (h : computeFiducial junk spatial waves = some r) : IsLeast {w | w ∈ waves} r.2 := by
  have hany : waves.any (fun w => decide (w ≠ 0)) = true := by
    rw [List.any_eq_true]
    obtain ⟨w, h1, h2⟩ := hw
    exact ⟨w, h1, by simpa using h2⟩
  have hne : waves ≠ [] := by
    obtain ⟨w, h1, -⟩ := hw
    exact List.ne_nil_of_mem h1
  obtain ⟨m, hm⟩ : ∃ m, waves.min? = some m := by
    cases h : waves.min? with
    | none => exact absurd (List.min?_eq_none_iff.1 h) hne
    | some m => exact ⟨m, rfl⟩
  have h2 := List.min?_eq_some_iff.1 hm
  have : r.2 = m := by
    simp only [computeFiducial, hany, if_true, hm, Option.getD_some] at h
    split at h
    · cases hf : fiducialNum spatial with
      | none => simp [hf] at h
      | some f => simp [hf] at h; rw [← h]
    · simp only [Option.some.injEq] at h; rw [← h]
  rw [this]
  exact ⟨h2.1, fun x hx => h2.2 x hx⟩

/-- Finding (util.py:235-237): if all positions are exactly zero, `compute_fiducial` returns memory that was never written. -/
theorem C110_zero_not_written (junk : (ℝ × ℝ) × ℝ) (n : Nat) :
    (computeFiducial junk (List.replicate n (0, 0)) []).map Prod.fst = some junk.1 := by
  have : (List.replicate n ((0 : ℝ), (0 : ℝ))).any (fun p => decide (p.1 ≠ 0) || decide (p.2 ≠ 0)) = false := by
    rw [List.any_eq_false]
    intro p hp
    rw [List.eq_of_mem_replicate hp]
    simp
  simp only [computeFiducial, this, Bool.false_eq_true, if_false, Option.map_some]

/-- Finding (util.py:58-62): the fiducial point does not turn with the footprint.  Three points on the equator and the same points
turned by 60 degrees have fiducial points that do not differ by 60 degrees. -/
theorem C110_does_not_turn :
    ∃ (p : List (ℝ × ℝ)) (a b : ℝ × ℝ), fiducialNum p = some a ∧ fiducialNum (p.map fun v => (v.1 + 60, v.2)) = some b ∧
      ¬ AnSame b.1 (a.1 + 60) := by
  have hpi := Real.pi_pos
  have h3 : Real.sqrt 3 ^ 2 = 3 := Real.sq_sqrt (by norm_num)
  have h30 : 0 < Real.sqrt 3 := Real.sqrt_pos.2 (by norm_num)
  have h31 : 1 < Real.sqrt 3 := by nlinarith
  have h32 : Real.sqrt 3 < 2 := by nlinarith
  have r0 : (0 : ℝ) * Real.pi / 180 = 0 := by ring
  have r30 : (30 : ℝ) * Real.pi / 180 = Real.pi / 6 := by ring
  have r60 : (60 : ℝ) * Real.pi / 180 = Real.pi / 3 := by ring
  have rm60 : (-60 : ℝ) * Real.pi / 180 = -(Real.pi / 3) := by ring
  have r90 : (90 : ℝ) * Real.pi / 180 = Real.pi / 2 := by ring
  have r120 : (120 : ℝ) * Real.pi / 180 = Real.pi - Real.pi / 3 := by ring
  have u30 : anUnit 30 0 = ⟨Real.sqrt 3 / 2, 1 / 2, 0⟩ := by simp [anUnit, r30]
  have u60 : anUnit 60 0 = ⟨1 / 2, Real.sqrt 3 / 2, 0⟩ := by simp [anUnit, r60]
  have um60 : anUnit (-60) 0 = ⟨1 / 2, -(Real.sqrt 3 / 2), 0⟩ := by
    simp only [anUnit, rm60, r0]; simp
  have u0 : anUnit 0 0 = ⟨1, 0, 0⟩ := by simp [anUnit]
  have u90 : anUnit 90 0 = ⟨0, 1, 0⟩ := by simp [anUnit, r90]
  have u120 : anUnit 120 0 = ⟨-(1 / 2), Real.sqrt 3 / 2, 0⟩ := by
    simp [anUnit, r120, Real.cos_pi_sub, Real.sin_pi_sub]
  have half3 : ∀ (p q s : ℝ × ℝ) (f : Vec → ℝ) (M m : ℝ),
      M ∈ ({f (anUnit p.1 p.2), f (anUnit q.1 q.2), f (anUnit s.1 s.2)} : Set ℝ) →
      m ∈ ({f (anUnit p.1 p.2), f (anUnit q.1 q.2), f (anUnit s.1 s.2)} : Set ℝ) →
      (m ≤ f (anUnit p.1 p.2) ∧ f (anUnit p.1 p.2) ≤ M) → (m ≤ f (anUnit q.1 q.2) ∧ f (anUnit q.1 q.2) ≤ M) →
      (m ≤ f (anUnit s.1 s.2) ∧ f (anUnit s.1 s.2) ≤ M) →
      AnHalf {t | ∃ v ∈ [p, q, s], t = f (anUnit v.1 v.2)} ((M + m) / 2) := by
    intro p q s f M m hM hm h1 h2 h3
    have hs : {t | ∃ v ∈ [p, q, s], t = f (anUnit v.1 v.2)} = {f (anUnit p.1 p.2), f (anUnit q.1 q.2), f (anUnit s.1 s.2)} := by
      ext t
      simp
    rw [hs]
    refine ⟨M, m, ⟨hM, ?_⟩, ⟨hm, ?_⟩, rfl⟩
    · rintro x (rfl | rfl | rfl)
      exacts [h1.2, h2.2, h3.2]
    · rintro x (rfl | rfl | rfl)
      exacts [h1.1, h2.1, h3.1]
  obtain ⟨c, hc, hf⟩ := an_fiducial [(-60, 0), (30, 0), (60, 0)] (by simp)
  obtain ⟨d, hd, hg⟩ := an_fiducial [(0, 0), (90, 0), (120, 0)] (by simp)
  have cx : c.x = (Real.sqrt 3 / 2 + 1 / 2) / 2 := by
    refine an_half_unique _ _ _ hc.1 (half3 _ _ _ Vec.x _ _ ?_ ?_ ?_ ?_ ?_) <;> simp only [um60, u30, u60]
    · simp
    · simp
    all_goals constructor <;> linarith
  have cy : c.y = (Real.sqrt 3 / 2 + -(Real.sqrt 3 / 2)) / 2 := by
    refine an_half_unique _ _ _ hc.2.1 (half3 _ _ _ Vec.y _ _ ?_ ?_ ?_ ?_ ?_) <;> simp only [um60, u30, u60]
    · simp
    · simp
    all_goals constructor <;> linarith
  have dx : d.x = (1 + -(1 / 2)) / 2 := by
    refine an_half_unique _ _ _ hd.1 (half3 _ _ _ Vec.x _ _ ?_ ?_ ?_ ?_ ?_) <;> simp only [u0, u90, u120]
    · simp
    · simp
    all_goals constructor <;> linarith
  have dy : d.y = (1 + 0) / 2 := by
    refine an_half_unique _ _ _ hd.2.1 (half3 _ _ _ Vec.y _ _ ?_ ?_ ?_ ?_ ?_) <;> simp only [u0, u90, u120]
    · simp
    · simp
    all_goals constructor <;> linarith
  have ha : (toAngles c).1 = 0 := by
    have e : (⟨c.x, c.y⟩ : ℂ) = ((c.x : ℝ) : ℂ) := by
      apply Complex.ext
      · simp
      · simp [cy]
    have hx : 0 ≤ c.x := by rw [cx]; linarith
    simp only [toAngles, e, Complex.arg_ofReal_of_nonneg hx, deg, zero_mul, mod360]
    simp
  refine ⟨_, _, toAngles d, hf, ?_, ?_⟩
  · have e : ([(-60, 0), (30, 0), (60, 0)] : List (ℝ × ℝ)).map (fun v => (v.1 + 60, v.2)) = [(0, 0), (90, 0), (120, 0)] := by
      simp only [List.map_cons, List.map_nil]
      norm_num
    rw [e]; exact hg
  · rw [ha, zero_add]
    intro h
    obtain ⟨c1, c2⟩ := an_cos_same _ _ h
    obtain ⟨-, -, h3'⟩ := an_angles d
    set r := Real.sqrt (d.x ^ 2 + d.y ^ 2 + d.z ^ 2) with hr
    have kx : d.x = r * (Real.cos ((toAngles d).2 * Real.pi / 180) * (1 / 2)) := by
      conv_lhs => rw [h3']
      simp only [anScale, anUnit, c1, r60, Real.cos_pi_div_three]
    have ky : d.y = r * (Real.cos ((toAngles d).2 * Real.pi / 180) * (Real.sqrt 3 / 2)) := by
      conv_lhs => rw [h3']
      simp only [anScale, anUnit, c2, r60, Real.sin_pi_div_three]
    rw [dx] at kx
    rw [dy] at ky
    have : (1 : ℝ) / 2 = Real.sqrt 3 * (1 / 4) := by
      have e : r * (Real.cos ((toAngles d).2 * Real.pi / 180) * (Real.sqrt 3 / 2))
          = Real.sqrt 3 * (r * (Real.cos ((toAngles d).2 * Real.pi / 180) * (1 / 2))) := by ring
      rw [e, ← kx] at ky
      linarith
    linarith

/-! ## C111: the pixel scale -/

section Scale
variable {P : Type}

/-- One step along pixel axis `k`. -/
def anStep (x : Nat → ℝ) (k : Nat) : Nat → ℝ := fun i => if i = k then x i + 1 else x i

theorem an_delta (x : Nat → ℝ) (k : Nat) : (fun i => x i + if i = k then (1 : ℝ) else 0) = anStep x k := by
  funext i
  simp only [anStep]
  split <;> simp

/-- C111 (images).  The scale of an image is the geometric mean of the separations of neighbouring pixels along both axes, times the
size of the ratio if one is given, for any transform; it lies between the two.  `disp_axis` does not matter. -/
theorem C111_image (f : (Nat → ℝ) → P) (sep : P → P → ℝ) (hsep : ∀ a b, 0 ≤ sep a b) (x : Nat → ℝ)
    (hf : ∀ y z : Nat → ℝ, (∀ i, i < 2 → y i = z i) → f y = f z) (disp : Option Int) :
    let sx := sep (f x) (f (anStep x 0))
    let sy := sep (f x) (f (anStep x 1))
    (∃ s, computeScale false 2 0 f sep x disp none = some s ∧ 0 ≤ s ∧ s ^ 2 = sx * sy ∧ min sx sy ≤ s ∧ s ≤ max sx sy) ∧
    ∀ q, ∃ s t, computeScale false 2 0 f sep x disp none = some s ∧ computeScale false 2 0 f sep x disp (some q) = some t ∧
      t = |q| * s := by
  intro sx sy
  have hroll : f (fun i => x i + if (i + 2 - 1) % 2 = 0 then (1 : ℝ) else 0) = f (anStep x 1) := by
    apply hf
    intro i hi
    simp only [anStep]
    have : i = 0 ∨ i = 1 := by omega
    rcases this with rfl | rfl <;> simp
  have hx0 : 0 ≤ sx := hsep _ _
  have hy0 : 0 ≤ sy := hsep _ _
  have hnone : computeScale false 2 0 f sep x disp none = some (Real.sqrt (sx * sy)) := by
    simp only [computeScale, an_delta, hroll, Bool.false_eq_true, false_and, if_false]
    rw [if_neg (by omega), abs_of_nonneg hx0, abs_of_nonneg hy0]
  have hsq : Real.sqrt (sx * sy) ^ 2 = sx * sy := Real.sq_sqrt (mul_nonneg hx0 hy0)
  refine ⟨⟨_, hnone, Real.sqrt_nonneg _, hsq, ?_, ?_⟩, ?_⟩
  · apply Real.le_sqrt_of_sq_le
    rw [sq]
    exact mul_le_mul (min_le_left _ _) (min_le_right _ _) (le_min hx0 hy0) hx0
  · rw [Real.sqrt_le_left (le_max_of_le_left hx0), sq]
    exact mul_le_mul (le_max_left _ _) (le_max_right _ _) hy0 (le_max_of_le_left hx0)
  · intro q
    refine ⟨_, |q| * Real.sqrt (sx * sy), hnone, ?_, rfl⟩
    simp only [computeScale, an_delta, hroll, Bool.false_eq_true, false_and, if_false]
    rw [if_neg (by omega), abs_of_nonneg hx0, abs_of_nonneg hy0]
    have : sx * q * (sy * q) = q ^ 2 * (sx * sy) := by ring
    rw [this, Real.sqrt_mul (sq_nonneg q), Real.sqrt_sq_eq_abs]

/-- C111 (spectra).  With the positions first among the world axes, the scale is that along the second pixel axis if the dispersion is
along the first (1), otherwise along the first; it needs a dispersion axis. -/
theorem C111_spectrum (f : (Nat → ℝ) → P) (sep : P → P → ℝ) (hsep : ∀ a b, 0 ≤ sep a b) (x : Nat → ℝ)
    (hf : ∀ y z : Nat → ℝ, (∀ i, i < 2 → y i = z i) → f y = f z) (q : Option ℝ) :
    computeScale true 2 0 f sep x none q = none ∧
    computeScale true 2 0 f sep x (some 1) q = some (sep (f x) (f (anStep x 1)) * q.getD 1) ∧
    ∀ d, d ≠ 1 → computeScale true 2 0 f sep x (some d) q = some (sep (f x) (f (anStep x 0)) * q.getD 1) := by
  have hroll : f (fun i => x i + if (i + 1) % 2 = 0 then (1 : ℝ) else 0) = f (anStep x 1) := by
    apply hf
    intro i hi
    simp only [anStep]
    have : i = 0 ∨ i = 1 := by omega
    rcases this with rfl | rfl <;> simp
  refine ⟨by simp [computeScale], ?_, ?_⟩
  · cases q <;> simp [computeScale, hroll, abs_of_nonneg (hsep _ _)]
  · intro d hd
    cases q <;> simp [computeScale, an_delta, abs_of_nonneg (hsep _ _), hd]

/-- Finding (util.py:171-173): the index of a world axis is used for the pixel axes.  With the wavelength first among the world axes
and two pixel axes, the scale is taken along the dispersion instead of across. -/
theorem C111_wavelength_first (f : (Nat → ℝ) → P) (sep : P → P → ℝ) (hsep : ∀ a b, 0 ≤ sep a b) (x : Nat → ℝ)
    (hf : ∀ y z : Nat → ℝ, (∀ i, i < 2 → y i = z i) → f y = f z) :
    computeScale true 2 1 f sep x (some 1) none = some (sep (f x) (f (anStep x 0))) := by
  have hroll : f (fun i => x i + if (i + 1) % 2 = 1 then (1 : ℝ) else 0) = f (anStep x 0) := by
    apply hf
    intro i hi
    simp only [anStep]
    have : i = 0 ∨ i = 1 := by omega
    rcases this with rfl | rfl <;> simp
  simp [computeScale, hroll, abs_of_nonneg (hsep _ _)]

end Scale

/-! ## C112: apparent positions -/

theorem an_unit_norm (lon lat : ℝ) : vaNormSq (anUnit lon lat) = 1 := by
  simp only [anUnit, vaNormSq]
  have h1 := Real.sin_sq_add_cos_sq (lon * Real.pi / 180)
  have h2 := Real.sin_sq_add_cos_sq (lat * Real.pi / 180)
  calc _ = Real.cos (lat * Real.pi / 180) ^ 2 * (Real.sin (lon * Real.pi / 180) ^ 2 + Real.cos (lon * Real.pi / 180) ^ 2)
        + Real.sin (lat * Real.pi / 180) ^ 2 := by ring
    _ = 1 := by rw [h1]; linarith

/-- C112.  For every velocity below that of light and every position in degrees, the apparent right ascension is in [0, 360) and the
declination in [-90, 90]; their direction and the scale factor are those of the vector form (C62). -/
theorem C112_angles (c : ℝ) (v : Vec) (hc : 0 < c) (hv : vaNormSq v < c ^ 2) (ra dec : ℝ) :
    let r := vaAngles c v (ra, dec)
    (0 ≤ r.2.1 ∧ r.2.1 < 360) ∧ (-90 ≤ r.2.2 ∧ r.2.2 ≤ 90) ∧ r.1 = (vaEffects c v (anUnit ra dec)).1 ∧
    anUnit r.2.1 r.2.2 = (vaEffects c v (anUnit ra dec)).2 := by
  intro r
  have hr : r = ((vaEffects c v (anUnit ra dec)).1, toAngles (vaEffects c v (anUnit ra dec)).2) := by
    simp only [r, vaAngles, an_toVec]
  obtain ⟨hu, -⟩ := C62_unit_vector c v (anUnit ra dec) hc hv (an_unit_norm ra dec)
  obtain ⟨h1, h2, h3⟩ := an_angles (vaEffects c v (anUnit ra dec)).2
  rw [hr]
  refine ⟨h1, h2, rfl, ?_⟩
  simp only
  rw [show (vaEffects c v (anUnit ra dec)).2.x ^ 2 + (vaEffects c v (anUnit ra dec)).2.y ^ 2 + (vaEffects c v (anUnit ra dec)).2.z ^ 2
    = vaNormSq (vaEffects c v (anUnit ra dec)).2 from rfl, hu, Real.sqrt_one] at h3
  have e : anScale 1 (anUnit (toAngles (vaEffects c v (anUnit ra dec)).2).1 (toAngles (vaEffects c v (anUnit ra dec)).2).2)
      = anUnit (toAngles (vaEffects c v (anUnit ra dec)).2).1 (toAngles (vaEffects c v (anUnit ra dec)).2).2 := by
    simp [anScale]
  rw [e] at h3
  exact h3.symm

/-- C112 (there and back).  Correcting the apparent position with the opposite velocity returns to the position, except at the poles
where the right ascension has no meaning; the scale factors are inverse.  At rest, the position is unchanged. -/
theorem C112_inverse (c : ℝ) (v : Vec) (hc : 0 < c) (hv : vaNormSq v < c ^ 2) (ra dec : ℝ) (hd : -90 < dec ∧ dec < 90) :
    let r := vaAngles c v (ra, dec)
    vaAngles c (vaNeg v) r.2 = ((vaAngles c (vaNeg v) r.2).1, (mod360 ra, dec)) ∧ (vaAngles c (vaNeg v) r.2).1 * r.1 = 1 ∧
    (vaNormSq v = 0 → r = (1, (mod360 ra, dec))) := by
  intro r
  obtain ⟨-, -, h3, h4⟩ := C112_angles c v hc hv ra dec
  obtain ⟨i1, i2⟩ := C62_inverse c v (anUnit ra dec) hc hv (an_unit_norm ra dec)
  have hone : anUnit ra dec = anScale 1 (anUnit ra dec) := by simp [anScale]
  have e : vaAngles c (vaNeg v) r.2 = ((vaEffects c (vaNeg v) (vaEffects c v (anUnit ra dec)).2).1, (mod360 ra, dec)) := by
    simp only [vaAngles, an_toVec]
    rw [show anUnit r.2.1 r.2.2 = (vaEffects c v (anUnit ra dec)).2 from h4, i1, hone, an_angles_unit 1 ra dec one_pos hd, ← hone]
  refine ⟨by rw [e], ?_, ?_⟩
  · rw [e, show r.1 = _ from h3]
    exact i2
  · intro h0
    simp only [r, vaAngles, an_toVec, C62_zero_velocity c v _ h0]
    rw [hone, an_angles_unit 1 ra dec one_pos hd]

/-! Examples. -/

example : ([[(359, 1), (1, -1)], [(0, 2)]] : List (List (ℝ × ℝ))).flatten ≠ [] := by simp
example : (∃ w ∈ ([2, 1, 3] : List ℝ), w ≠ 0) := ⟨2, by simp, by norm_num⟩
example : (∀ a b : ℝ, 0 ≤ |a - b|) ∧ ∀ y z : Nat → ℝ, (∀ i, i < 2 → y i = z i) → 2 * y 0 + y 1 = 2 * z 0 + z 1 :=
  ⟨fun _ _ => abs_nonneg _, fun y z h => by rw [h 0 (by omega), h 1 (by omega)]⟩
example : vaNormSq ⟨20, 10, -5⟩ < (300000 : ℝ) ^ 2 ∧ (-90 : ℝ) < 45 ∧ (45 : ℝ) < 90 := by
  simp only [vaNormSq]; norm_num

end Verif.Thm
