import Mathlib.Tactic.Linarith
import Mathlib.Tactic.FieldSimp
import Mathlib.Tactic.LinearCombination
import Mathlib.Tactic.Positivity
import Verif.Model.Aberration

/-! # Velocity aberration (C62) -/

namespace Verif.Thm
open Verif.Aberration

/-- Specification: squared length. -/
def vaNormSq (a : Vec) : ℝ := a.x ^ 2 + a.y ^ 2 + a.z ^ 2

/-- Specification: the opposite vector. -/
def vaNeg (a : Vec) : Vec := ⟨-a.x, -a.y, -a.z⟩

theorem va_cauchy (a b : Vec) : dot a b ^ 2 ≤ vaNormSq a * vaNormSq b := by
  simp only [dot, vaNormSq]
  nlinarith [sq_nonneg (a.x * b.y - a.y * b.x), sq_nonneg (a.x * b.z - a.z * b.x), sq_nonneg (a.y * b.z - a.z * b.y)]

/-- The quantities of the formula. -/
theorem va_setup (c : ℝ) (v u : Vec) (hc : 0 < c) (hv : vaNormSq v < c ^ 2) (hu : vaNormSq u = 1)
    (h0 : ¬ dot ⟨v.x / c, v.y / c, v.z / c⟩ ⟨v.x / c, v.y / c, v.z / c⟩ = 0) :
    ∃ (b : Vec) (g s n : ℝ), b = ⟨v.x / c, v.y / c, v.z / c⟩ ∧ dot b b = n ∧ dot u b = s ∧ 0 < n ∧ n < 1 ∧ 0 < g ∧
      g ^ 2 = 1 - n ∧ 0 < 1 + s ∧ s ^ 2 ≤ n ∧
      vaEffects c v u = ((1 + s) / g,
        ⟨(g * u.x + (1 + (1 - g) * s / n) * b.x) / (1 + s), (g * u.y + (1 + (1 - g) * s / n) * b.y) / (1 + s),
         (g * u.z + (1 + (1 - g) * s / n) * b.z) / (1 + s)⟩) := by
  set b : Vec := ⟨v.x / c, v.y / c, v.z / c⟩ with hb
  have hbn : dot b b = vaNormSq v / c ^ 2 := by
    simp only [hb, dot, vaNormSq]
    field_simp
  have hn0 : 0 ≤ dot b b := by
    simp only [dot]
    nlinarith [mul_self_nonneg b.x, mul_self_nonneg b.y, mul_self_nonneg b.z]
  have hn : 0 < dot b b := lt_of_le_of_ne hn0 (Ne.symm h0)
  have hn1 : dot b b < 1 := by
    rw [hbn, div_lt_one (by positivity)]
    exact hv
  have hs : dot u b ^ 2 ≤ dot b b := by
    have h := va_cauchy u b
    rw [hu, one_mul] at h
    have e : vaNormSq b = dot b b := by simp only [vaNormSq, dot]; ring
    rwa [e] at h
  refine ⟨b, Real.sqrt (1 - dot b b), dot u b, dot b b, rfl, rfl, rfl, hn, hn1, Real.sqrt_pos.2 (by linarith), ?_, ?_, hs, ?_⟩
  · exact Real.sq_sqrt (by linarith)
  · by_contra h
    nlinarith
  · simp only [vaEffects]
    rw [if_neg h0]
    rfl

/-- **C62**: the corrected direction of a unit vector is a unit vector, and the scale factor is positive. -/
theorem C62_unit_vector (c : ℝ) (v u : Vec) (hc : 0 < c) (hv : vaNormSq v < c ^ 2) (hu : vaNormSq u = 1) :
    vaNormSq (vaEffects c v u).2 = 1 ∧ 0 < (vaEffects c v u).1 := by
  by_cases h0 : dot ⟨v.x / c, v.y / c, v.z / c⟩ ⟨v.x / c, v.y / c, v.z / c⟩ = 0
  · simp only [vaEffects, h0, if_true]
    exact ⟨hu, one_pos⟩
  · obtain ⟨b, g, s, n, -, hn, hs, hn0, -, hg0, hg, h1, -, he⟩ := va_setup c v u hc hv hu h0
    rw [he]
    refine ⟨?_, by positivity⟩
    simp only [vaNormSq] at hu ⊢
    simp only [dot] at hn hs
    field_simp
    linear_combination (g ^ 2 * n ^ 2) * hu + (2 * g * n * (n + (1 - g) * s)) * hs + (n + (1 - g) * s) ^ 2 * hn + (n ^ 2 - n * s ^ 2) * hg

/-- **C62**: zero velocity changes nothing. -/
theorem C62_zero_velocity (c : ℝ) (v u : Vec) (hv : vaNormSq v = 0) : vaEffects c v u = (1, u) := by
  have h : v.x = 0 ∧ v.y = 0 ∧ v.z = 0 := by
    simp only [vaNormSq] at hv
    refine ⟨?_, ?_, ?_⟩ <;> nlinarith [sq_nonneg v.x, sq_nonneg v.y, sq_nonneg v.z]
  simp [vaEffects, dot, h]

/-- **C62**: correcting with the opposite velocity undoes the correction, and the scale factors are inverse to each
other. -/
theorem C62_inverse (c : ℝ) (v u : Vec) (hc : 0 < c) (hv : vaNormSq v < c ^ 2) (hu : vaNormSq u = 1) :
    (vaEffects c (vaNeg v) (vaEffects c v u).2).2 = u ∧
    (vaEffects c (vaNeg v) (vaEffects c v u).2).1 * (vaEffects c v u).1 = 1 := by
  by_cases h0 : dot ⟨v.x / c, v.y / c, v.z / c⟩ ⟨v.x / c, v.y / c, v.z / c⟩ = 0
  · have h0' : dot ⟨-v.x / c, -v.y / c, -v.z / c⟩ ⟨-v.x / c, -v.y / c, -v.z / c⟩ = 0 := by
      rw [← h0]; simp only [dot]; ring
    simp [vaEffects, h0, vaNeg, h0']
  · obtain ⟨hu', -⟩ := C62_unit_vector c v u hc hv hu
    obtain ⟨b, g, s, n, hb, hn, hs, hn0, -, hg0, hg, h1, -, he⟩ := va_setup c v u hc hv hu h0
    have h0' : ¬ dot ⟨(vaNeg v).x / c, (vaNeg v).y / c, (vaNeg v).z / c⟩
        ⟨(vaNeg v).x / c, (vaNeg v).y / c, (vaNeg v).z / c⟩ = 0 := by
      intro h; apply h0; rw [← h]; simp only [dot, vaNeg]; ring
    have hv' : vaNormSq (vaNeg v) < c ^ 2 := by
      simp only [vaNormSq, vaNeg] at hv ⊢
      linarith [neg_sq v.x, neg_sq v.y, neg_sq v.z]
    obtain ⟨b', g', s', n', hb', hn', hs', -, -, hg0', hg', h1', -, he'⟩ :=
      va_setup c (vaNeg v) (vaEffects c v u).2 hc hv' hu' h0'
    have ebx : b'.x = -b.x := by rw [hb', hb]; simp only [vaNeg]; ring
    have eby : b'.y = -b.y := by rw [hb', hb]; simp only [vaNeg]; ring
    have ebz : b'.z = -b.z := by rw [hb', hb]; simp only [vaNeg]; ring
    have en : n' = n := by
      rw [← hn', ← hn]; simp only [dot, ebx, eby, ebz]; ring
    have eg : g' = g := by
      rw [en, ← hg] at hg'
      exact (sq_eq_sq₀ hg0'.le hg0.le).1 hg'
    have es : s' = -(s + n) / (1 + s) := by
      rw [← hs', he]
      simp only [dot, ebx, eby, ebz] at hn hs ⊢
      field_simp
      linear_combination (-g * n) * hs + (-(n + (1 - g) * s)) * hn
    have e1 : 1 + s' = g ^ 2 / (1 + s) := by
      rw [es, hg]; field_simp; ring
    rw [he', eg, en, e1]
    have hgs : g ≠ 0 := hg0.ne'
    have key : 1 + (1 - g) * s' / n = g * (1 + (1 - g) * s / n) / (1 + s) := by
      rw [es]
      field_simp
      linear_combination s * hg
    constructor
    · rw [key, ebx, eby, ebz, he]
      rcases u with ⟨ux, uy, uz⟩
      simp only [Vec.mk.injEq]
      refine ⟨?_, ?_, ?_⟩ <;> field_simp <;> ring
    · rw [he]
      simp only
      field_simp

/-- **C62**: directions move towards the velocity. -/
theorem C62_towards_velocity (c : ℝ) (v u : Vec) (hc : 0 < c) (hv : vaNormSq v < c ^ 2) (hu : vaNormSq u = 1) :
    dot u v ≤ dot (vaEffects c v u).2 v := by
  by_cases h0 : dot ⟨v.x / c, v.y / c, v.z / c⟩ ⟨v.x / c, v.y / c, v.z / c⟩ = 0
  · simp only [vaEffects, h0, if_true]
    exact le_refl _
  · obtain ⟨b, g, s, n, hb, hn, hs, hn0, -, hg0, hg, h1, hle, he⟩ := va_setup c v u hc hv hu h0
    have hvb : ∀ a : Vec, dot a v = c * dot a b := by
      intro a
      rw [hb]
      simp only [dot]
      field_simp
    rw [hvb, hvb]
    apply mul_le_mul_of_nonneg_left _ hc.le
    have e : dot (vaEffects c v u).2 b = (s + n) / (1 + s) := by
      rw [he]
      simp only [dot] at hn hs ⊢
      field_simp
      linear_combination (g * n) * hs + (n + (1 - g) * s) * hn
    rw [e, hs, le_div_iff₀ h1]
    nlinarith

example : (0 : ℝ) < 5 ∧ vaNormSq ⟨3, 0, 0⟩ < 5 ^ 2 ∧ vaNormSq ⟨0, 1, 0⟩ = 1 := by norm_num [vaNormSq]

end Verif.Thm
