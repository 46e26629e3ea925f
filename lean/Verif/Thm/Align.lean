import Mathlib.Tactic.Linarith
import Mathlib.Tactic.LinearCombination
import Verif.Model.Align
import Verif.Thm.ResampleUtils

/-! # Alignment: rotation matrix and bounding box (C56, C57) -/

set_option linter.unusedSectionVars false

namespace Verif.Thm
open Verif.Align

/-- **C56**: for parity 1 or -1 the matrix is orthogonal and its determinant is the parity. -/
theorem C56_rotation (roll v3 : ℝ) (vp : Int) (hv : vp = 1 ∨ vp = -1) :
    ∃ a b c d, rotMatrix roll v3 vp = some (a, b, c, d) ∧ a ^ 2 + b ^ 2 = 1 ∧ c ^ 2 + d ^ 2 = 1 ∧ a * c + b * d = 0 ∧
      a ^ 2 + c ^ 2 = 1 ∧ b ^ 2 + d ^ 2 = 1 ∧ a * b + c * d = 0 ∧ a * d - b * c = vp := by
  have hv2 : ((vp : ℝ)) ^ 2 = 1 := by rcases hv with rfl | rfl <;> norm_num
  have ht := Real.sin_sq_add_cos_sq (roll - vp * v3)
  refine ⟨_, _, _, _, by simp only [rotMatrix]; rw [if_neg (by tauto)], ?_, ?_, ?_, ?_, ?_, ?_, ?_⟩
  · linear_combination ht + Real.cos (roll - vp * v3) ^ 2 * hv2
  · linear_combination ht + Real.sin (roll - vp * v3) ^ 2 * hv2
  · linear_combination (-Real.cos (roll - vp * v3) * Real.sin (roll - vp * v3)) * hv2
  · linear_combination (vp : ℝ) ^ 2 * ht + hv2
  · linear_combination ht
  · ring
  · linear_combination (vp : ℝ) * ht

/-- **C56**: consequently lengths are preserved. -/
theorem C56_preserves_length (roll v3 : ℝ) (vp : Int) (a b c d : ℝ) (h : rotMatrix roll v3 vp = some (a, b, c, d))
    (x y : ℝ) : (a * x + b * y) ^ 2 + (c * x + d * y) ^ 2 = x ^ 2 + y ^ 2 := by
  have hv : vp = 1 ∨ vp = -1 := by
    by_contra hc
    push Not at hc
    simp [rotMatrix, hc] at h
  obtain ⟨a', b', c', d', h', -, -, -, h1, h2, h3, -⟩ := C56_rotation roll v3 vp hv
  rw [h] at h'
  simp only [Option.some.injEq, Prod.mk.injEq] at h'
  obtain ⟨rfl, rfl, rfl, rfl⟩ := h'
  linear_combination x ^ 2 * h1 + y ^ 2 * h2 + 2 * x * y * h3

/-- **C56**: any other parity is rejected. -/
theorem C56_rejected (roll v3 : ℝ) (vp : Int) : rotMatrix roll v3 vp = none ↔ vp ≠ 1 ∧ vp ≠ -1 := by
  simp only [rotMatrix]
  split <;> simp_all

/-- **C56**: a requested rotation determines the matrix, whatever the V3 angle; rotation zero gives north up. -/
theorem C56_requested_rotation (rollRef v3 : ℝ) (vp : Int) (hv : vp = 1 ∨ vp = -1) (r : ℝ) :
    outputMatrix rollRef v3 vp (some r) = some (vp * Real.cos r, Real.sin r, -(vp * Real.sin r), Real.cos r) ∧
    outputMatrix rollRef v3 vp (some 0) = some ((vp : ℝ), 0, 0, 1) := by
  have e : ∀ r : ℝ, outputMatrix rollRef v3 vp (some r) =
      some (vp * Real.cos r, Real.sin r, -(vp * Real.sin r), Real.cos r) := by
    intro r
    simp only [outputMatrix, rotMatrix]
    rw [if_neg (by tauto)]
    simp
  refine ⟨e r, ?_⟩
  rw [e 0]
  simp

example : ((-1 : Int) = 1 ∨ (-1 : Int) = -1) := by decide
example : ((2 : Int) ≠ 1 ∧ (2 : Int) ≠ -1) := by decide

section Box
variable {α : Type} [Field α] [LinearOrder α] [IsStrictOrderedRing α] [FloorRing α]

theorem al_trunc_bounds (x : α) (h : 0 ≤ x) : (Verif.Resample.trunc x : α) ≤ x ∧ x < Verif.Resample.trunc x + 1 := by
  simp only [Verif.Resample.trunc, h, if_true]
  exact ⟨Int.floor_le x, Int.lt_floor_add_one x⟩

/-- Specification: pixel coordinates of a point under the output WCS, along one axis. -/
def AlCovered (lo hi q : α) : Prop := 0 ≤ q ∧ lo ≤ q ∧ q < hi + 1

theorem al_axis_auto (vs : List α) (b : α × α) (n : Int) (o : α) (h : axisBox vs 0 none none = some (b, n, o)) :
    b.1 = -(1 / 2) ∧ b.2 = n - 1 / 2 ∧ 0 ≤ n ∧ (∀ v ∈ vs, AlCovered b.1 b.2 (v + o)) ∧ (∃ v ∈ vs, v + o = 0) ∧
      ∃ v ∈ vs, b.2 ≤ v + o := by
  simp only [axisBox] at h
  rcases hlo : vs.min? with _ | lo
  · simp [hlo] at h
  rcases hhi : vs.max? with _ | hi
  · simp [hlo, hhi] at h
  simp only [hlo, hhi, Option.some.injEq, Prod.mk.injEq] at h
  obtain ⟨rfl, rfl, rfl⟩ := h
  rw [List.min?_eq_some_iff] at hlo
  rw [List.max?_eq_some_iff] at hhi
  have h0 : 0 ≤ hi + (0 - lo) := by linarith [hlo.2 hi hhi.1]
  obtain ⟨t1, t2⟩ := al_trunc_bounds (hi + (0 - lo) + 1 / 2) (by linarith)
  refine ⟨rfl, rfl, (ru_trunc_nonneg _).2 (by linarith), ?_, ⟨lo, hlo.1, by ring⟩, ⟨hi, hhi.1, ?_⟩⟩
  · intro v hv
    have h1 := hlo.2 v hv
    have h2 := hhi.2 v hv
    exact ⟨by linarith, by simp only; linarith, by simp only; linarith⟩
  · simp only
    linarith

/-- **C57**: with automatic shape and the fiducial point at the tangent point, every vertex of every footprint has
non-negative pixel coordinates, less than one pixel beyond the upper limit of the bounding box, which is that of the
output image and not larger than needed. -/
theorem C57_covers (inv : α × α → α × α) (fps : List (List (α × α))) (fid : α × α) (h0 : inv fid = (0, 0)) (b : Box α)
    (h : boundingBox inv fps fid none none = some b) :
    b.bx = (-(1 / 2), (b.nx : α) - 1 / 2) ∧ b.by_ = (-(1 / 2), (b.ny : α) - 1 / 2) ∧
    (∀ f ∈ fps, ∀ p ∈ f, AlCovered b.bx.1 b.bx.2 ((inv p).1 + b.ox) ∧ AlCovered b.by_.1 b.by_.2 ((inv p).2 + b.oy)) ∧
    (∃ f ∈ fps, ∃ p ∈ f, (inv p).1 + b.ox = 0) ∧ (∃ f ∈ fps, ∃ p ∈ f, (inv p).2 + b.oy = 0) ∧
    (∃ f ∈ fps, ∃ p ∈ f, b.bx.2 ≤ (inv p).1 + b.ox) ∧ (∃ f ∈ fps, ∃ p ∈ f, b.by_.2 ≤ (inv p).2 + b.oy) := by
  simp only [boundingBox, h0, Option.map_none] at h
  have hmem : ∀ (g : α × α → α) (P : α → Prop), (∃ v ∈ ((fps.map fun f => f.map inv).flatten.map g), P v) →
      ∃ f ∈ fps, ∃ p ∈ f, P (g (inv p)) := by
    rintro g P ⟨v, hv, hP⟩
    simp only [List.mem_map, List.mem_flatten] at hv
    obtain ⟨q, ⟨l, ⟨f, hf, rfl⟩, hq⟩, rfl⟩ := hv
    obtain ⟨p, hp, rfl⟩ := List.mem_map.1 hq
    exact ⟨f, hf, p, hp, hP⟩
  have hmem' : ∀ (g : α × α → α) f, f ∈ fps → ∀ p ∈ f, g (inv p) ∈ ((fps.map fun f => f.map inv).flatten.map g) := by
    intro g f hf p hp
    exact List.mem_map_of_mem (List.mem_flatten.2 ⟨f.map inv, List.mem_map_of_mem hf, List.mem_map_of_mem hp⟩)
  rcases hx : axisBox ((fps.map fun f => f.map inv).flatten.map Prod.fst) 0 none none with _ | ⟨bx, nx, ox⟩
  · simp only [hx, reduceCtorEq] at h
  rcases hy : axisBox ((fps.map fun f => f.map inv).flatten.map Prod.snd) 0 none none with _ | ⟨by_, ny, oy⟩
  · simp only [hx, hy, reduceCtorEq] at h
  simp only [hx, hy, Option.some.injEq] at h
  subst h
  obtain ⟨x1, x2, -, x3, x4, x5⟩ := al_axis_auto _ _ _ _ hx
  obtain ⟨y1, y2, -, y3, y4, y5⟩ := al_axis_auto _ _ _ _ hy
  refine ⟨Prod.ext x1 x2, Prod.ext y1 y2, ?_, ?_, ?_, ?_, ?_⟩
  · intro f hf p hp
    exact ⟨x3 _ (hmem' Prod.fst f hf p hp), y3 _ (hmem' Prod.snd f hf p hp)⟩
  · exact hmem Prod.fst (fun v => v + ox = 0) x4
  · exact hmem Prod.snd (fun v => v + oy = 0) y4
  · exact hmem Prod.fst (fun v => bx.2 ≤ v + ox) x5
  · exact hmem Prod.snd (fun v => by_.2 ≤ v + oy) y5

/-- **C57**: a bounding box exists as soon as there is a vertex. -/
theorem C57_exists (inv : α × α → α × α) (fps : List (List (α × α))) (fid : α × α) (crpix : Option (α × α))
    (shape : Option (Int × Int)) (hne : ∃ f ∈ fps, f ≠ []) : ∃ b, boundingBox inv fps fid crpix shape = some b := by
  obtain ⟨f, hf, hne⟩ := hne
  obtain ⟨p, f', rfl⟩ := List.exists_cons_of_ne_nil hne
  have hpts : (fps.map fun f => f.map inv).flatten ≠ [] :=
    List.ne_nil_of_mem (a := inv p) (List.mem_flatten.2 ⟨(p :: f').map inv, List.mem_map_of_mem hf, by simp⟩)
  have hax : ∀ (vs : List α) (nat : α) c s, vs ≠ [] → ∃ r, axisBox vs nat c s = some r := by
    intro vs nat c s hvs
    rcases hlo : vs.min? with _ | lo
    · exact absurd (List.min?_eq_none_iff.1 hlo) hvs
    rcases hhi : vs.max? with _ | hi
    · exact absurd (List.max?_eq_none_iff.1 hhi) hvs
    cases s <;> simp [axisBox, hlo, hhi]
  obtain ⟨⟨bx, nx, ox⟩, hx⟩ := hax ((fps.map fun f => f.map inv).flatten.map Prod.fst) (inv fid).1 (crpix.map Prod.fst)
    (shape.map Prod.snd) (by rw [ne_eq, List.map_eq_nil_iff]; exact hpts)
  obtain ⟨⟨by_, ny, oy⟩, hy⟩ := hax ((fps.map fun f => f.map inv).flatten.map Prod.snd) (inv fid).2 (crpix.map Prod.snd)
    (shape.map Prod.fst) (by rw [ne_eq, List.map_eq_nil_iff]; exact hpts)
  exact ⟨{ bx, by_, ny, nx, ox, oy }, by simp only [boundingBox, hx, hy]⟩

theorem al_axis_crpix (vs : List α) (nat c : α) (s : Option Int) (b : α × α) (n : Int) (o : α)
    (h : axisBox vs nat (some c) s = some (b, n, o)) : nat + o = c := by
  simp only [axisBox] at h
  rcases hlo : vs.min? with _ | lo
  · simp [hlo] at h
  rcases hhi : vs.max? with _ | hi
  · simp [hlo, hhi] at h
  cases s <;>
  · simp only [hlo, hhi, Option.some.injEq, Prod.mk.injEq] at h
    rw [← h.2.2]
    ring

/-- **C57**: with a given `crpix` the fiducial point has these pixel coordinates. -/
theorem C57_crpix (inv : α × α → α × α) (fps : List (List (α × α))) (fid c : α × α) (shape : Option (Int × Int)) (b : Box α)
    (h : boundingBox inv fps fid (some c) shape = some b) :
    ((inv fid).1 + b.ox, (inv fid).2 + b.oy) = c := by
  simp only [boundingBox, Option.map_some] at h
  rcases hx : axisBox ((fps.map fun f => f.map inv).flatten.map Prod.fst) (inv fid).1 (some c.1) (shape.map Prod.snd)
    with _ | ⟨bx, nx, ox⟩
  · simp only [hx, reduceCtorEq] at h
  rcases hy : axisBox ((fps.map fun f => f.map inv).flatten.map Prod.snd) (inv fid).2 (some c.2) (shape.map Prod.fst)
    with _ | ⟨by_, ny, oy⟩
  · simp only [hx, hy, reduceCtorEq] at h
  simp only [hx, hy, Option.some.injEq] at h
  subst h
  exact Prod.ext (al_axis_crpix _ _ _ _ _ _ _ hx) (al_axis_crpix _ _ _ _ _ _ _ hy)

/-- **C57**: along an axis with a given size the bounding box stays inside the image, and a vertex inside the image is less
than one pixel beyond its upper limit. -/
theorem C57_given_size (vs : List α) (nat : α) (c : Option α) (s : Int) (b : α × α) (n : Int) (o : α)
    (h : axisBox vs nat c (some s) = some (b, n, o)) :
    n = s ∧ -(1 / 2) ≤ b.1 ∧ b.2 ≤ s - 1 / 2 ∧
    ∀ v ∈ vs, 0 ≤ v + o → v + o ≤ s - 1 / 2 → b.1 ≤ v + o ∧ v + o < b.2 + 1 := by
  simp only [axisBox] at h
  rcases hlo : vs.min? with _ | lo
  · simp [hlo] at h
  rcases hhi : vs.max? with _ | hi
  · simp [hlo, hhi] at h
  simp only [hlo, hhi, Option.some.injEq, Prod.mk.injEq] at h
  obtain ⟨rfl, rfl, ho⟩ := h
  rw [ho]
  rw [List.min?_eq_some_iff] at hlo
  rw [List.max?_eq_some_iff] at hhi
  refine ⟨rfl, ?_, ?_, ?_⟩
  · have : (0 : α) ≤ ((max 0 (Verif.Resample.trunc (lo + o + 1 / 2)) : Int) : α) := by
      exact_mod_cast le_max_left _ _
    simp only
    linarith
  · have : ((min (Verif.Resample.trunc (hi + o + 1 / 2)) s : Int) : α) ≤ (s : α) := by
      exact_mod_cast min_le_right _ _
    simp only
    linarith
  · intro v hv h0 hs
    have h1 := hlo.2 v hv
    have h2 := hhi.2 v hv
    simp only
    constructor
    · have hm : max 0 (Verif.Resample.trunc (lo + o + 1 / 2)) ≤ max 0 (Verif.Resample.trunc (v + o + 1 / 2)) :=
        max_le_max le_rfl (ru_trunc_mono _ _ (by linarith))
      obtain ⟨t1, -⟩ := al_trunc_bounds (v + o + 1 / 2) (by linarith)
      have ht : 0 ≤ Verif.Resample.trunc (v + o + 1 / 2) := (ru_trunc_nonneg _).2 (by linarith)
      rw [max_eq_right ht] at hm
      have hm' : ((max 0 (Verif.Resample.trunc (lo + o + 1 / 2)) : Int) : α) ≤ (Verif.Resample.trunc (v + o + 1 / 2) : α) := by
        exact_mod_cast hm
      linarith
    · obtain ⟨-, t2⟩ := al_trunc_bounds (hi + o + 1 / 2) (by linarith)
      rcases le_total (Verif.Resample.trunc (hi + o + 1 / 2)) s with h' | h'
      · rw [min_eq_left h']; linarith
      · rw [min_eq_right h']; linarith

/-- Finding: if the fiducial point is not at the tangent point (a transform given by the caller), the vertices are not
moved to the image: the lowest coordinate is that of the fiducial point. -/
theorem C57_other_tangent_point (vs : List α) (nat : α) (s : Option Int) (b : α × α) (n : Int) (o : α)
    (h : axisBox vs nat none s = some (b, n, o)) : (∀ v ∈ vs, nat ≤ v + o) ∧ ∃ v ∈ vs, v + o = nat := by
  simp only [axisBox] at h
  rcases hlo : vs.min? with _ | lo
  · simp [hlo] at h
  rcases hhi : vs.max? with _ | hi
  · simp [hlo, hhi] at h
  have ho : nat - lo = o := by
    cases s <;>
    · simp only [hlo, hhi, Option.some.injEq, Prod.mk.injEq] at h
      exact h.2.2
  rw [List.min?_eq_some_iff] at hlo
  refine ⟨fun v hv => ?_, lo, hlo.1, by rw [← ho]; ring⟩
  have := hlo.2 v hv
  rw [← ho]
  linarith

example : (boundingBox (α := ℚ) id [[(-3, 1), (4, 1)], [(1, -2), (9 / 4, 12)]] (0, 0) none none).map
    (fun b => (b.bx, b.by_, b.ny, b.nx, b.ox, b.oy)) =
    some ((-(1 / 2), 13 / 2), (-(1 / 2), 27 / 2), 14, 7, 3, 2) := by decide +kernel

example : (boundingBox (α := ℚ) id [[(-3, 1), (4, 1)], [(1, -2), (9 / 4, 12)]] (1, 1) (some (5, 5)) (some (8, 7))).map
    (fun b => (b.bx, b.by_, b.ny, b.nx, b.ox, b.oy)) =
    some ((1 / 2, 13 / 2), (3 / 2, 15 / 2), 8, 7, 4, 4) := by decide +kernel

end Box

end Verif.Thm
