import Mathlib.Algebra.Order.Field.Rat
import Mathlib.Tactic.FieldSimp
import Mathlib.Tactic.Linarith
import Mathlib.Tactic.Ring
import Mathlib.Tactic.NormNum
import Mathlib.Tactic.IntervalCases
import Verif.Model.Simplify

/-! # Simplification of combined outlines (C81) -/

set_option linter.unusedSectionVars false

namespace Verif.Thm
open Verif.Simplify

section Gen
variable {α : Type} [Field α] [LinearOrder α] [IsStrictOrderedRing α]

/-- Specification: two points that are the same to the threshold. -/
def SpSame (thresh : α) (p q : α × α) : Prop := |q.1 - p.1| < thresh ∧ |q.2 - p.2| < thresh

/-- Specification: two vectors span an angle (between lines) whose tangent is below `t`. -/
def SpAligned (t : α) (u v : α × α) : Prop := |u.1 * v.2 - v.1 * u.2| < t * |u.1 * v.1 + u.2 * v.2|

/-- Specification: an edge, with the constant the code adds to its first coordinate. -/
def spEdge (eps : α) (p q : α × α) : α × α := (q.1 - p.1 + eps, q.2 - p.2)

/-- The predecessor, the vertex and the successor on a closed outline. -/
def SpTriple (coords : List (α × α)) (i : Nat) (p0 p1 p2 : α × α) : Prop :=
  coords[(i + coords.length - 1) % coords.length]? = some p0 ∧ coords[i]? = some p1 ∧
    coords[(i + 1) % coords.length]? = some p2

theorem sp_straight (t eps : α) (p0 p1 p2 : α × α) :
    straight t (slope eps p0 p1) (slope eps p1 p2) = true ↔
      (spEdge eps p0 p1).1 ≠ 0 ∧ (spEdge eps p1 p2).1 ≠ 0 ∧ SpAligned t (spEdge eps p0 p1) (spEdge eps p1 p2) := by
  simp only [slope, spEdge, SpAligned]
  generalize p1.1 - p0.1 + eps = x1
  generalize p1.2 - p0.2 = y1
  generalize p2.1 - p1.1 + eps = x2
  generalize p2.2 - p1.2 = y2
  by_cases h1 : x1 = 0
  · simp [h1, straight]
  · by_cases h2 : x2 = 0
    · simp [h1, h2, straight]
    · simp only [h1, h2, if_false, straight, ne_eq, not_false_iff, true_and]
      have hd : 1 + y1 / x1 * (y2 / x2) = (x1 * x2 + y1 * y2) / (x1 * x2) := by field_simp
      have hx : x1 * x2 ≠ 0 := mul_ne_zero h1 h2
      have hn : y2 / x2 - y1 / x1 = (x1 * y2 - x2 * y1) / (x1 * x2) := by field_simp
      rw [hd, hn]
      by_cases h3 : x1 * x2 + y1 * y2 = 0
      · simp only [h3, zero_div, if_true, Bool.false_eq_true, abs_zero, mul_zero, false_iff, not_lt]
        exact abs_nonneg _
      · rw [if_neg (div_ne_zero h3 hx), decide_eq_true_eq, div_div_div_cancel_right₀ hx, abs_div,
          div_lt_iff₀ (abs_pos.2 h3)]

theorem sp_collinear (thresh t eps : α) (p0 p1 p2 : α × α) :
    collinear thresh t eps p0 p1 p2 = true ↔ SpSame thresh p0 p1 ∨
      ((spEdge eps p0 p1).1 ≠ 0 ∧ (spEdge eps p1 p2).1 ≠ 0 ∧ SpAligned t (spEdge eps p0 p1) (spEdge eps p1 p2)) := by
  rw [collinear, Bool.or_eq_true, sp_straight]
  simp [close, SpSame]

theorem sp_sublist (coords : List (α × α)) (f : Nat → Bool) :
    (((List.range coords.length).filter f).map fun i => coords.getD i (0, 0)).Sublist coords := by
  have h : (List.range coords.length).map (fun i => coords.getD i (0, 0)) = coords := by
    apply List.ext_getElem
    · simp
    · intro i h1 h2
      simp [h2]
  conv_rhs => rw [← h]
  exact List.filter_sublist.map _

/-- **C81**: the simplified outline consists of vertices of the outline in their order.  The vertex at `i` stays exactly when it is
not the same as its predecessor and the edges that meet there are not aligned, to the thresholds.  Missing from the full statement: that every corner
of the outline is kept by some vertex near it (see `C81_corner_lost` and `C81_vanishes`). -/
theorem C81_kept_partial (thresh t eps : α) (coords : List (α × α)) :
    (simplify thresh t eps coords).Sublist coords ∧
    ∃ keep : List Nat, keep.Pairwise (· < ·) ∧ simplify thresh t eps coords = keep.filterMap (fun i => coords[i]?) ∧
      ∀ i, i ∈ keep ↔ ∃ p0 p1 p2, SpTriple coords i p0 p1 p2 ∧ ¬ SpSame thresh p0 p1 ∧
        ((spEdge eps p0 p1).1 ≠ 0 → (spEdge eps p1 p2).1 ≠ 0 → ¬ SpAligned t (spEdge eps p0 p1) (spEdge eps p1 p2)) := by
  refine ⟨sp_sublist coords _, (List.range coords.length).filter fun i =>
      !collinear thresh t eps (coords.getD ((i + coords.length - 1) % coords.length) (0, 0)) (coords.getD i (0, 0))
        (coords.getD ((i + 1) % coords.length) (0, 0)), List.Pairwise.filter _ List.pairwise_lt_range, ?_, fun i => ?_⟩
  · rw [simplify, ← List.filterMap_eq_map]
    apply List.filterMap_congr
    intro i hi
    have hlt := List.mem_range.1 (List.mem_filter.1 hi).1
    simp [hlt]
  · rw [List.mem_filter, List.mem_range, Bool.not_eq_true', ← Bool.not_eq_true, sp_collinear]
    constructor
    · rintro ⟨hlt, hc⟩
      have hpos : 0 < coords.length := by omega
      have h0 : (i + coords.length - 1) % coords.length < coords.length := Nat.mod_lt _ hpos
      have h2 : (i + 1) % coords.length < coords.length := Nat.mod_lt _ hpos
      rw [not_or] at hc
      exact ⟨_, _, _, ⟨by simp [h0], by simp [hlt], by simp [h2]⟩, hc.1, fun h3 h4 h5 => hc.2 ⟨h3, h4, h5⟩⟩
    · rintro ⟨p0, p1, p2, ⟨e0, e1, e2⟩, hs, ha⟩
      have hlt : i < coords.length := (List.getElem?_eq_some_iff.1 e1).1
      rw [List.getD_eq_getElem?_getD, List.getD_eq_getElem?_getD, List.getD_eq_getElem?_getD, e0, e1, e2]
      simp only [Option.getD_some, not_or]
      exact ⟨hlt, hs, fun h => ha h.1 h.2.1 h.2.2⟩

/-- **C81** (finding): an outline in which every vertex is the same as its predecessor to the threshold vanishes. -/
theorem C81_vanishes (thresh t eps : α) (coords : List (α × α))
    (h : ∀ i p0 p1 p2, SpTriple coords i p0 p1 p2 → SpSame thresh p0 p1) : simplify thresh t eps coords = [] := by
  rcases C81_kept_partial thresh t eps coords with ⟨_, keep, _, he, hk⟩
  rcases keep with _ | ⟨i, rest⟩
  · simpa using he
  · rcases (hk i).1 (by simp) with ⟨p0, p1, p2, h3, hn, _⟩
    exact absurd (h i p0 p1 p2 h3) hn

/-- **C81** (finding), for every outline: a vertex in line with its neighbours whose successor is the same to the threshold is removed
together with this successor, whatever corner the two stand for. -/
theorem C81_both_lost (thresh t eps : α) (coords : List (α × α)) (i : Nat) (p0 p1 p2 : α × α) (h : SpTriple coords i p0 p1 p2)
    (h1 : (spEdge eps p0 p1).1 ≠ 0) (h2 : (spEdge eps p1 p2).1 ≠ 0) (ha : SpAligned t (spEdge eps p0 p1) (spEdge eps p1 p2))
    (hs : SpSame thresh p1 p2) :
    ∃ keep : List Nat, keep.Pairwise (· < ·) ∧ simplify thresh t eps coords = keep.filterMap (fun i => coords[i]?) ∧
      i ∉ keep ∧ (i + 1) % coords.length ∉ keep := by
  obtain ⟨-, keep, hp, he, hk⟩ := C81_kept_partial thresh t eps coords
  have hlt : i < coords.length := (List.getElem?_eq_some_iff.1 h.2.1).1
  refine ⟨keep, hp, he, fun hi => ?_, fun hi => ?_⟩
  · obtain ⟨q0, q1, q2, hq, -, hn⟩ := (hk i).1 hi
    have e0 : q0 = p0 := Option.some.inj (hq.1.symm.trans h.1)
    have e1 : q1 = p1 := Option.some.inj (hq.2.1.symm.trans h.2.1)
    have e2 : q2 = p2 := Option.some.inj (hq.2.2.symm.trans h.2.2)
    subst e0 e1 e2
    exact hn h1 h2 ha
  · obtain ⟨q0, q1, q2, hq, hn, -⟩ := (hk _).1 hi
    have hprev : ((i + 1) % coords.length + coords.length - 1) % coords.length = i := by
      by_cases hw : i + 1 < coords.length
      · rw [Nat.mod_eq_of_lt hw, show i + 1 + coords.length - 1 = i + coords.length by omega, Nat.add_mod_right, Nat.mod_eq_of_lt hlt]
      · rw [show i + 1 = coords.length by omega, Nat.mod_self, Nat.zero_add, Nat.mod_eq_of_lt (by omega)]
        omega
    have e0 : q0 = p1 := Option.some.inj (hq.1.symm.trans (by rw [hprev]; exact h.2.1))
    have e1 : q1 = p2 := Option.some.inj (hq.2.1.symm.trans h.2.2)
    subst e0 e1
    exact hn hs

/-- **C81**: as long as no vertex is the same as its predecessor to the threshold, every vertex at which the outline turns is kept. -/
theorem C81_corners_partial (thresh t eps : α) (coords : List (α × α))
    (hd : ∀ i p0 p1 p2, SpTriple coords i p0 p1 p2 → ¬ SpSame thresh p0 p1) (i : Nat) (p0 p1 p2 : α × α) (h : SpTriple coords i p0 p1 p2)
    (ha : ¬ SpAligned t (spEdge eps p0 p1) (spEdge eps p1 p2)) : p1 ∈ simplify thresh t eps coords := by
  obtain ⟨-, keep, hp, he, hk⟩ := C81_kept_partial thresh t eps coords
  rw [he, List.mem_filterMap]
  exact ⟨i, (hk i).2 ⟨p0, p1, p2, h, hd i p0 p1 p2 h, fun _ _ => ha⟩, h.2.1⟩

-- C81_both_lost, C81_corners_partial
example : SpTriple [((0 : ℚ), (0 : ℚ)), (10, 0), (1001 / 100, 0), (1001 / 100, 10), (0, 10)] 1 (0, 0) (10, 0) (1001 / 100, 0)
    ∧ (spEdge (1 / 10 ^ 12) ((0 : ℚ), (0 : ℚ)) (10, 0)).1 ≠ 0 ∧ (spEdge (1 / 10 ^ 12) ((10 : ℚ), (0 : ℚ)) (1001 / 100, 0)).1 ≠ 0
    ∧ SpAligned (1 / 10 ^ 6) (spEdge (1 / 10 ^ 12) ((0 : ℚ), (0 : ℚ)) (10, 0)) (spEdge (1 / 10 ^ 12) (10, 0) (1001 / 100, 0))
    ∧ SpSame (1 / 20) ((10 : ℚ), (0 : ℚ)) (1001 / 100, 0) := by
  refine ⟨by unfold SpTriple; decide +kernel, ?_, ?_, ?_, ?_⟩ <;> simp only [spEdge, SpAligned, SpSame] <;> decide +kernel

example : (∀ i p0 p1 p2, SpTriple [((0 : ℚ), (0 : ℚ)), (10, 0), (10, 10), (0, 10)] i p0 p1 p2 → ¬ SpSame (1 / 20) p0 p1)
    ∧ SpTriple [((0 : ℚ), (0 : ℚ)), (10, 0), (10, 10), (0, 10)] 1 (0, 0) (10, 0) (10, 10)
    ∧ ¬ SpAligned (1 / 10 ^ 6) (spEdge (1 / 10 ^ 12) ((0 : ℚ), (0 : ℚ)) (10, 0)) (spEdge (1 / 10 ^ 12) (10, 0) (10, 10)) := by
  refine ⟨?_, by unfold SpTriple; decide +kernel, by simp only [spEdge, SpAligned]; decide +kernel⟩
  rintro i p0 p1 p2 ⟨e0, e1, -⟩
  have hi : i < 4 := (List.getElem?_eq_some_iff.1 e1).1
  interval_cases i <;> simp at e0 e1 <;> subst e0 e1 <;> simp only [SpSame] <;> decide +kernel

end Gen

/-- **C81** (finding): a square in which the corner `(10, 0)` is followed by a vertex 1/100 further along the incoming edge: both are removed,
the first as aligned and the second as the same as the first, and a triangle is left. -/
theorem C81_corner_lost :
    simplify (1 / 20) (1 / 10 ^ 6) (1 / 10 ^ 12) [((0 : ℚ), (0 : ℚ)), (10, 0), (1001 / 100, 0), (1001 / 100, 10), (0, 10)] =
      [(0, 0), (1001 / 100, 10), (0, 10)] := by decide +kernel

/-- A rectangle with an extra vertex on an edge. -/
example : simplify (1 / 20) (1 / 10 ^ 6) (1 / 10 ^ 12) [((0 : ℚ), (0 : ℚ)), (5, 0), (10, 0), (10, 10), (0, 10)] =
    [(0, 0), (10, 0), (10, 10), (0, 10)] := by decide +kernel

example : simplify (1 / 20) (1 / 10 ^ 6) (1 / 10 ^ 12) [((0 : ℚ), (0 : ℚ)), (1 / 100, 0), (1 / 100, 1 / 100)] = [] := by decide +kernel

end Verif.Thm
