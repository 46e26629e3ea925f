import Mathlib.Analysis.SpecialFunctions.Trigonometric.Inverse
import Mathlib.Data.List.Perm.Basic
import Mathlib.Data.List.Nodup
import Mathlib.Data.List.Sort
import Mathlib.Data.List.Count
import Mathlib.Tactic.Linarith
import Mathlib.Tactic.Ring
import Verif.Model.Catalog

/-! # Reference catalogues (C59-C61, C82) -/

set_option linter.unusedSectionVars false

namespace Verif.Thm
open Verif.Catalog

/-! ### Partitions -/

/-- Specification: partition `p` encloses cell `i` of depth `D` (each cell has four children). -/
def CtEncloses (p : Nat × Nat) (D i : Nat) : Prop := p.1 ≤ D ∧ i / 4 ^ (D - p.1) = p.2

/-- Specification: the deepest partition of the catalogue that encloses a cell. -/
def CtDeepest (cat : List (Nat × Nat)) (p : Nat × Nat) (D i : Nat) : Prop :=
  p ∈ cat ∧ CtEncloses p D i ∧ ∀ q ∈ cat, CtEncloses q D i → q.1 ≤ p.1

theorem ct_encloses_succ (p : Nat × Nat) (D i : Nat) (h : p.1 ≤ D) :
    CtEncloses p (D + 1) i ↔ CtEncloses p D (i >>> 2) := by
  have : i / 4 ^ (D + 1 - p.1) = i >>> 2 / 4 ^ (D - p.1) := by
    rw [Nat.shiftRight_eq_div_pow, Nat.div_div_eq_div_mul, show D + 1 - p.1 = (D - p.1) + 1 by omega, pow_succ]
    ring_nf
  simp only [CtEncloses, this]
  constructor
  · rintro ⟨_, h2⟩; exact ⟨h, h2⟩
  · rintro ⟨_, h2⟩; exact ⟨by omega, h2⟩

theorem ct_encloses_self (D i : Nat) (p : Nat × Nat) (h : CtEncloses p D i) (hd : p.1 = D) : p = (D, i) := by
  rcases p with ⟨a, b⟩
  subst hd
  have := h.2
  simp only [Nat.sub_self, pow_zero, Nat.div_one] at this
  rw [← this]

theorem ct_lookup (cat : List (Nat × Nat)) (m : Nat) (hm : ∀ q ∈ cat, m ≤ q.1) (D i : Nat) (p : Nat × Nat) :
    lookup cat m D i = some p ↔ CtDeepest cat p D i := by
  induction D generalizing i with
  | zero =>
    have henc : ∀ q : Nat × Nat, CtEncloses q 0 i ↔ q = (0, i) := by
      intro q
      constructor
      · intro h
        exact ct_encloses_self 0 i q h (Nat.le_zero.1 h.1)
      · rintro rfl
        simp [CtEncloses]
    simp only [CtDeepest, henc, lookup]
    constructor
    · intro h
      split at h
      · simp at h
      · split at h
        · rename_i hc
          simp only [Option.some.injEq] at h
          subst h
          exact ⟨hc, rfl, fun q _ hq => by rw [hq]⟩
        · simp at h
    · rintro ⟨hc, rfl, _⟩
      rw [if_neg (by have := hm _ hc; simp at this; omega), if_pos hc]
  | succ D ih =>
    rw [lookup]
    have hself : CtEncloses (D + 1, i) (D + 1) i := by simp [CtEncloses]
    by_cases h1 : D + 1 < m
    · rw [if_pos h1]
      simp only [reduceCtorEq, false_iff]
      rintro ⟨hc, he, _⟩
      have := hm p hc
      have := he.1
      omega
    · rw [if_neg h1]
      by_cases h2 : (D + 1, i) ∈ cat
      · rw [if_pos h2]
        constructor
        · intro h
          simp only [Option.some.injEq] at h
          subst h
          exact ⟨h2, hself, fun q _ hq => hq.1⟩
        · rintro ⟨_, he, hmax⟩
          have h3 := hmax _ h2 hself
          have := he.1
          rw [ct_encloses_self (D + 1) i p he (by simp at h3; omega)]
      · rw [if_neg h2, ih]
        have hle : ∀ q ∈ cat, CtEncloses q (D + 1) i → q.1 ≤ D := by
          intro q hq he
          by_contra hlt
          have := he.1
          exact h2 (ct_encloses_self (D + 1) i q he (by omega) ▸ hq)
        constructor
        · rintro ⟨hc, he, hmax⟩
          exact ⟨hc, (ct_encloses_succ p D i he.1).2 he,
            fun q hq hqe => hmax q hq ((ct_encloses_succ q D i (hle q hq hqe)).1 hqe)⟩
        · rintro ⟨hc, he, hmax⟩
          exact ⟨hc, (ct_encloses_succ p D i (hle p hc he)).1 he,
            fun q hq hqe => hmax q hq ((ct_encloses_succ q D i hqe.1).2 hqe)⟩

theorem ct_matches_mem (cat : List (Nat × Nat)) (m D : Nat) (search : List Nat) (p : Nat × Nat) :
    p ∈ matches_ cat m D search ↔ ∃ i ∈ search, lookup cat m D i = some p := by
  induction search with
  | nil => simp [matches_]
  | cons i rest ih =>
    simp only [matches_, List.mem_cons, exists_eq_or_imp]
    rcases hl : lookup cat m D i with _ | q
    · simp [ih]
    · simp only [Option.some.injEq]
      by_cases hq : q ∈ matches_ cat m D rest
      · rw [if_pos hq, ih]
        constructor
        · exact Or.inr
        · rintro (rfl | h)
          · exact ih.1 hq
          · exact h
      · rw [if_neg hq, List.mem_cons, ih]
        exact or_congr_left eq_comm

theorem ct_matches_nodup (cat : List (Nat × Nat)) (m D : Nat) (search : List Nat) : (matches_ cat m D search).Nodup := by
  induction search with
  | nil => simp [matches_]
  | cons i rest ih =>
    simp only [matches_]
    rcases lookup cat m D i with _ | q
    · exact ih
    · by_cases hq : q ∈ matches_ cat m D rest
      · simpa [hq] using ih
      · simpa [hq] using ih

theorem ct_min (cat : List (Nat × Nat)) (m : Nat) (h : (cat.map Prod.fst).min? = some m) :
    (∃ q ∈ cat, q.1 = m) ∧ ∀ q ∈ cat, m ≤ q.1 := by
  rw [List.min?_eq_some_iff] at h
  rcases h with ⟨hm, hle⟩
  rw [List.mem_map] at hm
  exact ⟨hm, fun q hq => hle _ (List.mem_map_of_mem hq)⟩

/-- **C59**: the selected partitions are exactly the deepest enclosing partitions of the searched cells, each once. -/
theorem C59_selected (cat : List (Nat × Nat)) (search : List Nat) (D : Nat) (ps : List (Nat × Nat))
    (h : findPixels cat search D = some ps) :
    ps.Nodup ∧ ∀ p, p ∈ ps ↔ ∃ i ∈ search, CtDeepest cat p D i := by
  simp only [findPixels] at h
  split at h
  · simp at h
  · rename_i m hm
    split at h
    · simp at h
    · simp only [Option.some.injEq] at h
      subst h
      refine ⟨ct_matches_nodup _ _ _ _, fun p => ?_⟩
      rw [ct_matches_mem]
      simp only [ct_lookup cat m (ct_min cat m hm).2]

/-- **C59**: the query fails exactly when every partition is deeper than the search. -/
theorem C59_fails (cat : List (Nat × Nat)) (search : List Nat) (D : Nat) :
    findPixels cat search D = none ↔ ∀ p ∈ cat, D < p.1 := by
  simp only [findPixels]
  split
  · rename_i hm
    simp only [true_iff]
    rw [List.min?_eq_none_iff, List.map_eq_nil_iff] at hm
    simp [hm]
  · rename_i m hm
    rcases ct_min cat m hm with ⟨⟨q, hq, rfl⟩, hle⟩
    constructor
    · intro h p hp
      split at h
      · exact lt_of_lt_of_le (by assumption) (hle p hp)
      · simp at h
    · intro h
      rw [if_pos (h q hq)]

/-- Specification: no partition encloses another one. -/
def CtDisjoint (cat : List (Nat × Nat)) : Prop := ∀ p ∈ cat, ∀ q ∈ cat, CtEncloses p q.1 q.2 → p = q

theorem ct_nested (p q : Nat × Nat) (D i : Nat) (hp : CtEncloses p D i) (hq : CtEncloses q D i) (h : p.1 ≤ q.1) :
    CtEncloses p q.1 q.2 := by
  refine ⟨h, ?_⟩
  rw [← hq.2, Nat.div_div_eq_div_mul, ← pow_add, ← hp.2]
  have := hq.1
  congr 2
  omega

/-- **C59**: when no partition encloses another one, the selected partitions are exactly those that enclose a searched cell. -/
theorem C59_disjoint (cat : List (Nat × Nat)) (hd : CtDisjoint cat) (search : List Nat) (D : Nat) (ps : List (Nat × Nat))
    (h : findPixels cat search D = some ps) (p : Nat × Nat) :
    p ∈ ps ↔ p ∈ cat ∧ ∃ i ∈ search, CtEncloses p D i := by
  rw [(C59_selected cat search D ps h).2]
  constructor
  · rintro ⟨i, hi, hc, he, _⟩
    exact ⟨hc, i, hi, he⟩
  · rintro ⟨hc, i, hi, he⟩
    refine ⟨i, hi, hc, he, fun q hq hqe => ?_⟩
    by_contra hlt
    have := hd p hc q hq (ct_nested p q D i he hqe (by omega))
    subst this
    omega

/-- **C59**: an index of depth 29 passes the filters exactly when its cell was searched. -/
theorem C59_ranges (cells : List Nat) (D k : Nat) :
    passes (ranges cells D) k = true ↔ k / 4 ^ (29 - D) ∈ cells := by
  have hp : 2 ^ ((29 - D) * 2) = 4 ^ (29 - D) := by
    rw [mul_comm, pow_mul]
    norm_num
  have hpos : 0 < 4 ^ (29 - D) := by positivity
  simp only [passes, ranges, List.any_map, List.any_eq_true, Function.comp_apply, Bool.and_eq_true, decide_eq_true_eq,
    Nat.shiftLeft_eq, hp]
  constructor
  · rintro ⟨i, hi, h1, h2⟩
    have : k / 4 ^ (29 - D) = i := Nat.div_eq_of_lt_le h1 h2
    rwa [this]
  · intro h
    exact ⟨_, h, Nat.div_mul_le_self _ _, by
      rw [mul_comm]
      exact Nat.lt_mul_div_succ k hpos⟩

/-- **C59**: end to end.  When no partition encloses another one and every file holds only rows of its cell, the query returns,
up to order, exactly the rows of the catalogue whose cell at the greatest depth is in the result of the cone search. -/
theorem C59_complete {ρ : Type} (cat : List (Nat × Nat)) (hnd : cat.Nodup) (hd : CtDisjoint cat) (cone : Nat → List Nat)
    (file : Nat × Nat → List ρ) (index : ρ → Nat) (D : Nat) (hD : ∀ p ∈ cat, p.1 ≤ D) (hex : ∃ p ∈ cat, p.1 = D) (h29 : D ≤ 29)
    (hfile : ∀ p ∈ cat, ∀ r ∈ file p, CtEncloses p 29 (index r)) :
    ∃ rows, readRows cat cone file index = some rows ∧
      rows.Perm ((cat.flatMap file).filter fun r => decide (index r / 4 ^ (29 - D) ∈ cone D)) := by
  have hmax : (cat.map Prod.fst).max? = some D := by
    rw [List.max?_eq_some_iff]
    rcases hex with ⟨p, hp, he⟩
    refine ⟨List.mem_map.2 ⟨p, hp, he⟩, ?_⟩
    intro b hb
    rcases List.mem_map.1 hb with ⟨q, hq, rfl⟩
    exact hD q hq
  have hne : findPixels cat (cone D) D ≠ none := by
    rw [Ne, C59_fails]
    rcases hex with ⟨p, hp, he⟩
    intro h
    exact absurd (h p hp) (by omega)
  rcases hf : findPixels cat (cone D) D with _ | ps
  · exact absurd hf hne
  · refine ⟨(ps.flatMap file).filter fun r => passes (ranges (cone D) D) (index r), by simp [readRows, hmax, hf], ?_⟩
    have hpass : ∀ r, passes (ranges (cone D) D) (index r) = decide (index r / 4 ^ (29 - D) ∈ cone D) := by
      intro r
      rw [Bool.eq_iff_iff, C59_ranges, decide_eq_true_eq]
    simp only [hpass]
    have hperm : ps.Perm (cat.filter fun p => decide (p ∈ ps)) := by
      rw [List.perm_ext_iff_of_nodup (C59_selected cat _ D ps hf).1 (hnd.filter _)]
      intro p
      rw [List.mem_filter, decide_eq_true_eq]
      constructor
      · intro h
        exact ⟨((C59_disjoint cat hd _ D ps hf p).1 h).1, h⟩
      · exact And.right
    refine ((hperm.flatMap_right file).filter _).trans ?_
    have hsub : ∀ l : List (Nat × Nat), (∀ p ∈ l, p ∈ cat) →
        ((l.filter fun p => decide (p ∈ ps)).flatMap file).filter (fun r => decide (index r / 4 ^ (29 - D) ∈ cone D)) =
        (l.flatMap file).filter fun r => decide (index r / 4 ^ (29 - D) ∈ cone D) := by
      intro l hl
      induction l with
      | nil => rfl
      | cons p l ih =>
        have hp := hl p (by simp)
        have ih' := ih fun q hq => hl q (by simp [hq])
        rw [List.flatMap_cons, List.filter_append]
        by_cases hps : p ∈ ps
        · rw [List.filter_cons_of_pos (by simpa using hps), List.flatMap_cons, List.filter_append, ih']
        · rw [List.filter_cons_of_neg (by simpa using hps), ih']
          have : (file p).filter (fun r => decide (index r / 4 ^ (29 - D) ∈ cone D)) = [] := by
            rw [List.filter_eq_nil_iff]
            intro r hr hin
            rw [decide_eq_true_eq] at hin
            apply hps
            rw [C59_disjoint cat hd _ D ps hf p]
            refine ⟨hp, _, hin, hD p hp, ?_⟩
            have he := hfile p hp r hr
            rw [Nat.div_div_eq_div_mul, ← pow_add, ← he.2]
            have := hD p hp
            congr 2
            omega
          rw [this, List.nil_append]
    rw [hsub cat fun p hp => hp]

/-- Two partitions of depth 1 and one of depth 2, of which the first and last enclose a searched cell. -/
example : findPixels [(1, 0), (1, 1), (2, 8)] [3, 2, 8] 2 = some [(1, 0), (2, 8)] := by decide

example : ∀ p ∈ [((1 : Nat), (0 : Nat)), (1, 1), (2, 8)], ∀ q ∈ [((1 : Nat), (0 : Nat)), (1, 1), (2, 8)],
    (p.1 ≤ q.1 ∧ q.2 / 4 ^ (q.1 - p.1) = p.2) → p = q := by decide

/-! ### The accurate cone search -/

/-- Specification: the direction of a position in degrees. -/
noncomputable def ctDir (ra dec : ℝ) : ℝ × ℝ × ℝ :=
  (Real.cos (dec * (Real.pi / 180)) * Real.cos (ra * (Real.pi / 180)),
    Real.cos (dec * (Real.pi / 180)) * Real.sin (ra * (Real.pi / 180)), Real.sin (dec * (Real.pi / 180)))

/-- Specification: the angle between two unit vectors. -/
noncomputable def ctAngle (u v : ℝ × ℝ × ℝ) : ℝ := Real.arccos (u.1 * v.1 + u.2.1 * v.2.1 + u.2.2 * v.2.2)

/-- **C82**: the final filter keeps exactly the rows within the radius of the centre on the sky. -/
theorem C82_kept (ra dec ra0 dec0 radius : ℝ) (h0 : 0 ≤ radius) (h180 : radius ≤ 180) :
    Kept ra dec ra0 dec0 radius ↔ ctAngle (ctDir ra dec) (ctDir ra0 dec0) ≤ radius * (Real.pi / 180) := by
  have hpi := Real.pi_pos
  simp only [Kept, ctAngle, ctDir, radians]
  generalize ra * (Real.pi / 180) = a
  generalize dec * (Real.pi / 180) = d
  generalize ra0 * (Real.pi / 180) = a0
  generalize dec0 * (Real.pi / 180) = d0
  have hr0 : 0 ≤ radius * (Real.pi / 180) := by positivity
  have hr1 : radius * (Real.pi / 180) ≤ Real.pi := by
    have : radius * (Real.pi / 180) = radius / 180 * Real.pi := by ring
    rw [this]
    have h1 : radius / 180 ≤ 1 := by linarith
    nlinarith
  generalize radius * (Real.pi / 180) = R at *
  have hdot : Real.cos d * Real.cos a * (Real.cos d0 * Real.cos a0) + Real.cos d * Real.sin a * (Real.cos d0 * Real.sin a0) +
      Real.sin d * Real.sin d0 = Real.sin d * Real.sin d0 + Real.cos d * Real.cos d0 * Real.cos (a - a0) := by
    rw [Real.cos_sub]
    ring
  rw [hdot]
  generalize hx : Real.sin d * Real.sin d0 + Real.cos d * Real.cos d0 * Real.cos (a - a0) = x
  have hx1 : x ≤ 1 := by
    have h1 := Real.cos_sq_add_sin_sq d
    have h2 := Real.cos_sq_add_sin_sq d0
    have h3 := Real.cos_sq_add_sin_sq (a - a0)
    nlinarith [sq_nonneg (Real.sin d - Real.sin d0), sq_nonneg (Real.cos d - Real.cos d0 * Real.cos (a - a0)),
      mul_nonneg (sq_nonneg (Real.cos d0)) (sq_nonneg (Real.sin (a - a0)))]
  have hx2 : -1 ≤ x := by
    have h1 := Real.cos_sq_add_sin_sq d
    have h2 := Real.cos_sq_add_sin_sq d0
    have h3 := Real.cos_sq_add_sin_sq (a - a0)
    nlinarith [sq_nonneg (Real.sin d + Real.sin d0), sq_nonneg (Real.cos d + Real.cos d0 * Real.cos (a - a0)),
      mul_nonneg (sq_nonneg (Real.cos d0)) (sq_nonneg (Real.sin (a - a0)))]
  rw [min_eq_left hx1, max_eq_right hx2]
  constructor
  · intro h
    rw [← Real.arccos_cos hr0 hr1]
    exact Real.arccos_le_arccos h
  · intro h
    rw [← Real.cos_arccos hx2 hx1]
    exact Real.cos_le_cos_of_nonneg_of_le_pi (Real.arccos_nonneg _) hr1 h

example : (0 : ℝ) ≤ 1 / 10 ∧ (1 / 10 : ℝ) ≤ 180 := by norm_num

/-! ### Source limit -/

section Slice
variable {ρ α : Type} [LinearOrder α]

theorem ct_split (mag : ρ → α) (s : List ρ) (hs : s.Pairwise fun a b => mag b ≤ mag a) (k : Nat) :
    ∀ a ∈ s.take k, ∀ b ∈ s.drop k, mag b ≤ mag a := by
  have := (List.pairwise_append.1 ((List.take_append_drop k s).symm ▸ hs)).2.2
  exact this

/-- **C60**: for a limit of `n ≠ 0` sources, `min |n| total` are returned, and with those left out they make up the table;
for positive `n` all of them are at least as bright as those left out, for negative `n` at least as faint.  Missing from the full
statement: the limit of zero sources (see `C60_zero`). -/
theorem C60_limit_partial (mag : ρ → α) (sort : List ρ → List ρ) (hperm : ∀ t, (sort t).Perm t)
    (hsort : ∀ t, (sort t).Pairwise fun a b => mag b ≤ mag a) (t : List ρ) (n : Int) (hn : n ≠ 0) :
    (limitSources sort t (some n)).length = min n.natAbs t.length ∧
    ∃ out, (out ++ limitSources sort t (some n)).Perm t ∧
      (0 < n → ∀ a ∈ limitSources sort t (some n), ∀ b ∈ out, mag a ≤ mag b) ∧
      (n < 0 → ∀ a ∈ limitSources sort t (some n), ∀ b ∈ out, mag b ≤ mag a) := by
  have hlen : (sort t).length = t.length := (hperm t).length_eq
  simp only [limitSources]
  by_cases h : n < 0
  · have e : sliceTo (sort t) (-1 * n) = (sort t).take n.natAbs := by
      rw [sliceTo, if_pos (by omega)]
      congr 1
      omega
    rw [if_pos h, e]
    refine ⟨by rw [List.length_take, hlen], (sort t).drop n.natAbs, ?_, fun h' => absurd h' (by omega), ?_⟩
    · exact (List.perm_append_comm.trans (by rw [List.take_append_drop])).trans (hperm t)
    · intro _ a ha b hb
      exact ct_split mag _ (hsort t) _ a ha b hb
  · have e : sliceFrom (sort t) (-1 * n) = (sort t).drop (t.length - n.natAbs) := by
      rw [sliceFrom, if_neg (by omega), hlen]
      congr 1
      omega
    rw [if_neg h, e]
    refine ⟨by rw [List.length_drop, hlen]; omega, (sort t).take (t.length - n.natAbs), ?_, ?_, fun h' => absurd h' h⟩
    · rw [List.take_append_drop]
      exact hperm t
    · intro _ a ha b hb
      exact ct_split mag _ (hsort t) _ b hb a ha

/-- **C60** (finding): a limit of zero sources returns all of them. -/
theorem C60_zero (sort : List ρ → List ρ) (hperm : ∀ t, (sort t).Perm t) (t : List ρ) :
    (limitSources sort t (some 0)).Perm t := by
  simpa [limitSources, sliceFrom] using hperm t

/-- **C60**: without a limit all sources are returned. -/
theorem C60_no_limit (sort : List ρ → List ρ) (hperm : ∀ t, (sort t).Perm t) (t : List ρ) :
    (limitSources sort t none).Perm t := hperm t

end Slice

/-- A sort in descending order, and limits of the brightest and faintest two. -/
example : limitSources (fun t : List Nat => t.insertionSort fun a b => b ≤ a) [3, 9, 5, 7] (some 2) = [5, 3] := by
  decide +kernel

example : limitSources (fun t : List Nat => t.insertionSort fun a b => b ≤ a) [3, 9, 5, 7] (some (-2)) = [9, 7] := by
  decide +kernel

/-! ### Bounding box -/

section Box
variable {α : Type} [LinearOrder α] {ρ : Type}

/-- Specification: strictly inside; a NaN position is not inside. -/
def CtInside (x y : Option α) (box : (α × α) × (α × α)) : Prop :=
  ∃ a b, x = some a ∧ y = some b ∧ box.1.1 < a ∧ a < box.1.2 ∧ box.2.1 < b ∧ b < box.2.2

/-- **C61**: the filtered catalogue is a part of the catalogue in its order; every source strictly inside the box is kept as
often as it occurs, and no other one. -/
theorem C61_inside [DecidableEq ρ] (x y : ρ → Option α) (cat : List ρ) (box : (α × α) × (α × α)) :
    (filterBox x y cat (some box)).Sublist cat ∧
    (∀ r, CtInside (x r) (y r) box → (filterBox x y cat (some box)).count r = cat.count r) ∧
    ∀ r, ¬ CtInside (x r) (y r) box → r ∉ filterBox x y cat (some box) := by
  rcases box with ⟨⟨x0, x1⟩, ⟨y0, y1⟩⟩
  have hin : ∀ r, (gt (x r) x0 && lt (x r) x1 && gt (y r) y0 && lt (y r) y1) = true ↔ CtInside (x r) (y r) ((x0, x1), (y0, y1)) := by
    intro r
    rcases hx : x r with _ | a
    · simp [gt, CtInside]
    · rcases hy : y r with _ | b
      · simp [gt, lt, CtInside]
      · simp [gt, lt, CtInside, and_assoc]
  simp only [filterBox]
  refine ⟨List.filter_sublist, fun r hr => ?_, fun r hr hm => ?_⟩
  · rw [List.count_filter]
    exact (hin r).2 hr
  · exact hr ((hin r).1 (List.mem_filter.1 hm).2)

/-- **C61**: without a box nothing is dropped. -/
theorem C61_no_box (x y : ρ → Option α) (cat : List ρ) : filterBox x y cat none = cat := rfl

end Box

example : filterBox (fun r : Option Int × Option Int => r.1) (fun r => r.2)
    [(some 1, some 1), (some 0, some 1), (none, some 1), (some 2, some 2)] (some ((0, 3), (0, 3))) =
    [(some 1, some 1), (some 2, some 2)] := by decide

end Verif.Thm
