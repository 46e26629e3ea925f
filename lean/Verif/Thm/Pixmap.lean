import Verif.Proof.Pixmap
import Mathlib.Algebra.Order.Floor.Defs
import Mathlib.Algebra.BigOperators.Group.Finset.Basic
import Mathlib.Data.Rat.Floor
import Mathlib.Tactic.NormNum

/-!
# C121, C122: pixel maps
-/

namespace Verif.Thm

open Verif.Pixmap

variable {α : Type} [Field α] [LinearOrder α] [IsStrictOrderedRing α] [FloorRing α]

/-- The pixel in row `r` and column `c` is in the image, and its centre in the bounding box. -/
def PmIn (sh : Int × Int) (box : Option (Box α)) (r c : Nat) : Prop :=
  (r : Int) < sh.1 ∧ (c : Int) < sh.2 ∧
    ∀ x y, box = some [x, y] → x.1 ≤ (c : α) ∧ (c : α) ≤ x.2 ∧ y.1 ≤ (r : α) ∧ (r : α) ≤ y.2

/-- The bounding box has two axes, if there is one. -/
def PmTwo (box : Option (Box α)) : Prop := ∀ b, box = some b → b.length = 2

/-- The box of the first WCS that is in effect. -/
def pmFrom (disable : String) (box : Option (Box α)) : Option (Box α) := if disable = "from" ∨ disable = "both" then none else box

/-- The box of the second WCS that is in effect. -/
def pmTo (disable : String) (box : Option (Box α)) : Option (Box α) := if disable = "to" ∨ disable = "both" then none else box

/-- Pixels within the limits of the grid, for a box or none. -/
def pmAxes (box : Option (Box α)) : Option (α × α) × Option (α × α) :=
  match box with
  | some [x, y] => (some x, some y)
  | _ => (none, none)

omit [IsStrictOrderedRing α] in
theorem pm_bounds (n : Int) (box : Option (α × α)) (c : Nat) :
    ((bounds n box).1 ≤ (c : Int) ∧ (c : Int) ≤ (bounds n box).2) ↔
      (c : Int) < n ∧ ∀ b, box = some b → b.1 ≤ (c : α) ∧ (c : α) ≤ b.2 := by
  cases box with
  | none => simp [bounds]; omega
  | some b =>
    have e : ((c : Int) : α) = (c : α) := by simp
    simp only [bounds, max_le_iff, le_min_iff, Int.ceil_le, Int.le_floor, e, Option.some.injEq, forall_eq']
    constructor
    · rintro ⟨⟨-, h1⟩, h2, h3⟩
      exact ⟨by omega, h1, h3⟩
    · rintro ⟨h1, h2, h3⟩
      exact ⟨⟨by omega, h2⟩, by omega, h3⟩

omit [IsStrictOrderedRing α] in
theorem pm_in (sh : Int × Int) (box : Option (Box α)) (h : PmTwo box) (r c : Nat) :
    PmIn sh box r c ↔ (bounds sh.2 (pmAxes box).1).1 ≤ (c : Int) ∧ (c : Int) ≤ (bounds sh.2 (pmAxes box).1).2 ∧
      (bounds sh.1 (pmAxes box).2).1 ≤ (r : Int) ∧ (r : Int) ≤ (bounds sh.1 (pmAxes box).2).2 := by
  rw [← and_assoc, pm_bounds, pm_bounds, PmIn]
  match box, h with
  | none, _ => simp [pmAxes]; omega
  | some [x, y], _ =>
    simp only [pmAxes, Option.some.injEq, forall_eq', List.cons.injEq, and_true, and_imp]
    constructor
    · rintro ⟨h1, h2, h3⟩
      obtain ⟨a, b, c, d⟩ := h3 x y rfl rfl
      exact ⟨⟨h2, a, b⟩, h1, c, d⟩
    · rintro ⟨⟨h2, a, b⟩, h1, c, d⟩
      refine ⟨h1, h2, ?_⟩
      rintro _ _ rfl rfl
      exact ⟨a, b, c, d⟩
  | some [], h => exact absurd (h _ rfl) (by simp)
  | some [_], h => exact absurd (h _ rfl) (by simp)
  | some (_ :: _ :: _ :: _), h => exact absurd (h _ rfl) (by simp)

omit [IsStrictOrderedRing α] in
/-- The call for a box with two axes or none. -/
theorem pm_call (spline : Nat → List α → List α → List (List α) → α → α → α)
    (T : Option (Box α) → Option (Box α) → Option (α × α → Option α × Option α)) (boxFrom boxTo : Option (Box α))
    (arr shape : Option (Nat × Nat)) (disable : String) (step : α) (order : Nat) (h : PmTwo boxFrom) :
    calcPixmap spline T boxFrom boxTo arr shape disable step order =
      ⟨(shapeOf shape arr boxFrom).bind fun sh => compute spline (T (pmFrom disable boxFrom) (pmTo disable boxTo)) sh
        (bounds sh.2 (pmAxes boxFrom).1) (bounds sh.1 (pmAxes boxFrom).2) step order, boxFrom, boxTo⟩ := by
  have h1 : (if (disables disable).1 = true then none else boxFrom) = pmFrom disable boxFrom := by
    simp [disables, pmFrom]
  have h2 : (if (disables disable).2 = true then none else boxTo) = pmTo disable boxTo := by
    simp [disables, pmTo]
  rw [calcPixmap]
  cases shapeOf shape arr boxFrom with
  | none => rfl
  | some sh =>
    simp only [h1, h2]
    match boxFrom, h with
    | none, _ => rfl
    | some [x, y], _ => rfl
    | some [], h => exact absurd (h _ rfl) (by simp)
    | some [_], h => exact absurd (h _ rfl) (by simp)
    | some (_ :: _ :: _ :: _), h => exact absurd (h _ rfl) (by simp)

omit [IsStrictOrderedRing α] in
/-- What a call that returns has computed. -/
theorem pm_cases (spline : Nat → List α → List α → List (List α) → α → α → α) (t : Option (α × α → Option α × Option α))
    (sh : Int × Int) (bx by' : Int × Int) (step : α) (order : Nat) (sh' : Int × Int) (m : Nat → Nat → Option α × Option α)
    (h : compute spline t sh bx by' step order = some (sh', m)) :
    sh' = sh ∧ ∃ t', t = some t' ∧ ((∀ r c, m r c = t' ((c : α), (r : α))) ∨
      (step ≠ 1 ∧ step ≠ 0 ∧ (order = 1 ∨ order = 3) ∧ bx.1 < bx.2 ∧ by'.1 < by'.2 ∧
        ∃ nx ny : Nat, (nx : Int) = npts (bx.2 - bx.1 + 1) step ∧ (ny : Int) = npts (by'.2 - by'.1 + 1) step ∧ order < nx ∧ order < ny ∧
        (∀ y ∈ grid (α := α) by'.1 by'.2 ny, ∀ x ∈ grid (α := α) bx.1 bx.2 nx, (t' (x, y)).1 ≠ none ∧ (t' (x, y)).2 ≠ none) ∧
        ∀ r c, m r c = if bx.1 ≤ (c : Int) ∧ (c : Int) ≤ bx.2 ∧ by'.1 ≤ (r : Int) ∧ (r : Int) ≤ by'.2 then
          (some (spline order (grid by'.1 by'.2 ny) (grid bx.1 bx.2 nx)
              ((grid by'.1 by'.2 ny).map fun y => (grid bx.1 bx.2 nx).map fun x => (t' (x, y)).1.getD 0) r c),
            some (spline order (grid by'.1 by'.2 ny) (grid bx.1 bx.2 nx)
              ((grid by'.1 by'.2 ny).map fun y => (grid bx.1 bx.2 nx).map fun x => (t' (x, y)).2.getD 0) r c))
          else (none, none))) := by
  have full : ∀ t', evalFull sh t' = some (sh', m) → sh' = sh ∧ ∀ r c, m r c = t' ((c : α), (r : α)) := by
    intro t' e
    simp only [evalFull] at e
    split_ifs at e
    simp only [Option.some.injEq, Prod.mk.injEq] at e
    obtain ⟨rfl, rfl⟩ := e
    exact ⟨rfl, fun _ _ => rfl⟩
  rw [compute] at h
  simp only at h
  split_ifs at h with h1 h2 h3 h4 h6
  · rw [Option.bind_eq_some_iff] at h
    obtain ⟨t', ht, e⟩ := h
    exact ⟨(full t' e).1, t', ht, Or.inl (full t' e).2⟩
  · rw [Option.bind_eq_some_iff] at h
    obtain ⟨t', ht, e⟩ := h
    split_ifs at e
    exact ⟨(full t' e).1, t', ht, Or.inl (full t' e).2⟩
  · rw [Option.bind_eq_some_iff] at h
    obtain ⟨t', ht, e⟩ := h
    split_ifs at e with h5
    · simp only [Option.some.injEq, Prod.mk.injEq] at e
      obtain ⟨rfl, rfl⟩ := e
      rw [not_or] at h1 h4
      simp only [not_or, not_le, not_lt] at h6 h4
      refine ⟨rfl, t', ht, Or.inr ⟨h1.1, h3, by omega, h6.2.2.1, h6.2.2.2, _, _, Int.toNat_of_nonneg h4.1, Int.toNat_of_nonneg h4.2,
        by omega, by omega, ?_, ?_⟩⟩
      · intro y hy x hx
        simp only [List.all_eq_true, List.mem_map, forall_exists_index, and_imp, forall_apply_eq_imp_iff₂, Bool.and_eq_true,
          Option.isSome_iff_ne_none] at h5
        exact h5 y hy x hx
      · intro r c
        simp only [List.map_map, Function.comp_def]
    · exact ⟨(full t' e).1, t', ht, Or.inl (full t' e).2⟩

omit [IsStrictOrderedRing α] in
/-- C121.  Both bounding boxes are as before, also after an error, if the first has two axes. -/
theorem C121_boxes (spline : Nat → List α → List α → List (List α) → α → α → α)
    (T : Option (Box α) → Option (Box α) → Option (α × α → Option α × Option α)) (boxFrom boxTo : Option (Box α))
    (arr shape : Option (Nat × Nat)) (disable : String) (step : α) (order : Nat) (h : PmTwo boxFrom) :
    (calcPixmap spline T boxFrom boxTo arr shape disable step order).boxFrom = boxFrom ∧
      (calcPixmap spline T boxFrom boxTo arr shape disable step order).boxTo = boxTo := by
  rw [pm_call _ _ _ _ _ _ _ _ _ h]
  exact ⟨rfl, rfl⟩

omit [IsStrictOrderedRing α] in
/-- C121 (finding).  A first box with another number of axes raises, and the boxes that were to be disabled for the time of the call
are lost. -/
theorem C121_boxes_lost (spline : Nat → List α → List α → List (List α) → α → α → α)
    (T : Option (Box α) → Option (Box α) → Option (α × α → Option α × Option α)) (b : Box α) (boxTo : Option (Box α))
    (arr : Option (Nat × Nat)) (s : Nat × Nat) (disable : String) (step : α) (order : Nat) (hb : b.length ≠ 2) :
    calcPixmap spline T (some b) boxTo arr (some s) disable step order = ⟨none, pmFrom disable (some b), pmTo disable boxTo⟩ := by
  rw [calcPixmap]
  simp only [shapeOf]
  match b, hb with
  | [], _ => simp [disables, pmFrom, pmTo]
  | [_], _ => simp [disables, pmFrom, pmTo]
  | [_, _], hb => exact absurd rfl hb
  | _ :: _ :: _ :: _, _ => simp [disables, pmFrom, pmTo]

/-- C121.  The shape of the map is the one asked for, or else the one of the WCS; without both the map has the pixels that begin
before the end of the box. -/
theorem C121_shape (spline : Nat → List α → List α → List (List α) → α → α → α)
    (T : Option (Box α) → Option (Box α) → Option (α × α → Option α × Option α)) (boxFrom boxTo : Option (Box α))
    (arr shape : Option (Nat × Nat)) (disable : String) (step : α) (order : Nat) (h : PmTwo boxFrom) (sh : Int × Int)
    (m : Nat → Nat → Option α × Option α)
    (e : (calcPixmap spline T boxFrom boxTo arr shape disable step order).map = some (sh, m)) :
    (∀ s, shape = some s → sh = (↑s.1, ↑s.2)) ∧ (∀ s, shape = none → arr = some s → sh = (↑s.1, ↑s.2)) ∧
      (shape = none → arr = none → ∃ x y, boxFrom = some [x, y] ∧ ∀ k : Nat,
        ((k : Int) < sh.1 ↔ (k : α) - 1 / 2 < y.2) ∧ ((k : Int) < sh.2 ↔ (k : α) - 1 / 2 < x.2)) := by
  rw [pm_call _ _ _ _ _ _ _ _ _ h] at e
  simp only [Option.bind_eq_some_iff] at e
  obtain ⟨sh', hs, hc⟩ := e
  obtain ⟨rfl, -⟩ := pm_cases _ _ _ _ _ _ _ _ _ hc
  refine ⟨?_, ?_, ?_⟩
  · rintro s rfl
    simp only [shapeOf, Option.some.injEq] at hs
    exact hs.symm
  · rintro s rfl rfl
    simp only [shapeOf, Option.some.injEq] at hs
    exact hs.symm
  · rintro rfl rfl
    match boxFrom, h, hs with
    | none, _, hs => simp [shapeOf] at hs
    | some [], h, _ => exact absurd (h _ rfl) (by simp)
    | some [_], h, _ => exact absurd (h _ rfl) (by simp)
    | some (_ :: _ :: _ :: _), h, _ => exact absurd (h _ rfl) (by simp)
    | some [x, y], _, hs =>
      simp only [shapeOf, Option.some.injEq] at hs
      subst hs
      refine ⟨x, y, rfl, fun k => ?_⟩
      have e : ((k : Int) : α) = (k : α) := by simp
      simp only [Int.lt_ceil, e, sub_lt_iff_lt_add, and_self]

omit [IsStrictOrderedRing α] in
/-- C121.  With step size one, or an image or box of at most ten by ten pixels, every pixel has the value of the transform with the
boxes in effect, and the call raises exactly if the transform does. -/
theorem C121_every_pixel (spline : Nat → List α → List α → List (List α) → α → α → α)
    (T : Option (Box α) → Option (Box α) → Option (α × α → Option α × Option α)) (boxFrom boxTo : Option (Box α))
    (arr : Option (Nat × Nat)) (s : Nat × Nat) (disable : String) (step : α) (order : Nat) (h : PmTwo boxFrom)
    (hs : step = 1 ∨ s.1 ≤ 10 ∧ s.2 ≤ 10) :
    (calcPixmap spline T boxFrom boxTo arr (some s) disable step order).map =
      (T (pmFrom disable boxFrom) (pmTo disable boxTo)).map fun t => (((s.1 : Int), (s.2 : Int)), fun (r c : Nat) => t ((c : α), (r : α))) := by
  rw [pm_call _ _ _ _ _ _ _ _ _ h]
  simp only [shapeOf, Option.bind_some]
  have hb : ∀ (n : Nat) (b : Option (α × α)), n ≤ 10 → (bounds (α := α) (n : Int) b).2 - (bounds (α := α) (n : Int) b).1 + 1 ≤ 10 := by
    intro n b hn
    cases b with
    | none => simp [bounds]; omega
    | some b => simp only [bounds]; omega
  rw [compute]
  simp only
  rw [if_pos]
  · have h1 : ¬(((s.1 : Nat) : Int) < 0 ∨ ((s.2 : Nat) : Int) < 0) := by omega
    cases T (pmFrom disable boxFrom) (pmTo disable boxTo) with
    | none => rfl
    | some t => simp only [Option.bind_some, evalFull, if_neg h1, Option.map_some]
  · rcases hs with h1 | ⟨h1, h2⟩
    · exact Or.inl h1
    · exact Or.inr (max_le (hb _ _ h2) (hb _ _ h1))

omit [IsStrictOrderedRing α] in
/-- C121.  A map has either the values of the transform everywhere, or numbers exactly for the pixels of the image with
centre in the box. -/
theorem C121_where (spline : Nat → List α → List α → List (List α) → α → α → α)
    (T : Option (Box α) → Option (Box α) → Option (α × α → Option α × Option α)) (boxFrom boxTo : Option (Box α))
    (arr shape : Option (Nat × Nat)) (disable : String) (step : α) (order : Nat) (h : PmTwo boxFrom) (sh : Int × Int)
    (m : Nat → Nat → Option α × Option α)
    (e : (calcPixmap spline T boxFrom boxTo arr shape disable step order).map = some (sh, m)) :
    ∃ t, T (pmFrom disable boxFrom) (pmTo disable boxTo) = some t ∧ ((∀ r c, m r c = t ((c : α), (r : α))) ∨
      ∀ r c, (PmIn sh boxFrom r c → ∃ u v, m r c = (some u, some v)) ∧ (¬ PmIn sh boxFrom r c → m r c = (none, none))) := by
  rw [pm_call _ _ _ _ _ _ _ _ _ h] at e
  simp only [Option.bind_eq_some_iff] at e
  obtain ⟨sh', hs, hc⟩ := e
  obtain ⟨rfl, t, ht, hm⟩ := pm_cases _ _ _ _ _ _ _ _ _ hc
  refine ⟨t, ht, ?_⟩
  rcases hm with hm | ⟨-, -, -, -, -, nx, ny, -, -, -, -, -, hm⟩
  · exact Or.inl hm
  · refine Or.inr fun r c => ⟨fun hi => ?_, fun hi => ?_⟩
    · rw [pm_in _ _ h] at hi
      rw [hm, if_pos hi]
      exact ⟨_, _, rfl⟩
    · rw [pm_in _ _ h] at hi
      rw [hm, if_neg hi]

/-! ## Accuracy -/

/-- A polynomial of degree at most `k` in each of two variables. -/
def pmPoly (k : Nat) (a : Nat → Nat → α) (x y : α) : α :=
  ∑ i ∈ Finset.range (k + 1), ∑ j ∈ Finset.range (k + 1), a i j * x ^ i * y ^ j

/-- Interpolation of degree `k` leaves polynomials of that degree as they are, between the first and the last point. -/
def PmReproduces (spline : Nat → List α → List α → List (List α) → α → α → α) (k : Nat) : Prop :=
  ∀ (ys xs : List α), ys.IsChain (· < ·) → xs.IsChain (· < ·) → k < ys.length → k < xs.length → ∀ (a : Nat → Nat → α) (y x : α),
    (∃ b ∈ ys, b ≤ y) → (∃ b ∈ ys, y ≤ b) → (∃ b ∈ xs, b ≤ x) → (∃ b ∈ xs, x ≤ b) →
    spline k ys xs (ys.map fun y => xs.map fun x => pmPoly k a x y) y x = pmPoly k a x y

omit [FloorRing α] in
/-- C122.  Bilinear interpolation does so. -/
theorem C122_bilinear (spline : Nat → List α → List α → List (List α) → α → α → α) (h : spline 1 = bilinear) :
    PmReproduces spline 1 := by
  intro ys xs hy hx ly lx a y x _ _ _ _
  rw [h, bilinear_map]
  have hp : ∀ x y, pmPoly 1 a x y = (a 0 0 + a 0 1 * y) + (a 1 0 + a 1 1 * y) * x := by
    intro x y
    simp only [pmPoly, Finset.sum_range_succ, Finset.sum_range_zero]
    ring
  have hp' : ∀ x y, pmPoly 1 a x y = (a 0 0 + a 1 0 * x) + (a 0 1 + a 1 1 * x) * y := by
    intro x y
    rw [hp]
    ring
  match xs, hx, lx, ys, hy, ly with
  | p :: q :: l, hx, _, p' :: q' :: l', hy, _ =>
    have h1 : ∀ b, lerp x ((p :: q :: l).map fun c => (c, pmPoly 1 a c b)) = pmPoly 1 a x b := by
      intro b
      simp only [hp]
      exact lerp_affine _ _ x l p q hx
    simp only [h1]
    simp only [hp']
    exact lerp_affine _ _ y l' p' q' hy
  | [], _, lx, _, _, _ => simp at lx
  | [_], _, lx, _, _, _ => simp at lx
  | _, _, _, [], _, ly => simp at ly
  | _, _, _, [_], _, ly => simp at ly

/-- C122.  If the transform is a polynomial of degree at most `order` in each coordinate, the map has its values at all pixels of the image with
centre in the box, whatever the step size. -/
theorem C122_exact (spline : Nat → List α → List α → List (List α) → α → α → α)
    (T : Option (Box α) → Option (Box α) → Option (α × α → Option α × Option α)) (boxFrom boxTo : Option (Box α))
    (arr shape : Option (Nat × Nat)) (disable : String) (step : α) (order : Nat) (h : PmTwo boxFrom) (hr : PmReproduces spline order)
    (a b : Nat → Nat → α)
    (hT : T (pmFrom disable boxFrom) (pmTo disable boxTo) = some fun p => (some (pmPoly order a p.1 p.2), some (pmPoly order b p.1 p.2)))
    (sh : Int × Int) (m : Nat → Nat → Option α × Option α)
    (e : (calcPixmap spline T boxFrom boxTo arr shape disable step order).map = some (sh, m)) (r c : Nat) (hi : PmIn sh boxFrom r c) :
    m r c = (some (pmPoly order a c r), some (pmPoly order b c r)) := by
  rw [pm_call _ _ _ _ _ _ _ _ _ h] at e
  simp only [Option.bind_eq_some_iff] at e
  obtain ⟨sh', hs, hc⟩ := e
  obtain ⟨rfl, t, ht, hm⟩ := pm_cases _ _ _ _ _ _ _ _ _ hc
  rw [hT] at ht
  obtain rfl := (Option.some.inj ht).symm
  rcases hm with hm | ⟨-, -, ho, lx, ly, nx, ny, -, -, hnx, hny, -, hm⟩
  · rw [hm]
  · rw [pm_in _ _ h] at hi
    rw [hm, if_pos hi]
    have h2x : 2 ≤ nx := by omega
    have h2y : 2 ≤ ny := by omega
    have cast : ∀ {i : Int} {k : Nat}, i ≤ k → (i : α) ≤ (k : α) := fun {i k} h => by exact_mod_cast (Int.cast_le (R := α)).mpr h
    have cast' : ∀ {i : Int} {k : Nat}, (k : Int) ≤ i → (k : α) ≤ (i : α) := fun {i k} h => by exact_mod_cast (Int.cast_le (R := α)).mpr h
    have key := fun a => hr _ _ (grid_chain (α := α) ly h2y) (grid_chain (α := α) lx h2x) (by rw [grid_length]; exact hny)
      (by rw [grid_length]; exact hnx) a (r : α) (c : α)
      (by obtain ⟨b, l, e⟩ := grid_cons (α := α) (lo := (bounds sh.1 (pmAxes boxFrom).2).1) (hi := (bounds sh.1 (pmAxes boxFrom).2).2) h2y
          exact ⟨_, by rw [e]; exact List.mem_cons_self, cast hi.2.2.1⟩)
      ⟨_, grid_last h2y, cast' hi.2.2.2⟩
      (by obtain ⟨b, l, e⟩ := grid_cons (α := α) (lo := (bounds sh.2 (pmAxes boxFrom).1).1) (hi := (bounds sh.2 (pmAxes boxFrom).1).2) h2x
          exact ⟨_, by rw [e]; exact List.mem_cons_self, cast hi.1⟩)
      ⟨_, grid_last h2x, cast' hi.2.1⟩
    simp only [Option.getD_some, key]

/-- The spacing of the coarse grid. -/
theorem pm_gap (lo hi : Int) (step : α) (hs : 1 ≤ step) (n : Nat) (hn : (n : Int) = npts (hi - lo + 1) step) (h2 : 2 ≤ n) :
    gap lo hi n ≤ step + (step - 1) / 9 := by
  have hn2 : (2 : α) ≤ n := by exact_mod_cast h2
  have h0 : (0 : α) < (n : α) - 1 := by linarith
  have hs0 : 0 < step := by linarith
  set w := hi - lo + 1 with hw
  have h1 : (w : α) / step ≤ n := by
    have : ⌈(w : α) / step⌉ ≤ (n : Int) := by rw [hn]; exact le_max_left _ _
    have := Int.ceil_le.mp this
    exact_mod_cast this
  have h3 : min 10 w ≤ (n : Int) := by rw [hn]; exact le_max_right _ _
  have hw' : (hi : α) - lo = (w : α) - 1 := by rw [hw]; push_cast; ring
  rw [gap, hw', div_le_iff₀ h0]
  have h4 : (0 : α) ≤ (step - 1) / 9 := by apply div_nonneg <;> linarith
  rcases le_total w 10 with hl | hl
  · have h5 : (w : α) ≤ n := by
      rw [min_eq_right hl] at h3
      exact_mod_cast (Int.cast_le (R := α)).mpr h3
    calc (w : α) - 1 ≤ 1 * ((n : α) - 1) := by linarith
      _ ≤ _ := mul_le_mul_of_nonneg_right (by linarith) h0.le
  · have h5 : (10 : α) ≤ n := by
      rw [min_eq_left hl] at h3
      exact_mod_cast (Int.cast_le (R := α)).mpr h3
    have h6 : (w : α) ≤ n * step := by rwa [div_le_iff₀ hs0] at h1
    have h7 : step - 1 ≤ (step - 1) / 9 * ((n : α) - 1) := by
      have : (step - 1) / 9 * 9 ≤ (step - 1) / 9 * ((n : α) - 1) := mul_le_mul_of_nonneg_left (by linarith) h4
      linarith [div_mul_cancel₀ (step - 1) (by norm_num : (9 : α) ≠ 0)]
    have h8 : (step + (step - 1) / 9) * ((n : α) - 1) = n * step - step + (step - 1) / 9 * ((n : α) - 1) := by ring
    linarith

/-- C122.  Bilinear interpolation: if the coordinates given by the transform change by at most `L` per pixel, the error of the map is at
most `2 L` times the step size (plus a ninth). -/
theorem C122_error (spline : Nat → List α → List α → List (List α) → α → α → α) (hsp : spline 1 = bilinear)
    (T : Option (Box α) → Option (Box α) → Option (α × α → Option α × Option α)) (boxFrom boxTo : Option (Box α))
    (arr shape : Option (Nat × Nat)) (disable : String) (step : α) (hs : 1 ≤ step) (h : PmTwo boxFrom)
    (F G : α → α → α) (hT : T (pmFrom disable boxFrom) (pmTo disable boxTo) = some fun p => (some (F p.1 p.2), some (G p.1 p.2)))
    (L : α) (hL : 0 ≤ L) (hF : ∀ x y x' y', |F x y - F x' y'| ≤ L * (|x - x'| + |y - y'|))
    (hG : ∀ x y x' y', |G x y - G x' y'| ≤ L * (|x - x'| + |y - y'|))
    (sh : Int × Int) (m : Nat → Nat → Option α × Option α)
    (e : (calcPixmap spline T boxFrom boxTo arr shape disable step 1).map = some (sh, m)) (r c : Nat) (hi : PmIn sh boxFrom r c) :
    ∃ u v, m r c = (some u, some v) ∧ |u - F c r| ≤ 2 * L * (step + (step - 1) / 9) ∧ |v - G c r| ≤ 2 * L * (step + (step - 1) / 9) := by
  rw [pm_call _ _ _ _ _ _ _ _ _ h] at e
  simp only [Option.bind_eq_some_iff] at e
  obtain ⟨sh', hs', hc⟩ := e
  obtain ⟨rfl, t, ht, hm⟩ := pm_cases _ _ _ _ _ _ _ _ _ hc
  rw [hT] at ht
  obtain rfl := (Option.some.inj ht).symm
  have hb0 : 0 ≤ 2 * L * (step + (step - 1) / 9) := by
    have h4 : (0 : α) ≤ (step - 1) / 9 := by apply div_nonneg <;> linarith
    have : 0 ≤ step + (step - 1) / 9 := by linarith
    positivity
  rcases hm with hm | ⟨-, -, ho, lx, ly, nx, ny, ex, ey, hnx, hny, -, hm⟩
  · exact ⟨_, _, hm r c, by simpa using hb0, by simpa using hb0⟩
  · rw [pm_in _ _ h] at hi
    rw [hm, if_pos hi]
    have h2x : 2 ≤ nx := by omega
    have h2y : 2 ≤ ny := by omega
    have cast : ∀ {i : Int} {k : Nat}, i ≤ k → (i : α) ≤ (k : α) := fun {i k} h => by exact_mod_cast (Int.cast_le (R := α)).mpr h
    have cast' : ∀ {i : Int} {k : Nat}, (k : Int) ≤ i → (k : α) ≤ (i : α) := fun {i k} h => by exact_mod_cast (Int.cast_le (R := α)).mpr h
    have key : ∀ F : α → α → α, (∀ x y x' y', |F x y - F x' y'| ≤ L * (|x - x'| + |y - y'|)) →
        |bilinear (grid (bounds sh.1 (pmAxes boxFrom).2).1 (bounds sh.1 (pmAxes boxFrom).2).2 ny)
          (grid (bounds sh.2 (pmAxes boxFrom).1).1 (bounds sh.2 (pmAxes boxFrom).1).2 nx)
          ((grid (bounds sh.1 (pmAxes boxFrom).2).1 (bounds sh.1 (pmAxes boxFrom).2).2 ny).map fun y =>
            (grid (bounds sh.2 (pmAxes boxFrom).1).1 (bounds sh.2 (pmAxes boxFrom).1).2 nx).map fun x => F x y) (r : α) (c : α) - F c r|
          ≤ 2 * L * (step + (step - 1) / 9) := by
      intro F hF
      rw [bilinear_map]
      have gx := pm_gap _ _ step hs nx ex h2x
      have gy := pm_gap _ _ step hs ny ey h2y
      have cx := grid_gaps (α := α) lx h2x
      have cy := grid_gaps (α := α) ly h2y
      have lastx := grid_last (α := α) (lo := (bounds sh.2 (pmAxes boxFrom).1).1) (hi := (bounds sh.2 (pmAxes boxFrom).1).2) h2x
      have lasty := grid_last (α := α) (lo := (bounds sh.1 (pmAxes boxFrom).2).1) (hi := (bounds sh.1 (pmAxes boxFrom).2).2) h2y
      obtain ⟨qx, tx, hgx⟩ := grid_cons (α := α) (lo := (bounds sh.2 (pmAxes boxFrom).1).1) (hi := (bounds sh.2 (pmAxes boxFrom).1).2) h2x
      obtain ⟨qy, ty, hgy⟩ := grid_cons (α := α) (lo := (bounds sh.1 (pmAxes boxFrom).2).1) (hi := (bounds sh.1 (pmAxes boxFrom).2).2) h2y
      rw [hgx] at cx lastx ⊢
      rw [hgy] at cy lasty ⊢
      have last' : ∀ {lo hi : Int} {q : α} {l : List α}, lo < hi → (hi : α) ∈ (lo : α) :: q :: l → (hi : α) ∈ q :: l := by
        intro lo hi q l hlt hm
        rcases List.mem_cons.mp hm with hm | hm
        · have : hi = lo := by exact_mod_cast hm
          omega
        · exact hm
      refine lerp_near _ _ _ _ _ ty _ qy cy (cast hi.2.2.1) ⟨_, last' ly lasty, cast' hi.2.2.2⟩ fun b _ hb => ?_
      refine lerp_near _ _ _ _ _ tx _ qx cx (cast hi.1) ⟨_, last' lx lastx, cast' hi.2.1⟩ fun a _ ha => ?_
      calc |F a b - F c r| ≤ L * (|a - c| + |b - r|) := hF _ _ _ _
        _ ≤ L * ((step + (step - 1) / 9) + (step + (step - 1) / 9)) :=
          mul_le_mul_of_nonneg_left (add_le_add (ha.trans gx) (hb.trans gy)) hL
        _ = 2 * L * (step + (step - 1) / 9) := by ring
    refine ⟨_, _, rfl, ?_, ?_⟩
    · rw [hsp]; simpa only [Option.getD_some] using key F hF
    · rw [hsp]; simpa only [Option.getD_some] using key G hG

/-- C122.  The coarse grid: points from the first to the last pixel, at least ten or as many as there are pixels, with a
spacing of at most the step size and a ninth of it. -/
theorem C122_spacing (lo hi : Int) (hlt : lo < hi) (step : α) (hs : 1 ≤ step) :
    ∃ n : Nat, (n : Int) = npts (hi - lo + 1) step ∧ min 10 (hi - lo + 1) ≤ n ∧ (grid (α := α) lo hi n).length = n ∧ 2 ≤ n ∧
      (lo : α) ∈ grid (α := α) lo hi n ∧ (hi : α) ∈ grid (α := α) lo hi n ∧
      (grid (α := α) lo hi n).IsChain fun a b => a < b ∧ b - a ≤ step + (step - 1) / 9 := by
  have h1 : min 10 (hi - lo + 1) ≤ npts (hi - lo + 1) step := le_max_right _ _
  have h2 : 2 ≤ npts (hi - lo + 1) step := by omega
  refine ⟨(npts (hi - lo + 1) step).toNat, Int.toNat_of_nonneg (by omega), by omega, grid_length _ _ _, by omega, ?_, grid_last (by omega), ?_⟩
  · obtain ⟨b, l, e⟩ := grid_cons (α := α) (lo := lo) (hi := hi) (n := (npts (hi - lo + 1) step).toNat) (by omega)
    rw [e]
    exact List.mem_cons_self
  · refine (grid_gaps hlt (by omega)).imp fun a b hab => ⟨hab.1, hab.2.trans ?_⟩
    exact pm_gap lo hi step hs _ (Int.toNat_of_nonneg (by omega)) (by omega)

omit [IsStrictOrderedRing α] in
/-- C121.  A call with a transform that does not raise returns, if the image has more than `order` columns and rows with centre in
the box. -/
theorem C121_returns (spline : Nat → List α → List α → List (List α) → α → α → α)
    (T : Option (Box α) → Option (Box α) → Option (α × α → Option α × Option α)) (boxFrom boxTo : Option (Box α))
    (arr : Option (Nat × Nat)) (s : Nat × Nat) (disable : String) (step : α) (order : Nat) (h : PmTwo boxFrom)
    (ho : order = 1 ∨ order = 3) (hs : step ≠ 0) (t : α × α → Option α × Option α)
    (hT : T (pmFrom disable boxFrom) (pmTo disable boxTo) = some t) (r c : Nat) (h1 : PmIn (↑s.1, ↑s.2) boxFrom r c)
    (h2 : PmIn (↑s.1, ↑s.2) boxFrom (r + order) (c + order)) :
    (calcPixmap spline T boxFrom boxTo arr (some s) disable step order).map ≠ none := by
  rw [pm_in _ _ h] at h1 h2
  rw [pm_call _ _ _ _ _ _ _ _ _ h]
  simp only [shapeOf, Option.bind_some, hT] at h1 h2 ⊢
  generalize bounds (s.2 : Int) (pmAxes boxFrom).1 = bx at *
  generalize bounds (s.1 : Int) (pmAxes boxFrom).2 = by' at *
  have hf : ∀ t : α × α → Option α × Option α, evalFull (((s.1 : Nat) : Int), ((s.2 : Nat) : Int)) t ≠ none := by
    intro t
    simp only [evalFull]
    rw [if_neg (by omega)]
    simp
  have hx : min 10 (bx.2 - bx.1 + 1) ≤ npts (bx.2 - bx.1 + 1) step := le_max_right _ _
  have hy : min 10 (by'.2 - by'.1 + 1) ≤ npts (by'.2 - by'.1 + 1) step := le_max_right _ _
  push_cast at h2
  rw [compute]
  simp only [Option.bind_some]
  by_cases h3 : step = 1 ∨ max (bx.2 - bx.1 + 1) (by'.2 - by'.1 + 1) ≤ 10
  · rw [if_pos h3]; exact hf t
  · rw [if_neg h3, if_neg (by omega), if_neg hs, if_neg (by omega)]
    split_ifs with h5 h6
    · omega
    · simp
    · exact hf t

/-- C121 (finding).  An image of more than ten rows and at most `order` columns raises with a step size other than one, although the transform
is fine. -/
theorem C121_narrow_fails (spline : Nat → List α → List α → List (List α) → α → α → α)
    (T : Option (Box α) → Option (Box α) → Option (α × α → Option α × Option α)) (boxTo : Option (Box α))
    (arr : Option (Nat × Nat)) (s : Nat × Nat) (disable : String) (step : α) (order : Nat) (hs : 1 < step)
    (t : α × α → Option α × Option α) (ht : ∀ p, (t p).1 ≠ none ∧ (t p).2 ≠ none)
    (hT : T none (pmTo disable boxTo) = some t) (h1 : 10 < s.1) (h2 : s.2 ≤ order) :
    (calcPixmap spline T none boxTo arr (some s) disable step order).map = none := by
  rw [pm_call _ _ _ _ _ _ _ _ _ (by intro b hb; simp at hb)]
  have e : pmFrom disable (none : Option (Box α)) = none := by simp [pmFrom]
  simp only [shapeOf, Option.bind_some, pmAxes, bounds, e, hT]
  have hn : npts ((s.2 : Int) - 1 - 0 + 1) step ≤ (order : Int) := by
    have e : (s.2 : Int) - 1 - 0 + 1 = (s.2 : Int) := by ring
    rw [npts, e]
    refine max_le ?_ (by omega)
    refine le_trans ?_ (by exact_mod_cast h2 : (s.2 : Int) ≤ order)
    rw [Int.ceil_le, div_le_iff₀ (by linarith)]
    have : (0 : α) ≤ ((s.2 : Int) : α) := by exact_mod_cast Nat.zero_le _
    nlinarith
  have h3 : ¬(step = 1 ∨ max ((s.2 : Int) - 1 - 0 + 1) ((s.1 : Int) - 1 - 0 + 1) ≤ 10) := by
    rintro (h | h)
    · linarith
    · have := le_trans (le_max_right _ _) h
      omega
  rw [compute]
  simp only [Option.bind_some]
  rw [if_neg h3]
  split_ifs with a b c d e
  · rfl
  · rfl
  · rfl
  · rfl
  · exact absurd (Or.inl hn) e
  · refine absurd ?_ d
    simp only [List.all_eq_true, List.mem_map, forall_exists_index, and_imp, forall_apply_eq_imp_iff₂, Bool.and_eq_true,
      Option.isSome_iff_ne_none]
    intro y _ x _
    exact ht _

/-! An image of 20 rows and 14 columns and a sheared transform. -/

/-- Values for the examples. -/
def pmT : Option (Box ℚ) → Option (Box ℚ) → Option (ℚ × ℚ → Option ℚ × Option ℚ) := fun _ _ =>
  some fun p => (some (3 + 2 * p.1 + p.2), some (p.2 - p.1 / 2 + 5))

/-- The interpolation for the examples. -/
def pmS : Nat → List ℚ → List ℚ → List (List ℚ) → ℚ → ℚ → ℚ := fun _ => bilinear

example : PmReproduces pmS 1 := C122_bilinear pmS rfl

/-- `C122_exact` and `C121_where`: values within the box, NaN outside. -/
example : let m := (calcPixmap pmS pmT (some [(-1/2, 27/2), (3/2, 39/2)]) none none (some (20, 14)) "to" 3 1).map
    m.map (fun m => (m.1, m.2 7 5, m.2 1 5)) = some ((20, 14), (some 20, some (19/2)), (none, none)) := by
  decide +kernel

/-- C121 (finding).  On a coarse grid a box that was to be disabled still blanks the pixels outside. -/
theorem C121_disabled_box_still_applies :
    let f := fun step : ℚ => (calcPixmap pmS pmT (some [(-1/2, 27/2), (3/2, 39/2)]) none none (some (20, 14)) "both" step 1).map.map
      fun m => m.2 1 5
    f 1 = some (some 14, some (7/2)) ∧ f 3 = some (none, none) := by
  decide +kernel

/-- C122 (finding).  The spacing can be larger than the step size asked for: 100 pixels, step size 10, spacing 11. -/
theorem C122_larger_than_asked : (grid (α := ℚ) 0 99 (npts 100 (10 : ℚ)).toNat).take 3 = [0, 11, 22] := by
  decide +kernel

/-- The hypotheses of `C122_error` with `L = 2`. -/
example : ∀ x y x' y' : ℚ, |(3 + 2 * x + y) - (3 + 2 * x' + y')| ≤ 2 * (|x - x'| + |y - y'|) := by
  intro x y x' y'
  have h1 : (3 + 2 * x + y) - (3 + 2 * x' + y') = 2 * (x - x') + (y - y') := by ring
  rw [h1]
  refine (abs_add_le _ _).trans ?_
  rw [abs_mul, abs_two]
  linarith [abs_nonneg (y - y')]

/-- A box with three axes. -/
example : (calcPixmap pmS pmT (some [(0, 5), (0, 5), (0, 5)]) (some [(0, 9), (0, 9)]) none (some (6, 6)) "to" 1 1).boxTo = none := by
  decide +kernel

/-- Interpolation by a polynomial of degree three through four points. -/
def pmCubic (x : ℚ) : List (ℚ × ℚ) → ℚ
  | (a, u) :: (b, v) :: (c, w) :: (d, z) :: _ =>
    u * ((x - b) * (x - c) * (x - d) / ((a - b) * (a - c) * (a - d))) + v * ((x - a) * (x - c) * (x - d) / ((b - a) * (b - c) * (b - d))) +
    w * ((x - a) * (x - b) * (x - d) / ((c - a) * (c - b) * (c - d))) + z * ((x - a) * (x - b) * (x - c) / ((d - a) * (d - b) * (d - c)))
  | _ => 0

theorem pm_cubic (p q r s x : ℚ) (l : List ℚ) (hl : l.IsChain (· < ·)) (h3 : 3 < l.length) :
    pmCubic x (l.map fun a => (a, p + q * a + r * a ^ 2 + s * a ^ 3)) = p + q * x + r * x ^ 2 + s * x ^ 3 := by
  match l, hl, h3 with
  | a :: b :: c :: d :: l, hl, _ =>
    simp only [List.isChain_cons_cons] at hl
    obtain ⟨h1, h2, h3, -⟩ := hl
    have ab : a - b ≠ 0 := by intro h; linarith
    have ac : a - c ≠ 0 := by intro h; linarith
    have ad : a - d ≠ 0 := by intro h; linarith
    have bc : b - c ≠ 0 := by intro h; linarith
    have bd : b - d ≠ 0 := by intro h; linarith
    have cd : c - d ≠ 0 := by intro h; linarith
    simp only [List.map_cons, pmCubic]
    rw [show b - a = -(a - b) by ring, show c - a = -(a - c) by ring, show c - b = -(b - c) by ring, show d - a = -(a - d) by ring,
      show d - b = -(b - d) by ring, show d - c = -(c - d) by ring]
    field_simp
    ring
  | [], _, h => simp at h
  | [_], _, h => simp at h
  | [_, _], _, h => simp at h
  | [_, _, _], _, h => simp at h

/-- An interpolation of degree three that meets the hypothesis of `C122_exact`. -/
example : PmReproduces (fun _ ys xs v y x => pmCubic y (ys.zip (v.map fun row => pmCubic x (xs.zip row)))) 3 := by
  intro ys xs hy hx ly lx a y x _ _ _ _
  simp only [List.map_map, Function.comp_def, zip_map_self]
  have hp : ∀ x y, pmPoly 3 a x y = (a 0 0 + a 0 1 * y + a 0 2 * y ^ 2 + a 0 3 * y ^ 3) +
      (a 1 0 + a 1 1 * y + a 1 2 * y ^ 2 + a 1 3 * y ^ 3) * x + (a 2 0 + a 2 1 * y + a 2 2 * y ^ 2 + a 2 3 * y ^ 3) * x ^ 2 +
      (a 3 0 + a 3 1 * y + a 3 2 * y ^ 2 + a 3 3 * y ^ 3) * x ^ 3 := by
    intro x y
    simp only [pmPoly, Finset.sum_range_succ, Finset.sum_range_zero]
    ring
  have hp' : ∀ x y, pmPoly 3 a x y = (a 0 0 + a 1 0 * x + a 2 0 * x ^ 2 + a 3 0 * x ^ 3) +
      (a 0 1 + a 1 1 * x + a 2 1 * x ^ 2 + a 3 1 * x ^ 3) * y + (a 0 2 + a 1 2 * x + a 2 2 * x ^ 2 + a 3 2 * x ^ 3) * y ^ 2 +
      (a 0 3 + a 1 3 * x + a 2 3 * x ^ 2 + a 3 3 * x ^ 3) * y ^ 3 := by
    intro x y
    rw [hp]
    ring
  have h1 : ∀ b, pmCubic x (xs.map fun c => (c, pmPoly 3 a c b)) = pmPoly 3 a x b := by
    intro b
    simp only [hp]
    exact pm_cubic _ _ _ _ x xs hx lx
  simp only [h1]
  simp only [hp']
  exact pm_cubic _ _ _ _ y ys hy ly

end Verif.Thm
