import Mathlib.Algebra.Order.BigOperators.Group.Finset
import Mathlib.Analysis.InnerProductSpace.PiL2
import Verif.Thm.Sky

/-!
# Sky matching a second time (C143)

`skymatch` applied to images it has already treated changes nothing: neither the pixels, nor the skies, nor the validity
marks.  The measurement is a statistic that follows a shift of the data, and the linear system is solved by the product
with the pseudo-inverse, i.e. by the shortest of all least-squares solutions.
-/

namespace Verif.Thm

open Verif Verif.Sky

set_option linter.unusedSectionVars false

variable {α : Type} [Field α] [LinearOrder α] [IsStrictOrderedRing α]

/-! ### Specification -/

/-- The statistic follows the data: subtracting a constant from all pixels lowers it by that constant and changes neither
the number of pixels nor the area (mean, median, mode and midpoint without lower and upper limits do this). -/
def SgShift (env : Env α) : Prop :=
  (∀ e k data s, env.whole e k (fun p => data p - s) = (env.whole e k data).map fun r => (r.1 - s, r.2)) ∧
  ∀ e k e' data s, env.over e k e' (fun p => data p - s) = (env.over e k e' data).map fun r => (r.1 - s, r.2)

/-- The solver returns the shortest least-squares solution, as the product with the pseudo-inverse does. -/
def SgPinv (solve : Nat → List ((Nat → α) × α) → Nat → α) : Prop :=
  ∀ n eqs, (∀ x, skSq n eqs (solve n eqs) ≤ skSq n eqs x) ∧
    ∀ x, skSq n eqs x = skSq n eqs (solve n eqs) →
      ∑ i ∈ Finset.range n, solve n eqs i ^ 2 ≤ ∑ i ∈ Finset.range n, x i ^ 2

/-! ### Measurements of changed elements -/

/-- A measurement lowered by `s`. -/
def sgLow (s : α) (r : Option α × α × α) : Option α × α × α := (r.1.map fun v => v - s, r.2)

theorem sg_imCalc (sub : Bool) (d : α) (a b : Im α) (h : SkImStep sub d a b) (m : (Nat → α) → Option (α × α × α))
    (hm : sub = true → ∀ data s, m (fun p => data p - s) = (m data).map fun r => (r.1 - s, r.2)) :
    imCalc (m b.data) b.sky (!sub) = sgLow d (imCalc (m a.data) a.sky (!sub)) := by
  obtain ⟨h1, h2, h3⟩ := h
  cases sub with
  | true =>
    have hb : b.data = fun p => a.data p - d := by
      funext p
      have := h2 rfl p
      rw [h1] at this
      linarith
    rw [hb, hm rfl]
    cases m a.data with
    | none => rfl
    | some r => simp [imCalc, sgLow]
  | false =>
    rw [h3 rfl, h1]
    cases m a.data with
    | none => rfl
    | some r =>
      simp only [imCalc, sgLow, Bool.not_false, if_true, Option.map_some]
      rw [show r.1 - (a.sky + d) = r.1 - a.sky - d by ring]

theorem sg_ims (sub : Bool) (d : α) (as bs : List (Im α)) (h : List.Forall₂ (SkImStep sub d) as bs)
    (m : Nat → (Nat → α) → Option (α × α × α))
    (hm : sub = true → ∀ k data s, m k (fun p => data p - s) = (m k data).map fun r => (r.1 - s, r.2)) (q : Nat) :
    (bs.zipIdx q).map (fun p => imCalc (m p.2 p.1.data) p.1.sky (!sub)) =
      ((as.zipIdx q).map fun p => imCalc (m p.2 p.1.data) p.1.sky (!sub)).map (sgLow d) := by
  induction h generalizing q with
  | nil => rfl
  | cons h _ ih =>
    simp only [List.zipIdx_cons, List.map_cons]
    rw [ih, sg_imCalc sub d _ _ h (m q) (fun hs => hm hs q)]

theorem sg_groupMin (d : α) (l : List (Option α × α × α)) : groupMin (l.map (sgLow d)) = sgLow d (groupMin l) := by
  have key : ∀ acc : Option α × α × α,
      (l.map (sgLow d)).foldl (fun (acc x : Option α × α × α) =>
        match x.1, acc.1 with
        | none, _ => acc
        | some _, none => x
        | some s, some w => if w > s then x else acc) (sgLow d acc) =
      sgLow d (l.foldl (fun (acc x : Option α × α × α) =>
        match x.1, acc.1 with
        | none, _ => acc
        | some _, none => x
        | some s, some w => if w > s then x else acc) acc) := by
    induction l with
    | nil => intro acc; rfl
    | cons x t ih =>
      intro acc
      simp only [List.map_cons, List.foldl_cons]
      rw [← ih]
      congr 1
      obtain ⟨x1, x2⟩ := x
      obtain ⟨a1, a2⟩ := acc
      cases x1 with
      | none => rfl
      | some s =>
        cases a1 with
        | none => rfl
        | some w =>
          simp only [sgLow, Option.map_some, gt_iff_lt, sub_lt_sub_iff_right]
          split <;> simp
  exact key (none, 0, 0)

/-- One step of the loop over the images of a group. -/
def sgStep (acc : α × α × α) (x : Option α × α × α) : α × α × α :=
  match x.1 with
  | some s =>
    if 0 < x.2.1 then (acc.1 + s * x.2.1, acc.2.1 + x.2.1, acc.2.2 + x.2.2) else (acc.1, acc.2.1, acc.2.2 + x.2.2)
  | none => (acc.1, acc.2.1, acc.2.2 + x.2.2)

/-- The sums of the loop lowered by `d`. -/
def sgLow3 (d : α) (r : α × α × α) : α × α × α := (r.1 - d * r.2.1, r.2.1, r.2.2)

theorem sg_step (d : α) (acc : α × α × α) (x : Option α × α × α) :
    sgStep (sgLow3 d acc) (sgLow d x) = sgLow3 d (sgStep acc x) := by
  obtain ⟨x1, x2⟩ := x
  cases x1 with
  | none => rfl
  | some s =>
    by_cases h : 0 < x2.1
    · have e1 : ∀ (acc : α × α × α) (s : α), sgStep acc (some s, x2) = (acc.1 + s * x2.1, acc.2.1 + x2.1, acc.2.2 + x2.2) :=
        fun _ _ => if_pos h
      simp only [sgLow, Option.map_some, e1, sgLow3, Prod.mk.injEq, and_true]
      ring
    · have e1 : ∀ (acc : α × α × α) (s : α), sgStep acc (some s, x2) = (acc.1, acc.2.1, acc.2.2 + x2.2) :=
        fun _ _ => if_neg h
      simp only [sgLow, Option.map_some, e1, sgLow3]

theorem sg_steps (d : α) (l : List (Option α × α × α)) (acc : α × α × α) :
    (l.map (sgLow d)).foldl sgStep (sgLow3 d acc) = sgLow3 d (l.foldl sgStep acc) := by
  induction l generalizing acc with
  | nil => rfl
  | cons x t ih =>
    simp only [List.map_cons, List.foldl_cons]
    rw [sg_step, ih]

/-- The mean from the sums. -/
def sgMean (r : α × α × α) : Option α × α × α :=
  if r.2.1 = 0 ∨ r.2.2 = 0 then (none, r.2.1, r.2.2) else (some (r.1 / r.2.1), r.2.1, r.2.2)

theorem sg_mean_eq (l : List (Option α × α × α)) : groupMean l = sgMean (l.foldl sgStep (0, 0, 0)) := rfl

theorem sg_groupMean (d : α) (l : List (Option α × α × α)) : groupMean (l.map (sgLow d)) = sgLow d (groupMean l) := by
  have h0 := sg_steps d l (0, 0, 0)
  have hz : sgLow3 d ((0, 0, 0) : α × α × α) = (0, 0, 0) := by simp [sgLow3]
  rw [hz] at h0
  rw [sg_mean_eq, sg_mean_eq, h0]
  generalize l.foldl sgStep (0, 0, 0) = r
  by_cases hn : r.2.1 = 0 ∨ r.2.2 = 0
  · have e1 : sgMean (sgLow3 d r) = (none, r.2.1, r.2.2) := if_pos hn
    have e2 : sgMean r = (none, r.2.1, r.2.2) := if_pos hn
    rw [e1, e2]; rfl
  · have e1 : sgMean (sgLow3 d r) = (some ((r.1 - d * r.2.1) / r.2.1), r.2.1, r.2.2) := if_neg hn
    have e2 : sgMean r = (some (r.1 / r.2.1), r.2.1, r.2.2) := if_neg hn
    push Not at hn
    rw [e1, e2, sub_div, mul_div_assoc, div_self hn.1, mul_one]; rfl

theorem sg_over (env : Env α) (sub : Bool) (hs : sub = true → SgShift env) (d : α) (i j : Nat) (a b : Elem α)
    (h : SkChanged sub d a b) : elemOver env (!sub) i j b = sgLow d (elemOver env (!sub) i j a) := by
  cases a with
  | single x =>
    cases b with
    | single y => exact sg_imCalc sub d x y h (env.over i 0 j) (fun hh data s => (hs hh).2 i 0 j data s)
    | group => exact absurd h (by simp [SkChanged])
  | group g xs =>
    cases b with
    | single y => exact absurd h (by simp [SkChanged])
    | group g' ys =>
      simp only [elemOver]
      rw [sg_ims sub d xs ys h.2 (fun k => env.over i k j) (fun hh k data s => (hs hh).2 i k j data s) 0, sg_groupMean]

theorem sg_whole (env : Env α) (sub : Bool) (hs : sub = true → SgShift env) (d : α) (i : Nat) (a b : Elem α)
    (h : SkChanged sub d a b) : elemWhole env (!sub) i b = sgLow d (elemWhole env (!sub) i a) := by
  cases a with
  | single x =>
    cases b with
    | single y => exact sg_imCalc sub d x y h (env.whole i 0) (fun hh data s => (hs hh).1 i 0 data s)
    | group => exact absurd h (by simp [SkChanged])
  | group g xs =>
    cases b with
    | single y => exact absurd h (by simp [SkChanged])
    | group g' ys =>
      simp only [elemWhole]
      rw [sg_ims sub d xs ys h.2 (fun k => env.whole i k) (fun hh k data s => (hs hh).1 i k data s) 0, sg_groupMin]

/-! ### The shortest least-squares solution -/

theorem sg_quad (a b : α) (hb : 0 ≤ b) (h : ∀ t : α, 0 ≤ t ^ 2 * b + 2 * t * a) : a = 0 := by
  have hp : 0 < b + 1 := by linarith
  have h1 := h (-a / (b + 1))
  have h2 : (-a / (b + 1)) ^ 2 * b + 2 * (-a / (b + 1)) * a = -(a ^ 2 * (b + 2)) / (b + 1) ^ 2 := by
    field_simp
    ring
  rw [h2] at h1
  have h3 : 0 ≤ -(a ^ 2 * (b + 2)) := by
    by_contra hc
    push Not at hc
    have : -(a ^ 2 * (b + 2)) / (b + 1) ^ 2 < 0 := div_neg_of_neg_of_pos hc (by positivity)
    linarith
  have h4 : a ^ 2 * (b + 2) = 0 := le_antisymm (by linarith) (by positivity)
  rcases mul_eq_zero.mp h4 with h5 | h5
  · exact pow_eq_zero_iff (two_ne_zero) |>.mp h5
  · linarith

/-- The left-hand side of an equation. -/
def sgDot (n : Nat) (k x : Nat → α) : α := ∑ i ∈ Finset.range n, k i * x i

theorem sg_dot_add (n : Nat) (k x z : Nat → α) (t : α) :
    sgDot n k (fun i => x i + t * z i) = sgDot n k x + t * sgDot n k z := by
  unfold sgDot
  rw [Finset.mul_sum, ← Finset.sum_add_distrib]
  exact Finset.sum_congr rfl fun i _ => by ring

theorem sg_sq_add (n : Nat) (eqs : List ((Nat → α) × α)) (x z : Nat → α) (t : α) :
    skSq n eqs (fun i => x i + t * z i) = skSq n eqs x + t ^ 2 * (eqs.map fun q => sgDot n q.1 z ^ 2).sum +
      2 * t * (eqs.map fun q => (sgDot n q.1 x - q.2) * sgDot n q.1 z).sum := by
  unfold skSq
  induction eqs with
  | nil => simp
  | cons q l ih =>
    simp only [List.map_cons, List.sum_cons]
    rw [ih]
    have := sg_dot_add n q.1 x z t
    unfold sgDot at this ⊢
    rw [this]
    ring

theorem sg_sq_nonneg (n : Nat) (eqs : List ((Nat → α) × α)) (z : Nat → α) :
    0 ≤ (eqs.map fun q => sgDot n q.1 z ^ 2).sum := by
  apply List.sum_nonneg
  intro x hx
  obtain ⟨q, -, rfl⟩ := List.mem_map.mp hx
  positivity

/-- The normal equations. -/
theorem sg_normal (n : Nat) (eqs : List ((Nat → α) × α)) (x : Nat → α) (h : ∀ y, skSq n eqs x ≤ skSq n eqs y)
    (z : Nat → α) : (eqs.map fun q => (sgDot n q.1 x - q.2) * sgDot n q.1 z).sum = 0 := by
  refine sg_quad _ _ (sg_sq_nonneg n eqs z) fun t => ?_
  have := h fun i => x i + t * z i
  rw [sg_sq_add] at this
  linarith

theorem sg_sq_zero (n : Nat) (eqs : List ((Nat → α) × α)) (z : Nat → α)
    (h : (eqs.map fun q => sgDot n q.1 z ^ 2).sum = 0) : ∀ q ∈ eqs, sgDot n q.1 z = 0 := by
  induction eqs with
  | nil => simp
  | cons q l ih =>
    simp only [List.map_cons, List.sum_cons] at h
    have h1 := sg_sq_nonneg n l z
    have h2 : 0 ≤ sgDot n q.1 z ^ 2 := by positivity
    intro p hp
    rcases List.mem_cons.mp hp with rfl | hp
    · exact pow_eq_zero_iff (two_ne_zero) |>.mp (by linarith)
    · exact ih (by linarith) p hp

/-- The solution of the equations for the residuals is zero. -/
theorem sg_residual (solve : Nat → List ((Nat → α) × α) → Nat → α) (hp : SgPinv solve) (n : Nat)
    (eqs : List ((Nat → α) × α)) (i : Nat) (hi : i < n) :
    solve n (eqs.map fun q => (q.1, q.2 - sgDot n q.1 (solve n eqs))) i = 0 := by
  set x := solve n eqs with hx
  set eqs' := eqs.map fun q => (q.1, q.2 - sgDot n q.1 x) with he
  set y := solve n eqs' with hy
  have hn1 := sg_normal n eqs x (hp n eqs).1 y
  have hn2 := sg_normal n eqs' y (hp n eqs').1 y
  have hsum : (eqs.map fun q => sgDot n q.1 y ^ 2).sum = 0 := by
    rw [he, List.map_map] at hn2
    have hlin : ∀ l : List ((Nat → α) × α),
        (l.map ((fun q : (Nat → α) × α => (sgDot n q.1 y - q.2) * sgDot n q.1 y) ∘
          fun q => (q.1, q.2 - sgDot n q.1 x))).sum =
        (l.map fun q => sgDot n q.1 y ^ 2).sum + (l.map fun q => (sgDot n q.1 x - q.2) * sgDot n q.1 y).sum := by
      intro l
      induction l with
      | nil => simp
      | cons q l ih =>
        simp only [List.map_cons, List.sum_cons, Function.comp_apply] at ih ⊢
        rw [ih]
        ring
    rw [hlin, hn1, add_zero] at hn2
    exact hn2
  have hz := sg_sq_zero n eqs y hsum
  have hz' : (eqs'.map fun q => sgDot n q.1 y ^ 2).sum = 0 := by
    rw [he, List.map_map]
    exact hsum
  have hnorm : ∑ i ∈ Finset.range n, y i * y i = 0 := by
    refine sg_quad _ (∑ i ∈ Finset.range n, y i ^ 2) (Finset.sum_nonneg fun i _ => by positivity) fun t => ?_
    have h1 := (hp n eqs').2 (fun i => y i + t * y i) (by
      rw [sg_sq_add, hz']
      have : (eqs'.map fun q => (sgDot n q.1 y - q.2) * sgDot n q.1 y).sum = 0 := hn2
      rw [this]
      ring)
    have h2 : ∑ i ∈ Finset.range n, (y i + t * y i) ^ 2 = ∑ i ∈ Finset.range n, y i ^ 2 +
        (t ^ 2 * ∑ i ∈ Finset.range n, y i ^ 2 + 2 * t * ∑ i ∈ Finset.range n, y i * y i) := by
      rw [Finset.mul_sum, Finset.mul_sum, ← Finset.sum_add_distrib, ← Finset.sum_add_distrib]
      exact Finset.sum_congr rfl fun i _ => by ring
    rw [h2] at h1
    linarith
  have h0 := (Finset.sum_eq_zero_iff_of_nonneg (fun i _ => mul_self_nonneg (y i))).mp hnorm i (by simpa using hi)
  exact mul_self_eq_zero.mp h0

/-! ### The equations written for changed images -/

/-- Element by element, `els'` is `els` changed by `c i`. -/
def SgMoved (sub : Bool) (c : Nat → α) (els els' : List (Elem α)) : Prop :=
  els'.length = els.length ∧ ∀ (i : Nat) x y, els[i]? = some x → els'[i]? = some y → SkChanged sub (c i) x y

theorem sg_pairAt (env : Env α) (sub : Bool) (hs : sub = true → SgShift env) (c : Nat → α) (els els' : List (Elem α))
    (h : SgMoved sub c els els') (i j : Nat) :
    (pairAt env (!sub) els' i j).2.1 = (pairAt env (!sub) els i j).2.1 ∧
    (pairAt env (!sub) els' i j).2.2.2 = (pairAt env (!sub) els i j).2.2.2 ∧
    (0 < (pairAt env (!sub) els i j).2.1 →
      (pairAt env (!sub) els' i j).1 = (pairAt env (!sub) els i j).1 - c i ∧
      (pairAt env (!sub) els' i j).2.2.1 = (pairAt env (!sub) els i j).2.2.1 - c j) := by
  unfold pairAt
  cases hi : els[i]? with
  | none =>
    have : els'[i]? = none := by
      rw [List.getElem?_eq_none_iff] at hi ⊢
      rw [h.1]; exact hi
    simp [this]
  | some x =>
    cases hj : els[j]? with
    | none =>
      have h2 : els'[j]? = none := by
        rw [List.getElem?_eq_none_iff] at hj ⊢
        rw [h.1]; exact hj
      simp [h2]
    | some y =>
      have hi' : i < els'.length := by rw [h.1]; exact (List.getElem?_eq_some_iff.mp hi).1
      have hj' : j < els'.length := by rw [h.1]; exact (List.getElem?_eq_some_iff.mp hj).1
      have e1 : els'[i]? = some els'[i] := by simp
      have e2 : els'[j]? = some els'[j] := by simp
      simp only [e1, e2]
      rw [sg_over env sub hs (c i) i j x _ (h.2 i x _ hi e1), sg_over env sub hs (c j) j i y _ (h.2 j y _ hj e2)]
      rcases elemOver env (!sub) i j x with ⟨o1, w, a⟩
      rcases elemOver env (!sub) j i y with ⟨o2, z, b⟩
      cases o1 with
      | none => simp [pair, sgLow]
      | some s =>
        cases o2 with
        | none => simp [pair, sgLow]
        | some t =>
          simp only [sgLow, Option.map_some, pair]
          split <;> simp

theorem sg_matW (env : Env α) (sub : Bool) (hs : sub = true → SgShift env) (c : Nat → α) (els els' : List (Elem α))
    (h : SgMoved sub c els els') : matW env (!sub) els' = matW env (!sub) els := by
  funext r q
  unfold matW
  rw [(sg_pairAt env sub hs c els els' h q r).1, (sg_pairAt env sub hs c els els' h r q).2.1]

/-- If the changes differ between images that overlap as the solution does, the new equations are those of the residuals. -/
theorem sg_eqs (env : Env α) (sub : Bool) (hs : sub = true → SgShift env) (c x : Nat → α) (els els' : List (Elem α))
    (h : SgMoved sub c els els')
    (hc : ∀ p ∈ validPairs els.length (matW env (!sub) els), c p.1 - c p.2 = x p.1 - x p.2) :
    skEqs env (!sub) els' = (skEqs env (!sub) els).map fun q => (q.1, q.2 - sgDot els.length q.1 x) := by
  unfold skEqs
  rw [sg_matW env sub hs c els els' h, h.1, List.map_map]
  refine List.map_congr_left fun p hp => ?_
  obtain ⟨i, j⟩ := p
  have hc' := hc (i, j) hp
  obtain ⟨hij, hj, hw1, hw2⟩ := (sk_mem_validPairs _ _ i j).mp hp
  have e2 : matW env (!sub) els j i = (pairAt env (!sub) els i j).2.1 := by simp [matW, hij]
  obtain ⟨k1, k2⟩ := (sg_pairAt env sub hs c els els' h i j).2.2 (by rw [← e2]; exact hw2)
  have a1 : ∀ l : List (Elem α), matA env (!sub) l j i = (pairAt env (!sub) l i j).1 := fun l => by simp [matA, hij]
  have a2 : ∀ l : List (Elem α), matA env (!sub) l i j = (pairAt env (!sub) l i j).2.2.1 := fun l => by
    simp [matA, hij, Nat.not_lt.mpr hij.le]
  simp only [Function.comp_apply, equation, Prod.mk.injEq, true_and]
  unfold sgDot
  rw [sk_row els.length i j _ x hij hj, a1, a1, a2, a2, k1, k2, ← hc']
  ring

/-- The deltas of images already changed by the deltas, up to a constant, are zero. -/
theorem sg_delta (env : Env α) (solve : Nat → List ((Nat → α) × α) → Nat → α) (hp : SgPinv solve) (sub : Bool)
    (hs : sub = true → SgShift env) (c : Nat → α) (els els' : List (Elem α)) (h : SgMoved sub c els els')
    (hc : ∀ i j v w, i < els.length → j < els.length → skDelta env solve sub els i = some v →
      skDelta env solve sub els j = some w → c i - c j = v - w) (i : Nat) (hi : i < els.length) :
    skDelta env solve sub els' i = (skDelta env solve sub els i).map fun _ => 0 := by
  have hval : ∀ p ∈ validPairs els.length (matW env (!sub) els),
      c p.1 - c p.2 = solve els.length (skEqs env (!sub) els) p.1 - solve els.length (skEqs env (!sub) els) p.2 := by
    rintro ⟨a, b⟩ hab
    obtain ⟨h1, h2, -, -⟩ := (sk_mem_validPairs _ _ a b).mp hab
    refine hc a b _ _ (by omega) h2 ?_ ?_
    · simp only [skDelta, findDeltas]
      rw [if_pos (List.any_eq_true.mpr ⟨(a, b), hab, by simp⟩)]
      rfl
    · simp only [skDelta, findDeltas]
      rw [if_pos (List.any_eq_true.mpr ⟨(a, b), hab, by simp⟩)]
      rfl
  have he := sg_eqs env sub hs c _ els els' h hval
  have hres := sg_residual solve hp els.length (skEqs env (!sub) els) i hi
  rw [← he] at hres
  unfold skEqs at hres
  rw [h.1] at hres
  simp only [skDelta, findDeltas]
  rw [h.1, sg_matW env sub hs c els els' h] at *
  split
  · rw [hres]; rfl
  · rfl

/-! ### Applying nothing -/

theorem sg_applyOne_zero (gl sub : Bool) (e : Elem α) : applyOne gl sub e (some 0) = skMark true e := by
  cases e with
  | single im => cases sub <;> cases gl <;> simp [applyOne, applyIm, skMark]
  | group g ims => cases sub <;> cases gl <;> simp [applyOne, applyIm, skMark]

theorem sg_applyOne_none (sub : Bool) (e : Elem α) :
    applyOne true sub e none = skMark (((skImages e).head?.map fun im => im.valid).getD false) e := by
  cases e with
  | single im => cases sub <;> simp [applyOne, applyIm, skMark, skImages]
  | group g ims => cases sub <;> simp [applyOne, applyIm, skMark, skImages]

/-- All images of the element carry the mark `v`. -/
def SgMarked (v : Bool) (e : Elem α) : Prop := ∀ im ∈ skImages e, im.valid = v

theorem sg_mark_marked (v : Bool) (e : Elem α) : SgMarked v (skMark v e) := by
  cases e with
  | single im => simp [SgMarked, skMark, skImages]
  | group g ims => simp [SgMarked, skMark, skImages]

theorem sg_mark_id (v : Bool) (e : Elem α) (h : SgMarked v e) : skMark v e = e := by
  cases e with
  | single im =>
    have := h im (by simp [skImages])
    simp [skMark, ← this]
  | group g ims =>
    simp only [skMark, Elem.group.injEq, true_and]
    refine (List.map_congr_left fun im him => ?_).trans (List.map_id ims)
    have := h im (by simpa [skImages] using him)
    simp [← this]

theorem sg_mark_mark (v w : Bool) (e : Elem α) : skMark v (skMark w e) = skMark v e := by
  cases e with
  | single im => rfl
  | group g ims => simp [skMark]

theorem sg_mark_changed (sub v : Bool) (e : Elem α) : SkChanged sub 0 e (skMark v e) := by
  cases e with
  | single im => exact ⟨by simp, fun _ _ => rfl, fun _ => rfl⟩
  | group g ims =>
    refine ⟨by simp, ?_⟩
    rw [List.forall₂_map_right_iff, List.forall₂_same]
    exact fun im _ => ⟨by simp, fun _ _ => rfl, fun _ => rfl⟩

theorem sg_marked_none (sub v : Bool) (e : Elem α) (h : SgMarked v e) : applyOne true sub e none = e := by
  rw [sg_applyOne_none]
  cases e with
  | single im => exact sg_mark_id _ _ (by simp [SgMarked, skImages])
  | group g ims =>
    cases ims with
    | nil => rfl
    | cons a t =>
      refine sg_mark_id _ _ ?_
      have := h a (by simp [skImages])
      simpa [skImages, this] using h

/-! ### The two phases -/

/-- The shift of deltas that are all zero. -/
theorem sg_shift_zero (md : Bool) (ds : List (Option α)) (h : ∀ x, some x ∈ ds → x = 0) : shift md ds = ds := by
  obtain ⟨r, hr, hmem, -⟩ := sk_shift md ds
  rw [hr]
  refine (List.map_congr_left fun d hd => ?_).trans (List.map_id ds)
  cases d with
  | none => rfl
  | some x =>
    have h1 := h x hd
    have h2 := h r (hmem ⟨_, hd, rfl⟩)
    simp [h1, h2]

theorem sg_match_get (env : Env α) (solve : Nat → List ((Nat → α) × α) → Nat → α) (md sub : Bool) (els : List (Elem α)) :
    ∃ r : α, (matchPhase env solve md sub els).length = els.length ∧
      ∀ (i : Nat) e, els[i]? = some e → (matchPhase env solve md sub els)[i]? =
        some (applyOne false sub e ((skDelta env solve sub els i).map fun x => x - r)) := by
  obtain ⟨r, hr, -⟩ := sk_shift md ((List.range els.length).map (skDelta env solve sub els))
  refine ⟨r, sk_applySky_length _ _ _ _ (by rw [sk_shift_length]; simp), fun i e he => ?_⟩
  have hi : i < els.length := (List.getElem?_eq_some_iff.mp he).1
  refine sk_applySky_get _ _ _ _ i e _ he ?_
  change (shift md ((List.range els.length).map (skDelta env solve sub els)))[i]? = _
  rw [hr]
  simp [hi]

/-- Matching images already changed by the deltas, up to a constant, only sets the marks. -/
theorem sg_match_again (env : Env α) (solve : Nat → List ((Nat → α) × α) → Nat → α) (hp : SgPinv solve) (md sub : Bool)
    (hs : sub = true → SgShift env) (c : Nat → α) (els els' : List (Elem α)) (h : SgMoved sub c els els')
    (hc : ∀ i j v w, i < els.length → j < els.length → skDelta env solve sub els i = some v →
      skDelta env solve sub els j = some w → c i - c j = v - w) (i : Nat) (e : Elem α) (he : els'[i]? = some e) :
    (matchPhase env solve md sub els')[i]? = some (skMark (skDelta env solve sub els i).isSome e) := by
  have hi : i < els'.length := (List.getElem?_eq_some_iff.mp he).1
  have hd : ∀ k < els'.length, skDelta env solve sub els' k = (skDelta env solve sub els k).map fun _ => 0 :=
    fun k hk => sg_delta env solve hp sub hs c els els' h hc k (by rw [← h.1]; exact hk)
  have hsh : shift md ((List.range els'.length).map (skDelta env solve sub els')) =
      (List.range els'.length).map (skDelta env solve sub els') := by
    refine sg_shift_zero md _ fun x hx => ?_
    obtain ⟨k, hk, hkx⟩ := List.mem_map.mp hx
    rw [hd k (by simpa using hk)] at hkx
    obtain ⟨-, -, h0⟩ := Option.map_eq_some_iff.mp hkx
    exact h0.symm
  have := sk_applySky_get false sub els' (shift md ((List.range els'.length).map (skDelta env solve sub els'))) i e
    ((skDelta env solve sub els i).map fun _ => 0) he (by rw [hsh, ← hd i hi]; simp [hi])
  change (applySky false sub els' (shift md ((List.range els'.length).map (skDelta env solve sub els'))))[i]? = _
  rw [this]
  cases skDelta env solve sub els i with
  | none => rw [Option.map_none, sk_applyOne_none]; rfl
  | some v => rw [Option.map_some, sg_applyOne_zero]; rfl

/-- How the first phase changes the images. -/
theorem sg_match_moved (env : Env α) (solve : Nat → List ((Nat → α) × α) → Nat → α) (md sub : Bool)
    (els : List (Elem α)) : ∃ c : Nat → α, SgMoved sub c els (matchPhase env solve md sub els) ∧
      (∀ i j v w, i < els.length → j < els.length → skDelta env solve sub els i = some v →
        skDelta env solve sub els j = some w → c i - c j = v - w) ∧
      ∀ (i : Nat) y, (matchPhase env solve md sub els)[i]? = some y → SgMarked (skDelta env solve sub els i).isSome y := by
  obtain ⟨r, hlen, hget⟩ := sg_match_get env solve md sub els
  refine ⟨fun i => ((skDelta env solve sub els i).map fun x => x - r).getD 0, ⟨hlen, fun i x y hx hy => ?_⟩,
    fun i j v w _ _ hv hw => ?_, fun i y hy => ?_⟩
  · rw [hget i x hx, Option.some.injEq] at hy
    subst hy
    exact sk_applyOne _ _ _ _
  · simp [hv, hw]
  · have hi : i < els.length := by rw [← hlen]; exact (List.getElem?_eq_some_iff.mp hy).1
    rw [hget i els[i] (by simp), Option.some.injEq] at hy
    subst hy
    cases skDelta env solve sub els i with
    | none =>
      rw [Option.map_none, sk_applyOne_none]
      exact sg_mark_marked _ _
    | some v => exact (sk_applyOne_some false sub els[i] (v - r)).2

theorem sg_skyValues (env : Env α) (sub : Bool) (hs : sub = true → SgShift env) (c : Nat → α) (els els' : List (Elem α))
    (h : SgMoved sub c els els') (i : Nat) (hi : i < els.length) :
    skSky env sub els' i = (skSky env sub els i).map fun v => v - c i := by
  have hi' : i < els'.length := by rw [h.1]; exact hi
  have e1 : els[i]? = some els[i] := by simp
  have e2 : els'[i]? = some els'[i] := by simp
  unfold skSky
  rw [e1, e2, Option.bind_some, Option.bind_some, sg_whole env sub hs (c i) i _ _ (h.2 i _ _ e1 e2)]
  rfl

theorem sg_fold (m : α) (l : List (Option α)) (acc : Option (Option α)) :
    (l.map fun o => o.map fun v => v - m).foldl minStep (acc.map fun o => o.map fun v => v - m) =
      (l.foldl minStep acc).map fun o => o.map fun v => v - m := by
  induction l generalizing acc with
  | nil => rfl
  | cons a t ih =>
    simp only [List.map_cons, List.foldl_cons]
    rw [← ih]
    congr 1
    cases acc with
    | none => rfl
    | some o =>
      cases o with
      | none => rfl
      | some w =>
        cases a with
        | none => rfl
        | some v =>
          simp only [Option.map_some, minStep, sub_lt_sub_iff_right]
          split <;> rfl

/-- The second phase on images that differ from `els` by the constant it found, and otherwise by marks only. -/
theorem sg_glob_again (env : Env α) (sub : Bool) (hs : sub = true → SgShift env) (m : α) (els els' : List (Elem α))
    (h : SgMoved sub (fun _ => m) els els') (hm : (skyValues env sub els).foldl minStep (some none) = some (some m)) :
    wholePhase env true sub els' = some (els'.map (skMark true)) := by
  have hv : skyValues env sub els' = (skyValues env sub els).map fun o => o.map fun v => v - m := by
    apply List.ext_getElem?
    intro i
    rw [List.getElem?_map, sk_skyValues_get, sk_skyValues_get, h.1]
    split
    · rename_i hi
      rw [sg_skyValues env sub hs _ els els' h i hi]; rfl
    · rfl
  have hf := sg_fold m (skyValues env sub els) (some none)
  rw [hm, ← hv] at hf
  simp only [Option.map_some, Option.map_none, sub_self] at hf
  simp only [wholePhase, if_true, hf, Option.map_some, applySky]
  congr 1
  apply List.ext_getElem?
  intro i
  rw [List.getElem?_zipWith, List.getElem?_map, List.getElem?_replicate]
  by_cases hi : i < els'.length
  · simp [hi, sg_applyOne_zero]
  · simp [hi]

/-! ### The property -/

theorem sg_glob_parts (env : Env α) (sub : Bool) (els r : List (Elem α)) (h : wholePhase env true sub els = some r) :
    ∃ o, (skyValues env sub els).foldl minStep (some none) = some o ∧ r = els.map fun e => applyOne true sub e o := by
  simp only [wholePhase, if_true] at h
  obtain ⟨o, ho, rfl⟩ := Option.map_eq_some_iff.mp h
  refine ⟨o, ho, ?_⟩
  apply List.ext_getElem?
  intro i
  rw [applySky, List.getElem?_zipWith, List.getElem?_map, List.getElem?_replicate]
  by_cases hi : i < els.length
  · simp [hi]
  · simp [hi]

/-- The global method a second time. -/
theorem C143_global (env : Env α) (solve : Nat → List ((Nat → α) × α) → Nat → α) (md sub : Bool)
    (hs : sub = true → SgShift env) (els r : List (Elem α)) (h : skymatch env solve .glob md sub els = some r) :
    skymatch env solve .glob md sub r = some r := by
  simp only [skymatch, Method.doMatch, Method.doGlobal, Bool.false_eq_true, if_false, Bool.true_or, if_true] at h ⊢
  obtain ⟨o, ho, rfl⟩ := sg_glob_parts env sub els r h
  cases o with
  | some m =>
    rw [sg_glob_again env sub hs m els _ ⟨by simp, fun i x y hx hy => ?_⟩ ho]
    · rw [List.map_map]
      congr 1
      refine List.map_congr_left fun e _ => sg_mark_id _ _ (sk_applyOne_some true sub e m).2
    · rw [List.getElem?_map, hx, Option.map_some, Option.some.injEq] at hy
      subst hy
      exact sk_applyOne true sub x (some m)
  | none =>
    have hz : SgMoved sub (fun _ => (0 : α)) els (els.map fun e => applyOne true sub e none) := by
      refine ⟨by simp, fun i x y hx hy => ?_⟩
      rw [List.getElem?_map, hx, Option.map_some, Option.some.injEq] at hy
      subst hy
      exact sk_applyOne true sub x none
    have hv : skyValues env sub (els.map fun e => applyOne true sub e none) =
        (skyValues env sub els).map fun o => o.map fun v => v - 0 := by
      apply List.ext_getElem?
      intro i
      rw [List.getElem?_map, sk_skyValues_get, sk_skyValues_get, hz.1]
      split
      · rename_i hi
        rw [sg_skyValues env sub hs _ els _ hz i hi]; rfl
      · rfl
    have hf := sg_fold (0 : α) (skyValues env sub els) (some none)
    rw [ho, ← hv] at hf
    simp only [Option.map_some, Option.map_none] at hf
    simp only [wholePhase, if_true, hf, Option.map_some, applySky]
    congr 1
    apply List.ext_getElem?
    intro i
    rw [List.getElem?_zipWith, List.getElem?_replicate]
    by_cases hi : i < els.length
    · simp only [List.length_map, hi, if_true, List.getElem?_map, List.getElem?_eq_getElem hi, Option.map_some]
      congr 1
      obtain ⟨v, hv⟩ : ∃ v, SgMarked v (applyOne true sub els[i] none) :=
        ⟨_, by rw [sg_applyOne_none]; exact sg_mark_marked _ _⟩
      exact sg_marked_none sub v _ hv
    · simp [hi]

/-- The local method a second time. -/
theorem C143_local (env : Env α) (solve : Nat → List ((Nat → α) × α) → Nat → α) (md sub : Bool)
    (hs : sub = true → SgShift env) (els r : List (Elem α)) (h : skymatch env solve .loc md sub els = some r) :
    skymatch env solve .loc md sub r = some r := by
  have hform : ∀ l : List (Elem α), skymatch env solve .loc md sub l =
      some (applySky false sub l (skyValues env sub l)) := fun l => by
    simp [skymatch, Method.doMatch, Method.doGlobal, wholePhase]
  rw [hform, Option.some.injEq] at h
  rw [hform]
  have hget : ∀ (i : Nat) e, els[i]? = some e → r[i]? = some (applyOne false sub e (skSky env sub els i)) := by
    intro i e he
    have hi : i < els.length := (List.getElem?_eq_some_iff.mp he).1
    rw [← h]
    exact sk_applySky_get _ _ _ _ i e _ he (by rw [sk_skyValues_get, if_pos hi])
  have hlen : r.length = els.length := by
    rw [← h]; exact sk_applySky_length _ _ _ _ (by simp [skyValues])
  have hmv : SgMoved sub (fun i => (skSky env sub els i).getD 0) els r := by
    refine ⟨hlen, fun i x y hx hy => ?_⟩
    rw [hget i x hx, Option.some.injEq] at hy
    subst hy
    exact sk_applyOne _ _ _ _
  congr 1
  apply List.ext_getElem?
  intro i
  by_cases hi : i < els.length
  · have he : els[i]? = some els[i] := by simp
    have h1 := hget i _ he
    rw [h1]
    rw [sk_applySky_get false sub r _ i _ (skSky env sub r i) h1 (by rw [sk_skyValues_get, if_pos (by omega)])]
    rw [sg_skyValues env sub hs _ els r hmv i hi]
    cases skSky env sub els i with
    | none => rw [Option.map_none, sk_applyOne_none, sk_applyOne_none, sg_mark_mark]
    | some v =>
      simp only [Option.map_some, Option.getD_some, sub_self]
      rw [sg_applyOne_zero, sg_mark_id _ _ (sk_applyOne_some false sub els[i] v).2]
  · rw [List.getElem?_eq_none (by rw [sk_applySky_length _ _ _ _ (by simp [skyValues])]; omega),
      List.getElem?_eq_none (by omega)]

/-- Matching a second time. -/
theorem C143_match (env : Env α) (solve : Nat → List ((Nat → α) × α) → Nat → α) (hp : SgPinv solve) (md sub : Bool)
    (hs : sub = true → SgShift env) (els r : List (Elem α)) (h : skymatch env solve .mat md sub els = some r) :
    skymatch env solve .mat md sub r = some r := by
  have hform : ∀ l : List (Elem α), skymatch env solve .mat md sub l = some (matchPhase env solve md sub l) := fun l => by
    simp [skymatch, Method.doMatch, Method.doGlobal]
  rw [hform, Option.some.injEq] at h
  rw [hform]
  subst h
  obtain ⟨c, hmv, hc, hmark⟩ := sg_match_moved env solve md sub els
  congr 1
  apply List.ext_getElem?
  intro i
  by_cases hi : i < (matchPhase env solve md sub els).length
  · have he : (matchPhase env solve md sub els)[i]? = some (matchPhase env solve md sub els)[i] := by simp
    rw [sg_match_again env solve hp md sub hs c els _ hmv hc i _ he, he, sg_mark_id _ _ (hmark i _ he)]
  · obtain ⟨-, hl, -⟩ := sg_match_get env solve md sub (matchPhase env solve md sub els)
    rw [List.getElem?_eq_none (by omega), List.getElem?_eq_none (by omega)]

/-- Matching followed by the global method a second time. -/
theorem C143_both (env : Env α) (solve : Nat → List ((Nat → α) × α) → Nat → α) (hp : SgPinv solve) (md sub : Bool)
    (hs : sub = true → SgShift env) (els r : List (Elem α)) (h : skymatch env solve .globMat md sub els = some r) :
    skymatch env solve .globMat md sub r = some r := by
  have hform : ∀ l : List (Elem α), skymatch env solve .globMat md sub l =
      wholePhase env true sub (matchPhase env solve md sub l) := fun l => by
    simp [skymatch, Method.doMatch, Method.doGlobal]
  rw [hform] at h ⊢
  obtain ⟨c, hmv, hc, hmark⟩ := sg_match_moved env solve md sub els
  obtain ⟨o, ho, hr⟩ := sg_glob_parts env sub _ r h
  set els1 := matchPhase env solve md sub els with he1
  cases o with
  | none =>
    have hre : r = els1 := by
      rw [hr]
      apply List.ext_getElem?
      intro i
      rw [List.getElem?_map]
      by_cases hi : i < els1.length
      · rw [List.getElem?_eq_getElem hi, Option.map_some]
        congr 1
        exact sg_marked_none sub _ _ (hmark i _ (by simp))
      · rw [List.getElem?_eq_none (by omega)]; rfl
    rw [hre] at h ⊢
    have := C143_match env solve hp md sub hs els els1 (by simp [skymatch, Method.doMatch, Method.doGlobal, he1])
    simp only [skymatch, Method.doMatch, Method.doGlobal, if_true, Bool.not_true, Bool.or_self, Bool.false_eq_true,
      if_false, Option.some.injEq] at this
    rw [this]
    exact h
  | some m =>
    have hlr : r.length = els1.length := by rw [hr]; simp
    have hrget : ∀ (i : Nat) x, els1[i]? = some x → r[i]? = some (applyOne true sub x (some m)) := by
      intro i x hx
      rw [hr, List.getElem?_map, hx]; rfl
    -- the images `r` are `els` changed by the deltas up to a constant
    have hmv2 : SgMoved sub (fun i => c i + m) els r := by
      refine ⟨by rw [hlr]; exact hmv.1, fun i x y hx hy => ?_⟩
      have hi : i < els1.length := by rw [hmv.1]; exact (List.getElem?_eq_some_iff.mp hx).1
      have h1 := hmv.2 i x els1[i] hx (by simp)
      have h2 := hrget i els1[i] (by simp)
      rw [hy, Option.some.injEq] at h2
      subst h2
      exact sk_changed_trans h1 (sk_applyOne true sub els1[i] (some m))
    have hagain := sg_match_again env solve hp md sub hs _ els r hmv2 (fun i j v w hi hj hv hw => by
      have := hc i j v w hi hj hv hw
      linarith)
    obtain ⟨-, hl2, -⟩ := sg_match_get env solve md sub r
    have hmv3 : SgMoved sub (fun _ => m) els1 (matchPhase env solve md sub r) := by
      refine ⟨by rw [hl2, hlr], fun i x y hx hy => ?_⟩
      rw [hagain i _ (hrget i x hx), Option.some.injEq] at hy
      subst hy
      have := sk_changed_trans (sk_applyOne true sub x (some m)) (sg_mark_changed sub (skDelta env solve sub els i).isSome _)
      simpa using this
    rw [sg_glob_again env sub hs m els1 _ hmv3 ho]
    congr 1
    apply List.ext_getElem?
    intro i
    rw [List.getElem?_map]
    by_cases hi : i < els1.length
    · have h2 := hrget i els1[i] (by simp)
      rw [hagain i _ h2, h2, Option.map_some, sg_mark_mark, sg_mark_id _ _ (sk_applyOne_some true sub els1[i] m).2]
    · rw [List.getElem?_eq_none (by omega), List.getElem?_eq_none (by omega)]; rfl

/-- **C143.** Any method applied to its own result changes nothing: no pixel, no sky, no mark; and it does not fail. -/
theorem C143_again (env : Env α) (solve : Nat → List ((Nat → α) × α) → Nat → α) (hp : SgPinv solve) (m : Method)
    (md sub : Bool) (hs : sub = true → SgShift env) (els r : List (Elem α))
    (h : skymatch env solve m md sub els = some r) : skymatch env solve m md sub r = some r := by
  cases m with
  | loc => exact C143_local env solve md sub hs els r h
  | glob => exact C143_global env solve md sub hs els r h
  | mat => exact C143_match env solve hp md sub hs els r h
  | globMat => exact C143_both env solve hp md sub hs els r h

/-! ### The hypotheses can be met -/

/-- In a Euclidean space there is a shortest least-squares solution. -/
theorem sg_shortest {V W : Type} [NormedAddCommGroup V] [InnerProductSpace ℝ V] [FiniteDimensional ℝ V]
    [NormedAddCommGroup W] [InnerProductSpace ℝ W] [FiniteDimensional ℝ W] (K : V →ₗ[ℝ] W) (F : W) :
    ∃ x, (∀ z, ‖K x - F‖ ^ 2 ≤ ‖K z - F‖ ^ 2) ∧ ∀ z, ‖K z - F‖ ^ 2 = ‖K x - F‖ ^ 2 → ‖x‖ ^ 2 ≤ ‖z‖ ^ 2 := by
  obtain ⟨z0, hz0⟩ := (LinearMap.range K).starProjection_apply_mem F
  set x := z0 - (LinearMap.ker K).starProjection z0 with hx
  have hKx : K x = (LinearMap.range K).starProjection F := by
    have : (LinearMap.ker K).starProjection z0 ∈ LinearMap.ker K := Submodule.starProjection_apply_mem _ _
    rw [hx, map_sub, LinearMap.mem_ker.mp this, sub_zero, hz0]
  have hpy : ∀ z, ‖K z - F‖ ^ 2 = ‖K z - K x‖ ^ 2 + ‖K x - F‖ ^ 2 := by
    intro z
    have ho : inner ℝ (K z - K x) (K x - F) = 0 := by
      have := Submodule.starProjection_inner_eq_zero (K := LinearMap.range K) F (K z - K x)
        (Submodule.sub_mem _ (LinearMap.mem_range_self K z) (LinearMap.mem_range_self K x))
      rw [← hKx] at this
      rw [real_inner_comm, ← neg_sub F (K x), inner_neg_left, this, neg_zero]
    have := norm_add_sq_real (K z - K x) (K x - F)
    rw [ho, sub_add_sub_cancel] at this
    linarith
  refine ⟨x, fun z => ?_, fun z hz => ?_⟩
  · rw [hpy z]
    have : 0 ≤ ‖K z - K x‖ ^ 2 := by positivity
    linarith
  · rw [hpy z] at hz
    have h0 : ‖K z - K x‖ ^ 2 = 0 := by linarith
    have hk : z - x ∈ LinearMap.ker K := by
      rw [LinearMap.mem_ker, map_sub]
      exact norm_eq_zero.mp (pow_eq_zero_iff (two_ne_zero) |>.mp h0)
    have ho : inner ℝ x (z - x) = 0 := Submodule.starProjection_inner_eq_zero z0 _ hk
    have := norm_add_sq_real x (z - x)
    rw [ho, add_sub_cancel] at this
    have h1 : 0 ≤ ‖z - x‖ ^ 2 := by positivity
    linarith

/-- Over the real numbers there is a solver as demanded: the pseudo-inverse exists for all equations. -/
theorem sg_solver : ∃ solve : Nat → List ((Nat → ℝ) × ℝ) → Nat → ℝ, SgPinv solve := by
  have key : ∀ (n : Nat) (eqs : List ((Nat → ℝ) × ℝ)), ∃ x : Nat → ℝ, (∀ z, skSq n eqs x ≤ skSq n eqs z) ∧
      ∀ z, skSq n eqs z = skSq n eqs x → ∑ i ∈ Finset.range n, x i ^ 2 ≤ ∑ i ∈ Finset.range n, z i ^ 2 := by
    intro n eqs
    let K : EuclideanSpace ℝ (Fin n) →ₗ[ℝ] EuclideanSpace ℝ (Fin eqs.length) :=
      { toFun := fun x => WithLp.toLp 2 fun q => ∑ i : Fin n, (eqs[q]).1 i * x i
        map_add' := fun x y => by
          ext q
          simp [mul_add, Finset.sum_add_distrib]
        map_smul' := fun c x => by
          ext q
          simp only [PiLp.smul_apply, smul_eq_mul, RingHom.id_apply, Finset.mul_sum]
          exact Finset.sum_congr rfl fun i _ => by ring }
    let F : EuclideanSpace ℝ (Fin eqs.length) := WithLp.toLp 2 fun q => (eqs[q]).2
    have hsq : ∀ z : Nat → ℝ, skSq n eqs z = ‖K (WithLp.toLp 2 fun i : Fin n => z i) - F‖ ^ 2 := by
      intro z
      rw [EuclideanSpace.norm_sq_eq]
      simp only [skSq, Real.norm_eq_abs, sq_abs]
      rw [← Fin.sum_univ_fun_getElem]
      refine Finset.sum_congr rfl fun q _ => ?_
      simp only [K, F, LinearMap.coe_mk, AddHom.coe_mk, PiLp.sub_apply]
      rw [← Fin.sum_univ_eq_sum_range (fun k => (eqs[(q : Nat)]).1 k * z k)]
      rfl
    have hnm : ∀ z : Nat → ℝ, ∑ i ∈ Finset.range n, z i ^ 2 = ‖(WithLp.toLp 2 fun i : Fin n => z i : EuclideanSpace ℝ (Fin n))‖ ^ 2 := by
      intro z
      rw [EuclideanSpace.norm_sq_eq, ← Fin.sum_univ_eq_sum_range (fun k => z k ^ 2)]
      simp
    obtain ⟨x, h1, h2⟩ := sg_shortest K F
    have hx : (WithLp.toLp 2 fun i : Fin n => (fun k : Nat => if h : k < n then x ⟨k, h⟩ else 0) i) = x := by
      ext i
      simp
    refine ⟨fun k => if h : k < n then x ⟨k, h⟩ else 0, fun z => ?_, fun z hz => ?_⟩
    · rw [hsq, hsq, hx]; exact h1 _
    · rw [hsq, hsq, hx] at hz
      rw [hnm, hnm, hx]; exact h2 _ hz
  choose f hf using key
  exact ⟨f, hf⟩

/-- Images measured at one pixel; images 0 and 1, and 1 and 2 overlap, the fourth one overlaps nothing. -/
noncomputable def sgEnv : Env ℝ where
  whole _ _ data := some (data 0, 1, 1)
  over e k e' data := if (e = 1 ∨ e' = 1) ∧ e < 3 ∧ e' < 3 then some (data (e' + k), 2, 1) else none

theorem sg_env_shift : SgShift sgEnv := by
  refine ⟨fun e k data s => rfl, fun e k e' data s => ?_⟩
  unfold sgEnv
  dsimp only
  split <;> rfl

/-- A single image, a group of two, a single image and one without overlap. -/
noncomputable def sgEls : List (Elem ℝ) :=
  [.single ⟨fun p => p + 3, 0, false⟩, .group 1 [⟨fun _ => 5, 0, false⟩, ⟨fun p => 2 * p, 1, true⟩], .single ⟨fun _ => 7, 2, true⟩,
    .single ⟨fun _ => 1, 0, true⟩]

example : ∃ solve, SgPinv (α := ℝ) solve ∧ ∀ m md sub, ∃ r, skymatch sgEnv solve m md sub sgEls = some r ∧
    skymatch sgEnv solve m md sub r = some r := by
  obtain ⟨solve, hp⟩ := sg_solver
  refine ⟨solve, hp, fun m md sub => ?_⟩
  have hsky : ∀ i < 4, (skSky sgEnv sub sgEls i).isSome := by
    intro i hi
    rcases sub with _ | _ <;> interval_cases i <;>
      simp [skSky, sgEls, sgEnv, elemWhole, groupMin, imCalc, List.zipIdx_cons]
    all_goals split <;> simp
  have hglob : ∀ c els, SgMoved sub c sgEls els → ∃ r, skymatch sgEnv solve .glob md sub els = some r := by
    intro c els hm
    refine Option.ne_none_iff_exists'.mp fun hn => ?_
    obtain ⟨i, j, -, hj, -, hnone⟩ := (C45_fails_iff sgEnv solve md sub els).mp hn
    have hj4 : j < sgEls.length := by rw [← hm.1]; exact hj
    have h4 := hsky j hj4
    rw [sg_skyValues sgEnv sub (fun _ => sg_env_shift) c sgEls els hm j hj4, Option.map_eq_none_iff] at hnone
    rw [hnone] at h4
    simp at h4
  have hex : ∃ r, skymatch sgEnv solve m md sub sgEls = some r := by
    cases m with
    | loc => exact ⟨_, rfl⟩
    | mat => exact ⟨_, rfl⟩
    | glob =>
      refine hglob (fun _ => 0) sgEls ⟨rfl, fun i x y hx hy => ?_⟩
      rw [hx, Option.some.injEq] at hy
      subst hy
      exact sk_changed_zero sub x
    | globMat =>
      obtain ⟨c, hm, -⟩ := sg_match_moved sgEnv solve md sub sgEls
      exact hglob c _ hm
  obtain ⟨r, hr⟩ := hex
  exact ⟨r, hr, C143_again sgEnv solve hp m md sub (fun _ => sg_env_shift) sgEls r hr⟩

end Verif.Thm
