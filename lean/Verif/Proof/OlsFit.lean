import Verif.Proof.Ols
import Mathlib.Algebra.Order.BigOperators.Group.List
import Mathlib.Tactic.FieldSimp
import Mathlib.Tactic.Positivity

/-! # Lemmas about the weighted fit and the combination of segments -/

namespace Verif.Ols

set_option linter.unusedSectionVars false

section Field
variable {α : Type*} [Field α]

omit [Field α] in
theorem sumTo_eq [Field α] (n : Nat) (f : Nat → α) : sumTo (n + 1) f = sumTo n f + f n := by
  simp [sumTo, List.range_succ]

theorem sumTo_zero (f : Nat → α) : sumTo 0 f = 0 := by simp [sumTo]

theorem sumTo_congr (n : Nat) {f g : Nat → α} (h : ∀ k, k < n → f k = g k) : sumTo n f = sumTo n g := by
  induction n with
  | zero => simp [sumTo_zero]
  | succ n ih => rw [sumTo_eq, sumTo_eq, ih fun k hk => h k (by omega), h n (by omega)]

theorem sumTo_add (n : Nat) (f g : Nat → α) : sumTo n (fun k => f k + g k) = sumTo n f + sumTo n g := by
  induction n with
  | zero => simp [sumTo_zero]
  | succ n ih => rw [sumTo_eq, sumTo_eq, sumTo_eq, ih]; ring

theorem sumTo_mul (n : Nat) (c : α) (f : Nat → α) : sumTo n (fun k => c * f k) = c * sumTo n f := by
  induction n with
  | zero => simp [sumTo_zero]
  | succ n ih => rw [sumTo_eq, sumTo_eq, ih]; ring

/-- The determinant of the normal equations. -/
def wden (n start : Nat) (w : Nat → α) : α :=
  sumTo n w * sumTo n (fun k => ((k : α) + start) * (((k : α) + start) * w k))
    - sumTo n (fun k => ((k : α) + start) * w k) * sumTo n (fun k => ((k : α) + start) * w k)

/-- Linear part of the fit: moving the data by a line `a + b x` moves the slope by `b`. -/
theorem wls_slope_affine (n start : Nat) (w y : Nat → α) (a b : α) (hden : wden n start w ≠ 0) :
    (wls n start w fun k => y k + (a + b * ((k : α) + start))).1 = (wls n start w y).1 + b := by
  simp only [wls]
  have e1 : sumTo n (fun k => (y k + (a + b * ((k : α) + start))) * w k)
      = sumTo n (fun k => y k * w k) + (a * sumTo n w + b * sumTo n fun k => ((k : α) + start) * w k) := by
    rw [← sumTo_mul, ← sumTo_mul, ← sumTo_add, ← sumTo_add]
    exact sumTo_congr n fun k _ => by ring
  have e2 : sumTo n (fun k => (y k + (a + b * ((k : α) + start))) * (((k : α) + start) * w k))
      = sumTo n (fun k => y k * (((k : α) + start) * w k))
        + (a * sumTo n (fun k => ((k : α) + start) * w k)
          + b * sumTo n fun k => ((k : α) + start) * (((k : α) + start) * w k)) := by
    rw [← sumTo_mul, ← sumTo_mul, ← sumTo_add, ← sumTo_add]
    exact sumTo_congr n fun k _ => by ring
  rw [e1, e2]
  unfold wden at hden
  set W := sumTo n w
  set X := sumTo n fun k => ((k : α) + start) * w k
  set XX := sumTo n fun k => ((k : α) + start) * (((k : α) + start) * w k)
  set Y := sumTo n fun k => y k * w k
  set XY := sumTo n fun k => y k * (((k : α) + start) * w k)
  have h : (W * (XY + (a * X + b * XX)) - X * (Y + (a * W + b * X))) = (W * XY - X * Y) + b * (W * XX - X * X) := by
    ring
  rw [h, add_mul, mul_assoc b, mul_one_div_cancel hden, mul_one]

theorem wls_slope_scale (n start : Nat) (w y : Nat → α) (c : α) :
    (wls n start w fun k => c * y k).1 = c * (wls n start w y).1 := by
  simp only [wls]
  have e1 : sumTo n (fun k => c * y k * w k) = c * sumTo n (fun k => y k * w k) := by
    rw [← sumTo_mul]; exact sumTo_congr n fun k _ => by ring
  have e2 : sumTo n (fun k => c * y k * (((k : α) + start) * w k))
      = c * sumTo n (fun k => y k * (((k : α) + start) * w k)) := by
    rw [← sumTo_mul]; exact sumTo_congr n fun k _ => by ring
  rw [e1, e2]; ring

theorem wls_congr (n start : Nat) (w : Nat → α) {y y' : Nat → α} (h : ∀ k, k < n → y k = y' k) :
    wls n start w y = wls n start w y' := by
  simp only [wls]
  rw [sumTo_congr n (f := fun k => y k * w k) (g := fun k => y' k * w k) fun k hk => by rw [h k hk],
    sumTo_congr n (f := fun k => y k * (((k : α) + start) * w k)) (g := fun k => y' k * (((k : α) + start) * w k))
      fun k hk => by rw [h k hk]]

theorem wls_zero (n start : Nat) (w : Nat → α) : (wls n start w fun _ => 0).1 = 0 := by
  simp only [wls]
  have e : ∀ f : Nat → α, sumTo n (fun k => 0 * f k) = 0 := fun f => by rw [sumTo_mul]; ring
  rw [e w, e fun k => ((k : α) + start) * w k]; ring

end Field

section Ordered
variable {α : Type*} [Field α] [LinearOrder α] [IsStrictOrderedRing α]

theorem sumTo_nonneg (n : Nat) (f : Nat → α) (h : ∀ k, 0 ≤ f k) : 0 ≤ sumTo n f := by
  induction n with
  | zero => simp [sumTo_zero]
  | succ n ih => rw [sumTo_eq]; linarith [h n]

theorem le_sumTo (n : Nat) (f : Nat → α) (h : ∀ k, 0 ≤ f k) (i : Nat) (hi : i < n) : f i ≤ sumTo n f := by
  induction n with
  | zero => omega
  | succ n ih =>
    rw [sumTo_eq]
    rcases Nat.lt_or_ge i n with h' | h'
    · linarith [ih h', h n]
    · have : i = n := by omega
      subst this
      linarith [sumTo_nonneg i f h]

/-- The normal equations are regular as soon as both end groups have positive weight. -/
theorem wden_pos (n start : Nat) (hn : 2 ≤ n) (w : Nat → α) (hw : ∀ k, 0 ≤ w k) (h0 : 0 < w 0) (h1 : 0 < w (n - 1)) :
    0 < wden n start w := by
  obtain ⟨m, rfl⟩ : ∃ m, n = m + 2 := ⟨n - 2, by omega⟩
  have hW : 0 < sumTo (m + 2) w := lt_of_lt_of_le h0 (le_sumTo _ w hw 0 (by omega))
  set W := sumTo (m + 2) w with hWd
  set X := sumTo (m + 2) fun k => ((k : α) + start) * w k with hX
  set XX := sumTo (m + 2) fun k => ((k : α) + start) * (((k : α) + start) * w k) with hXX
  have key : sumTo (m + 2) (fun k => w k * (((k : α) + start) - X / W) ^ 2) = XX - X * X / W := by
    have e : sumTo (m + 2) (fun k => w k * (((k : α) + start) - X / W) ^ 2)
        = sumTo (m + 2) (fun k => ((k : α) + start) * (((k : α) + start) * w k)
            + ((-2 * (X / W)) * (((k : α) + start) * w k) + (X / W) ^ 2 * w k)) :=
      sumTo_congr _ fun k _ => by ring
    rw [e, sumTo_add, sumTo_add, sumTo_mul, sumTo_mul, ← hX, ← hXX, ← hWd]
    field_simp
    ring
  have hnn : ∀ k : Nat, 0 ≤ w k * (((k : α) + start) - X / W) ^ 2 := fun k => mul_nonneg (hw k) (sq_nonneg _)
  have hpos : 0 < sumTo (m + 2) fun k => w k * (((k : α) + start) - X / W) ^ 2 := by
    rw [sumTo_eq]
    have hl := hnn (m + 1)
    have hf := le_sumTo (m + 1) (fun k => w k * (((k : α) + start) - X / W) ^ 2) hnn 0 (by omega)
    have hf0 := hnn 0
    by_cases hz : ((0 : Nat) : α) + start - X / W = 0
    · have hne : (((m + 1 : Nat) : α) + start) - X / W ≠ 0 := by
        intro h
        have hc : ((m + 1 : Nat) : α) = ((0 : Nat) : α) :=
          add_right_cancel ((sub_eq_zero.1 h).trans (sub_eq_zero.1 hz).symm)
        rw [Nat.cast_inj] at hc
        omega
      have h1' : 0 < w (m + 1) := h1
      have : 0 < w (m + 1) * ((((m + 1 : Nat) : α) + start) - X / W) ^ 2 := by positivity
      have : 0 ≤ sumTo (m + 1) fun k => w k * (((k : α) + start) - X / W) ^ 2 := sumTo_nonneg _ _ hnn
      linarith
    · have : 0 < w 0 * (((0 : Nat) : α) + start - X / W) ^ 2 := by positivity
      linarith
  rw [key] at hpos
  have : wden (m + 2) start w = W * (XX - X * X / W) := by
    unfold wden
    rw [← hWd, ← hX, ← hXX]
    field_simp
  rw [this]
  positivity

/-- The optimal weights are non-negative, and positive at both ends. -/
theorem optWeight_ends (cfg : Cfg α) (px : Pix α) (len : Nat) (hlen : 2 ≤ len) (power : α) (hr : px.rnoise ≠ 0)
    (hp1 : ∀ p, cfg.powf 1 p = 1) (hp0 : ∀ x p, 0 ≤ cfg.powf x p) :
    (∀ k, 0 ≤ optWeight cfg px len power k) ∧ 0 < optWeight cfg px len power 0
      ∧ 0 < optWeight cfg px len power (len - 1) := by
  have hrr : 0 < 1 / (px.rnoise * px.rnoise) := one_div_pos.2 (mul_self_pos.2 hr)
  have h2 : (2 : α) ≤ (len : α) := by exact_mod_cast hlen
  have hmid : (0 : α) < ((len : α) - 1) / 2 := by linarith
  refine ⟨fun k => ?_, ?_, ?_⟩
  · exact mul_nonneg (hp0 _ _) hrr.le
  · simp only [optWeight]
    have : |(((0 : Nat) : α) - ((len : α) - 1) / 2) * (1 / (((len : α) - 1) / 2))| = 1 := by
      have : (((0 : Nat) : α) - ((len : α) - 1) / 2) * (1 / (((len : α) - 1) / 2)) = -1 := by
        rw [Nat.cast_zero, zero_sub, mul_one_div, neg_div, div_self hmid.ne']
      rw [this, abs_neg, abs_one]
    rw [this, hp1, one_mul]; exact hrr
  · simp only [optWeight]
    have hc : ((len - 1 : Nat) : α) = (len : α) - 1 := by
      rw [Nat.cast_sub (by omega), Nat.cast_one]
    have : |(((len - 1 : Nat) : α) - ((len : α) - 1) / 2) * (1 / (((len : α) - 1) / 2))| = 1 := by
      have : (((len - 1 : Nat) : α) - ((len : α) - 1) / 2) = ((len : α) - 1) / 2 := by rw [hc]; ring
      rw [this, mul_one_div, div_self hmid.ne', abs_one]
    rw [this, hp1, one_mul]; exact hrr

end Ordered

/-! ## Sums over segments -/

section Acc
variable {α : Type*} [Field α] [LinearOrder α]

theorem o2_some (f : α → α → α) (a b : α) : o2 f (some a) (some b) = some (f a b) := rfl

/-- Accumulation with an arbitrary start value. -/
theorem accSegs_foldl (fits : List (SegFit α)) (sl : SegFit α → α) (hs : ∀ f ∈ fits, f.slope = some (sl f))
    (a0 : Acc α) (n0 : α) (hn : a0.num = some n0) :
    let r := fits.foldl (fun (a : Acc α) (f : SegFit α) =>
      { invR := a.invR + 1 / f.varR
        invP := if 0 < f.varP then a.invP + 1 / f.varP else a.invP
        invE := a.invE + 1 / (f.varP + f.varR)
        num := o2 (· + ·) a.num (f.slope.map fun s => s / f.varR) }) a0
    r.invR = a0.invR + (fits.map fun f => 1 / f.varR).sum
    ∧ r.invP = a0.invP + (fits.map fun f => if 0 < f.varP then 1 / f.varP else 0).sum
    ∧ r.num = some (n0 + (fits.map fun f => sl f / f.varR).sum) := by
  induction fits generalizing a0 n0 with
  | nil => simp [hn]
  | cons f fits ih =>
    have hf := hs f (List.mem_cons_self ..)
    have := ih (fun x hx => hs x (List.mem_cons_of_mem _ hx))
      { invR := a0.invR + 1 / f.varR
        invP := if 0 < f.varP then a0.invP + 1 / f.varP else a0.invP
        invE := a0.invE + 1 / (f.varP + f.varR)
        num := o2 (· + ·) a0.num (f.slope.map fun s => s / f.varR) } (n0 + sl f / f.varR)
      (by rw [hn, hf]; rfl)
    simp only [List.foldl_cons, List.map_cons, List.sum_cons] at this ⊢
    obtain ⟨h1, h2, h3⟩ := this
    refine ⟨by rw [h1]; ring, ?_, by rw [h3]; congr 1; ring⟩
    rw [h2]
    split <;> ring

theorem accSegs_spec (fits : List (SegFit α)) (sl : SegFit α → α) (hs : ∀ f ∈ fits, f.slope = some (sl f)) :
    (accSegs fits).invR = (fits.map fun f => 1 / f.varR).sum
    ∧ (accSegs fits).invP = (fits.map fun f => if 0 < f.varP then 1 / f.varP else 0).sum
    ∧ (accSegs fits).num = some (fits.map fun f => sl f / f.varR).sum := by
  have := accSegs_foldl fits sl hs ⟨0, 0, 0, some 0⟩ 0 rfl
  simp only [zero_add] at this
  exact this

end Acc

section Mean
variable {α : Type*} [Field α] [LinearOrder α] [IsStrictOrderedRing α]

theorem sum_pos_of_mem {β : Type*} (l : List β) (f : β → α) (hf : ∀ x ∈ l, 0 < f x) (hne : l ≠ []) :
    0 < (l.map f).sum := by
  cases l with
  | nil => exact absurd rfl hne
  | cons a l =>
    have h0 : 0 ≤ (l.map f).sum :=
      List.sum_nonneg (by
        intro x hx
        obtain ⟨y, hy, rfl⟩ := List.mem_map.1 hx
        exact (hf y (List.mem_cons_of_mem _ hy)).le)
    have := hf a (List.mem_cons_self ..)
    simp only [List.map_cons, List.sum_cons]
    linarith

theorem le_sum_of_mem {β : Type*} (l : List β) (f : β → α) (hf : ∀ x ∈ l, 0 ≤ f x) (a : β) (ha : a ∈ l) :
    f a ≤ (l.map f).sum := by
  induction l with
  | nil => simp at ha
  | cons b l ih =>
    have hb := hf b (List.mem_cons_self ..)
    have h0 : 0 ≤ (l.map f).sum :=
      List.sum_nonneg (by
        intro x hx
        obtain ⟨y, hy, rfl⟩ := List.mem_map.1 hx
        exact hf y (List.mem_cons_of_mem _ hy))
    simp only [List.map_cons, List.sum_cons]
    rcases List.mem_cons.1 ha with rfl | ha
    · linarith
    · linarith [ih (fun x hx => hf x (List.mem_cons_of_mem _ hx)) ha]

theorem sum_mul_bounds {β : Type*} (l : List β) (s v : β → α) (hv : ∀ x ∈ l, 0 < v x) (lo hi : α)
    (hb : ∀ x ∈ l, lo ≤ s x ∧ s x ≤ hi) :
    lo * (l.map fun x => 1 / v x).sum ≤ (l.map fun x => s x / v x).sum
    ∧ (l.map fun x => s x / v x).sum ≤ hi * (l.map fun x => 1 / v x).sum := by
  induction l with
  | nil => simp
  | cons a l ih =>
    obtain ⟨h1, h2⟩ := ih (fun x hx => hv x (List.mem_cons_of_mem _ hx)) fun x hx => hb x (List.mem_cons_of_mem _ hx)
    obtain ⟨h3, h4⟩ := hb a (List.mem_cons_self ..)
    have hva := hv a (List.mem_cons_self ..)
    have hi' : 0 < 1 / v a := by positivity
    simp only [List.map_cons, List.sum_cons]
    have e : s a / v a = s a * (1 / v a) := by ring
    rw [e]
    constructor <;> nlinarith [mul_le_mul_of_nonneg_right h3 hi'.le, mul_le_mul_of_nonneg_right h4 hi'.le]

/-- Inverse-variance weighted mean: bounds and variance. -/
theorem wmean_spec {β : Type*} (l : List β) (s v : β → α) (hne : l ≠ []) (hv : ∀ x ∈ l, 0 < v x) :
    (∀ lo hi, (∀ x ∈ l, lo ≤ s x ∧ s x ≤ hi) →
      lo ≤ (l.map fun x => s x / v x).sum * (1 / (l.map fun x => 1 / v x).sum)
      ∧ (l.map fun x => s x / v x).sum * (1 / (l.map fun x => 1 / v x).sum) ≤ hi)
    ∧ 0 < 1 / (l.map fun x => 1 / v x).sum
    ∧ ∀ x ∈ l, 1 / (l.map fun x => 1 / v x).sum ≤ v x := by
  have hS : 0 < (l.map fun x => 1 / v x).sum := sum_pos_of_mem l _ (fun x hx => by have := hv x hx; positivity) hne
  refine ⟨fun lo hi hb => ?_, by positivity, fun x hx => ?_⟩
  · obtain ⟨h1, h2⟩ := sum_mul_bounds l s v hv lo hi hb
    rw [mul_one_div]
    exact ⟨(le_div_iff₀ hS).2 h1, (div_le_iff₀ hS).2 h2⟩
  · have hx' := hv x hx
    have h := le_sum_of_mem l (fun x => 1 / v x) (fun y hy => by have := hv y hy; positivity) x hx
    rw [div_le_iff₀ hS]
    have : v x * (1 / v x) = 1 := by field_simp
    nlinarith [mul_le_mul_of_nonneg_left h hx'.le]

end Mean
end Verif.Ols
