import Verif.Thm.Cas22Driver
import Mathlib.Algebra.BigOperators.Ring.Finset
import Mathlib.Data.Finset.Max
import Mathlib.Tactic.FieldSimp
import Mathlib.Tactic.Linarith
import Mathlib.Tactic.Positivity

/-!
# Casertano+22 ramp fitting: a cosmic ray is found where it is and does not bias the slope (C144)
-/

namespace Verif.Thm

open Verif.Cas22 Verif.Cas22Driver

set_option linter.unusedSectionVars false

section
variable {α : Type*} [Field α] [LinearOrder α] [IsStrictOrderedRing α]

/-! ## Specification -/

/-- Charge added by a hit of size `h` during resultant `j`: nothing before, a fraction `φ` of it in the average of the
resultant itself, all of it afterwards. -/
def cjHit (h φ : α) (j i : Nat) : α := if i < j then 0 else if i = j then φ * h else h

/-- All resultants average their reads in the same way, one `step` after the other and without overlap. -/
structure CjRegular (pattern : List (List α)) (base : List α) (step : α) : Prop where
  reads : base ≠ []
  pos : 0 < step
  width : ∀ x ∈ base, ∀ y ∈ base, y - x ≤ step
  shift : ∀ i, i < pattern.length → pattern.getD i [] = base.map fun x => x + i * step

/-! ## Regular time tables -/

/-- The same for the tables of a pixel. -/
structure CjPix (p : Pix α) (n : Nat) (t0 dt κ : α) (m : Nat) : Prop where
  pos : 0 < dt
  mpos : 0 < m
  kap : 4 * κ ≤ dt
  time : ∀ i, i < n → p.tbar i = t0 + i * dt
  reads : ∀ i, i < n → p.nreads i = m
  tau : ∀ i, i < n → p.tau i = p.tbar i - κ

theorem cj_pos_sum (n : Nat) :
    4 * ∑ k ∈ Finset.range n, max (2 * (k : α) + 1 - n) 0 ≤ (n : α) ^ 2 := by
  induction n using Nat.twoStepInduction with
  | zero => simp
  | one => simp
  | more n ih _ =>
    rw [Finset.sum_range_succ, Finset.sum_range_succ']
    have e : ∀ k : Nat, (2 * ((k + 1 : Nat) : α) + 1 - ((n + 2 : Nat) : α)) = 2 * (k : α) + 1 - n := by
      intro k; push_cast; ring
    simp only [e]
    have h0 : max (2 * ((0 : Nat) : α) + 1 - ((n + 2 : Nat) : α)) 0 = 0 := by
      refine max_eq_right ?_
      push_cast
      have : (0 : α) ≤ n := Nat.cast_nonneg n
      linarith
    have h1 : max (2 * (n : α) + 1 - n) 0 = n + 1 := by
      have : (0 : α) ≤ n := Nat.cast_nonneg n
      rw [max_eq_left (by linarith)]
      ring
    rw [h0, h1]
    push_cast
    nlinarith [ih]

theorem cj_sum_getD (l : List α) : ∑ k ∈ Finset.range l.length, l.getD k 0 = l.sum := by
  induction l with
  | nil => simp
  | cons x t ih => rw [List.length_cons, Finset.sum_range_succ', List.sum_cons, ← ih]; simp [add_comm]

theorem cj_odd_sum (n : Nat) : ∑ k ∈ Finset.range n, (2 * ((n : α) - k) - 1) = (n : α) ^ 2 := by
  induction n with
  | zero => simp
  | succ n ih =>
    rw [Finset.sum_range_succ']
    have e : ∀ k : Nat, (2 * (((n + 1 : Nat) : α) - ((k + 1 : Nat) : α)) - 1) = 2 * ((n : α) - k) - 1 := by
      intro k; push_cast; ring
    simp only [e, ih]
    push_cast; ring

/-- Difference of mean time and `tau` for reads within a window. -/
theorem cj_kappa (rt step : α) (hrt : 0 ≤ rt) (base : List α) (hb : base ≠ []) (hw : ∀ x ∈ base, ∀ y ∈ base, y - x ≤ step) :
    4 * (meanTime rt base - tauTime rt base) ≤ rt * step := by
  set n := base.length with hn
  have hn0 : (0 : α) < n := by exact_mod_cast List.length_pos_of_ne_nil hb
  have h0n : 0 < n := List.length_pos_of_ne_nil hb
  obtain ⟨x0, hx0, hmin⟩ : ∃ x0 ∈ base, ∀ y ∈ base, x0 ≤ y := by
    have := Finset.exists_min_image (Finset.range n) (fun k => base.getD k 0) (by simpa using h0n.ne')
    obtain ⟨k, hk, hm⟩ := this
    rw [Finset.mem_range] at hk
    refine ⟨base.getD k 0, ?_, fun y hy => ?_⟩
    · rw [List.getD_eq_getElem _ _ hk]; exact List.getElem_mem hk
    · obtain ⟨q, hq, rfl⟩ := List.getElem_of_mem hy
      have := hm q (by simpa using hq)
      rwa [List.getD_eq_getElem _ _ hq] at this
  have hmem : ∀ k, k < n → base.getD k 0 ∈ base := fun k hk => by
    rw [List.getD_eq_getElem _ _ hk]; exact List.getElem_mem hk
  have hstep : 0 ≤ step := by simpa using hw x0 hx0 x0 hx0
  have e1 : (n : α) ^ 2 * (meanTime rt base - tauTime rt base)
      = rt * ∑ k ∈ Finset.range n, (2 * (k : α) + 1 - n) * base.getD k 0 := by
    have : ∑ k ∈ Finset.range n, (2 * (k : α) + 1 - n) * base.getD k 0
        = (n : α) * base.sum - ∑ k ∈ Finset.range n, (2 * ((n : α) - k) - 1) * base.getD k 0 := by
      rw [← cj_sum_getD base, ← hn, Finset.mul_sum, ← Finset.sum_sub_distrib]
      exact Finset.sum_congr rfl fun k _ => by ring
    rw [this]
    simp only [meanTime, tauTime, ← hn]
    field_simp
  have e2 : ∑ k ∈ Finset.range n, (2 * (k : α) + 1 - n) * base.getD k 0
      = ∑ k ∈ Finset.range n, (2 * (k : α) + 1 - n) * (base.getD k 0 - x0) := by
    have h2 : ∑ k ∈ Finset.range n, (2 * (k : α) + 1 - n) = 0 := by
      have h3 := cj_odd_sum (α := α) n
      have h4 : ∑ k ∈ Finset.range n, (2 * (k : α) + 1 - n)
          = ∑ k ∈ Finset.range n, ((n : α) - (2 * ((n : α) - k) - 1)) := Finset.sum_congr rfl fun k _ => by ring
      rw [h4, Finset.sum_sub_distrib, h3, Finset.sum_const, Finset.card_range, nsmul_eq_mul]
      ring
    have h5 : ∑ k ∈ Finset.range n, (2 * (k : α) + 1 - n) * (base.getD k 0 - x0)
        = ∑ k ∈ Finset.range n, ((2 * (k : α) + 1 - n) * base.getD k 0 - (2 * (k : α) + 1 - n) * x0) :=
      Finset.sum_congr rfl fun k _ => by ring
    rw [h5, Finset.sum_sub_distrib, ← Finset.sum_mul, h2, zero_mul, sub_zero]
  have e3 : ∑ k ∈ Finset.range n, (2 * (k : α) + 1 - n) * (base.getD k 0 - x0)
      ≤ ∑ k ∈ Finset.range n, max (2 * (k : α) + 1 - n) 0 * step := by
    refine Finset.sum_le_sum fun k hk => ?_
    have hk' := hmem k (Finset.mem_range.1 hk)
    have a1 : 0 ≤ base.getD k 0 - x0 := sub_nonneg.2 (hmin _ hk')
    have a2 := hw x0 hx0 _ hk'
    calc (2 * (k : α) + 1 - n) * (base.getD k 0 - x0) ≤ max (2 * (k : α) + 1 - n) 0 * (base.getD k 0 - x0) :=
          mul_le_mul_of_nonneg_right (le_max_left _ _) a1
      _ ≤ _ := mul_le_mul_of_nonneg_left a2 (le_max_right _ _)
  rw [← Finset.sum_mul] at e3
  have e4 := cj_pos_sum (α := α) n
  have e5 : (n : α) ^ 2 * (4 * (meanTime rt base - tauTime rt base)) ≤ (n : α) ^ 2 * (rt * step) := by
    have : (n : α) ^ 2 * (4 * (meanTime rt base - tauTime rt base))
        = rt * (4 * ∑ k ∈ Finset.range n, (2 * (k : α) + 1 - n) * (base.getD k 0 - x0)) := by
      rw [← e2, mul_left_comm, e1]; ring
    rw [this]
    calc rt * (4 * ∑ k ∈ Finset.range n, (2 * (k : α) + 1 - n) * (base.getD k 0 - x0))
        ≤ rt * (4 * ((∑ k ∈ Finset.range n, max (2 * (k : α) + 1 - n) 0) * step)) :=
          mul_le_mul_of_nonneg_left (by linarith) hrt
      _ = rt * step * (4 * ∑ k ∈ Finset.range n, max (2 * (k : α) + 1 - n) 0) := by ring
      _ ≤ rt * step * (n : α) ^ 2 := mul_le_mul_of_nonneg_left e4 (by positivity)
      _ = _ := by ring
  exact le_of_mul_le_mul_left e5 (by positivity)

theorem cj_mean_shift (rt c : α) (base : List α) (hb : base ≠ []) :
    meanTime rt (base.map fun x => x + c) = meanTime rt base + rt * c := by
  have hn0 : (base.length : α) ≠ 0 := by exact_mod_cast (List.length_pos_of_ne_nil hb).ne'
  have : (base.map fun x => x + c).sum = base.sum + base.length * c := by
    rw [List.sum_map_add]; simp
  simp only [meanTime, this, List.length_map]
  field_simp

theorem cj_tau_shift (rt c : α) (base : List α) (hb : base ≠ []) :
    tauTime rt (base.map fun x => x + c) = tauTime rt base + rt * c := by
  have hn0 : (base.length : α) ≠ 0 := by exact_mod_cast (List.length_pos_of_ne_nil hb).ne'
  have e : ∑ k ∈ Finset.range base.length, (2 * ((base.length : α) - (k : α)) - 1) * (base.map fun x => x + c).getD k 0
      = ∑ k ∈ Finset.range base.length, ((2 * ((base.length : α) - (k : α)) - 1) * base.getD k 0
        + (2 * ((base.length : α) - (k : α)) - 1) * c) := by
    refine Finset.sum_congr rfl fun k hk => ?_
    have hk := Finset.mem_range.1 hk
    rw [List.getD_eq_getElem _ _ (by simpa using hk), List.getD_eq_getElem _ _ hk, List.getElem_map]
    ring
  simp only [tauTime, List.length_map, e]
  rw [Finset.sum_add_distrib, ← Finset.sum_mul, cj_odd_sum]
  field_simp

theorem cj_pix (rt : α) (hrt : 0 < rt) (pattern : List (List α)) (base : List α) (step : α) (h : CjRegular pattern base step)
    (res : Nat → Nat → α) (rn : Nat → α) (k : Nat) :
    CjPix (pixelOf rt pattern res rn k) pattern.length (meanTime rt base) (rt * step) (meanTime rt base - tauTime rt base)
      base.length := by
  refine ⟨mul_pos hrt h.pos, List.length_pos_of_ne_nil h.reads, cj_kappa rt step hrt.le base h.reads h.width, fun i hi => ?_,
    fun i hi => ?_, fun i hi => ?_⟩
  · simp only [pixelOf, h.shift i hi, cj_mean_shift rt _ base h.reads]; ring
  · simp only [pixelOf, h.shift i hi, List.length_map]
  · simp only [pixelOf, h.shift i hi, cj_mean_shift rt _ base h.reads, cj_tau_shift rt _ base h.reads]; ring


/-! ## The jump test on a ramp with a hit -/

theorem cj_time_lt {p : Pix α} {n : Nat} {t0 dt κ : α} {m : Nat} (hx : CjPix p n t0 dt κ m) {i j : Nat} (hij : i < j)
    (hj : j < n) : p.tbar i < p.tbar j := by
  rw [hx.time i (by omega), hx.time j hj]
  have : (i : α) < j := by exact_mod_cast hij
  have := mul_lt_mul_of_pos_right this hx.pos
  linarith

/-- A hit never makes the fitted slope smaller. -/
theorem cj_bias (cfg : Cfg α) (hp : Cas22PowOk cfg.pow) (p : Pix α) (n : Nat) (t0 dt κ : α) (m : Nat)
    (hx : CjPix p n t0 dt κ m) (r : Ramp) (h1 : r.start < r.stop) (h2 : r.stop < n) (a b h φ : α) (j : Nat) (hh : 0 ≤ h)
    (hφ : 0 ≤ φ) (hφ1 : φ ≤ 1) (hl : ∀ i, r.start ≤ i → i ≤ r.stop → p.res i = a + b * p.tbar i + cjHit h φ j i) (f : Fit α)
    (hf : fitRamp cfg p r = some f) : b ≤ f.slope := by
  have hne := (cj_time_lt hx h1 h2).ne
  have hnr : ∀ i, r.start ≤ i → i ≤ r.stop → 0 < p.nreads i := fun i _ hi => by
    rw [hx.reads i (by omega)]; exact hx.mpos
  obtain ⟨c, c1, c2, c3, c4⟩ := fitRamp_some cfg hp p r h1 hne hnr
  have hd := det_pos r.idx (weight cfg p r) p.tbar (fun i _ => weight_nonneg cfg hp p r i) r.start r.stop
    (mem_idx.2 ⟨le_rfl, by omega⟩) (mem_idx.2 ⟨by omega, le_rfl⟩)
    (weight_end_pos cfg hp p r _ hne (Or.inl rfl) (hnr _ le_rfl (by omega)))
    (weight_end_pos cfg hp p r _ hne (Or.inr rfl) (hnr _ (by omega) le_rfl)) hne
  rw [hf, Option.some.injEq] at c1
  rw [c1, (foldl_fitStep p c r.idx (⟨0, 0, 0⟩, 0)).1]
  simp only [zero_add]
  set f0 := (r.idx.map (weight cfg p r)).sum
  set f1 := (r.idx.map fun i => weight cfg p r i * p.tbar i).sum
  have hf0 : 0 ≤ f0 := sum_nonneg' _ _ fun i _ => weight_nonneg cfg hp p r i
  have hle : φ * h ≤ h := by nlinarith
  have h0 : 0 ≤ φ * h := mul_nonneg hφ hh
  obtain ⟨G, hG⟩ : ∃ G, ∀ i ∈ r.idx, 0 ≤ (f0 * p.tbar i - f1) * (cjHit h φ j i - G) := by
    by_cases hj : ∃ k ∈ r.idx, k ≤ j ∧ 0 < f0 * p.tbar k - f1
    · obtain ⟨k, hk, hkj, hk0⟩ := hj
      refine ⟨0, fun i hi => ?_⟩
      rw [mem_idx] at hi hk
      simp only [cjHit]
      split_ifs with c1 c2
      · simp
      · subst c2
        rcases Nat.lt_or_ge k i with hki | hki
        · have := mul_le_mul_of_nonneg_left (cj_time_lt hx hki (by omega)).le hf0
          exact mul_nonneg (by linarith) (by linarith)
        · have : k = i := by omega
          subst this
          exact mul_nonneg hk0.le (by linarith)
      · have := mul_le_mul_of_nonneg_left (cj_time_lt hx (show k < i by omega) (by omega)).le hf0
        exact mul_nonneg (by linarith) (by linarith)
    · push Not at hj
      refine ⟨h, fun i hi => ?_⟩
      simp only [cjHit]
      split_ifs with c1 c2
      · exact mul_nonneg_of_nonpos_of_nonpos (hj i hi c1.le) (by linarith)
      · exact mul_nonneg_of_nonpos_of_nonpos (hj i hi c2.le) (by linarith)
      · simp
  have e : (r.idx.map fun i => c i * p.res i).sum
      = (r.idx.map fun i => (a + G) * c i + (b * (c i * p.tbar i) + c i * (cjHit h φ j i - G))).sum :=
    sum_map_congr' fun i hi => by
      obtain ⟨g1, g2⟩ := mem_idx.1 hi
      rw [hl i g1 g2]; ring
  rw [e, sum_map_add', sum_map_add', sum_map_mul', sum_map_mul', c2, c3]
  have : 0 ≤ (r.idx.map fun i => c i * (cjHit h φ j i - G)).sum := by
    refine sum_nonneg' _ _ fun i hi => ?_
    rw [c4 i]
    have e2 := hG i hi
    have e3 := weight_nonneg cfg hp p r i
    have e4 : ∀ x w d y : α, x * w / d * y = (x * y) * w / d := fun x w d y => by ring
    rw [e4]
    positivity
  linarith

/-- The variance estimate of a difference of `d` resultants. -/
def cjVar (p : Pix α) (dt κ : α) (m : Nat) (slope : α) (N d : Nat) : α :=
  (p.readNoise * p.readNoise * (1 / (m : α) + 1 / (m : α)) + slope * (d * dt - 2 * κ)) / (d * dt * (d * dt)) + -slope / (N * dt)

/-- It does not depend on the position in the ramp. -/
theorem cj_stat (cfg : Cfg α) (p : Pix α) (n : Nat) (t0 dt κ : α) (m : Nat) (hx : CjPix p n t0 dt κ m) (r : Ramp)
    (h1 : r.start < r.stop) (h2 : r.stop < n) (slope : α) (i d : Nat) (hd : 0 < d) (hid : i + d < n) :
    stat cfg p r slope i d =
      if cjVar p dt κ m slope (r.stop - r.start) d < 0 then none
      else if cjVar p dt κ m slope (r.stop - r.start) d = 0 then
        (if 0 < (p.res (i + d) - p.res i) / (d * dt) - slope then some ⊤
          else if (p.res (i + d) - p.res i) / (d * dt) - slope < 0 then some ⊥ else none)
      else fin (((p.res (i + d) - p.res i) / (d * dt) - slope) / cfg.sqrt (cjVar p dt κ m slope (r.stop - r.start) d)) := by
  have e1 : p.tbar (i + d) - p.tbar i = d * dt := by
    rw [hx.time i (by omega), hx.time (i + d) hid]; push_cast; ring
  have e2 : p.tbar r.stop - p.tbar r.start = ((r.stop - r.start : Nat) : α) * dt := by
    rw [hx.time _ h2, hx.time r.start (by omega), Nat.cast_sub h1.le]; ring
  have e3 : p.tau (i + d) + p.tau i - 2 * min (p.tbar (i + d)) (p.tbar i) = d * dt - 2 * κ := by
    rw [min_eq_right (cj_time_lt hx (by omega) hid).le, hx.tau i (by omega), hx.tau (i + d) hid, ← e1]; ring
  simp only [stat, e1, e2, e3, hx.reads i (by omega), hx.reads (i + d) hid, cjVar]
  rfl

/-- The estimate is positive for single differences in ramps of at least three resultants and double differences in ramps of at
least four. -/
theorem cj_var_pos (p : Pix α) (n : Nat) (t0 dt κ : α) (m : Nat) (hx : CjPix p n t0 dt κ m) (hrn : p.readNoise ≠ 0) (slope : α)
    (hs : 0 ≤ slope) (N d : Nat) (hd : d = 1 ∨ d = 2) (hN : d + 1 ≤ N) : 0 < cjVar p dt κ m slope N d := by
  have hdt := hx.pos
  have hm : (0 : α) < m := by exact_mod_cast hx.mpos
  have hk := hx.kap
  have hN0 : (0 : α) < N := by exact_mod_cast (show 0 < N by omega)
  have hd0 : (0 : α) < d := by exact_mod_cast (show 0 < d by omega)
  have hrr : 0 < p.readNoise * p.readNoise := mul_self_pos.2 hrn
  have e : cjVar p dt κ m slope N d = p.readNoise * p.readNoise * (1 / (m : α) + 1 / (m : α)) / (d * dt * (d * dt))
      + slope * ((d * dt - 2 * κ) / (d * dt * (d * dt)) - 1 / (N * dt)) := by
    simp only [cjVar]; ring
  rw [e]
  refine add_pos_of_pos_of_nonneg (by positivity) (mul_nonneg hs ?_)
  rw [sub_nonneg, div_le_div_iff₀ (by positivity) (by positivity)]
  rcases hd with rfl | rfl
  · have : (2 : α) ≤ N := by exact_mod_cast hN
    push_cast
    have h3 : dt / 2 ≤ dt - 2 * κ := by linarith
    have h4 : 1 * dt * (1 * dt) ≤ (dt / 2) * (N * dt) := by nlinarith [mul_pos hdt hdt]
    have h5 : (dt / 2) * (N * dt) ≤ (dt - 2 * κ) * (N * dt) := mul_le_mul_of_nonneg_right h3 (by positivity)
    linarith
  · have : (3 : α) ≤ N := by exact_mod_cast hN
    push_cast
    have h3 : dt * (3 / 2) ≤ 2 * dt - 2 * κ := by linarith
    have h4 : 2 * dt * (2 * dt) ≤ (dt * (3 / 2)) * (N * dt) := by nlinarith [mul_pos hdt hdt]
    have h5 : (dt * (3 / 2)) * (N * dt) ≤ (2 * dt - 2 * κ) * (N * dt) := mul_le_mul_of_nonneg_right h3 (by positivity)
    linarith

/-- A statistic above a threshold that is not negative belongs to a difference steeper than the fit. -/
theorem cj_larger (cfg : Cfg α) (hsq : ∀ x, 0 < x → 0 < cfg.sqrt x) (p : Pix α) (n : Nat) (t0 dt κ : α) (m : Nat)
    (hx : CjPix p n t0 dt κ m) (r : Ramp) (h1 : r.start < r.stop) (h2 : r.stop < n) (slope : α) (i d : Nat) (hd : 0 < d)
    (hid : i + d < n) (t : α) (ht : 0 ≤ t) (hL : Larger (stat cfg p r slope i d) (fin t)) :
    0 < (p.res (i + d) - p.res i) / (d * dt) - slope := by
  rw [cj_stat cfg p n t0 dt κ m hx r h1 h2 slope i d hd hid] at hL
  obtain ⟨x, y, hxx, hy, hlt⟩ := hL
  simp only [fin, Option.some.injEq] at hy
  subst hy
  split_ifs at hxx with c1 c2 c3 c4
  · exact c3
  · simp only [Option.some.injEq] at hxx
    subst hxx
    simp at hlt
  · simp only [fin, Option.some.injEq] at hxx
    subst hxx
    rw [WithBot.coe_lt_coe, WithTop.coe_lt_coe] at hlt
    have := hsq _ (lt_of_le_of_ne (not_lt.1 c1) (Ne.symm c2))
    by_contra hc
    have := div_nonpos_of_nonpos_of_nonneg (not_lt.1 hc) this.le
    linarith


theorem cj_last_none (cfg : Cfg α) (p : Pix α) (r : Ramp) (h1 : r.start < r.stop) (f : Fit α) (hf : fitRamp cfg p r = some f)
    (hlast : stat cfg p r f.slope (r.stop - 1) 1 = none) : detect cfg p r = none := by
  have key : ∀ (g : Nat → Ext α) (l : List Nat) (k : Nat), l.foldl (maxStep g) (k, none) = (k, none) := by
    intro g l
    induction l with
    | nil => intro k; rfl
    | cons x t ih =>
      intro k
      rw [List.foldl_cons]
      have : maxStep g (k, none) x = (k, none) := by
        unfold maxStep
        rw [if_neg]
        cases g x <;> simp [gt]
      rw [this, ih]
  unfold detect
  split
  swap
  · rfl
  rw [hf]
  simp only
  rw [fitStatistic, if_neg h1.ne, hlast, key]
  simp [gt]

theorem cj_res (p : Pix α) (n : Nat) (t0 dt κ : α) (m : Nat) (hx : CjPix p n t0 dt κ m) (a b h φ : α) (j i d : Nat) (hd : 0 < d)
    (hid : i + d < n) (h1 : p.res i = a + b * p.tbar i + cjHit h φ j i)
    (h2 : p.res (i + d) = a + b * p.tbar (i + d) + cjHit h φ j (i + d)) :
    (p.res (i + d) - p.res i) / (d * dt) = b + (cjHit h φ j (i + d) - cjHit h φ j i) / (d * dt) := by
  have hd0 : (d : α) ≠ 0 := by exact_mod_cast hd.ne'
  have := hx.pos.ne'
  rw [h1, h2, hx.time i (by omega), hx.time (i + d) hid]
  push_cast
  field_simp
  ring

/-- Where a hit is found. -/
theorem cj_place (cfg : Cfg α) (hp : Cas22PowOk cfg.pow) (ht : CdThreshold cfg) (hsq : ∀ x, 0 < x → 0 < cfg.sqrt x) (p : Pix α)
    (n : Nat) (t0 dt κ : α) (m : Nat) (hx : CjPix p n t0 dt κ m) (hrn : p.readNoise ≠ 0) (r : Ramp) (h1 : r.start ≤ r.stop)
    (h2 : r.stop < n) (a b h φ : α) (j : Nat) (hb : 0 ≤ b) (hh : 0 ≤ h) (hφ : 0 ≤ φ) (hφ1 : φ ≤ 1)
    (hl : ∀ i, r.start ≤ i → i ≤ r.stop → p.res i = a + b * p.tbar i + cjHit h φ j i) (q : Nat)
    (hq : detect cfg p r = some q) :
    q + r.start + 1 ≤ r.stop ∧ j ≤ r.stop
      ∧ (q + r.start = j ∨ q + r.start + 1 = j ∨ (q + r.start + 2 = j ∧ (φ = 1 ∨ j = r.stop))) := by
  have hq1 := detect_ok cfg p r q hq h1
  refine ⟨hq1, ?_⟩
  have hlt : r.start < r.stop := by omega
  have hj : cfg.useJump = true := by
    by_contra hc
    simp [detect, hc] at hq
  obtain ⟨f, hf, -⟩ := C37_exact_on_lines cfg hp p r hlt (cj_time_lt hx hlt h2).ne fun i _ hi => by
    rw [hx.reads i (by omega)]; exact hx.mpos
  have hbs := cj_bias cfg hp p n t0 dt κ m hx r hlt h2 a b h φ j hh hφ hφ1 hl f hf
  have hlast : stat cfg p r f.slope (r.stop - 1) 1 ≠ none := by
    intro hn
    rw [cj_last_none cfg p r hlt f hf hn] at hq
    simp at hq
  obtain ⟨d, hd, hle, hL, hmax⟩ := (C75_jump_test_partial cfg p r hlt hj f hf hlast).2 q hq
  have hd0 : 0 < d := by omega
  have hdpos : 0 < (d : α) * dt := mul_pos (by exact_mod_cast hd0) hx.pos
  have hdel := cj_larger cfg hsq p n t0 dt κ m hx r hlt h2 f.slope (r.start + q) d hd0 (by omega) _ (cd_threshold cfg ht _) hL
  rw [cj_res p n t0 dt κ m hx a b h φ j (r.start + q) d hd0 (by omega) (hl _ (by omega) (by omega))
    (hl _ (by omega) (by omega))] at hdel
  have hg : cjHit h φ j (r.start + q) < cjHit h φ j (r.start + q + d) := by
    by_contra hc
    have := div_nonpos_of_nonpos_of_nonneg (sub_nonpos.2 (not_lt.1 hc)) hdpos.le
    linarith
  have hrange : r.start + q ≤ j ∧ j ≤ r.start + q + d := by
    constructor
    · by_contra hc
      simp only [cjHit, if_neg (show ¬ r.start + q < j by omega), if_neg (show ¬ r.start + q = j by omega),
        if_neg (show ¬ r.start + q + d < j by omega), if_neg (show ¬ r.start + q + d = j by omega), lt_irrefl] at hg
    · by_contra hc
      simp only [cjHit, if_pos (show r.start + q < j by omega), if_pos (show r.start + q + d < j by omega), lt_irrefl] at hg
  refine ⟨by omega, ?_⟩
  by_cases hx2 : r.start + q + 2 = j
  swap
  · omega
  have hd2 : d = 2 := by omega
  subst hd2
  right; right
  refine ⟨by omega, ?_⟩
  by_contra hc
  rw [not_or] at hc
  obtain ⟨hc1, hc2⟩ := hc
  have g0 : cjHit h φ j (r.start + q) = 0 := if_pos (by omega)
  have g1 : cjHit h φ j (r.start + q + 1) = 0 := if_pos (by omega)
  have g2 : cjHit h φ j (r.start + q + 2) = φ * h := by
    rw [cjHit, if_neg (by omega), if_pos hx2]
  have g3 : cjHit h φ j (r.start + q + 1 + 2) = h := by
    rw [cjHit, if_neg (by omega), if_neg (by omega)]
  refine hmax (r.start + q + 1) 2 (by omega) (Or.inr rfl) (by omega) ?_
  have hV := cj_var_pos p n t0 dt κ m hx hrn f.slope (hb.trans hbs) (r.stop - r.start) 2 (Or.inr rfl) (by omega)
  rw [cj_stat cfg p n t0 dt κ m hx r hlt h2 f.slope (r.start + q + 1) 2 (by omega) (by omega),
    cj_stat cfg p n t0 dt κ m hx r hlt h2 f.slope (r.start + q) 2 (by omega) (by omega), if_neg hV.le.not_gt, if_neg hV.ne',
    if_neg hV.le.not_gt, if_neg hV.ne',
    cj_res p n t0 dt κ m hx a b h φ j (r.start + q) 2 (by omega) (by omega) (hl _ (by omega) (by omega))
      (hl _ (by omega) (by omega)),
    cj_res p n t0 dt κ m hx a b h φ j (r.start + q + 1) 2 (by omega) (by omega) (hl _ (by omega) (by omega))
      (hl _ (by omega) (by omega)), g0, g1, g2, g3]
  refine ⟨_, _, rfl, rfl, ?_⟩
  rw [WithBot.coe_lt_coe, WithTop.coe_lt_coe]
  rw [g0, g2] at hg
  have hφ2 : φ < 1 := lt_of_le_of_ne hφ1 hc1
  have hh0 : 0 < h := by
    rcases hh.lt_or_eq with h | h
    · exact h
    · rw [← h] at hg; simp at hg
  have hlt2 : φ * h < h := by nlinarith
  refine div_lt_div_of_pos_right ?_ (hsq _ hV)
  have := div_lt_div_of_pos_right (show φ * h - 0 < h - 0 by linarith) hdpos
  linarith

/-- For a regular read pattern the test of a ramp of three or more resultants is exact: a jump is reported if and only if some
single or double difference exceeds the threshold (compare `C75_jump_test_partial`, `C75_nan_statistic_hides_jump`). -/
theorem cj_test (cfg : Cfg α) (p : Pix α) (n : Nat) (t0 dt κ : α) (m : Nat) (hx : CjPix p n t0 dt κ m) (hrn : p.readNoise ≠ 0) (hj : cfg.useJump = true) (r : Ramp)
    (h1 : r.start + 2 ≤ r.stop) (h2 : r.stop < n) (f : Fit α) (hf : fitRamp cfg p r = some f) (hs : 0 ≤ f.slope) :
    detect cfg p r = none ↔ ∀ i d, r.start ≤ i → (d = 1 ∨ d = 2) → i + d ≤ r.stop →
      ¬ Larger (stat cfg p r f.slope i d) (fin (threshold cfg f.slope)) := by
  have hV := cj_var_pos p n t0 dt κ m hx hrn f.slope hs (r.stop - r.start) 1 (Or.inl rfl) (by omega)
  refine (C75_jump_test_partial cfg p r (by omega) hj f hf ?_).1
  rw [cj_stat cfg p n t0 dt κ m hx r (by omega) h2 f.slope (r.stop - 1) 1 (by omega) (by omega), if_neg hV.le.not_gt,
    if_neg hV.ne']
  simp [fin]

/-! ## The loop -/

/-- The resultants of a ramp are on a line of slope `b`. -/
def CjLine (p : Pix α) (b : α) (r : Ramp) : Prop := ∃ a, ∀ i, r.start ≤ i → i ≤ r.stop → p.res i = a + b * p.tbar i

/-- The ramps left of a split. -/
def cjSubs (r : Ramp) (q : Nat) : List Ramp :=
  (if q + r.start + 1 < r.stop then [⟨q + r.start + 1 + 1, r.stop⟩] else [])
    ++ (if q + r.start > r.start then [⟨r.start, q + r.start - 1⟩] else [])

theorem cj_loop_none (det : Ramp → Option Nat) (dq : Nat → Nat) (fuel : Nat) :
    ∀ (st done : List Ramp) (s : Loop), (∀ r ∈ st, det r = none) → runLoop det fuel ⟨st, dq, done⟩ = some s →
      s.dq = dq ∧ s.done = done ++ st := by
  induction fuel with
  | zero =>
    intro st done s _ h
    cases st with
    | nil => rw [runLoop] at h; simp only [Option.some.injEq] at h; subst h; simp
    | cons r t => rw [runLoop] at h; simp at h
  | succ f ih =>
    intro st done s hn h
    cases st with
    | nil => rw [runLoop] at h; simp only [Option.some.injEq] at h; subst h; simp
    | cons r t =>
      have hb : loopBody det dq done r t = ⟨t, dq, done ++ [r]⟩ := by simp only [loopBody, hn r (by simp)]
      rw [runLoop, hb] at h
      obtain ⟨h1, h2⟩ := ih t (done ++ [r]) s (fun q hq => hn q (by simp [hq])) h
      exact ⟨h1, by rw [h2]; simp⟩

theorem cj_loop_one (det : Ramp → Option Nat) (dq : Nat → Nat) (r0 : Ramp) (q : Nat) (h0 : det r0 = some q)
    (hsub : ∀ r ∈ cjSubs r0 q, det r = none) (l2 : List Ramp) (hl2 : ∀ r ∈ l2, det r = none) (fuel : Nat) :
    ∀ (l1 done : List Ramp) (s : Loop), (∀ r ∈ l1, det r = none) → runLoop det fuel ⟨l1 ++ r0 :: l2, dq, done⟩ = some s →
      s.dq = setJump (setJump dq (q + r0.start)) (q + r0.start + 1) ∧ s.done = done ++ (l1 ++ (cjSubs r0 q ++ l2)) := by
  induction fuel with
  | zero =>
    intro l1 done s _ h
    cases l1 <;> (simp only [List.nil_append, List.cons_append] at h; rw [runLoop] at h; simp at h)
  | succ f ih =>
    intro l1 done s hn h
    cases l1 with
    | nil =>
      have hb : loopBody det dq done r0 l2
          = ⟨cjSubs r0 q ++ l2, setJump (setJump dq (q + r0.start)) (q + r0.start + 1), done⟩ := by
        simp only [loopBody, h0, cjSubs]
        split_ifs <;> rfl
      rw [List.nil_append, runLoop, hb] at h
      have := cj_loop_none det _ f (cjSubs r0 q ++ l2) done s (fun r hr => by
        rcases List.mem_append.1 hr with hr | hr
        · exact hsub r hr
        · exact hl2 r hr) h
      simpa using this
    | cons r t =>
      have hb : loopBody det dq done r (t ++ r0 :: l2) = ⟨t ++ r0 :: l2, dq, done ++ [r]⟩ := by
        simp only [loopBody, hn r (by simp)]
      rw [List.cons_append, runLoop, hb] at h
      obtain ⟨h1, h2⟩ := ih t (done ++ [r]) s (fun q hq => hn q (by simp [hq])) h
      exact ⟨h1, by rw [h2]; simp⟩

/-- Average over ramps on lines of the same slope. -/
theorem cj_avg (cfg : Cfg α) (hp : Cas22PowOk cfg.pow) (p : Pix α) (n : Nat) (t0 dt κ : α) (m : Nat) (hx : CjPix p n t0 dt κ m)
    (hrn : p.readNoise ≠ 0) (b : α) (ramps : List Ramp) (hv : ∀ r ∈ ramps, r.stop < n ∧ CjLine p b r) :
    ((∃ r ∈ ramps, r.start < r.stop) →
      (average (ramps.map (fitRamp cfg p))).slope = b ∧ 0 < (average (ramps.map (fitRamp cfg p))).readVar)
    ∧ ((¬ ∃ r ∈ ramps, r.start < r.stop) → average (ramps.map (fitRamp cfg p)) = ⟨0, 0, 0⟩) := by
  have hex : ∀ r ∈ ramps, r.start < r.stop → ∃ f, fitRamp cfg p r = some f ∧ 0 < f.readVar ∧ f.slope = b := by
    intro r hr hlt
    obtain ⟨hn, a, hl⟩ := hv r hr
    obtain ⟨g, hg, -, h2, h3⟩ := C37_exact_on_lines cfg hp p r hlt (cj_time_lt hx hlt hn).ne fun i _ hi => by
      rw [hx.reads i (by omega)]; exact hx.mpos
    exact ⟨g, hg, h2 hrn, h3 a b hl⟩
  have hfit : ∀ f ∈ (ramps.map (fitRamp cfg p)).filterMap id, (0 < f.readVar ∧ f.slope = b) ∧ ∃ r ∈ ramps, r.start < r.stop := by
    intro f hf
    rw [List.mem_filterMap] at hf
    obtain ⟨o, ho, h⟩ := hf
    obtain ⟨r, hr, rfl⟩ := List.mem_map.1 ho
    by_cases hlt : r.stop ≤ r.start
    · rw [(C37_short_ramps cfg p r).2 hlt] at h
      simp at h
    · obtain ⟨g, hg, h2, h3⟩ := hex r hr (by omega)
      rw [hg] at h
      simp only [id_eq, Option.some.injEq] at h
      subst h
      exact ⟨⟨h2, h3⟩, r, hr, by omega⟩
  obtain ⟨c1, c2⟩ := C73_average (ramps.map (fitRamp cfg p)) _ rfl fun f hf => (hfit f hf).1.1
  constructor
  · rintro ⟨r, hr, hlt⟩
    obtain ⟨g, hg, -⟩ := hex r hr hlt
    have hne : (ramps.map (fitRamp cfg p)).filterMap id ≠ [] :=
      List.ne_nil_of_mem (a := g) (List.mem_filterMap.2 ⟨some g, List.mem_map.2 ⟨r, hr, hg⟩, rfl⟩)
    obtain ⟨-, e2, e3, -⟩ := c2 hne
    have := e3 b b fun f hf => ⟨(hfit f hf).1.2.ge, (hfit f hf).1.2.le⟩
    refine ⟨le_antisymm this.2 this.1, ?_⟩
    rw [e2]
    exact one_div_pos.2 (Verif.Ols.sum_pos_of_mem _ _ (fun f hf => one_div_pos.2 (hfit f hf).1.1) hne)
  · intro hno
    exact c1 (List.eq_nil_iff_forall_not_mem.2 fun f hf => hno (hfit f hf).2)


/-! ## One pixel -/

theorem cj_line_off (p : Pix α) (a b h φ : α) (j : Nat) (r : Ramp) (hj : ¬ (r.start ≤ j ∧ j ≤ r.stop))
    (hl : ∀ i, r.start ≤ i → i ≤ r.stop → p.res i = a + b * p.tbar i + cjHit h φ j i) : CjLine p b r := by
  by_cases hs : r.stop < j
  · refine ⟨a, fun i h1 h2 => ?_⟩
    rw [hl i h1 h2, cjHit, if_pos (by omega), add_zero]
  · refine ⟨a + h, fun i h1 h2 => ?_⟩
    rw [hl i h1 h2, cjHit, if_neg (by omega), if_neg (by omega)]
    ring

theorem cj_line_subs (p : Pix α) (a b h φ : α) (j : Nat) (r : Ramp) (q : Nat) (hq1 : q + r.start + 1 ≤ r.stop)
    (hq : q + r.start = j ∨ q + r.start + 1 = j ∨ (q + r.start + 2 = j ∧ (φ = 1 ∨ j = r.stop)))
    (hl : ∀ i, r.start ≤ i → i ≤ r.stop → p.res i = a + b * p.tbar i + cjHit h φ j i) :
    ∀ s ∈ cjSubs r q, CjLine p b s ∧ s.start ≤ s.stop ∧ s.stop ≤ r.stop
      ∧ ∀ i, s.start ≤ i → i ≤ s.stop → r.start ≤ i ∧ i ≠ q + r.start ∧ i ≠ q + r.start + 1 := by
  intro s hs
  rcases List.mem_append.1 hs with hs | hs
  · split_ifs at hs with hc
    · rw [List.mem_singleton] at hs
      subst hs
      refine ⟨?_, by simp only; omega, le_rfl, fun i h1 h2 => by simp only at h1 h2; omega⟩
      rcases hq with hq | hq | ⟨hq, hq2 | hq2⟩
      · exact ⟨a + h, fun i h1 h2 => by
          simp only at h1 h2
          rw [hl i (by omega) h2, cjHit, if_neg (by omega), if_neg (by omega)]; ring⟩
      · exact ⟨a + h, fun i h1 h2 => by
          simp only at h1 h2
          rw [hl i (by omega) h2, cjHit, if_neg (by omega), if_neg (by omega)]; ring⟩
      · refine ⟨a + h, fun i h1 h2 => ?_⟩
        simp only at h1 h2
        rw [hl i (by omega) h2, cjHit, if_neg (by omega), hq2]
        split_ifs <;> ring
      · refine ⟨a + φ * h, fun i h1 h2 => ?_⟩
        simp only at h1 h2
        rw [hl i (by omega) h2, cjHit, if_neg (by omega), if_pos (by omega)]
        ring
    · simp at hs
  · split_ifs at hs with hc
    · rw [List.mem_singleton] at hs
      subst hs
      refine ⟨⟨a, fun i h1 h2 => ?_⟩, by simp only; omega, by simp only; omega, fun i h1 h2 => by simp only at h1 h2; omega⟩
      simp only at h1 h2
      rw [hl i h1 (by omega), cjHit, if_pos (by omega), add_zero]
    · simp at hs

/-- What the slope and its variance must be, given the final flags of a pixel. -/
def CjGood (n : Nat) (b : α) (dq : Nat → Nat) (avg : Fit α) : Prop :=
  ((∃ i, i + 1 < n ∧ dq i = 0 ∧ dq (i + 1) = 0) → avg.slope = b ∧ 0 < avg.readVar)
  ∧ ((¬ ∃ i, i + 1 < n ∧ dq i = 0 ∧ dq (i + 1) = 0) → avg = ⟨0, 0, 0⟩)

theorem cj_pixel (cfg : Cfg α) (hp : Cas22PowOk cfg.pow) (ht : CdThreshold cfg) (hsq : ∀ x, 0 < x → 0 < cfg.sqrt x) (p : Pix α)
    (n : Nat) (t0 dt κ : α) (m : Nat) (hx : CjPix p n t0 dt κ m) (hrn : p.readNoise ≠ 0) (dq : Nat → Nat)
    (a b h φ : α) (j : Nat) (hb : 0 ≤ b) (hh : 0 ≤ h) (hφ : 0 ≤ φ) (hφ1 : φ ≤ 1)
    (hl : ∀ i, i < n → dq i = 0 → p.res i = a + b * p.tbar i + cjHit h φ j i) :
    ∃ dq' ramps avg, fitPixel cfg p dq n (n + 1) = some (dq', ramps, avg)
      ∧ ((dq' = dq ∧ (cfg.useJump = true → ∀ r, MaxRun dq n r → r.start + 2 ≤ r.stop → ∀ f, fitRamp cfg p r = some f →
            ∀ i d, r.start ≤ i → (d = 1 ∨ d = 2) → i + d ≤ r.stop →
              ¬ Larger (stat cfg p r f.slope i d) (fin (threshold cfg f.slope))))
        ∨ (∃ x, (x = j ∨ x + 1 = j ∨ x + 2 = j) ∧ x + 1 < n ∧ dq x = 0 ∧ dq (x + 1) = 0
          ∧ (∀ i, dq' i = if i = x ∨ i = x + 1 then 4 else dq i) ∧ CjGood n b dq' avg))
      ∧ (dq j ≠ 0 ∨ n ≤ j → dq' = dq ∧ CjGood n b dq avg) := by
  obtain ⟨r1, r2, r3⟩ := C35_ramps_are_maximal_runs dq n
  obtain ⟨s, hs, -⟩ := C36_loop (detect cfg p) (detect_ok cfg p) dq n
  have hs := hs (n + 1) le_rfl
  have hlr : ∀ r, MaxRun dq n r → ∀ i, r.start ≤ i → i ≤ r.stop → p.res i = a + b * p.tbar i + cjHit h φ j i :=
    fun r hr i h1 h2 => hl i (by have := hr.2.1; omega) (hr.2.2.1 i h1 h2)
  have hnone : ∀ r, r.start ≤ r.stop → r.stop < n → CjLine p b r → detect cfg p r = none := by
    rintro r h1 h2 ⟨a', ha⟩
    exact cd_detect cfg hp ht p n (fun i j hij hj => cj_time_lt hx hij hj) (fun i hi => by rw [hx.reads i hi]; exact hx.mpos) r
      h1 h2 a' b ha
  have hoff : ∀ r, MaxRun dq n r → ¬ (r.start ≤ j ∧ j ≤ r.stop) → detect cfg p r = none ∧ CjLine p b r := fun r hr hj =>
    have := cj_line_off p a b h φ j r hj (hlr r hr)
    ⟨hnone r hr.1 hr.2.1 this, this⟩
  -- two good neighbours are in the same maximal run
  have hadj : ∀ i, i + 1 < n → dq i = 0 → dq (i + 1) = 0 → ∃ r ∈ initRamps dq n, r.start ≤ i ∧ i + 1 ≤ r.stop := by
    intro i hi z0 z1
    obtain ⟨r, ⟨hr, ha, hb⟩, -⟩ := r3 i (by omega) z0
    obtain ⟨m1, m2, m3, m4, m5⟩ := (r1 r).1 hr
    refine ⟨r, hr, ha, ?_⟩
    by_contra hc
    have : i = r.stop := by omega
    subst this
    rcases m5 with h | h
    · omega
    · exact h z1
  refine ⟨s.dq, s.done, average (s.done.map (fitRamp cfg p)), by rw [fitPixel, hs]; rfl, ?_⟩
  by_cases hall : ∀ r ∈ initRamps dq n, detect cfg p r = none
  · obtain ⟨d1, d2⟩ := cj_loop_none (detect cfg p) dq (n + 1) _ [] s (fun r hr => hall r (by simpa using hr)) hs
    rw [List.nil_append] at d2
    refine ⟨Or.inl ⟨d1, fun hj r hr h2 f hf => ?_⟩, fun hj => ⟨d1, ?_⟩⟩
    · have hbs := cj_bias cfg hp p n t0 dt κ m hx r (by omega) hr.2.1 a b h φ j hh hφ hφ1 (hlr r hr) f hf
      exact (cj_test cfg p n t0 dt κ m hx hrn hj r h2 hr.2.1 f hf (hb.trans hbs)).1 (hall r ((r1 r).2 hr))
    · obtain ⟨g1, g2⟩ := cj_avg cfg hp p n t0 dt κ m hx hrn b s.done fun r hr => by
        have hr : MaxRun dq n r := (r1 r).1 (by rw [d2] at hr; simpa using hr)
        refine ⟨hr.2.1, (hoff r hr fun hc => ?_).2⟩
        rcases hj with hj | hj
        · exact hj (hr.2.2.1 j hc.1 hc.2)
        · have := hr.2.1; omega
      have hiff : (∃ i, i + 1 < n ∧ dq i = 0 ∧ dq (i + 1) = 0) ↔ ∃ r ∈ s.done, r.start < r.stop := by
        constructor
        · rintro ⟨i, hi, z0, z1⟩
          obtain ⟨r, hr, h1, h2⟩ := hadj i hi z0 z1
          exact ⟨r, by rw [d2]; simpa using hr, by omega⟩
        · rintro ⟨r, hr, hlt⟩
          have hr : MaxRun dq n r := (r1 r).1 (by rw [d2] at hr; simpa using hr)
          exact ⟨r.start, by have := hr.2.1; omega, hr.2.2.1 _ le_rfl hr.1, hr.2.2.1 _ (by omega) (by omega)⟩
      rw [← hiff] at g1 g2
      exact ⟨g1, g2⟩
  · push Not at hall
    obtain ⟨r0, hr0, hd0⟩ := hall
    obtain ⟨q, hq⟩ := Option.ne_none_iff_exists'.1 hd0
    have hm0 := (r1 r0).1 hr0
    obtain ⟨p1, p2, p3⟩ := cj_place cfg hp ht hsq p n t0 dt κ m hx hrn r0 hm0.1 hm0.2.1 a b h φ j hb hh hφ hφ1 (hlr r0 hm0) q hq
    have hsub := cj_line_subs p a b h φ j r0 q p1 p3 (hlr r0 hm0)
    have hother : ∀ r ∈ initRamps dq n, r ≠ r0 → ¬ (r.start ≤ j ∧ j ≤ r.stop) := fun r hr hne hc =>
      hne (maxRun_unique ((r1 r).1 hr) hm0 j hc ⟨by omega, p2⟩)
    obtain ⟨l1, l2, hsplit⟩ := List.append_of_mem (List.mem_reverse.2 hr0)
    have hrev : (initRamps dq n).reverse.Pairwise (fun a b => b.stop + 1 < a.start) := List.pairwise_reverse.2 r2
    rw [hsplit, List.pairwise_append, List.pairwise_cons] at hrev
    obtain ⟨-, ⟨hv2, -⟩, hv1⟩ := hrev
    have hmem1 : ∀ r ∈ l1, r ∈ initRamps dq n ∧ r ≠ r0 := fun r hr =>
      ⟨by rw [← List.mem_reverse, hsplit]; simp [hr], fun e => by
        have := hv1 r hr r0 (by simp); subst e; have := hm0.1; omega⟩
    have hmem2 : ∀ r ∈ l2, r ∈ initRamps dq n ∧ r ≠ r0 := fun r hr =>
      ⟨by rw [← List.mem_reverse, hsplit]; simp [hr], fun e => by
        have := hv2 r hr; subst e; have := hm0.1; omega⟩
    have hd1 : ∀ r ∈ l1, detect cfg p r = none := fun r hr =>
      (hoff r ((r1 r).1 (hmem1 r hr).1) (hother r (hmem1 r hr).1 (hmem1 r hr).2)).1
    have hd2 : ∀ r ∈ l2, detect cfg p r = none := fun r hr =>
      (hoff r ((r1 r).1 (hmem2 r hr).1) (hother r (hmem2 r hr).1 (hmem2 r hr).2)).1
    rw [hsplit] at hs
    obtain ⟨d1, d2⟩ := cj_loop_one (detect cfg p) dq r0 q hq (fun r hr => by
      obtain ⟨a1, a2, a3, -⟩ := hsub r hr
      exact hnone r a2 (by have := hm0.2.1; omega) a1) l2 hd2 (n + 1) l1 [] s hd1 hs
    rw [List.nil_append] at d2
    have hdq : ∀ i, s.dq i = if i = q + r0.start ∨ i = q + r0.start + 1 then 4 else dq i := by
      intro i
      rw [d1]
      simp only [setJump, jumpDet]
      split_ifs <;> first | rfl | omega
    have hz : dq (q + r0.start) = 0 ∧ dq (q + r0.start + 1) = 0 :=
      ⟨hm0.2.2.1 _ (by omega) (by omega), hm0.2.2.1 _ (by omega) p1⟩
    have hnear : q + r0.start = j ∨ q + r0.start + 1 = j ∨ q + r0.start + 2 = j := by omega
    have hlen : q + r0.start + 1 < n := by have := hm0.2.1; omega
    have hjn : dq j = 0 ∧ j < n := ⟨hm0.2.2.1 j (by omega) p2, by have := hm0.2.1; omega⟩
    obtain ⟨g1, g2⟩ := cj_avg cfg hp p n t0 dt κ m hx hrn b s.done fun r hr => by
      rw [d2] at hr
      rcases List.mem_append.1 hr with hr | hr
      · have hm := (r1 r).1 (hmem1 r hr).1
        exact ⟨hm.2.1, (hoff r hm (hother r (hmem1 r hr).1 (hmem1 r hr).2)).2⟩
      rcases List.mem_append.1 hr with hr | hr
      · obtain ⟨a1, a2, a3, -⟩ := hsub r hr
        exact ⟨by have := hm0.2.1; omega, a1⟩
      · have hm := (r1 r).1 (hmem2 r hr).1
        exact ⟨hm.2.1, (hoff r hm (hother r (hmem2 r hr).1 (hmem2 r hr).2)).2⟩
    have hiff : (∃ i, i + 1 < n ∧ s.dq i = 0 ∧ s.dq (i + 1) = 0) ↔ ∃ r ∈ s.done, r.start < r.stop := by
      constructor
      · rintro ⟨i, hi, z0, z1⟩
        rw [hdq] at z0 z1
        split_ifs at z0 with c0
        split_ifs at z1 with c1
        obtain ⟨r, hr, h1, h2⟩ := hadj i hi z0 z1
        rw [d2]
        by_cases he : r = r0
        · subst he
          by_cases hlo : i < q + r.start
          · exact ⟨⟨r.start, q + r.start - 1⟩, List.mem_append_right _ (List.mem_append_left _ (List.mem_append_right _ (by
              rw [if_pos (by omega)]; simp))), by simp only; omega⟩
          · exact ⟨⟨q + r.start + 1 + 1, r.stop⟩, List.mem_append_right _ (List.mem_append_left _ (List.mem_append_left _ (by
              rw [if_pos (by omega)]; simp))), by simp only; omega⟩
        · refine ⟨r, ?_, by omega⟩
          have : r ∈ l1 ++ r0 :: l2 := by rw [← hsplit]; simpa using hr
          rcases List.mem_append.1 this with h | h
          · exact List.mem_append_left _ h
          · rcases List.mem_cons.1 h with h | h
            · exact absurd h he
            · exact List.mem_append_right _ (List.mem_append_right _ h)
      · rintro ⟨r, hr, hlt⟩
        have hout : ∀ r ∈ initRamps dq n, r ≠ r0 → r.start < r.stop → ∃ i, i + 1 < n ∧ s.dq i = 0 ∧ s.dq (i + 1) = 0 := by
          intro r hr hne hlt
          have hm := (r1 r).1 hr
          have hno : ∀ i, r.start ≤ i → i ≤ r.stop → s.dq i = 0 := by
            intro i h1 h2
            rw [hdq, if_neg]
            · exact hm.2.2.1 i h1 h2
            · intro hc
              refine hne (maxRun_unique hm hm0 i ⟨h1, h2⟩ ?_)
              rcases hc with rfl | rfl
              · exact ⟨by omega, by omega⟩
              · exact ⟨by omega, p1⟩
          exact ⟨r.start, by have := hm.2.1; omega, hno _ le_rfl (by omega), hno _ (by omega) (by omega)⟩
        rw [d2] at hr
        rcases List.mem_append.1 hr with hr | hr
        · exact hout r (hmem1 r hr).1 (hmem1 r hr).2 hlt
        rcases List.mem_append.1 hr with hr | hr
        · obtain ⟨a1, a2, a3, a4⟩ := hsub r hr
          have hno : ∀ i, r.start ≤ i → i ≤ r.stop → s.dq i = 0 := by
            intro i h1 h2
            obtain ⟨b1, b2, b3⟩ := a4 i h1 h2
            rw [hdq, if_neg (by rw [not_or]; exact ⟨b2, b3⟩)]
            exact hm0.2.2.1 i b1 (by omega)
          exact ⟨r.start, by have := hm0.2.1; omega, hno _ le_rfl (by omega), hno _ (by omega) (by omega)⟩
        · exact hout r (hmem2 r hr).1 (hmem2 r hr).2 hlt
    rw [← hiff] at g1 g2
    refine ⟨Or.inr ⟨q + r0.start, hnear, hlen, hz.1, hz.2, hdq, g1, g2⟩, fun hj => absurd hj ?_⟩
    rw [not_or, not_not, not_le]
    exact hjn


/-! ## C144 -/

/-- What `fit_ramps_casertano` must return for a pixel of rate `b`, given its final flags: the rate itself with a positive read
variance if two consecutive resultants are unflagged, zeros otherwise. -/
def CjRate (n N k : Nat) (b : α) (o : Out α) : Prop :=
  ((∃ i, i + 1 < n ∧ o.dq (i * N + k) = 0 ∧ o.dq ((i + 1) * N + k) = 0) →
    o.par[2 * k + 1]? = some b ∧ ∃ v, 0 < v ∧ o.var[3 * k]? = some v)
  ∧ ((¬ ∃ i, i + 1 < n ∧ o.dq (i * N + k) = 0 ∧ o.dq ((i + 1) * N + k) = 0) →
    o.par[2 * k + 1]? = some 0 ∧ o.var[3 * k]? = some 0 ∧ o.var[3 * k + 1]? = some 0)

/-- A steady source of rate `b ≥ 0` and one hit at any time during resultant `j`, for a regular read pattern and any flags:
either no resultant is flagged, and then no single or double difference in a run of three or more good resultants exceeds the
threshold; or exactly two consecutive good resultants are, which are next to or contain the hit, and the slope of the pixel is
exactly `b`.  A hit in a flagged resultant is harmless. -/
theorem C144_hit (cfg : Cfg α) (hp : Cas22PowOk cfg.pow) (ht : CdThreshold cfg) (hsq : ∀ x, 0 < x → 0 < cfg.sqrt x)
    (readTime : α) (hrt : 0 < readTime) (pattern : List (List α)) (hn : pattern ≠ []) (base : List α) (step : α)
    (hreg : CjRegular pattern base step) (shape : List Nat) (hs : shape ≠ []) (res : Nat → α) (dq : Nat → Nat) (noise : Noise α)
    (rn : Nat → α) (hrn : spread shape noise = some rn) (f0 : Fixed α) (s0 : Scratch α) (k : Nat) (hk : k < shape.prod)
    (hk0 : rn k ≠ 0) (a b h φ : α) (j : Nat) (hb : 0 ≤ b) (hh : 0 ≤ h) (hφ : 0 ≤ φ) (hφ1 : φ ≤ 1)
    (hl : ∀ i, i < pattern.length → dq (i * shape.prod + k) = 0 →
      res (i * shape.prod + k) = a + b * cdTime readTime pattern i + cjHit h φ j i) :
    ∃ o, casertano cfg readTime pattern pattern.length shape res dq noise none f0 s0 = some o
      ∧ (((∀ i, o.dq (i * shape.prod + k) = dq (i * shape.prod + k))
          ∧ (cfg.useJump = true → ∀ r, MaxRun (fun i => dq (i * shape.prod + k)) pattern.length r → r.start + 2 ≤ r.stop →
            ∀ p, p = pixelOf readTime pattern (fun k i => res (i * shape.prod + k)) rn k → ∀ f, fitRamp cfg p r = some f →
              ∀ i d, r.start ≤ i → (d = 1 ∨ d = 2) → i + d ≤ r.stop →
                ¬ Larger (stat cfg p r f.slope i d) (fin (threshold cfg f.slope))))
        ∨ ∃ x, (x = j ∨ x + 1 = j ∨ x + 2 = j) ∧ x + 1 < pattern.length
          ∧ dq (x * shape.prod + k) = 0 ∧ dq ((x + 1) * shape.prod + k) = 0
          ∧ (∀ i, o.dq (i * shape.prod + k) = if i = x ∨ i = x + 1 then 4 else dq (i * shape.prod + k))
          ∧ CjRate pattern.length shape.prod k b o)
      ∧ (dq (j * shape.prod + k) ≠ 0 ∨ pattern.length ≤ j →
        (∀ i, o.dq (i * shape.prod + k) = dq (i * shape.prod + k)) ∧ CjRate pattern.length shape.prod k b o) := by
  obtain ⟨o, ho, -, -, -, hpix⟩ := C104_array cfg readTime pattern hn shape hs res dq noise rn hrn f0 s0
  obtain ⟨dq', ramps, avg, g1, -, g3, g4, g5, -, g7⟩ := hpix k hk
  obtain ⟨dq'', ramps', avg', e, s1, s2⟩ := cj_pixel cfg hp ht hsq
    (pixelOf readTime pattern (fun k i => res (i * shape.prod + k)) rn k) pattern.length _ _ _ _
    (cj_pix readTime hrt pattern base step hreg _ rn k) hk0 (fun i => dq (i * shape.prod + k)) a b h φ j hb hh hφ hφ1 hl
  rw [g1, Option.some.injEq, Prod.mk.injEq, Prod.mk.injEq] at e
  obtain ⟨rfl, rfl, rfl⟩ := e
  have hgood : CjGood pattern.length b dq' avg → CjRate pattern.length shape.prod k b o := by
    rintro ⟨t1, t2⟩
    refine ⟨fun hx => ?_, fun hx => ?_⟩
    · simp only [g7] at hx
      obtain ⟨u1, u2⟩ := t1 hx
      exact ⟨by rw [g3, u1], _, u2, g4⟩
    · simp only [g7] at hx
      rw [g3, g4, g5, t2 hx]
      exact ⟨rfl, rfl, rfl⟩
  refine ⟨o, ho, ?_, fun hj => ?_⟩
  · rcases s1 with ⟨e1, e2⟩ | ⟨x, x1, x2, x3, x4, x5, x6⟩
    · exact Or.inl ⟨fun i => by rw [g7, e1], fun hj r hr h2 p hp f hf => by subst hp; exact e2 hj r hr h2 f hf⟩
    · exact Or.inr ⟨x, x1, x2, x3, x4, fun i => by rw [g7, x5], hgood x6⟩
  · obtain ⟨e1, e2⟩ := s2 hj
    exact ⟨fun i => by rw [g7, e1], hgood (by rw [e1]; exact e2)⟩

/-- For a regular read pattern the variance estimate of the last difference of three or more resultants with a slope that is not
negative is never negative, so the jump test is exact: a jump is reported if and only if some single or double difference exceeds
the threshold.  (In general it is not, see `C75_nan_statistic_hides_jump`.) -/
theorem C144_test_exact (cfg : Cfg α) (readTime : α) (hrt : 0 < readTime) (pattern : List (List α)) (base : List α) (step : α)
    (hreg : CjRegular pattern base step) (res : Nat → Nat → α) (rn : Nat → α) (k : Nat) (hk0 : rn k ≠ 0) (hj : cfg.useJump = true)
    (r : Ramp) (h1 : r.start + 2 ≤ r.stop) (h2 : r.stop < pattern.length) (p : Pix α) (hp : p = pixelOf readTime pattern res rn k)
    (f : Fit α) (hf : fitRamp cfg p r = some f) (hs : 0 ≤ f.slope) :
    detect cfg p r = none ↔ ∀ i d, r.start ≤ i → (d = 1 ∨ d = 2) → i + d ≤ r.stop →
      ¬ Larger (stat cfg p r f.slope i d) (fin (threshold cfg f.slope)) := by
  subst hp
  exact cj_test cfg _ pattern.length _ _ _ _ (cj_pix readTime hrt pattern base step hreg res rn k) hk0 hj r h1 h2 f hf hs

end

/-! Seven resultants of two reads each, two pixels of rate 2: the first with a hit of 4000 in the middle of its fourth resultant,
the second with a small one that is missed. -/

def cjPattern : List (List ℚ) := (List.range 7).map fun i => [1 + 2 * (i : ℚ), 2 + 2 * (i : ℚ)]
def cjRes : Nat → ℚ := fun m =>
  5 + 2 * cdTime 3 cjPattern (m / 2) + cjHit (if m % 2 = 0 then 4000 else 1) (1 / 2) 3 (m / 2)
def cjOut : Option (Out ℚ) :=
  casertano (cas22Cfg true) 3 cjPattern 7 [2] cjRes (fun m => if m = 12 then 1 else 0) (.line 2 fun _ => 2) none
    (fun _ _ _ => some 77) fun _ _ _ => some 55

example : CjRegular cjPattern [1, 2] 2 where
  reads := by simp
  pos := by norm_num
  width := by decide +kernel
  shift := by decide +kernel
example : ∀ x : ℚ, 0 < x → 0 < (cas22Cfg true).sqrt x := fun _ h => h
example : ∀ i < 7, cjRes (i * 2 + 0) = 5 + 2 * cdTime 3 cjPattern i + cjHit 4000 (1 / 2) 3 i := by decide +kernel
example : cjOut.map (fun o => ((List.range 7).map fun i => o.dq (i * 2), o.par[1]?))
    = some ([0, 0, 4, 4, 0, 0, 1], some 2) := by decide +kernel
example : cjOut.map (fun o => ((List.range 7).map fun i => o.dq (i * 2 + 1), o.par[3]?))
    = some ([0, 0, 0, 0, 0, 0, 0], some (57 / 28)) := by decide +kernel

end Verif.Thm
