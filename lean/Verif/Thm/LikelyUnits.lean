import Verif.Model.LikelyDriver
import Verif.Thm.LikelyDriver
import Mathlib.Analysis.SpecialFunctions.Pow.Real
import Mathlib.Tactic.FieldSimp
import Mathlib.Tactic.Ring
import Mathlib.Tactic.Positivity

/-!
# C150: the likelihood fit and the unit of the data

`likely_ramp_fit` (likely_fit.py:18-169) for a pixel whose data are given in another unit.
-/

set_option linter.unusedSectionVars false

namespace Verif.Thm

open Verif Verif.Likely Verif.LikelyDriver Finset

section
variable {α : Type} [Field α] [LinearOrder α] [IsStrictOrderedRing α]

/-- Spec: the pixel's settings in another unit, `k` new units being one old one: read noise and dark current have `k` times their number,
the gain (electrons per unit) a `k`-th; the thresholds are pure numbers. -/
def luCfg (k : α) (c : Cfg α) : Cfg α := { c with gain := c.gain / k, rnoise := k * c.rnoise, dark := k * c.dark }

/-- Spec: the samples of an integration in the new unit. -/
def luIn (k : α) (e : IntIn α) : IntIn α := { e with data := fun g => (e.data g).map fun x => k * x, zf := e.zf.map fun x => k * x }

/-- Spec: a fit in the new unit: rate `k` times, variances `k²` times, chi-square and weights unchanged. -/
def luRes (k : α) (r : Result α) : Result α :=
  { r with countrate := k * r.countrate, uncert2 := k ^ 2 * r.uncert2, varP := k ^ 2 * r.varP, varR := k ^ 2 * r.varR }

/-- Spec: the rate product in the new unit. -/
def luInt1 (k : α) (i : Int1 α) : Int1 α :=
  ⟨i.data.map fun x => k * x, i.varP.map fun x => k ^ 2 * x, i.varR.map fun x => k ^ 2 * x⟩

/-! ## Scaling of the parts -/

def luQ (k : α) (q : Noise α) : Noise α := ⟨k * q.guess, q.gain / k, k * q.rnoise⟩

theorem lu_ratio (k a b : α) : k * a / (b / k) = k ^ 2 * (a / b) := by
  rw [div_div_eq_mul_div]; ring

theorem lu_ap (k : α) (cv : Covar α) (q : Noise α) (i : Nat) : alphaPh cv (luQ k q) i = k ^ 2 * alphaPh cv q i := by
  simp only [alphaPh, luQ, lu_ratio, mul_assoc]
theorem lu_ar (k : α) (cv : Covar α) (q : Noise α) (i : Nat) : alphaRd cv (luQ k q) i = k ^ 2 * alphaRd cv q i := by
  simp only [alphaRd, luQ]; ring
theorem lu_bp (k : α) (cv : Covar α) (q : Noise α) (i : Nat) : betaPh cv (luQ k q) i = k ^ 2 * betaPh cv q i := by
  simp only [betaPh, luQ, lu_ratio, mul_assoc]
theorem lu_br (k : α) (cv : Covar α) (q : Noise α) (i : Nat) : betaRd cv (luQ k q) i = k ^ 2 * betaRd cv q i := by
  simp only [betaRd, luQ]; ring

/-- One step of the rescaling loop once the scale has been multiplied. -/
theorem lu_step (root : α → Nat → α) (c : α) (hc : c ≠ 0) (n : Nat) (a b : Nat → α) (s : Nat) (x y : Resc α)
    (h1 : y.scale = c * x.scale) (h2 : y.prev = x.prev) (h3 : y.cur = x.cur) :
    (rescStep root n 10 (fun i => c * a i) (fun i => c * b i) y s).scale = c * (rescStep root n 10 a b x s).scale ∧
    (rescStep root n 10 (fun i => c * a i) (fun i => c * b i) y s).prev = (rescStep root n 10 a b x s).prev ∧
    (rescStep root n 10 (fun i => c * a i) (fun i => c * b i) y s).cur = (rescStep root n 10 a b x s).cur := by
  have ht : c * a (s - 1) / y.scale * y.cur - c * b (s - 2) * (c * b (s - 2)) / (y.scale * y.scale) * y.prev
      = a (s - 1) / x.scale * x.cur - b (s - 2) * b (s - 2) / (x.scale * x.scale) * x.prev := by
    rw [h1, h2, h3, mul_div_mul_left _ _ hc]
    have : c * b (s - 2) * (c * b (s - 2)) / (c * x.scale * (c * x.scale)) = b (s - 2) * b (s - 2) / (x.scale * x.scale) := by
      rw [mul_mul_mul_comm, mul_mul_mul_comm c x.scale, mul_div_mul_left _ _ (mul_ne_zero hc hc)]
    rw [this]
  simp only [rescStep]
  rw [ht]
  by_cases hd : s % 10 = 0 ∨ s = n
  · rw [if_pos hd, if_pos hd]
    exact ⟨by rw [h1]; ring, by rw [h3], rfl⟩
  · rw [if_neg hd, if_neg hd]
    exact ⟨h1, h3, rfl⟩

theorem lu_steps (root : α → Nat → α) (c : α) (hc : c ≠ 0) (n : Nat) (a b : Nat → α) (l : List Nat) :
    ∀ x y : Resc α, y.scale = c * x.scale → y.prev = x.prev → y.cur = x.cur →
    (l.foldl (rescStep root n 10 (fun i => c * a i) fun i => c * b i) y).scale = c * (l.foldl (rescStep root n 10 a b) x).scale := by
  induction l with
  | nil => intro x y h _ _; exact h
  | cons s l ih =>
    intro x y h1 h2 h3
    obtain ⟨e1, e2, e3⟩ := lu_step root c hc n a b s x y h1 h2 h3
    exact ih _ _ e1 e2 e3

/-- The rescaling loop on a multiple of the covariance: before the first rescaling the determinants are multiplied by powers, after it
the scale is. -/
theorem lu_rescale (root : α → Nat → α) (c : α) (hc : c ≠ 0) (hroot : ∀ t i, 1 ≤ i → root (c ^ i * t) i = c * root t i)
    (n : Nat) (hn : 2 ≤ n) (a b : Nat → α) :
    rescale root n 10 (fun i => c * a i) (fun i => c * b i) = c * rescale root n 10 a b := by
  have key : ∀ (m s : Nat) (x y : Resc α), 2 ≤ s → s ≤ n → n < s + m → y.scale = 1 → x.scale = 1 →
      y.prev = c ^ (s - 2) * x.prev → y.cur = c ^ (s - 1) * x.cur →
      ((List.range' s m).foldl (rescStep root n 10 (fun i => c * a i) fun i => c * b i) y).scale
        = c * ((List.range' s m).foldl (rescStep root n 10 a b) x).scale := by
    intro m
    induction m with
    | zero => intro s x y _ h1 h2; omega
    | succ m ih =>
      intro s x y hs hsn hnm h1 h2 h3 h4
      rw [List.range'_succ, List.foldl_cons, List.foldl_cons]
      have ht : c * a (s - 1) / y.scale * y.cur - c * b (s - 2) * (c * b (s - 2)) / (y.scale * y.scale) * y.prev
          = c ^ s * (a (s - 1) / x.scale * x.cur - b (s - 2) * b (s - 2) / (x.scale * x.scale) * x.prev) := by
        obtain ⟨j, rfl⟩ : ∃ j, s = j + 2 := ⟨s - 2, by omega⟩
        rw [h1, h2, h3, h4]
        simp only [Nat.add_sub_cancel, show j + 2 - 1 = j + 1 from rfl]
        ring
      by_cases hd : s % 10 = 0 ∨ s = n
      · apply lu_steps root c hc n a b
        all_goals
          simp only [rescStep]
          rw [if_pos hd, if_pos hd]
        · rw [ht, hroot _ s (by omega), h1, h2]
          ring
        · rw [ht, hroot _ s (by omega), h4]
          generalize (a (s - 1) / x.scale * x.cur - b (s - 2) * b (s - 2) / (x.scale * x.scale) * x.prev) = t
          obtain ⟨j, rfl⟩ : ∃ j, s = j + 2 := ⟨s - 2, by omega⟩
          have : c ^ (j + 2) * t / (c * root t (j + 2)) = c ^ (j + 1) * (t / root t (j + 2)) := by
            rw [pow_succ, mul_comm (c ^ (j + 1)) c, mul_assoc, mul_div_mul_left _ _ hc, mul_div_assoc]
          rw [this, show j + 2 - 1 = j + 1 from rfl, mul_div_mul_left _ _ (pow_ne_zero _ hc)]
      · have hsn' : s ≠ n := fun h => hd (Or.inr h)
        apply ih (s + 1) _ _ (by omega) (by omega) (by omega)
        all_goals simp only [rescStep]
        · rw [if_neg hd]; exact h1
        · rw [if_neg hd]; exact h2
        · rw [if_neg hd, if_neg hd]; exact h4
        · rw [if_neg hd, if_neg hd, ht, Nat.add_sub_cancel]
  exact key (n - 1) 2 ⟨1, a 0, 1⟩ ⟨1, c * a 0, 1⟩ le_rfl hn (by omega) rfl rfl (by simp) (by simp)

theorem lu_scaleOf (root : α → Nat → α) {k : α} (hk : 0 < k) (hroot : ∀ t i, 1 ≤ i → root ((k ^ 2) ^ i * t) i = k ^ 2 * root t i)
    (n : Nat) (hn : 2 ≤ n) (cv : Covar α) (q : Noise α) : scaleOf root n cv (luQ k q) = k ^ 2 * scaleOf root n cv q := by
  have hk2 : k ^ 2 ≠ 0 := by positivity
  simp only [scaleOf, lu_ap, lu_ar, lu_bp, lu_br, ← mul_add]
  exact lu_rescale root _ hk2 hroot n hn _ _

/-- The matrix quantities for multiples of the differences. -/
def luMat (k : α) (m : Mat α) : Mat α := ⟨fun i => k * m.dB i, m.dC, k ^ 2 * m.A, k * m.B, m.C⟩

theorem lu_bigPhiD (k : α) (n : Nat) (b ph d : Nat → α) (i : Nat) : bigPhiD n b ph (fun i => k * d i) i = k * bigPhiD n b ph d i := by
  simp only [bigPhiD]
  induction n - 1 - i with
  | zero => simp [bigPhiDR]
  | succ j ih => simp only [bigPhiDR, ih]; ring

theorem lu_bigThetaD (k : α) (b th d : Nat → α) : ∀ i, bigThetaD b th (fun i => k * d i) i = k * bigThetaD b th d i
  | 0 => by simp [bigThetaD]
  | 1 => by simp only [bigThetaD]; ring
  | i + 2 => by
    simp only [bigThetaD, lu_bigThetaD k b th d (i + 1)]; ring

theorem lu_matrix (k : α) (n : Nat) (a b d u : Nat → α) : matrix n a b (fun i => k * d i) u = luMat k (matrix n a b d u) := by
  simp only [matrix, luMat, lu_bigPhiD, lu_bigThetaD]
  congr 1
  · funext i; ring
  · rw [mul_add]
    congr 1
    · simp only [mul_sum]
      exact sum_congr rfl fun i _ => by ring
    · rw [mul_sum]
      exact sum_congr rfl fun i _ => by ring
  · rw [mul_sum]
    exact sum_congr rfl fun i _ => by ring

theorem lu_fitMatrix {k : α} (hk : 0 < k) (n : Nat) (cv : Covar α) (q : Noise α) (scale : α) (diffs u : Nat → α) :
    fitMatrix n cv (luQ k q) (k ^ 2 * scale) (fun i => k * diffs i) u = luMat k (fitMatrix n cv q scale diffs u) := by
  have hk2 : k ^ 2 ≠ 0 := by positivity
  simp only [fitMatrix, lu_ap, lu_ar, lu_bp, lu_br, ← mul_add, mul_div_mul_left _ _ hk2, mul_assoc k]
  exact lu_matrix k n _ _ _ _

theorem lu_fitWith {k : α} (hk : 0 < k) (n : Nat) (cv : Covar α) (q : Noise α) (scale : α) (diffs u : Nat → α) :
    fitWith n cv (luQ k q) (k ^ 2 * scale) (fun i => k * diffs i) u = (fitWith n cv q scale diffs u).map (luRes k) := by
  have hk2 : k ^ 2 ≠ 0 := by positivity
  simp only [fitWith, lu_fitMatrix hk]
  generalize fitMatrix n cv q scale diffs u = m
  by_cases hC : m.C = 0
  · simp [luMat, hC]
  · rw [if_neg hC, if_neg (show ¬ (luMat k m).C = 0 from hC)]
    simp only [Option.map_some, Option.some.injEq, luRes, luMat, lu_ap, lu_ar, lu_bp, lu_br]
    congr 1
    · ring
    · have : k ^ 2 * m.A - k * m.B * (k * m.B) / m.C = k ^ 2 * (m.A - m.B * m.B / m.C) := by ring
      rw [this, mul_div_mul_left _ _ hk2]
    · ring
    · simp only [mul_add, mul_sum]
      congr 1
      · exact sum_congr rfl fun i _ => by ring
      · exact sum_congr rfl fun i _ => by ring
    · simp only [mul_add, mul_sum]
      congr 1
      · exact sum_congr rfl fun i _ => by ring
      · exact sum_congr rfl fun i _ => by ring

/-! ## Jump detection -/

theorem lu_chisqOne (k : α) (m : Mat α) (cd : α) (i : Nat) :
    (chisqOne (luMat k m) cd i).1 = k * (chisqOne m cd i).1 ∧ (chisqOne (luMat k m) cd i).2.2 = k ^ 2 * (chisqOne m cd i).2.2 := by
  have hx : (chisqOne (luMat k m) cd i).1 = k * (chisqOne m cd i).1 := by
    simp only [chisqOne, luMat]
    rw [← mul_div_assoc]
    congr 1
    ring
  have hy : (chisqOne (luMat k m) cd i).2.1 = k * (chisqOne m cd i).2.1 := by
    change (k * m.dB i - (chisqOne (luMat k m) cd i).1 * m.dC i) / cd = k * ((m.dB i - (chisqOne m cd i).1 * m.dC i) / cd)
    rw [hx]
    ring
  refine ⟨hx, ?_⟩
  change k ^ 2 * m.A + (chisqOne (luMat k m) cd i).1 * (chisqOne (luMat k m) cd i).1 * m.C - 2 * (chisqOne (luMat k m) cd i).1 * (k * m.B)
      + (chisqOne (luMat k m) cd i).2.1 * (chisqOne (luMat k m) cd i).2.1 * cd - 2 * (chisqOne (luMat k m) cd i).2.1 * (k * m.dB i)
      + 2 * (chisqOne (luMat k m) cd i).1 * (chisqOne (luMat k m) cd i).2.1 * m.dC i = k ^ 2 * (m.A + (chisqOne m cd i).1 * (chisqOne m cd i).1 * m.C
      - 2 * (chisqOne m cd i).1 * m.B + (chisqOne m cd i).2.1 * (chisqOne m cd i).2.1 * cd - 2 * (chisqOne m cd i).2.1 * m.dB i
      + 2 * (chisqOne m cd i).1 * (chisqOne m cd i).2.1 * m.dC i)
  rw [hx, hy]
  ring

theorem lu_chisqTwo (k : α) (m : Mat α) (cd cd' co : α) (i : Nat) :
    (chisqTwo (luMat k m) cd cd' co i).1 = k * (chisqTwo m cd cd' co i).1 ∧
    (chisqTwo (luMat k m) cd cd' co i).2.2.2 = k ^ 2 * (chisqTwo m cd cd' co i).2.2.2 := by
  have hz : (chisqTwo (luMat k m) cd cd' co i).2.2.1 = k * (chisqTwo m cd cd' co i).2.2.1 := by
    simp only [chisqTwo, luMat]
    rw [← mul_div_assoc]
    congr 1
    ring
  have hy : (chisqTwo (luMat k m) cd cd' co i).2.1 = k * (chisqTwo m cd cd' co i).2.1 := by
    change (k * m.B * m.dC i - k * m.dB i * m.C - (chisqTwo (luMat k m) cd cd' co i).2.2.1 * (m.dC i * m.dC (i + 1) - m.C * co))
        / (m.dC i * m.dC i - m.C * cd) = k * ((m.B * m.dC i - m.dB i * m.C - (chisqTwo m cd cd' co i).2.2.1 * (m.dC i * m.dC (i + 1) - m.C * co))
        / (m.dC i * m.dC i - m.C * cd))
    rw [hz]
    ring
  have hx : (chisqTwo (luMat k m) cd cd' co i).1 = k * (chisqTwo m cd cd' co i).1 := by
    change (k * m.B - (chisqTwo (luMat k m) cd cd' co i).2.1 * m.dC i - (chisqTwo (luMat k m) cd cd' co i).2.2.1 * m.dC (i + 1)) / m.C
      = k * ((m.B - (chisqTwo m cd cd' co i).2.1 * m.dC i - (chisqTwo m cd cd' co i).2.2.1 * m.dC (i + 1)) / m.C)
    rw [hy, hz]
    ring
  refine ⟨hx, ?_⟩
  have e : ∀ m : Mat α, (chisqTwo m cd cd' co i).2.2.2 = m.A + (chisqTwo m cd cd' co i).1 * (chisqTwo m cd cd' co i).1 * m.C
      + (chisqTwo m cd cd' co i).2.1 * (chisqTwo m cd cd' co i).2.1 * cd + (chisqTwo m cd cd' co i).2.2.1 * (chisqTwo m cd cd' co i).2.2.1 * cd'
      - (2 * (chisqTwo m cd cd' co i).1 * m.B + 2 * (chisqTwo m cd cd' co i).2.1 * m.dB i + 2 * (chisqTwo m cd cd' co i).2.2.1 * m.dB (i + 1))
      + (2 * (chisqTwo m cd cd' co i).1 * (chisqTwo m cd cd' co i).2.1 * m.dC i
        + 2 * (chisqTwo m cd cd' co i).1 * (chisqTwo m cd cd' co i).2.2.1 * m.dC (i + 1)
        + 2 * (chisqTwo m cd cd' co i).2.1 * (chisqTwo m cd cd' co i).2.2.1 * co) := fun _ => rfl
  rw [e, e m, hx, hy, hz]
  simp only [luMat]
  ring

/-- Scaled search results. -/
def luSearch (k : α) (s : Search α) : Search α :=
  { s with
    rate := fun u => (s.rate u).map fun x => k * x
    rateOne := fun u i => (s.rateOne u i).map fun x => k * x
    rateTwo := fun u i => (s.rateTwo u i).map fun x => k * x }

def luPair (k : α) (x : Option (α × α)) : Option (α × α) := x.map fun p => (k * p.1, k ^ 2 * p.2)

/-- Fit with all differences in use. -/
def luFull (M : (Nat → Bool) → Mat α) (u : Nat → Bool) : Option (α × α) :=
  if (M u).C = 0 then none else some ((M u).B * (1 / (M u).C), (M u).A - (M u).B * (M u).B / (M u).C)

/-- Fit without one difference. -/
def luOne (M : (Nat → Bool) → Mat α) (cd : (Nat → Bool) → Nat → α) (u : Nat → Bool) (i : Nat) : Option (α × α) :=
  if u i then
    if cd u i = 0 ∨ (M u).C * cd u i - (M u).dC i * (M u).dC i = 0 then none else
      some ((chisqOne (M u) (cd u i) i).1, (chisqOne (M u) (cd u i) i).2.2)
  else luFull M u

/-- Fit without two differences. -/
def luTwo (M : (Nat → Bool) → Mat α) (cd co : (Nat → Bool) → Nat → α) (u : Nat → Bool) (i : Nat) : Option (α × α) :=
  if u i = false then luOne M cd u (i + 1)
  else if u (i + 1) = false then luOne M cd u i
  else
    if (M u).C = 0 ∨ (M u).dC i * (M u).dC i - (M u).C * cd u i = 0 ∨ (M u).dC i * (M u).dC (i + 1) - (M u).C * co u i = 0 ∨
        ((M u).dC i * (M u).dC (i + 1) - (M u).C * co u i) / ((M u).dC i * (M u).dC i - (M u).C * cd u i)
          - ((M u).dC (i + 1) * (M u).dC (i + 1) - (M u).C * cd u (i + 1)) / ((M u).dC i * (M u).dC (i + 1) - (M u).C * co u i) = 0
    then none
    else some ((chisqTwo (M u) (cd u i) (cd u (i + 1)) (co u i) i).1, (chisqTwo (M u) (cd u i) (cd u (i + 1)) (co u i) i).2.2.2)

/-- The improvement. -/
def luGain (M : (Nat → Bool) → Mat α) (scale : α) (u : Nat → Bool) (o : Option (α × α)) : Option α :=
  match luFull M u, o with
  | some f, some x => some (f.2 / scale - x.2 / scale)
  | _, _ => none

theorem lu_search_eq (n : Nat) (cv : Covar α) (q : Noise α) (scale : α) (diffs : Nat → α) (M : (Nat → Bool) → Mat α)
    (cd co : (Nat → Bool) → Nat → α) (hM : M = fun u => fitMatrix n cv q scale diffs (num u))
    (hcd : cd = fun u i => cinvDiag n (fun i => (alphaPh cv q i + alphaRd cv q i) / scale)
      (fun i => (betaPh cv q i + betaRd cv q i) / scale * num u (i + 1) * num u i) (num u) i)
    (hco : co = fun u i => cinvOff n (fun i => (alphaPh cv q i + alphaRd cv q i) / scale)
      (fun i => (betaPh cv q i + betaRd cv q i) / scale * num u (i + 1) * num u i) i) :
    search n cv q scale diffs =
      { rate := fun u => (luFull M u).map (·.1)
        one := fun u i => luGain M scale u (luOne M cd u i)
        two := fun u i => luGain M scale u (luTwo M cd co u i)
        rateOne := fun u i => (luOne M cd u i).map (·.1)
        rateTwo := fun u i => (luTwo M cd co u i).map (·.1) } := by
  subst hM hcd hco
  rfl

theorem lu_full (k : α) (M : (Nat → Bool) → Mat α) (u : Nat → Bool) :
    luFull (fun u => luMat k (M u)) u = luPair k (luFull M u) := by
  simp only [luFull]
  by_cases h : (M u).C = 0
  · rw [if_pos h, if_pos (show (luMat k (M u)).C = 0 from h)]; rfl
  · rw [if_neg h, if_neg (show ¬ (luMat k (M u)).C = 0 from h)]
    simp only [luPair, Option.map_some, luMat, Option.some.injEq, Prod.mk.injEq]
    constructor <;> ring

theorem lu_one (k : α) (M : (Nat → Bool) → Mat α) (cd : (Nat → Bool) → Nat → α) (u : Nat → Bool) (i : Nat) :
    luOne (fun u => luMat k (M u)) cd u i = luPair k (luOne M cd u i) := by
  simp only [luOne]
  by_cases hu : u i = true
  · rw [if_pos hu, if_pos hu]
    by_cases h : cd u i = 0 ∨ (M u).C * cd u i - (M u).dC i * (M u).dC i = 0
    · rw [if_pos h, if_pos (show cd u i = 0 ∨ (luMat k (M u)).C * cd u i - (luMat k (M u)).dC i * (luMat k (M u)).dC i = 0 from h)]; rfl
    · rw [if_neg h, if_neg (show ¬ (cd u i = 0 ∨ (luMat k (M u)).C * cd u i - (luMat k (M u)).dC i * (luMat k (M u)).dC i = 0) from h)]
      rw [(lu_chisqOne k (M u) (cd u i) i).1, (lu_chisqOne k (M u) (cd u i) i).2]
      rfl
  · rw [if_neg hu, if_neg hu, lu_full]

theorem lu_two (k : α) (M : (Nat → Bool) → Mat α) (cd co : (Nat → Bool) → Nat → α) (u : Nat → Bool) (i : Nat) :
    luTwo (fun u => luMat k (M u)) cd co u i = luPair k (luTwo M cd co u i) := by
  simp only [luTwo]
  by_cases hu : u i = false
  · rw [if_pos hu, if_pos hu, lu_one]
  rw [if_neg hu, if_neg hu]
  by_cases hv : u (i + 1) = false
  · rw [if_pos hv, if_pos hv, lu_one]
  rw [if_neg hv, if_neg hv, (lu_chisqTwo k (M u) _ _ _ i).1, (lu_chisqTwo k (M u) _ _ _ i).2]
  by_cases h : (M u).C = 0 ∨ (M u).dC i * (M u).dC i - (M u).C * cd u i = 0 ∨ (M u).dC i * (M u).dC (i + 1) - (M u).C * co u i = 0 ∨
        ((M u).dC i * (M u).dC (i + 1) - (M u).C * co u i) / ((M u).dC i * (M u).dC i - (M u).C * cd u i)
          - ((M u).dC (i + 1) * (M u).dC (i + 1) - (M u).C * cd u (i + 1)) / ((M u).dC i * (M u).dC (i + 1) - (M u).C * co u i) = 0
  · rw [if_pos h]
    exact if_pos h
  · rw [if_neg h]
    exact if_neg h

theorem lu_gain {k : α} (hk : 0 < k) (M : (Nat → Bool) → Mat α) (scale : α) (u : Nat → Bool) (o : Option (α × α)) :
    luGain (fun u => luMat k (M u)) (k ^ 2 * scale) u (luPair k o) = luGain M scale u o := by
  have hk2 : k ^ 2 ≠ 0 := by positivity
  simp only [luGain, lu_full]
  cases luFull M u <;> cases o <;> simp [luPair, mul_div_mul_left _ _ hk2]

theorem lu_search {k : α} (hk : 0 < k) (n : Nat) (cv : Covar α) (q : Noise α) (scale : α) (diffs : Nat → α) :
    search n cv (luQ k q) (k ^ 2 * scale) (fun i => k * diffs i) = luSearch k (search n cv q scale diffs) := by
  have hk2 : k ^ 2 ≠ 0 := by positivity
  have ha : (fun i => (alphaPh cv (luQ k q) i + alphaRd cv (luQ k q) i) / (k ^ 2 * scale)) = fun i => (alphaPh cv q i + alphaRd cv q i) / scale := by
    funext i
    rw [lu_ap, lu_ar, ← mul_add, mul_div_mul_left _ _ hk2]
  have hb : ∀ i, (betaPh cv (luQ k q) i + betaRd cv (luQ k q) i) / (k ^ 2 * scale) = (betaPh cv q i + betaRd cv q i) / scale := by
    intro i
    rw [lu_bp, lu_br, ← mul_add, mul_div_mul_left _ _ hk2]
  rw [lu_search_eq n cv q scale diffs _ _ _ rfl rfl rfl,
    lu_search_eq n cv (luQ k q) (k ^ 2 * scale) (fun i => k * diffs i) (fun u => luMat k (fitMatrix n cv q scale diffs (num u)))
      (fun u i => cinvDiag n (fun i => (alphaPh cv q i + alphaRd cv q i) / scale)
        (fun i => (betaPh cv q i + betaRd cv q i) / scale * num u (i + 1) * num u i) (num u) i)
      (fun u i => cinvOff n (fun i => (alphaPh cv q i + alphaRd cv q i) / scale)
        (fun i => (betaPh cv q i + betaRd cv q i) / scale * num u (i + 1) * num u i) i)
      (by funext u; rw [lu_fitMatrix hk]) (by simp only [ha, hb]) (by simp only [ha, hb])]
  simp only [luSearch, lu_full k, lu_one k, lu_two k, lu_gain hk]
  have hp : ∀ x : Option (α × α), (luPair k x).map (·.1) = (x.map (·.1)).map fun y => k * y := by
    intro x; cases x <;> rfl
  simp only [hp]

theorem lu_sumRates (k : α) (n : Nat) (r : Nat → Option α) (d : Nat → Bool) :
    sumRates n (fun i => (r i).map fun x => k * x) d = (sumRates n r d).map fun x => k * x := by
  simp only [sumRates, Option.isSome_map]
  split
  · rw [Option.map_some, ← List.sum_map_mul_left]
    congr 3
    funext i
    by_cases h : d i = true
    · rw [if_pos h, if_pos h]
      cases r i <;> simp
    · rw [if_neg h, if_neg h, mul_zero]
  · rfl

/-- Scaled state. -/
def luState (k : α) (s : MaskState α) : MaskState α := { s with rate := s.rate.map fun x => k * x }

theorem lu_maskJumps (k : α) (n : Nat) (okTwo : Nat → Bool) (t1 t2 : α) (sr : Search α) (u : Nat → Bool) :
    maskJumps n okTwo t1 t2 (luSearch k sr) u = luState k (maskJumps n okTwo t1 t2 sr u) := by
  have hp : ∀ (s : MaskState α) (j : Nat), maskPass n okTwo t1 t2 (luSearch k sr) (luState k s) j
      = luState k (maskPass n okTwo t1 t2 sr s j) := by
    intro s j
    simp only [maskPass, luSearch, luState, lu_sumRates]
    split
    · split
      · congr 1
        split <;> rfl
      · rfl
    · rfl
  have : ∀ (l : List Nat) (s : MaskState α), l.foldl (maskPass n okTwo t1 t2 (luSearch k sr)) (luState k s)
      = luState k (l.foldl (maskPass n okTwo t1 t2 sr) s) := by
    intro l
    induction l with
    | nil => intro s; rfl
    | cons j l ih => intro s; rw [List.foldl_cons, List.foldl_cons, hp, ih]
  exact this _ ⟨u, true, sr.rate u⟩

theorem lu_pos {k : α} (hk : 0 < k) (x : α) : pos (k * x) = k * pos x := by
  simp only [pos, mul_pos_iff_of_pos_left hk]
  split <;> simp

theorem lu_median {k : α} (hk : 0 < k) (l : List (Option α)) :
    Verif.Jump.nanmedian (l.map fun x => x.map fun y => k * y) = (Verif.Jump.nanmedian l).map fun y => k * y := by
  have hf : Verif.Jump.finite (l.map fun x => x.map fun y => k * y) = (Verif.Jump.finite l).map fun y => k * y := by
    induction l with
    | nil => rfl
    | cons a l ih =>
      cases a with
      | none => exact ih
      | some x => exact congrArg (k * x :: ·) ih
  have hs : ((Verif.Jump.finite l).map fun y => k * y).insertionSort (· ≤ ·)
      = ((Verif.Jump.finite l).insertionSort (· ≤ ·)).map fun y => k * y := by
    refine (List.map_insertionSort (r := (· ≤ ·)) (s := (· ≤ ·)) _ _ ?_).symm
    intro a _ b _
    exact (mul_le_mul_iff_right₀ hk).symm
  rw [Verif.Jump.nanmedian, Verif.Jump.nanmedian, hf, hs]
  generalize (Verif.Jump.finite l).insertionSort (· ≤ ·) = v
  simp only [Verif.Jump.medianSorted, List.length_map, List.getElem?_map]
  split
  · rfl
  split
  · rfl
  · cases v[v.length / 2 - 1]? <;> cases v[v.length / 2]? <;> simp
    ring

theorem lu_masked (root : α → Nat → α) {k : α} (hk : 0 < k) (hroot : ∀ t i, 1 ≤ i → root ((k ^ 2) ^ i * t) i = k ^ 2 * root t i)
    (n : Nat) (hn : 2 ≤ n) (cv : Covar α) (c : Cfg α) (gdq : Nat → Nat) (diffs : Nat → α) :
    masked root n cv (luCfg k c) gdq (fun i => k * diffs i) = luState k (masked root n cv c gdq diffs) := by
  simp only [masked]
  have hm : Verif.Jump.nanmedian ((List.range n).map fun i => some (k * diffs i))
      = (Verif.Jump.nanmedian ((List.range n).map fun i => some (diffs i))).map fun y => k * y := by
    rw [← lu_median hk, List.map_map]
    rfl
  have hg : pos ((Verif.Jump.nanmedian ((List.range n).map fun i => some (k * diffs i))).getD 0)
      = k * pos ((Verif.Jump.nanmedian ((List.range n).map fun i => some (diffs i))).getD 0) := by
    rw [hm, ← lu_pos hk]
    cases Verif.Jump.nanmedian ((List.range n).map fun i => some (diffs i)) <;> simp
  rw [hg]
  generalize pos ((Verif.Jump.nanmedian ((List.range n).map fun i => some (diffs i))).getD 0) = g
  have hq : (⟨k * g, (luCfg k c).gain, (luCfg k c).rnoise⟩ : Noise α) = luQ k ⟨g, c.gain, c.rnoise⟩ := rfl
  rw [hq, lu_scaleOf root hk hroot n hn, lu_search hk, lu_maskJumps]
  rfl

theorem lu_finalFit (root : α → Nat → α) {k : α} (hk : 0 < k) (hroot : ∀ t i, 1 ≤ i → root ((k ^ 2) ^ i * t) i = k ^ 2 * root t i)
    (n : Nat) (hn : 2 ≤ n) (cv : Covar α) (c : Cfg α) (rate : Option α) (diffs : Nat → α) (u : Nat → Bool) :
    finalFit root n cv (luCfg k c) (rate.map fun x => k * x) (fun i => k * diffs i) u = (finalFit root n cv c rate diffs u).map (luRes k) := by
  cases rate with
  | none => rfl
  | some r =>
    simp only [finalFit, Option.map_some, lu_pos hk]
    have hq : (⟨k * pos r + (luCfg k c).dark, (luCfg k c).gain, (luCfg k c).rnoise⟩ : Noise α) = luQ k ⟨pos r + c.dark, c.gain, c.rnoise⟩ := by
      simp only [luCfg, luQ, mul_add]
    rw [hq, lu_scaleOf root hk hroot n hn, lu_fitWith hk]

/-! ## The pixel -/

theorem lu_pixelFitE (root : α → Nat → α) {k : α} (hk : 0 < k) (hroot : ∀ t i, 1 ≤ i → root ((k ^ 2) ^ i * t) i = k ^ 2 * root t i)
    (n : Nat) (hn : 2 ≤ n) (cv : Covar α) (c : Cfg α) (jump : Nat) (grow : Option ((Nat → Nat) → Nat → Nat)) (gdq : Nat → Nat)
    (diffs : Nat → Option α) :
    pixelFitE root n cv (luCfg k c) jump grow gdq (fun i => (diffs i).map fun x => k * x)
      = ((pixelFitE root n cv c jump grow gdq diffs).1, (pixelFitE root n cv c jump grow gdq diffs).2.1,
        (pixelFitE root n cv c jump grow gdq diffs).2.2.map (luRes k)) := by
  have hd : (fun i => ((diffs i).map fun x => k * x).getD 0) = fun i => k * (diffs i).getD 0 := by
    funext i
    cases diffs i <;> simp
  simp only [pixelFitE, Option.isSome_map, hd, lu_masked root hk hroot n hn, luState, lu_finalFit root hk hroot n hn]
  split <;> rfl

/-- An integration's result in the new unit. -/
def luOut (k : α) (o : IntOut α) : IntOut α := { o with fit := o.fit.map (luRes k) }

theorem lu_fitInt (root : α → Nat → α) {k : α} (hk : 0 < k) (hroot : ∀ t i, 1 ≤ i → root ((k ^ 2) ^ i * t) i = k ^ 2 * root t i)
    (fl : Flags) (ng nframes : Nat) (hng : 4 ≤ ng) (useZero : Bool) (times : List (List α)) (c : Cfg α)
    (grow : Option ((Nat → Nat) → Nat → Nat)) (pixeldq : Nat) (e : IntIn α) :
    fitInt root fl ng nframes useZero times (luCfg k c) grow pixeldq (luIn k e)
      = luOut k (fitInt root fl ng nframes useZero times c grow pixeldq e) := by
  have hz : splitZero nframes (luIn k e).zf (luIn k e).data = fun g => (splitZero nframes e.zf e.data g).map fun x => k * x := by
    funext g
    match g with
    | 0 => rfl
    | 1 =>
      simp only [splitZero, luIn]
      cases e.data 0 <;> cases e.zf <;> simp
      split
      · rfl
      · simp only [Option.map_some, Option.some.injEq]
        ring
    | g + 2 => rfl
  have hd : ∀ (cv : Covar α) (d : Nat → Option α), diffsOf cv (fun g => (d g).map fun x => k * x) = fun i => (diffsOf cv d i).map fun x => k * x := by
    intro cv d
    funext i
    simp only [diffsOf]
    cases d (i + 1) <;> cases d i <;> simp
    ring
  have hdata : (if useZero then splitZero nframes (luIn k e).zf (luIn k e).data else (luIn k e).data)
      = fun g => ((if useZero then splitZero nframes e.zf e.data else e.data) g).map fun x => k * x := by
    cases useZero
    · rfl
    · exact hz
  simp only [fitInt, hdata, hd]
  have hn : 2 ≤ ng + (if useZero then 1 else 0) - 1 := by omega
  simp only [lu_pixelFitE root hk hroot _ hn]
  rfl

theorem lu_combine {k : α} (hk : 0 < k) (l : List (Int1 α)) : combine (l.map (luInt1 k)) = luInt1 k (combine l) := by
  have hk2 : k ^ 2 ≠ 0 := by positivity
  have hrs : ∀ s d : Option α, rateScale (s.map fun x => k * x) (d.map fun x => k * x) = rateScale s d := by
    intro s d
    cases s with
    | none => rfl
    | some s =>
      cases d with
      | none => rfl
      | some d => simp [rateScale, hk.ne', mul_div_mul_left]
  have hrw : ∀ (s : Option α) (i : Int1 α), rawWeight (s.map fun x => k * x) (luInt1 k i) = (rawWeight s i).map fun x => x / k ^ 2 := by
    intro s i
    obtain ⟨d, p, r⟩ := i
    cases p <;> cases r <;> simp only [rawWeight, luInt1, Option.map_none, Option.map_some, hrs]
    rw [mul_assoc, ← mul_add, one_div, one_div, mul_inv, div_eq_mul_inv, mul_comm]
  have hns : ∀ l : List (Option α), nansum (l.map fun x => x.map fun y => y / k ^ 2) = nansum l / k ^ 2 := by
    intro l
    induction l with
    | nil => simp [nansum]
    | cons a l ih =>
      simp only [nansum] at ih ⊢
      cases a with
      | none => exact ih
      | some x =>
        change (x / k ^ 2 :: (l.map fun x => x.map fun y => y / k ^ 2).filterMap id).sum = (x :: l.filterMap id).sum / k ^ 2
        rw [List.sum_cons, List.sum_cons, ih, add_div]
  have hnw : ∀ (s : Option α) (i : Int1 α), normWeight (s.map fun x => k * x) (l.map (luInt1 k)) (luInt1 k i) = normWeight s l i := by
    intro s i
    simp only [normWeight, hrw, List.map_map]
    have : (l.map (rawWeight (s.map fun x => k * x) ∘ luInt1 k)) = (l.map (rawWeight s)).map fun x => x.map fun y => y / k ^ 2 := by
      rw [List.map_map]
      congr 1
      funext j
      simp only [Function.comp, hrw]
    rw [this, hns]
    cases rawWeight s i with
    | none => rfl
    | some w => simp only [Option.map_some, Option.some.injEq]; rw [div_div_div_cancel_right₀ hk2]
  have hns' : ∀ (c : α) (l : List (Option α)), nansum (l.map fun x => x.map fun y => c * y) = c * nansum l := by
    intro c l
    induction l with
    | nil => simp [nansum]
    | cons a l ih =>
      simp only [nansum] at ih ⊢
      cases a with
      | none => exact ih
      | some x =>
        change (c * x :: (l.map fun x => x.map fun y => c * y).filterMap id).sum = c * (x :: l.filterMap id).sum
        rw [List.sum_cons, List.sum_cons, ih, mul_add]
  have hso : ∀ (c : α) (l : List (Option α)), sumOrNan (l.map fun x => x.map fun y => c * y) = (sumOrNan l).map fun y => c * y := by
    intro c l
    have hall : ((l.map fun x => x.map fun y => c * y).all fun x => x.isNone) = l.all fun x => x.isNone := by
      rw [List.all_map]
      congr 1
      funext x
      cases x <;> rfl
    simp only [sumOrNan, hall, hns']
    split <;> rfl
  have hround : ∀ s : Option α, combineRound (l.map (luInt1 k)) (s.map fun x => k * x) = (combineRound l s).map fun x => k * x := by
    intro s
    simp only [combineRound, List.map_map]
    rw [← hso, List.map_map]
    congr 2
    funext i
    simp only [Function.comp, hnw]
    simp only [luInt1]
    cases i.data <;> cases normWeight s l i <;> simp [omul, mul_assoc]
  have hmed : Verif.Jump.nanmedian ((l.map (luInt1 k)).map fun i => i.data) = (Verif.Jump.nanmedian (l.map fun i => i.data)).map fun x => k * x := by
    rw [← lu_median hk, List.map_map, List.map_map]
    rfl
  have hc : ∀ x : List (Int1 α), x.length ≠ 1 → combine x =
      { data := combineRound x (combineRound x (Verif.Jump.nanmedian (x.map fun i => i.data)))
        varP := sumOrNan (x.map fun i => omul (omul i.varP
          (some (rateScale (combineRound x (Verif.Jump.nanmedian (x.map fun i => i.data))) i.data)))
          (omul (normWeight (combineRound x (Verif.Jump.nanmedian (x.map fun i => i.data))) x i)
            (normWeight (combineRound x (Verif.Jump.nanmedian (x.map fun i => i.data))) x i)))
        varR := sumOrNan (x.map fun i => omul i.varR
          (omul (normWeight (combineRound x (Verif.Jump.nanmedian (x.map fun i => i.data))) x i)
            (normWeight (combineRound x (Verif.Jump.nanmedian (x.map fun i => i.data))) x i))) } := by
    intro x hx
    match x with
    | [i] => exact absurd rfl hx
    | [] => rfl
    | a :: b :: t => rfl
  by_cases hlen : l.length = 1
  · obtain ⟨o, rfl⟩ := List.length_eq_one_iff.1 hlen
    rfl
  · rw [hc l hlen, hc _ (by rw [List.length_map]; exact hlen), hmed, hround, hround]
    generalize combineRound l (Verif.Jump.nanmedian (l.map fun i => i.data)) = s1
    simp only [luInt1, List.map_map]
    congr 1
    · rw [← hso, List.map_map]
      congr 2
      funext i
      have h1 := hnw s1 i
      have h2 := hrs s1 i.data
      simp only [Function.comp]
      rw [h1]
      simp only [luInt1]
      rw [h2]
      cases i.varP <;> cases normWeight s1 l i <;> simp [omul, mul_assoc]
    · rw [← hso, List.map_map]
      congr 2
      funext i
      have h1 := hnw s1 i
      simp only [Function.comp]
      rw [h1]
      simp only [luInt1]
      cases i.varR <;> cases normWeight s1 l i <;> simp [omul, mul_assoc]

/-- The rate product of a pixel in the new unit: rate `k` times, variances `k²` times, chi-square and DQ unchanged. -/
def luPix (k : α) (o : PixOut α) : PixOut α := { o with comb := luInt1 k o.comb, err2 := o.err2.map fun x => k ^ 2 * x }

theorem lu_imageInfo {k : α} (hk : 0 < k) (fl : Flags) (l : List (IntOut α)) :
    imageInfo fl (l.map (luOut k)) = luPix k (imageInfo fl l) := by
  have hi : ∀ o : IntOut α, toInt1 (luOut k o) = luInt1 k (toInt1 o) := by
    intro o
    simp only [toInt1, luOut, luInt1]
    cases o.fit <;> rfl
  have hx : ∀ o : IntOut α, (luOut k o).fit.map (·.chisq) = o.fit.map (·.chisq) := by
    intro o
    simp only [luOut]
    cases o.fit <;> rfl
  have hgen : ∀ x : List (IntOut α), x.length ≠ 1 → imageInfo fl x = ⟨combine (x.map toInt1),
      match (combine (x.map toInt1)).varP, (combine (x.map toInt1)).varR with
      | some p, some r => some (p + r)
      | _, _ => none, osum (x.map fun o => o.fit.map (·.chisq)), RampDq.compressFinal fl.dnu (x.map (·.dq))⟩ := by
    intro x hx
    match x with
    | [i] => exact absurd rfl hx
    | [] => rfl
    | a :: b :: t => rfl
  by_cases h1 : l.length = 1
  · obtain ⟨o, rfl⟩ := List.length_eq_one_iff.1 h1
    simp only [List.map_cons, List.map_nil, imageInfo, luPix, hi, hx]
    congr 1
    simp only [luOut]
    cases o.fit <;> rfl
  · rw [hgen l h1, hgen _ (by rw [List.length_map]; exact h1)]
    have hm : (l.map (luOut k)).map toInt1 = (l.map toInt1).map (luInt1 k) := by
      rw [List.map_map, List.map_map]
      congr 1
      funext o
      exact hi o
    rw [hm, lu_combine hk]
    simp only [luPix, List.map_map]
    congr 1
    · simp only [luInt1]
      cases (combine (l.map toInt1)).varP <;> cases (combine (l.map toInt1)).varR <;> simp [mul_add]
    · congr 2
      funext o
      exact hx o

/-- C150.  Fitting the pixel with its data in another unit gives the same result in that unit: for every integration the same group DQ
(the same jumps), pixel DQ, chi-square and weights, `k` times the rate and `k²` times the variances; and the same for the rate. -/
theorem C150_unit (root : α → Nat → α) (k : α) (hk : 0 < k) (hroot : ∀ t i, 1 ≤ i → root ((k ^ 2) ^ i * t) i = k ^ 2 * root t i)
    (fl : Flags) (ng nframes : Nat) (pattern : Option (List (List α))) (default : List (List α)) (hasZero : Bool) (c : Cfg α)
    (grow : Nat → Option ((Nat → Nat) → Nat → Nat)) (pixeldq : Nat) (ints : List (IntIn α)) :
    likelyPixel root fl ng nframes pattern default hasZero (luCfg k c) grow pixeldq (ints.map (luIn k))
      = (likelyPixel root fl ng nframes pattern default hasZero c grow pixeldq ints).map fun o => (o.1.map (luOut k), luPix k o.2) := by
  simp only [likelyPixel]
  split
  · rfl
  · rename_i hng
    have houts : ((ints.map (luIn k)).zipIdx.map fun e => fitInt root fl ng nframes (readTimes pattern default hasZero).2.2
        (readTimes pattern default hasZero).2.1 (luCfg k c) (grow e.2) pixeldq e.1)
        = (ints.zipIdx.map fun e => fitInt root fl ng nframes (readTimes pattern default hasZero).2.2
        (readTimes pattern default hasZero).2.1 c (grow e.2) pixeldq e.1).map (luOut k) := by
      rw [List.zipIdx_map, List.map_map, List.map_map]
      congr 1
      funext e
      exact lu_fitInt root hk hroot fl ng nframes (by omega) _ _ c _ pixeldq e.1
    rw [houts, lu_imageInfo hk]
    rfl

end

/-! ## Examples -/

theorem lu_real (k : ℝ) (t : ℝ) (i : Nat) (hi : 1 ≤ i) : |(k ^ 2) ^ i * t| ^ (1 / (i : ℝ)) = k ^ 2 * |t| ^ (1 / (i : ℝ)) := by
  have h : (i : ℝ) ≠ 0 := by positivity
  rw [abs_mul, abs_of_nonneg (by positivity), Real.mul_rpow (by positivity) (by positivity), ← Real.rpow_natCast (k ^ 2) i,
    ← Real.rpow_mul (by positivity), mul_one_div_cancel h, Real.rpow_one]

/-- The real root meets the hypothesis: a ramp of six groups of two frames with a zero frame and a flagged group, in two integrations. -/
example (k : ℝ) (hk : 0 < k) :
    let e : IntIn ℝ := ⟨fun g => some (if g = 2 then 1000 else 6 * (g : ℝ) + 9), fun g => if g = 2 then 1 else 0, some 7⟩
    let p : Option (List (List ℝ)) := some ((List.range 6).map fun g => [3 * (g : ℝ) + 1, 3 * (g : ℝ) + 3])
    let c : Cfg ℝ := ⟨1, 1, 0, 16, 20⟩
    likelyPixel (fun t i => |t| ^ (1 / (i : ℝ))) ⟨1, 2, 4⟩ 6 2 p [] true (luCfg k c) (fun _ => none) 0 [luIn k e, luIn k e]
      = (likelyPixel (fun t i => |t| ^ (1 / (i : ℝ))) ⟨1, 2, 4⟩ 6 2 p [] true c (fun _ => none) 0 [e, e]).map
        fun o => (o.1.map (luOut k), luPix k o.2) :=
  C150_unit _ k hk (fun t i hi => lu_real k t i hi) _ _ _ _ _ _ _ _ _ [_, _]

end Verif.Thm
