import Verif.Model.Ols
import Verif.Thm.OlsPixel
import Mathlib.Tactic.FieldSimp
import Mathlib.Analysis.SpecialFunctions.Sqrt
import Mathlib.Tactic.Ring
import Mathlib.Tactic.Positivity
import Mathlib.Tactic.Linarith
import Mathlib.Data.List.Forall2
import Mathlib.Algebra.BigOperators.Ring.List
import Mathlib.Algebra.Order.BigOperators.Group.List

/-!
# C149: the unit of the data

The OLS_C fit (`ramp_fit_pixel`, slope_fitter.c:2808-2908) of a pixel whose data are given in another unit.
-/

set_option linter.unusedSectionVars false

namespace Verif.Thm

open Verif Verif.Ols

section
variable {α : Type*} [Field α] [LinearOrder α] [IsStrictOrderedRing α]

/-- Spec: the same pixel with data in another unit: `k` new units are one old one.  Samples, zero frame and dark current get `k` times
their number, the gain (electrons per unit) a `k`-th; the read noise is in electrons. -/
def unIn (k : α) (p : PixIn α) : PixIn α :=
  { p with
    px := { gain := p.px.gain / k, rnoise := p.px.rnoise, dcurrent := k * p.px.dcurrent }
    ints := p.ints.map fun i => (i.1.map fun x => x.map fun y => k * y, i.2.1, i.2.2.map fun z => z.map fun y => k * y) }

/-- Spec: the second entry is the first in the new unit, but for variances that one of the two has set to zero. -/
def UnEntry (k : α) (r r' : Rate α) : Prop :=
  r'.dq = r.dq ∧
  ((r'.varR = 0 ↔ r.varR = 0) → r'.slope = r.slope.map (fun x => k * x) ∧ r'.varR = k ^ 2 * r.varR) ∧
  ((r'.varP = 0 ↔ r.varP = 0) → r'.varP = k ^ 2 * r.varP)

/-- Spec: the error of the second entry is that of the first in the new unit, unless one of the two has set it to zero. -/
def UnErr (k : α) (r r' : Rate α) : Prop := (r'.varErr = 0 ↔ r.varErr = 0) → r'.varErr = k * r.varErr

/-! ## Scaling of the parts -/

/-- A value in the new unit. -/
def unS (k : α) (x : Option α) : Option α := x.map fun y => k * y

theorem un_sub (k : α) (a b : Option α) : o2 (· - ·) (unS k a) (unS k b) = unS k (o2 (· - ·) a b) := by
  cases a <;> cases b <;> simp [o2, unS, mul_sub]

theorem un_add (k : α) (a b : Option α) : o2 (· + ·) (unS k a) (unS k b) = unS k (o2 (· + ·) a b) := by
  cases a <;> cases b <;> simp [o2, unS, mul_add]

theorem un_avg (k : α) (a b : Option α) :
    o2 (fun a b => (a + b) / 2) (unS k a) (unS k b) = unS k (o2 (fun a b => (a + b) / 2) a b) := by
  cases a <;> cases b <;> simp [o2, unS]
  ring

theorem un_div (k t : α) (a : Option α) : (unS k a).map (fun d => d / t) = unS k (a.map fun d => d / t) := by
  cases a <;> simp [unS, mul_div_assoc]

theorem un_get (k : α) (l : List (Option α)) (n : Nat) : ((l.map (unS k))[n]?).join = unS k (l[n]?).join := by
  rw [List.getElem?_map]
  cases l[n]? <;> rfl

def unPx (k : α) (px : Pix α) : Pix α := { gain := px.gain / k, rnoise := px.rnoise, dcurrent := k * px.dcurrent }

theorem un_snr {k : α} (hk : 0 < k) (cfg : Cfg α) (px : Pix α) (a b : Option α) :
    segSnr cfg (unPx k px) (unS k a) (unS k b) = segSnr cfg px a b := by
  have hg : px.gain / k = 0 ↔ px.gain = 0 := by simp [hk.ne']
  simp only [segSnr, un_sub]
  cases o2 (· - ·) b a with
  | none => simp only [unS, Option.map_none, unPx, hg]
  | some d =>
    have hd : k * d * (px.gain / k) = d * px.gain := by field_simp
    simp only [unS, Option.map_some, unPx, hg, hd]

theorem un_sumTo (k : α) (n : Nat) (f : Nat → α) : sumTo n (fun i => k * f i) = k * sumTo n f := by
  rw [sumTo, sumTo, List.sum_map_mul_left]

theorem un_wls (k : α) (n start : Nat) (w y : Nat → α) :
    (wls n start w fun i => k * y i).1 = k * (wls n start w y).1 := by
  simp only [wls, mul_assoc k, un_sumTo]
  ring

theorem un_poisson {k : α} (hk : 0 < k) (px : Pix α) (med : Option α) :
    poissonNum (unPx k px) (unS k med) = k * poissonNum px med := by
  cases med with
  | none => rfl
  | some m =>
    simp only [poissonNum, unS, Option.map_some, unPx]
    have : 0 < k * m ↔ 0 < m := by rw [mul_pos_iff_of_pos_left hk]
    simp only [this]
    split
    · ring
    · rfl

theorem un_rnoise {k : α} (hk : 0 < k) (px : Pix α) (n : Nat) (t : α) :
    rnoiseVar (unPx k px) n t = k ^ 2 * rnoiseVar px n t := by
  simp only [rnoiseVar, unPx]
  have : ((n : α) * n * n - n) * (px.gain / k) * (px.gain / k) = (((n : α) * n * n - n) * px.gain * px.gain) * (k ^ 2)⁻¹ := by
    field_simp
  rw [this, div_eq_mul_inv, mul_inv, inv_inv, div_eq_mul_inv]
  ring

/-- A segment fit in the new unit. -/
def unFit (k : α) (f : SegFit α) : SegFit α := ⟨unS k f.slope, k ^ 2 * f.varP, k ^ 2 * f.varR⟩

theorem un_varP (k a t g : α) : k * a / (t * (g / k)) = k ^ 2 * (a / (t * g)) := by
  rw [mul_div_assoc', div_div_eq_mul_div]
  ring

theorem un_fitSeg {k : α} (hk : 0 < k) (cfg : Cfg α) (px : Pix α) (med : Option α) (a b : Bool) (data : Nat → Option α) (s : Seg) :
    fitSeg cfg (unPx k px) (unS k med) a b (fun n => unS k (data n)) s = unFit k (fitSeg cfg px med a b data s) := by
  simp only [fitSeg]
  have hg : px.gain / k ≤ 0 ↔ px.gain ≤ 0 := by
    rw [div_le_iff₀ hk, zero_mul]
  split
  · simp only [unFit, un_div, un_poisson hk, un_rnoise hk]
    congr 1
    exact un_varP _ _ _ _
  split
  · simp only [unFit, un_sub, un_div, un_poisson hk, un_rnoise hk]
    congr 1
    exact un_varP _ _ _ _
  · simp only [unFit, un_snr hk, un_poisson hk, un_rnoise hk]
    have hy : (fun n => (unS k (data (s.start + n))).getD 0) = fun n => k * (data (s.start + n)).getD 0 := by
      funext n
      cases data (s.start + n) <;> simp [unS]
    have hw : optWeight cfg (unPx k px) = optWeight cfg px := rfl
    rw [hy, hw, un_wls]
    congr 1
    · simp [unS, mul_div_assoc]
    · have : cfg.groupTime * (unPx k px).gain * ((s.len : α) - 1) = cfg.groupTime * ((s.len : α) - 1) * (px.gain / k) := by
        simp only [unPx]; ring
      rw [this, un_varP]
      congr 2
      ring
    · simp only [unPx, hg]
      split
      · simp
      · rfl

/-- An integration in the new unit. -/
def unInteg (k : α) (i : Integ α) : Integ α := { i with data := i.data.map (unS k) }

theorem un_load {k : α} (hk : 0 < k) (fl : Flags) (sup : Bool) (d : List (Option α)) (g : List Nat) (z : Option (Option α)) :
    loadInteg fl sup (d.map (unS k)) g (z.map (unS k)) = unInteg k (loadInteg fl sup d g z) := by
  have hd : List.zipWith (fun x q => if hasB q fl.sat then none else x) (d.map (unS k)) g
      = (List.zipWith (fun x q => if hasB q fl.sat then none else x) d g).map (unS k) := by
    rw [List.zipWith_map_left, List.map_zipWith]
    congr 1
    funext x q
    split <;> rfl
  simp only [loadInteg, hd]
  split
  · rfl
  split
  · rfl
  split
  · cases z with
    | none => rfl
    | some z =>
      simp only [Option.map_some]
      have : unS k z = some 0 ↔ z = some 0 := by
        cases z <;> simp [unS, hk.ne']
      simp only [this]
      split
      · rfl
      · simp only [unInteg, List.map_set]
  · rfl

theorem un_median {k : α} (hk : 0 < k) (l : List (Option α)) : nanMedian (l.map (unS k)) = unS k (nanMedian l) := by
  have hf : (l.map (unS k)).filterMap id = (l.filterMap id).map fun y => k * y := by
    induction l with
    | nil => rfl
    | cons a l ih =>
      cases a with
      | none => exact ih
      | some x =>
        change k * x :: (l.map (unS k)).filterMap id = k * x :: (l.filterMap id).map fun y => k * y
        rw [ih]
  have hs : ((l.filterMap id).map fun y => k * y).insertionSort (· ≤ ·)
      = ((l.filterMap id).insertionSort (· ≤ ·)).map fun y => k * y := by
    refine (List.map_insertionSort (r := (· ≤ ·)) (s := (· ≤ ·)) _ _ ?_).symm
    intro a _ b _
    exact (mul_le_mul_iff_right₀ hk).symm
  simp only [nanMedian, hf, hs, List.length_map, List.getElem?_map]
  generalize (l.filterMap id).insertionSort (· ≤ ·) = v
  have hu : ∀ x : Option α, Option.map (fun y => k * y) x = unS k x := fun _ => rfl
  simp only [hu, un_avg]
  split
  · rfl
  · rfl
  · rfl
  · split <;> rfl

theorem un_medianInteg {k : α} (hk : 0 < k) (fl : Flags) (cfg : Cfg α) (d : List (Option α)) (g : List Nat) :
    medianInteg fl cfg (d.map (unS k)) g = unS k (medianInteg fl cfg d g) := by
  have hl : List.zipWith (fun (x : Option α) q => if hasB q fl.dnu then none else x.map fun d => d / cfg.groupTime) (d.map (unS k)) g
      = (List.zipWith (fun (x : Option α) q => if hasB q fl.dnu then none else x.map fun d => d / cfg.groupTime) d g).map (unS k) := by
    rw [List.zipWith_map_left, List.map_zipWith]
    congr 1
    funext x q
    split
    · rfl
    · rw [un_div]
  simp only [medianInteg, hl, un_get, un_sub]
  generalize List.zipWith (fun (x : Option α) q => if hasB q fl.dnu then none else x.map fun d => d / cfg.groupTime) d g = loc
  rw [← un_median hk]
  congr 1
  have hd : ((List.range (g.length - 1)).map fun n =>
      if hasB (g.getD (n + 1) 0) fl.jump then none else unS k (o2 (· - ·) (loc[n + 1]?).join (loc[n]?).join))
      = ((List.range (g.length - 1)).map fun n =>
      if hasB (g.getD (n + 1) 0) fl.jump then none else o2 (· - ·) (loc[n + 1]?).join (loc[n]?).join).map (unS k) := by
    rw [List.map_map]
    congr 1
    funext n
    simp only [Function.comp]
    split <;> rfl
  rw [hd]
  generalize ((List.range (g.length - 1)).map fun n =>
      if hasB (g.getD (n + 1) 0) fl.jump then none else o2 (· - ·) (loc[n + 1]?).join (loc[n]?).join) = diffs
  have h1 : ((diffs.map (unS k)).all fun d => d.isNone) = diffs.all fun d => d.isNone := by
    rw [List.all_map]
    congr 1
    funext x
    cases x <;> rfl
  have h2 : (unS k (loc[0]?).join).isSome = (loc[0]?).join.isSome := by
    cases (loc[0]?).join <;> rfl
  rw [h1, h2]
  split
  · rw [List.map_set]
  · rfl

theorem un_medianRate {k : α} (hk : 0 < k) (fl : Flags) (cfg : Cfg α) (ng : Nat) (ints : List (Integ α)) :
    medianRate fl cfg ng (ints.map (unInteg k)) = unS k (medianRate fl cfg ng ints) := by
  simp only [medianRate, List.length_map]
  split
  · have : ∀ (l : List (Integ α)) (z : Option α),
        (l.map (unInteg k)).foldl (fun acc i => o2 (· + ·) acc (((i.data[0]?).join).map fun d => d / cfg.oneGroupTime)) (unS k z)
        = unS k (l.foldl (fun acc i => o2 (· + ·) acc (((i.data[0]?).join).map fun d => d / cfg.oneGroupTime)) z) := by
      intro l
      induction l with
      | nil => intro z; rfl
      | cons a l ih =>
        intro z
        rw [List.map_cons, List.foldl_cons, List.foldl_cons, ← ih]
        simp only [unInteg, un_get, un_div, un_add]
    have h0 := this ints (some 0)
    rw [show unS k (some (0 : α)) = some 0 by simp [unS]] at h0
    rw [h0, un_div]
  · have h0 : unS k (some ((ints.map fun i => ((if i.is0th then ((i.data[0]?).join).map fun d => d / cfg.oneGroupTime
        else if i.isZframe then ((i.data[0]?).join).map fun d => d / cfg.frameTime
        else medianInteg fl cfg i.data i.gdq).getD 0)).sum / (ints.length : α)))
        = some ((k * (ints.map fun i => ((if i.is0th then ((i.data[0]?).join).map fun d => d / cfg.oneGroupTime
        else if i.isZframe then ((i.data[0]?).join).map fun d => d / cfg.frameTime
        else medianInteg fl cfg i.data i.gdq).getD 0)).sum) / (ints.length : α)) := by
      simp [unS, mul_div_assoc]
    rw [h0, ← List.sum_map_mul_left, List.map_map]
    congr 4
    funext i
    simp only [Function.comp, unInteg, un_get, un_div, un_medianInteg hk]
    have : ∀ x : Option α, (unS k x).getD 0 = k * x.getD 0 := by intro x; cases x <;> simp [unS]
    rw [← this]
    congr 1
    split
    · rfl
    split <;> rfl

/-- The sums over the segments in the new unit. -/
def unAcc (k : α) (a : Acc α) : Acc α := ⟨a.invR / k ^ 2, a.invP / k ^ 2, a.invE / k ^ 2, a.num.map fun x => x / k⟩

theorem un_accSegs {k : α} (hk : 0 < k) (fits : List (SegFit α)) : accSegs (fits.map (unFit k)) = unAcc k (accSegs fits) := by
  have hk2 : (0 : α) < k ^ 2 := by positivity
  have key : ∀ (l : List (SegFit α)) (a : Acc α),
      (l.map (unFit k)).foldl (fun (a : Acc α) (f : SegFit α) =>
        { invR := a.invR + 1 / f.varR
          invP := if 0 < f.varP then a.invP + 1 / f.varP else a.invP
          invE := a.invE + 1 / (f.varP + f.varR)
          num := o2 (· + ·) a.num (f.slope.map fun s => s / f.varR) }) (unAcc k a)
      = unAcc k (l.foldl (fun (a : Acc α) (f : SegFit α) =>
        { invR := a.invR + 1 / f.varR
          invP := if 0 < f.varP then a.invP + 1 / f.varP else a.invP
          invE := a.invE + 1 / (f.varP + f.varR)
          num := o2 (· + ·) a.num (f.slope.map fun s => s / f.varR) }) a) := by
    intro l
    induction l with
    | nil => intro a; rfl
    | cons f l ih =>
      intro a
      rw [List.map_cons, List.foldl_cons, List.foldl_cons, ← ih]
      congr 1
      have hinv : ∀ x : α, 1 / (k ^ 2 * x) = 1 / x / k ^ 2 := by
        intro x; rw [one_div, one_div, mul_inv, div_eq_mul_inv, mul_comm]
      simp only [unAcc]
      congr 1
      · rw [show (unFit k f).varR = k ^ 2 * f.varR from rfl, hinv, add_div]
      · by_cases hp : 0 < f.varP
        · rw [if_pos hp, if_pos (show 0 < (unFit k f).varP from mul_pos hk2 hp), show (unFit k f).varP = k ^ 2 * f.varP from rfl,
            hinv, add_div]
        · rw [if_neg hp, if_neg (show ¬ 0 < (unFit k f).varP from fun h => hp ((mul_pos_iff_of_pos_left hk2).1 h))]
      · rw [show (unFit k f).varR = k ^ 2 * f.varR from rfl, show (unFit k f).varP = k ^ 2 * f.varP from rfl, ← mul_add, hinv, add_div]
      · rw [show (unFit k f).varR = k ^ 2 * f.varR from rfl, show (unFit k f).slope = unS k f.slope from rfl]
        cases a.num <;> cases f.slope <;> simp [o2, unS]
        rename_i x y
        rw [add_div]
        congr 1
        rw [pow_two, mul_assoc, mul_div_mul_left _ _ hk.ne', mul_comm k, div_div]
  have h0 : unAcc k (⟨0, 0, 0, some 0⟩ : Acc α) = ⟨0, 0, 0, some 0⟩ := by simp [unAcc]
  have := key fits ⟨0, 0, 0, some 0⟩
  rw [h0] at this
  exact this

theorem un_thr {k : α} (v : α) (v' z z' : α) (hv : v' = k ^ 2 * v) (hz : z = if large ≤ v then 0 else v)
    (hz' : z' = if large ≤ v' then 0 else v') (h : z' = 0 ↔ z = 0) : z' = k ^ 2 * z := by
  subst hv hz hz'
  by_cases h1 : large ≤ v <;> by_cases h2 : large ≤ k ^ 2 * v
  · simp [h1, h2]
  · rw [if_pos h1, if_neg h2] at h ⊢
    simp [h.2 rfl]
  · rw [if_neg h1, if_pos h2] at h ⊢
    simp [h.1 rfl]
  · rw [if_neg h1, if_neg h2]

theorem un_inv {k : α} (x : α) : 1 / (x / k ^ 2) = k ^ 2 * (1 / x) := by
  rw [one_div_div, one_div, div_eq_mul_inv]

theorem un_num {k : α} (hk : 0 < k) (n : Option α) (v v' : α) (hv : v' = k ^ 2 * v) :
    (n.map fun x => x / k).map (fun n => n * v') = (n.map fun n => n * v).map fun x => k * x := by
  subst hv
  cases n with
  | none => rfl
  | some x =>
    simp only [Option.map_some, Option.some.injEq]
    field_simp

theorem un_combine_acc (fl : Flags) (cfg : Cfg α) (fits : List (SegFit α)) (dq : Nat) :
    (combineInteg fl cfg fits dq).2 = if fits.isEmpty then none else some (accSegs fits) := by
  simp only [combineInteg]
  split
  · rfl
  split <;> rfl

theorem un_combine {k : α} (hk : 0 < k) (fl : Flags) (cfg : Cfg α) (hsq : ∀ x, cfg.sqrt (k ^ 2 * x) = k * cfg.sqrt x)
    (fits : List (SegFit α)) (dq : Nat) :
    UnEntry k (combineInteg fl cfg fits dq).1 (combineInteg fl cfg (fits.map (unFit k)) dq).1 ∧
    UnErr k (combineInteg fl cfg fits dq).1 (combineInteg fl cfg (fits.map (unFit k)) dq).1 ∧
    (combineInteg fl cfg (fits.map (unFit k)) dq).2 = (combineInteg fl cfg fits dq).2.map (unAcc k) := by
  have hk2 : (0 : α) < k ^ 2 := by positivity
  simp only [combineInteg, List.isEmpty_map, un_accSegs hk]
  by_cases h0 : fits.isEmpty = true
  · simp [h0, UnEntry, UnErr]
  simp only [h0, Bool.false_eq_true, if_false]
  generalize accSegs fits = a
  have hp : (if 0 < (unAcc k a).invP then 1 / (unAcc k a).invP else 0) = k ^ 2 * if 0 < a.invP then 1 / a.invP else 0 := by
    have : 0 < (unAcc k a).invP ↔ 0 < a.invP := by
      change 0 < a.invP / k ^ 2 ↔ _
      rw [lt_div_iff₀ hk2, zero_mul]
    by_cases h : 0 < a.invP
    · rw [if_pos h, if_pos (this.2 h)]
      exact un_inv _
    · rw [if_neg h, if_neg fun h' => h (this.1 h'), mul_zero]
  have hr : 1 / (unAcc k a).invR = k ^ 2 * (1 / a.invR) := un_inv _
  by_cases hd : hasB dq (fl.dnu ||| fl.sat) = true
  · simp [hd, UnEntry, UnErr]
  have he : 1 / (unAcc k a).invE = k ^ 2 * (1 / a.invE) := un_inv _
  simp only [hd, Bool.false_eq_true, if_false, Option.map_some]
  refine ⟨⟨rfl, ?_, ?_⟩, ?_, trivial⟩
  · intro h
    have hv := un_thr _ _ _ _ hr rfl rfl h
    exact ⟨un_num hk _ _ _ hv, hv⟩
  · intro h
    exact un_thr _ _ _ _ hp rfl rfl h
  · simp only [UnErr, he, hsq]
    intro h
    by_cases h1 : large < 1 / a.invE <;> by_cases h2 : large < k ^ 2 * (1 / a.invE)
    · rw [if_pos h1, if_pos h2, mul_zero]
    · rw [if_pos h1, if_neg h2] at h ⊢
      rw [h.2 rfl, mul_zero]
    · rw [if_neg h1, if_pos h2] at h ⊢
      rw [h.1 rfl, mul_zero]
    · rw [if_neg h1, if_neg h2]

theorem un_fitInteg {k : α} (hk : 0 < k) (fl : Flags) (cfg : Cfg α) (hsq : ∀ x, cfg.sqrt (k ^ 2 * x) = k * cfg.sqrt x)
    (px : Pix α) (med : Option α) (ng : Nat) (i : Integ α) (dq : Nat) :
    UnEntry k (fitInteg fl cfg px med ng i dq).1 (fitInteg fl cfg (unPx k px) (unS k med) ng (unInteg k i) dq).1 ∧
    UnErr k (fitInteg fl cfg px med ng i dq).1 (fitInteg fl cfg (unPx k px) (unS k med) ng (unInteg k i) dq).1 ∧
    (fitInteg fl cfg (unPx k px) (unS k med) ng (unInteg k i) dq).2 = (fitInteg fl cfg px med ng i dq).2.map (unAcc k) := by
  have h0 : ∀ b : Bool, (if b then none else some (0 : α)) = (if b then none else some (0 : α)).map fun x => k * x := by
    intro b; cases b <;> simp
  by_cases hc : (ng : Int) = i.st.cntDnuSat
  · simp only [fitInteg]
    rw [if_pos hc, if_pos (show (ng : Int) = (unInteg k i).st.cntDnuSat from hc)]
    exact ⟨⟨rfl, fun _ => ⟨h0 _, (mul_zero _).symm⟩, fun _ => (mul_zero _).symm⟩, fun _ => (mul_zero _).symm, rfl⟩
  simp only [fitInteg]
  rw [if_neg hc, if_neg (show ¬ (ng : Int) = (unInteg k i).st.cntDnuSat from hc)]
  simp only [show (unInteg k i).gdq = i.gdq from rfl, show (unInteg k i).data = i.data.map (unS k) from rfl,
    show (unInteg k i).is0th = i.is0th from rfl, show (unInteg k i).isZframe = i.isZframe from rfl]
  have hf : ((fitSegs fl i.gdq).segs.map (fitSeg cfg (unPx k px) (unS k med) i.is0th i.isZframe fun n => ((i.data.map (unS k))[n]?).join))
      = ((fitSegs fl i.gdq).segs.map (fitSeg cfg px med i.is0th i.isZframe fun n => (i.data[n]?).join)).map (unFit k) := by
    rw [List.map_map]
    congr 1
    funext s
    simp only [un_get, Function.comp]
    exact un_fitSeg hk cfg px med _ _ (fun n => (i.data[n]?).join) s
  rw [hf]
  generalize (fitSegs fl i.gdq).segs.map (fitSeg cfg px med i.is0th i.isZframe fun n => (i.data[n]?).join) = fits
  have hcb := un_combine hk fl cfg hsq fits (if firstSat fl i.gdq then dq ||| fl.dnu ||| fl.sat else dq)
  rw [← and_assoc]
  refine ⟨?_, hcb.2.2⟩
  simp only [List.isEmpty_map]
  by_cases he : fits.isEmpty = true
  · rw [if_pos he, if_pos he]
    exact ⟨⟨hcb.1.1, fun h => ⟨h0 _, (hcb.1.2.1 h).2⟩, hcb.1.2.2⟩, hcb.2.1⟩
  · rw [if_neg he, if_neg he]
    exact ⟨hcb.1, hcb.2.1⟩

theorem un_rnoise_nonneg (px : Pix α) (n : Nat) (t : α) : 0 ≤ rnoiseVar px n t := by
  simp only [rnoiseVar]
  apply div_nonneg
  · rw [mul_assoc]
    exact mul_nonneg (by norm_num) (mul_self_nonneg _)
  · rw [mul_assoc]
    refine mul_nonneg ?_ (mul_self_nonneg _)
    have h : (n : α) ≤ (n : α) * n * n := by
      have : n ≤ n * n * n := by
        rcases Nat.eq_zero_or_pos n with rfl | h
        · simp
        · calc n = n * 1 * 1 := by simp
            _ ≤ n * n * n := Nat.mul_le_mul (Nat.mul_le_mul_left _ h) h
      exact_mod_cast this
    linarith

theorem un_acc_nonneg (cfg : Cfg α) (px : Pix α) (med : Option α) (a b : Bool) (data : Nat → Option α) (l : List Seg) :
    0 ≤ (accSegs (l.map (fitSeg cfg px med a b data))).invR := by
  have hs : ∀ s, 0 ≤ (fitSeg cfg px med a b data s).varR := by
    intro s
    simp only [fitSeg]
    split
    · exact un_rnoise_nonneg _ _ _
    split
    · exact un_rnoise_nonneg _ _ _
    · dsimp only
      split
      · exact le_rfl
      · exact un_rnoise_nonneg _ _ _
  have : ∀ (l : List Seg) (z : Acc α), 0 ≤ z.invR → 0 ≤ ((l.map (fitSeg cfg px med a b data)).foldl (fun (a : Acc α) (f : SegFit α) =>
        { invR := a.invR + 1 / f.varR
          invP := if 0 < f.varP then a.invP + 1 / f.varP else a.invP
          invE := a.invE + 1 / (f.varP + f.varR)
          num := o2 (· + ·) a.num (f.slope.map fun s => s / f.varR) }) z).invR := by
    intro l
    induction l with
    | nil => intro z h; exact h
    | cons s l ih =>
      intro z h
      rw [List.map_cons, List.foldl_cons]
      apply ih
      exact add_nonneg h (one_div_nonneg.2 (hs s))
  exact this l _ le_rfl

theorem un_fit_acc (fl : Flags) (cfg : Cfg α) (px : Pix α) (med : Option α) (ng : Nat) (i : Integ α) (dq : Nat) (a : Acc α)
    (h : (fitInteg fl cfg px med ng i dq).2 = some a) : 0 ≤ a.invR := by
  simp only [fitInteg] at h
  split at h
  · simp at h
  · rw [un_combine_acc] at h
    split at h
    · simp at h
    · simp only [Option.some.injEq] at h
      rw [← h]
      exact un_acc_nonneg _ _ _ _ _ _ _

theorem un_post {k : α} (fl : Flags) (i : Integ α) (r r' : Rate α) (h : UnEntry k r r') (he : UnErr k r r') :
    UnEntry k (postInteg fl i r).1 (postInteg fl (unInteg k i) r').1 ∧
    UnErr k (postInteg fl i r).1 (postInteg fl (unInteg k i) r').1 ∧ (postInteg fl (unInteg k i) r').2 = (postInteg fl i r).2 := by
  obtain ⟨h1, h2, h3⟩ := h
  simp only [postInteg, unInteg, h1, and_true]
  refine ⟨⟨rfl, fun h => ⟨?_, (h2 h).2⟩, h3⟩, he⟩
  dsimp only
  split
  · rfl
  · exact (h2 h).1

theorem un_pixelInts {k : α} (hk : 0 < k) (fl : Flags) (cfg : Cfg α) (hsq : ∀ x, cfg.sqrt (k ^ 2 * x) = k * cfg.sqrt x)
    (ng : Nat) (p : PixIn α) :
    List.Forall₂ (fun q q' => q'.1.st = q.1.st ∧ (UnEntry k q.2.1.1 q'.2.1.1 ∧ UnErr k q.2.1.1 q'.2.1.1) ∧ q'.2.1.2 = q.2.1.2 ∧
      q'.2.2 = q.2.2.map (unAcc k) ∧ ∀ a, q.2.2 = some a → 0 ≤ a.invR)
      (pixelInts fl cfg ng p) (pixelInts fl cfg ng (unIn k p)) := by
  have hl : loadPixel fl cfg (unIn k p) = (loadPixel fl cfg p).map (unInteg k) := by
    simp only [loadPixel, unIn, List.map_map]
    congr 1
    funext i
    exact un_load hk fl cfg.suppress1g i.1 i.2.1 i.2.2
  simp only [pixelInts, hl, un_medianRate hk]
  rw [List.map_map, List.forall₂_map_left_iff, List.forall₂_map_right_iff, List.forall₂_same]
  intro i _
  have hf := un_fitInteg hk fl cfg hsq p.px (medianRate fl cfg ng (loadPixel fl cfg p)) ng i (metaDq fl p ||| statBits fl i.st)
  have hp := un_post fl i _ _ hf.1 hf.2.1
  exact ⟨rfl, ⟨hp.1, hp.2.1⟩, hp.2.2, hf.2.2, fun a ha => un_fit_acc _ _ _ _ _ _ _ a ha⟩

/-! ## The pixel -/

/-- Sums over related lists. -/
theorem un_fold {β γ : Type*} {R : β → γ → Prop} {δ : Type*} (f : δ → β → δ) (f' : δ → γ → δ) (h : ∀ s b c, R b c → f' s c = f s b)
    {l : List β} {l' : List γ} (hl : List.Forall₂ R l l') (s : δ) : l'.foldl f' s = l.foldl f s := by
  induction hl generalizing s with
  | nil => rfl
  | cons hbc _ ih => rw [List.foldl_cons, List.foldl_cons, h s _ _ hbc, ih]

theorem un_countP {β γ : Type*} {R : β → γ → Prop} (f : β → Bool) (f' : γ → Bool) (h : ∀ b c, R b c → f' c = f b)
    {l : List β} {l' : List γ} (hl : List.Forall₂ R l l') : l'.countP f' = l.countP f := by
  induction hl with
  | nil => rfl
  | cons hbc _ ih => rw [List.countP_cons, List.countP_cons, ih, h _ _ hbc]

theorem un_any {β γ : Type*} {R : β → γ → Prop} (f : β → Bool) (f' : γ → Bool) (h : ∀ b c, R b c → f' c = f b)
    {l : List β} {l' : List γ} (hl : List.Forall₂ R l l') : l'.any f' = l.any f := by
  induction hl with
  | nil => rfl
  | cons hbc _ ih => rw [List.any_cons, List.any_cons, ih, h _ _ hbc]

theorem un_mem {β γ : Type*} {R : β → γ → Prop} {P : β → Prop} (h : ∀ b c, R b c → P b)
    {l : List β} {l' : List γ} (hl : List.Forall₂ R l l') : ∀ b ∈ l, P b := by
  induction hl with
  | nil => simp
  | cons hbc _ ih =>
    intro b hb
    rcases List.mem_cons.1 hb with rfl | hb
    · exact h _ _ hbc
    · exact ih b hb

theorem un_filterMap {β γ δ ε : Type*} {R : β → γ → Prop} (u : δ → ε) (f : β → Option δ) (f' : γ → Option ε)
    (h : ∀ b c, R b c → f' c = (f b).map u) {l : List β} {l' : List γ} (hl : List.Forall₂ R l l') :
    l'.filterMap f' = (l.filterMap f).map u := by
  induction hl with
  | nil => rfl
  | cons hbc _ ih =>
    rw [List.filterMap_cons, List.filterMap_cons, h _ _ hbc]
    cases f _ with
    | none => exact ih
    | some x => simp only [Option.map_some, List.map_cons, ih]

/-- C149.  Fitting the pixel with its data in another unit gives every rateints entry and the rate in that unit: the same DQ, rates
and errors `k` times and variances `k²` times as large - except where one of the two fits has set a variance to zero. -/
theorem C149_unit (fl : Flags) (cfg : Cfg α) (ng : Nat) (p : PixIn α) (k : α) (hk : 0 < k)
    (hsq : ∀ x, cfg.sqrt (k ^ 2 * x) = k * cfg.sqrt x) :
    List.Forall₂ (fun r r' => UnEntry k r r' ∧ UnErr k r r') (fitPixel fl cfg ng p).1 (fitPixel fl cfg ng (unIn k p)).1 ∧
    UnEntry k (fitPixel fl cfg ng p).2 (fitPixel fl cfg ng (unIn k p)).2 ∧
    (((fitPixel fl cfg ng (unIn k p)).2.varR = 0 ↔ (fitPixel fl cfg ng p).2.varR = 0) →
      ((fitPixel fl cfg ng (unIn k p)).2.varP = 0 ↔ (fitPixel fl cfg ng p).2.varP = 0) →
      (fitPixel fl cfg ng (unIn k p)).2.varErr = k * (fitPixel fl cfg ng p).2.varErr) := by
  have hk2 : (0 : α) < k ^ 2 := by positivity
  have hr := un_pixelInts hk fl cfg hsq ng p
  simp only [fitPixel]
  have hm : metaDq fl (unIn k p) = metaDq fl p := rfl
  rw [hm]
  generalize pixelInts fl cfg ng p = rs at hr
  generalize pixelInts fl cfg ng (unIn k p) = rs' at hr
  have e1 := hr.length_eq
  have e2 := un_countP (fun r => r.2.1.2.1) (fun r => r.2.1.2.1) (fun b c h => by rw [h.2.2.1]) hr
  have e3 := un_countP (fun r => r.2.1.2.2) (fun r => r.2.1.2.2) (fun b c h => by rw [h.2.2.1]) hr
  have e4 := fun z => un_fold (fun acc r => acc ||| statBits fl r.1.st) (fun acc r => acc ||| statBits fl r.1.st)
    (fun s b c h => by rw [h.1]) hr z
  have e5 := un_any (fun r => decide (0 < r.1.st.cntSat)) (fun r => decide (0 < r.1.st.cntSat)) (fun b c h => by rw [h.1]) hr
  have e6 := un_filterMap (unAcc k) (fun r => r.2.2) (fun r => r.2.2) (fun b c h => h.2.2.2.1) hr
  have hnn : ∀ a ∈ rs.filterMap (fun r => r.2.2), 0 ≤ a.invR := by
    intro a ha
    obtain ⟨q, hq, hqa⟩ := List.mem_filterMap.1 ha
    exact un_mem (fun _ _ h => h.2.2.2.2) hr q hq a hqa
  rw [e2, e3, e4, e5, e6, ← e1]
  generalize rs.filterMap (fun r => r.2.2) = accs at hnn
  have eR : ((accs.map (unAcc k)).map fun a => a.invR).sum = (accs.map fun a => a.invR).sum / k ^ 2 := by
    rw [List.map_map, div_eq_mul_inv, ← List.sum_map_mul_right]
    congr 2
    funext a
    exact div_eq_mul_inv _ _
  have eP : ((accs.map (unAcc k)).map fun a => if 0 < a.invP then a.invP else 0).sum
      = (accs.map fun a => if 0 < a.invP then a.invP else 0).sum / k ^ 2 := by
    rw [List.map_map, div_eq_mul_inv, ← List.sum_map_mul_right]
    congr 2
    funext a
    have : 0 < (unAcc k a).invP ↔ 0 < a.invP := by
      change 0 < a.invP / k ^ 2 ↔ _
      rw [lt_div_iff₀ hk2, zero_mul]
    simp only [Function.comp]
    by_cases h : 0 < a.invP
    · rw [if_pos h, if_pos (this.2 h)]
      exact div_eq_mul_inv _ _
    · rw [if_neg h, if_neg fun h' => h (this.1 h'), zero_mul]
  have eN : (accs.map (unAcc k)).foldl (fun s a => o2 (· + ·) s a.num) (some 0)
      = (accs.foldl (fun s a => o2 (· + ·) s a.num) (some 0)).map fun x => x / k := by
    have : ∀ (l : List (Acc α)) (z : Option α), (l.map (unAcc k)).foldl (fun s a => o2 (· + ·) s a.num) (z.map fun x => x / k)
        = (l.foldl (fun s a => o2 (· + ·) s a.num) z).map fun x => x / k := by
      intro l
      induction l with
      | nil => intro z; rfl
      | cons a l ih =>
        intro z
        rw [List.map_cons, List.foldl_cons, List.foldl_cons, ← ih]
        congr 1
        simp only [unAcc]
        cases z <;> cases a.num <;> simp [o2, add_div]
    simpa using this accs (some 0)
  have hRnn : 0 ≤ (accs.map fun a => a.invR).sum := by
    apply List.sum_nonneg
    intro x hx
    obtain ⟨a, ha, rfl⟩ := List.mem_map.1 hx
    exact hnn a ha
  have hPnn : 0 ≤ (accs.map fun a => if 0 < a.invP then a.invP else 0).sum := by
    apply List.sum_nonneg
    intro x hx
    obtain ⟨a, _, rfl⟩ := List.mem_map.1 hx
    split
    · exact le_of_lt ‹_›
    · exact le_rfl
  rw [eR, eP, eN]
  generalize (accs.map fun a => a.invR).sum = sR at hRnn
  generalize (accs.map fun a => if 0 < a.invP then a.invP else 0).sum = sP at hPnn
  generalize accs.foldl (fun s a => o2 (· + ·) s a.num) (some 0) = num
  have hv : ∀ x : α, 0 ≤ x → (if 0 < x / k ^ 2 then 1 / (x / k ^ 2) else x / k ^ 2) = k ^ 2 * if 0 < x then 1 / x else x := by
    intro x hx
    have : 0 < x / k ^ 2 ↔ 0 < x := by rw [lt_div_iff₀ hk2, zero_mul]
    by_cases h : 0 < x
    · rw [if_pos h, if_pos (this.2 h), un_inv]
    · rw [if_neg h, if_neg fun h' => h (this.1 h')]
      have : x = 0 := le_antisymm (not_lt.1 h) hx
      simp [this]
  have hnv : ∀ x : α, 0 ≤ x → ¬ (if 0 < x then 1 / x else x) < 0 := by
    intro x hx
    split
    · exact not_lt.2 (one_div_nonneg.2 hx)
    · exact not_lt.2 hx
  have hnv' : ¬ (k ^ 2 * if 0 < sP then 1 / sP else sP) < 0 := by
    refine not_lt.2 (mul_nonneg hk2.le (not_lt.1 (hnv sP hPnn)))
  rw [hv sR hRnn, hv sP hPnn]
  simp only [hnv sP hPnn, hnv', or_false]
  generalize (if 0 < sR then 1 / sR else sR) = vr
  generalize (if 0 < sP then 1 / sP else sP) = vp
  refine ⟨?_, ?_⟩
  · rw [List.forall₂_map_left_iff, List.forall₂_map_right_iff]
    exact hr.imp fun _ _ h => h.2.1
  generalize (if List.countP (fun r => r.2.1.2.2) rs = rs.length then _ else _ : Nat) = dq2
  by_cases hi : hasB dq2 (fl.dnu ||| fl.sat) = true
  · simp [hi, UnEntry]
  simp only [hi, Bool.false_eq_true, if_false]
  refine ⟨⟨rfl, ?_, ?_⟩, ?_⟩
  · intro h
    have hv := un_thr _ _ _ _ rfl rfl rfl h
    exact ⟨un_num hk _ _ _ hv, hv⟩
  · intro h
    exact un_thr _ _ _ _ rfl rfl rfl h
  · intro h1 h2
    rw [un_thr _ _ _ _ rfl rfl rfl h1, un_thr _ _ _ _ rfl rfl rfl h2, ← mul_add, hsq]

end

/-- Finding (slope_fitter.c:61, 3136-3143, 3153).  A read-noise variance of 10⁶ or more is replaced by zero, and the rate is a sum
times that variance: the same pixel has the rate 7/22 in its unit, and in a unit a hundred thousand times smaller the rate zero. -/
theorem C149_threshold :
    (fitPixel exFlags exCfg 4 exPixel).2.slope = some (7 / 22) ∧
    (fitPixel exFlags exCfg 4 (unIn 100000 exPixel)).2.slope = some 0 ∧
    (fitPixel exFlags exCfg 4 (unIn 1000 exPixel)).2.slope = some (7000 / 22) := by decide +kernel

/-! ## Examples -/

/-- The square root meets the hypothesis. -/
example (k x : ℝ) (hk : 0 < k) : Real.sqrt (k ^ 2 * x) = k * Real.sqrt x := by
  rw [Real.sqrt_mul (by positivity), Real.sqrt_sq hk.le]

/-- A unit in which no variance is set to zero. -/
example : (fitPixel exFlags exCfg 4 exPixel).2.varR ≠ 0 ∧ (fitPixel exFlags exCfg 4 exPixel).2.varP ≠ 0 ∧
    (fitPixel exFlags exCfg 4 (unIn 1000 exPixel)).2.varR = 1000000 * (fitPixel exFlags exCfg 4 exPixel).2.varR ∧
    (fitPixel exFlags exCfg 4 (unIn 1000 exPixel)).2.varP = 1000000 * (fitPixel exFlags exCfg 4 exPixel).2.varP ∧
    (fitPixel exFlags exCfg 4 exPixel).2.varR ≠ (fitPixel exFlags exCfg 4 exPixel).2.varP := by decide +kernel

end Verif.Thm
