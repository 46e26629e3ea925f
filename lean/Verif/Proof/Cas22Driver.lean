import Verif.Model.Cas22Driver
import Verif.Proof.Cas22
import Mathlib.Tactic.Ring

/-! # Casertano+22 ramp fitting: auxiliary facts on tables and drivers -/

namespace Verif.Cas22Driver

set_option linter.unusedSectionVars false

open Verif.Cas22

/-- The loop only asks about ramps that satisfy a property kept by splitting. -/
theorem runLoop_congr (P : Ramp → Prop) (det det' : Ramp → Option Nat) (h : ∀ r, P r → det r = det' r)
    (hs : ∀ r a, P r → det' r = some a → (0 < a → P ⟨r.start, a + r.start - 1⟩)
      ∧ (a + r.start + 1 < r.stop → P ⟨a + r.start + 2, r.stop⟩)) (fuel : Nat) :
    ∀ s : Loop, (∀ r ∈ s.stack, P r) → runLoop det fuel s = runLoop det' fuel s := by
  induction fuel with
  | zero =>
    rintro ⟨st, dq, done⟩ -
    cases st <;> simp only [runLoop]
  | succ f ih =>
    rintro ⟨st, dq, done⟩ hP
    cases st with
    | nil => simp only [runLoop]
    | cons r rest =>
      have hr := hP r (by simp)
      have hrest : ∀ q ∈ rest, P q := fun q hq => hP q (by simp [hq])
      have e : loopBody det dq done r rest = loopBody det' dq done r rest := by simp only [loopBody, h r hr]
      simp only [runLoop]
      rw [e]
      refine ih _ ?_
      simp only [loopBody]
      cases hd : det' r with
      | none => exact hrest
      | some a =>
        obtain ⟨h1, h2⟩ := hs r a hr hd
        intro q hq
        simp only at hq
        have hq1 : q ∈ (if a + r.start > r.start then (⟨r.start, a + r.start - 1⟩ : Ramp) :: rest else rest) → P q := by
          intro hq
          split at hq
          · rcases List.mem_cons.1 hq with rfl | hq
            · exact h1 (by omega)
            · exact hrest q hq
          · exact hrest q hq
        split at hq
        · rcases List.mem_cons.1 hq with rfl | hq
          · exact h2 (by omega)
          · exact hq1 hq
        · exact hq1 hq

section
variable {α : Type*} [Field α] [LinearOrder α]

/-- Contents of the table of fixed values. -/
def fixedVal (tbar tau : Nat → α) (nreads : Nat → Nat) (n : Nat) (e : Entry) (d : Bool) (i : Nat) : Option α :=
  let j := if d then i + 2 else i + 1
  if j < n then some (match e with
    | .diff => tbar j - tbar i
    | .diffSqr => (tbar j - tbar i) ^ 2
    | .recip => 1 / (nreads j : α) + 1 / (nreads i : α)
    | .varSlope => tau j + tau i - 2 * min (tbar j) (tbar i)) else none

theorem fixedStep_eq (tbar tau : Nat → α) (nreads : Nat → Nat) (n : Nat) (f : Fixed α) (i : Nat) (hi : i < n - 1)
    (e : Entry) (d : Bool) (k : Nat) :
    fixedStep tbar tau nreads n f i e d k = if k = i then fixedVal tbar tau nreads n e d i else f e d k := by
  have h1 : i + 1 < n := by omega
  by_cases hk : k = i
  · subst hk
    by_cases h2 : k + 2 < n <;> cases e <;> cases d <;> simp [fixedStep, put, fixedVal, h1, h2]
  · by_cases h2 : i + 2 < n <;> cases e <;> cases d <;> simp [fixedStep, put, h2, hk]

theorem fillFixed_eq (tbar tau : Nat → α) (nreads : Nat → Nat) (n : Nat) (f : Fixed α) (e : Entry) (d : Bool) (k : Nat) :
    fillFixed tbar tau nreads n f e d k = if k < n - 1 then fixedVal tbar tau nreads n e d k else f e d k := by
  have key : ∀ m, m ≤ n - 1 → ∀ e d k, (List.range m).foldl (fixedStep tbar tau nreads n) f e d k
      = if k < m then fixedVal tbar tau nreads n e d k else f e d k := by
    intro m
    induction m with
    | zero => intro _ e d k; simp
    | succ m ih =>
      intro hm e d k
      rw [List.range_succ, List.foldl_append, List.foldl_cons, List.foldl_nil, fixedStep_eq _ _ _ _ _ _ (by omega),
        ih (by omega)]
      by_cases hk : k = m
      · subst hk; simp
      · rw [if_neg hk]
        by_cases h : k < m
        · rw [if_pos h, if_pos (by omega)]
        · rw [if_neg h, if_neg (by omega)]
  exact key (n - 1) le_rfl e d k

/-- Contents of the table of pixel values. -/
def pixelVal (res : Nat → α) (fixed : Fixed α) (rn : α) (n : Nat) (e : PEntry) (d : Bool) (i : Nat) : Option α :=
  let j := if d then i + 2 else i + 1
  if j < n then (match e with
    | .slope => (fixed .diff d i).map fun t => (res j - res i) / t
    | .var => (fixed .recip d i).map fun r => rn ^ 2 * r) else none

theorem pixelStep_eq (res : Nat → α) (fixed : Fixed α) (rn : α) (n : Nat) (s : Scratch α) (i : Nat) (hi : i < n - 1)
    (e : PEntry) (d : Bool) (k : Nat) :
    pixelStep res fixed rn n s i e d k = if k = i then pixelVal res fixed rn n e d i else s e d k := by
  have h1 : i + 1 < n := by omega
  by_cases hk : k = i
  · subst hk
    by_cases h2 : k + 2 < n <;> cases e <;> cases d <;> simp [pixelStep, put, pixelVal, h1, h2]
  · by_cases h2 : i + 2 < n <;> cases e <;> cases d <;> simp [pixelStep, put, h2, hk]

theorem fillPixel_eq (res : Nat → α) (fixed : Fixed α) (rn : α) (n : Nat) (s : Scratch α) (e : PEntry) (d : Bool) (k : Nat) :
    fillPixel res fixed rn n s e d k = if k < n - 1 then pixelVal res fixed rn n e d k else s e d k := by
  have key : ∀ m, m ≤ n - 1 → ∀ e d k, (List.range m).foldl (pixelStep res fixed rn n) s e d k
      = if k < m then pixelVal res fixed rn n e d k else s e d k := by
    intro m
    induction m with
    | zero => intro _ e d k; simp
    | succ m ih =>
      intro hm e d k
      rw [List.range_succ, List.foldl_append, List.foldl_cons, List.foldl_nil, pixelStep_eq _ _ _ _ _ _ (by omega),
        ih (by omega)]
      by_cases hk : k = m
      · subst hk; simp
      · rw [if_neg hk]
        by_cases h : k < m
        · rw [if_pos h, if_pos (by omega)]
        · rw [if_neg h, if_neg (by omega)]
  exact key (n - 1) le_rfl e d k

/-- A statistic from the tables is the statistic of the difference. -/
theorem statAt_eq (cfg : Cfg α) (p : Pix α) (n : Nat) (f0 : Fixed α) (s0 : Scratch α) (r : Ramp) (slope : α) (d : Bool)
    (i : Nat) (h : (if d then i + 2 else i + 1) < n) :
    statAt cfg.sqrt (fillPixel p.res (fillFixed p.tbar p.tau p.nreads n f0) p.readNoise n s0)
      (fillFixed p.tbar p.tau p.nreads n f0) slope (correction p.tbar r slope) d i
      = stat cfg p r slope i (if d then 2 else 1) := by
  have hi : i < n - 1 := by cases d <;> simp at h <;> omega
  cases d <;> simp only [Bool.false_eq_true, if_false, if_true] at h <;>
    simp only [statAt, statOf, stat, fillPixel_eq, fillFixed_eq, pixelVal, fixedVal, hi, h, correction, pow_two, if_true,
      if_false, Bool.false_eq_true, Option.map_some] <;> rfl

theorem foldl_maxStep_congr (f g : Nat → Ext α) (l : List Nat) (h : ∀ k ∈ l, f k = g k) (a : Nat × Ext α) :
    l.foldl (maxStep f) a = l.foldl (maxStep g) a := by
  induction l generalizing a with
  | nil => rfl
  | cons k t ih =>
    rw [List.foldl_cons, List.foldl_cons, ih fun q hq => h q (by simp [hq])]
    simp only [maxStep, h k (by simp)]

theorem detectT_eq (cfg : Cfg α) (p : Pix α) (n : Nat) (f0 : Fixed α) (s0 : Scratch α) (r : Ramp) (h1 : r.start ≤ r.stop)
    (h2 : r.stop < n) :
    detectT cfg p (fillPixel p.res (fillFixed p.tbar p.tau p.nreads n f0) p.readNoise n s0)
      (fillFixed p.tbar p.tau p.nreads n f0) r = detect cfg p r := by
  have key : ∀ slope, fitStatisticT cfg.sqrt (fillPixel p.res (fillFixed p.tbar p.tau p.nreads n f0) p.readNoise n s0)
      (fillFixed p.tbar p.tau p.nreads n f0) p.tbar slope r = fitStatistic cfg p r slope := by
    intro slope
    simp only [fitStatisticT, fitStatistic]
    by_cases he : r.start = r.stop
    · rw [if_pos he, if_pos he]
    · rw [if_neg he, if_neg he]
      have e0 := statAt_eq cfg p n f0 s0 r slope false (r.stop - 1) (by simp; omega)
      simp only [Bool.false_eq_true, if_false] at e0
      rw [e0]
      refine foldl_maxStep_congr _ _ _ (fun k hk => ?_) _
      rw [List.mem_range] at hk
      have e1 := statAt_eq cfg p n f0 s0 r slope false (r.start + k) (by simp; omega)
      have e2 := statAt_eq cfg p n f0 s0 r slope true (r.start + k) (by simp; omega)
      simp only [Bool.false_eq_true, if_false, if_true] at e1 e2
      rw [e1, e2, stat2]
  simp only [detectT, detect]
  cases fitRamp cfg p r with
  | none => rfl
  | some f => simp only [key]

end

end Verif.Cas22Driver
