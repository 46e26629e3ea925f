import Verif.Thm.OlsPixel
import Verif.Thm.OlsVar
import Verif.Thm.LikelyImage

/-!
# Exposures of equal integrations, and of one integration: property C174
-/

set_option linter.unusedSectionVars false

namespace Verif.Thm

open Verif.Dq Verif.Ols

section
variable {α : Type*} [Field α] [LinearOrder α] [IsStrictOrderedRing α]

/-- The pixel `p` with `n` copies of the integration `e` instead of its own ones. -/
def siCopies (p : PixIn α) (e : List (Option α) × List Nat × Option (Option α)) (n : Nat) : PixIn α :=
  { p with ints := List.replicate n e }

theorem si_sum_replicate (n : Nat) (x : α) : (List.replicate n x).sum = (n : α) * x := by
  rw [List.sum_replicate, nsmul_eq_mul]

theorem si_foldl_or (n : Nat) (hn : 0 < n) (a b : Nat) : (List.replicate n b).foldl (fun acc r => acc ||| r) a = a ||| b := by
  induction n generalizing a with
  | zero => omega
  | succ n ih =>
    rw [List.replicate_succ, List.foldl_cons]
    rcases Nat.eq_zero_or_pos n with rfl | h
    · rfl
    · rw [ih h, Nat.or_assoc, Nat.or_self]

theorem si_foldl_num (n : Nat) (s v : α) :
    (List.replicate n (some v)).foldl (fun t (x : Option α) => o2 (· + ·) t x) (some s) = some (s + (n : α) * v) := by
  induction n generalizing s with
  | zero => simp
  | succ n ih =>
    rw [List.replicate_succ, List.foldl_cons]
    show List.foldl _ (some (s + v)) _ = _
    rw [ih]
    push_cast
    congr 1
    ring

theorem si_foldl_none (n : Nat) :
    (List.replicate n (none : Option α)).foldl (fun t (x : Option α) => o2 (· + ·) t x) none = none := by
  induction n with
  | zero => rfl
  | succ n ih => rw [List.replicate_succ, List.foldl_cons]; exact ih

theorem si_foldl_nan (n : Nat) (hn : 0 < n) (s : Option α) :
    (List.replicate n (none : Option α)).foldl (fun t (x : Option α) => o2 (· + ·) t x) s = none := by
  cases n with
  | zero => omega
  | succ n =>
    rw [List.replicate_succ, List.foldl_cons]
    have : o2 (· + ·) s none = (none : Option α) := by cases s <;> rfl
    rw [this]; exact si_foldl_none n

/-- The result for one integration within an exposure of copies of it. -/
def siOne (fl : Flags) (cfg : Cfg α) (ngroups : Nat) (p : PixIn α) (i : Integ α) : Rate α × Option (Acc α) :=
  fitInteg fl cfg p.px (medianRate fl cfg ngroups [i]) ngroups i (metaDq fl p ||| statBits fl i.st)

/-- The exposure sums of `n` copies with contribution `a`. -/
def siSum (f : Acc α → α) (a : Option (Acc α)) : α := (a.map f).getD 0

theorem si_median (fl : Flags) (cfg : Cfg α) (ngroups n : Nat) (hn : 0 < n) (i : Integ α) :
    medianRate fl cfg ngroups (List.replicate n i) = medianRate fl cfg ngroups [i] := by
  have hn' : (n : α) ≠ 0 := by exact_mod_cast hn.ne'
  simp only [medianRate]
  split
  · have h : ∀ (k : Nat) (s : Option α) (F : Integ α → Option α),
        (List.replicate k i).foldl (fun acc i => o2 (· + ·) acc (F i)) s =
          (List.replicate k (F i)).foldl (fun acc x => o2 (· + ·) acc x) s := by
      intro k s F
      induction k generalizing s with
      | zero => rfl
      | succ k ih => rw [List.replicate_succ, List.replicate_succ, List.foldl_cons, List.foldl_cons]; exact ih _
    rw [h n (some 0) (fun i => ((i.data[0]?).join).map fun d => d / cfg.oneGroupTime)]
    cases hx : ((i.data[0]?).join).map fun d => d / cfg.oneGroupTime with
    | none => rw [si_foldl_nan n hn]; simpa [o2] using hx
    | some v =>
      rw [si_foldl_num]
      simpa [o2, hn'] using hx
  · rw [List.map_replicate, si_sum_replicate]
    simp [hn']

/-- What the fit gives for `n` copies, with `n` only as a factor of the sums. -/
theorem si_fit (fl : Flags) (cfg : Cfg α) (ngroups n : Nat) (hn : 0 < n) (p : PixIn α)
    (e : List (Option α) × List Nat × Option (Option α)) (i : Integ α) (hi : i = loadInteg fl cfg.suppress1g e.1 e.2.1 e.2.2)
    (r : Rate α × Option (Acc α)) (hr : r = siOne fl cfg ngroups p i) :
    fitPixel fl cfg ngroups (siCopies p e n) =
      let dq0 := metaDq fl p ||| statBits fl i.st
      let dq1 := if hasB r.1.dq fl.dnu then dq0 ||| fl.dnu else dq0
      let dq2 := if hasB r.1.dq fl.sat then dq1 ||| fl.sat else dq1
      let dq3 := if 0 < i.st.cntSat then dq2 ||| fl.sat else dq2
      let sumP := (n : α) * siSum (fun a => if 0 < a.invP then a.invP else 0) r.2
      let sumR := (n : α) * siSum (fun a => a.invR) r.2
      let vp0 := if 0 < sumP then 1 / sumP else sumP
      let vp := if large ≤ vp0 ∨ vp0 < 0 then 0 else vp0
      let vr0 := if 0 < sumR then 1 / sumR else sumR
      let vr := if large ≤ vr0 then 0 else vr0
      (List.replicate n (postInteg fl i r.1).1,
        if hasB dq2 (fl.dnu ||| fl.sat) then ⟨none, 0, 0, 0, dq3⟩
        else ⟨((r.2.map fun a => a.num).getD (some 0)).map fun v => (n : α) * v * vr, vp, vr, cfg.sqrt (vp + vr), dq3⟩) := by
  have hrs : pixelInts fl cfg ngroups (siCopies p e n) = List.replicate n (i, postInteg fl i r.1, r.2) := by
    have hl : loadPixel fl cfg (siCopies p e n) = List.replicate n i := by
      simp only [loadPixel, siCopies, List.map_replicate, hi]
    simp only [pixelInts, hl, si_median fl cfg ngroups n hn, List.map_replicate]
    rw [hr]
    rfl
  have hm : metaDq fl (siCopies p e n) = metaDq fl p := rfl
  have hcd : ∀ b : Bool, (n = (if b = true then n else 0)) = (b = true) := by
    intro b; cases b <;> simp; omega
  have hcs : ∀ b : Bool, ((if b = true then n else 0) = n) = (b = true) := by
    intro b; cases b <;> simp; omega
  have hany : ((List.replicate n (i, postInteg fl i r.1, r.2)).any fun r => decide (0 < r.1.st.cntSat)) = decide (0 < i.st.cntSat) := by
    rw [Bool.eq_iff_iff, List.any_eq_true]
    constructor
    · rintro ⟨x, hx, h⟩
      rw [List.eq_of_mem_replicate hx] at h; exact h
    · intro h
      exact ⟨_, List.mem_replicate.2 ⟨hn.ne', rfl⟩, h⟩
  have hor : (List.replicate n (i, postInteg fl i r.1, r.2)).foldl (fun acc r => acc ||| statBits fl r.1.st) (metaDq fl p) =
      metaDq fl p ||| statBits fl i.st := by
    rw [← si_foldl_or n hn, ← List.map_replicate (f := fun r : Integ α × (Rate α × Bool × Bool) × Option (Acc α) => statBits fl r.1.st)
      (a := (i, postInteg fl i r.1, r.2)), List.foldl_map]
  have hacc : (List.replicate n (i, postInteg fl i r.1, r.2)).filterMap (fun r => r.2.2) =
      (r.2.map fun a => List.replicate n a).getD [] := by
    cases h : r.2 with
    | none => simp
    | some a => simp
  simp only [fitPixel, hrs, hm, List.length_replicate, List.countP_replicate, hcd, hcs, hany, hor, hacc, List.map_replicate, decide_eq_true_eq]
  have h1 : (((r.2.map fun a => List.replicate n a).getD []).map fun a => if 0 < a.invP then a.invP else 0).sum =
      (n : α) * siSum (fun a => if 0 < a.invP then a.invP else 0) r.2 := by
    cases h : r.2 with
    | none => simp [siSum]
    | some a => simp only [siSum, Option.map_some, Option.getD_some, List.map_replicate, si_sum_replicate]
  have h2 : (((r.2.map fun a => List.replicate n a).getD []).map fun a => a.invR).sum = (n : α) * siSum (fun a => a.invR) r.2 := by
    cases h : r.2 with
    | none => simp [siSum]
    | some a => simp only [siSum, Option.map_some, Option.getD_some, List.map_replicate, si_sum_replicate]
  have h3 : ∀ v : α, ((((r.2.map fun a => List.replicate n a).getD []).foldl (fun s a => o2 (· + ·) s a.num) (some 0)).map fun x => x * v) =
      ((r.2.map fun a => a.num).getD (some 0)).map fun x => (n : α) * x * v := by
    intro v
    cases h : r.2 with
    | none => simp
    | some a =>
      simp only [Option.map_some, Option.getD_some]
      rw [show (List.replicate n a).foldl (fun s a => o2 (· + ·) s a.num) (some 0) =
        (List.replicate n a.num).foldl (fun s x => o2 (· + ·) s x) (some 0) by
          rw [← List.map_replicate (f := fun a : Acc α => a.num), List.foldl_map]]
      cases hnum : a.num with
      | none => rw [si_foldl_nan n hn]; rfl
      | some x => rw [si_foldl_num]; simp
  simp only [h1, h2, h3]
  rfl

/-- **C174** (copies).  An exposure of `n` equal integrations compared with the exposure of one of them: every rateints entry is the
same, the DQ is the same, and where the single exposure reports variances the rate is the same, the variances are those of the single
exposure divided by `n`, and the error is the root of their sum.  A variance that the single exposure does not report (zero) is not
reported either, unless it exceeds the cut-off divided by `n`. -/
theorem C174_copies (fl : Flags) (cfg : Cfg α) (ngroups n : Nat) (hn : 0 < n) (p : PixIn α)
    (e : List (Option α) × List Nat × Option (Option α)) :
    let one := fitPixel fl cfg ngroups (siCopies p e 1)
    let all := fitPixel fl cfg ngroups (siCopies p e n)
    (∃ x, one.1 = [x] ∧ all.1 = List.replicate n x) ∧ all.2.dq = one.2.dq ∧
    (0 < one.2.varR → all.2.slope = one.2.slope ∧ all.2.varR = one.2.varR / n ∧ all.2.varErr = cfg.sqrt (all.2.varP + all.2.varR)) ∧
    (0 < one.2.varP → all.2.varP = one.2.varP / n) ∧
    (one.2.varR = 0 → all.2.varR = 0 ∨ 1000000 / (n : α) ≤ all.2.varR) ∧
    (one.2.varP = 0 → all.2.varP = 0 ∨ 1000000 / (n : α) ≤ all.2.varP) ∧
    (one.2.slope = none ↔ all.2.slope = none) := by
  intro one all
  have hN : (0 : α) < n := by exact_mod_cast hn
  have hN1 : (1 : α) ≤ n := by exact_mod_cast hn
  have e1 := si_fit fl cfg ngroups 1 one_pos p e _ rfl _ rfl
  have e2 := si_fit fl cfg ngroups n hn p e _ rfl _ rfl
  have hone : one = fitPixel fl cfg ngroups (siCopies p e 1) := rfl
  have hall : all = fitPixel fl cfg ngroups (siCopies p e n) := rfl
  rw [e1] at hone
  rw [e2] at hall
  clear e1 e2
  clear_value one all
  set i := loadInteg fl cfg.suppress1g e.1 e.2.1 e.2.2
  set r := siOne fl cfg ngroups p i
  set P := siSum (fun a => if 0 < a.invP then a.invP else 0) r.2 with hP
  set R := siSum (fun a => a.invR) r.2
  have hP0 : 0 ≤ P := by
    rw [hP, siSum]
    cases r.2 with
    | none => simp
    | some a => simp only [Option.map_some, Option.getD_some]; split <;> [exact le_of_lt ‹_›; exact le_refl _]
  simp only [Nat.cast_one, one_mul] at hone
  dsimp only at hall
  generalize (if hasB r.1.dq fl.sat = true then
    (if hasB r.1.dq fl.dnu = true then metaDq fl p ||| statBits fl i.st ||| fl.dnu else metaDq fl p ||| statBits fl i.st) ||| fl.sat
    else if hasB r.1.dq fl.dnu = true then metaDq fl p ||| statBits fl i.st ||| fl.dnu else metaDq fl p ||| statBits fl i.st) = dq2 at hone hall
  subst hone hall
  have hL : (0 : α) < large := by norm_num [large]
  have cut : ∀ x : α, 0 < x → 0 < (if large ≤ 1 / x then 0 else 1 / x) →
      (if large ≤ 1 / ((n : α) * x) then 0 else 1 / ((n : α) * x)) = (if large ≤ 1 / x then 0 else 1 / x) / n := by
    intro x hx h
    by_cases hc : large ≤ 1 / x
    · rw [if_pos hc] at h; exact absurd h (lt_irrefl _)
    · have h1 : 1 / ((n : α) * x) = 1 / x / n := by field_simp
      have h2 : 1 / x / n ≤ 1 / x := div_le_self (by positivity) hN1
      rw [if_neg hc, h1, if_neg (by rw [not_le] at hc ⊢; exact lt_of_le_of_lt h2 hc)]
  have cut0 : ∀ x : α, 0 < x → (if large ≤ 1 / x then (0 : α) else 1 / x) = 0 →
      (if large ≤ 1 / ((n : α) * x) then (0 : α) else 1 / ((n : α) * x)) = 0 ∨
        1000000 / (n : α) ≤ (if large ≤ 1 / ((n : α) * x) then (0 : α) else 1 / ((n : α) * x)) := by
    intro x hx h
    by_cases hc : large ≤ 1 / x
    · by_cases hd : large ≤ 1 / ((n : α) * x)
      · rw [if_pos hd]; exact Or.inl rfl
      · rw [if_neg hd]
        right
        have h1 : 1 / ((n : α) * x) = 1 / x / n := by field_simp
        rw [h1]
        exact div_le_div_of_nonneg_right hc hN.le
    · rw [if_neg hc] at h
      have : 0 < 1 / x := by positivity
      exact absurd h this.ne'
  refine ⟨⟨_, rfl, rfl⟩, ?_, ?_⟩
  · dsimp only; split <;> rfl
  dsimp only
  split
  · refine ⟨fun h => absurd h (lt_irrefl _), fun h => absurd h (lt_irrefl _), fun _ => Or.inl rfl, fun _ => Or.inl rfl, Iff.rfl⟩
  · dsimp only
    refine ⟨?_, ?_, ?_, ?_, ?_⟩
    · intro h
      by_cases hR : 0 < R
      · have hnR : 0 < (n : α) * R := by positivity
        simp only [if_pos hR, if_pos hnR] at h ⊢
        rw [cut R hR h]
        refine ⟨?_, rfl, trivial⟩
        congr 1
        funext v
        field_simp
      · exfalso
        simp only [if_neg hR] at h
        split at h
        · exact lt_irrefl _ h
        · exact hR h
    · intro h
      by_cases hPp : 0 < P
      · have hnP : 0 < (n : α) * P := by positivity
        have q1 : ¬ 1 / P < 0 := not_lt.2 (by positivity)
        have q2 : ¬ 1 / ((n : α) * P) < 0 := not_lt.2 (by positivity)
        simp only [if_pos hPp, if_pos hnP, q1, q2, or_false] at h ⊢
        exact cut P hPp h
      · exfalso
        simp only [if_neg hPp] at h
        split at h
        · exact lt_irrefl _ h
        · exact hPp h
    · intro h
      rcases lt_trichotomy R 0 with hR | hR | hR
      · exfalso
        simp only [if_neg hR.not_gt] at h
        rw [if_neg (by rw [not_le]; exact hR.trans hL)] at h
        exact hR.ne h
      · simp [hR]
      · have hnR : 0 < (n : α) * R := by positivity
        simp only [if_pos hR, if_pos hnR] at h ⊢
        exact cut0 R hR h
    · intro h
      rcases hP0.eq_or_lt with hp | hp
      · simp [← hp]
      · have hnP : 0 < (n : α) * P := by positivity
        have q1 : ¬ 1 / P < 0 := not_lt.2 (by positivity)
        have q2 : ¬ 1 / ((n : α) * P) < 0 := not_lt.2 (by positivity)
        simp only [if_pos hp, if_pos hnP, q1, q2, or_false] at h ⊢
        exact cut0 P hp h
    · simp

/-! ## One integration -/

theorem si_hasB (d b : Nat) : hasB d (2 ^ b) = d.testBit b := by
  rw [Bool.eq_iff_iff, hasB_iff, has_iff]
  constructor
  · rintro ⟨i, h1, h2⟩
    rw [Nat.testBit_two_pow] at h2
    simp only [decide_eq_true_eq] at h2
    rw [h2]; exact h1
  · intro h
    exact ⟨b, h, by simp⟩

/-- The rate's DQ before the SATURATED flag of the groups, for a single integration whose DQ is `dq0` with fit flags `x`. -/
theorem si_dq (dq0 a b x : Nat) (hx : x = 0 ∨ x = 2 ^ a ∨ x = 2 ^ a ||| 2 ^ b) :
    (if hasB (dq0 ||| x) (2 ^ b) then (if hasB (dq0 ||| x) (2 ^ a) then dq0 ||| 2 ^ a else dq0) ||| 2 ^ b
      else if hasB (dq0 ||| x) (2 ^ a) then dq0 ||| 2 ^ a else dq0) = dq0 ||| x := by
  rw [si_hasB, si_hasB]
  apply Nat.eq_of_testBit_eq
  intro i
  by_cases h1 : a = i <;> by_cases h2 : b = i
  all_goals
    rcases hx with rfl | rfl | rfl <;> cases ha : dq0.testBit a <;> cases hb : dq0.testBit b <;>
      simp_all [Nat.testBit_or, Nat.testBit_two_pow] <;>
      (try split) <;> simp_all [Nat.testBit_or]

theorem si_varR_nonneg (cfg : Cfg α) (px : Pix α) (med : Option α) (z0 zf : Bool) (data : Nat → Option α) (s : Seg) :
    0 ≤ (fitSeg cfg px med z0 zf data s).varR := by
  have key : ∀ (n : Nat) (t : α), 0 ≤ rnoiseVar px n t := by
    intro n t
    rw [rnoiseVar]
    have h1 : (0 : α) ≤ (n : α) * n * n - n := by
      rcases Nat.eq_zero_or_pos n with rfl | h
      · simp
      · have : (1 : α) ≤ n := by exact_mod_cast h
        nlinarith [mul_nonneg (sub_nonneg.2 this) (by positivity : (0 : α) ≤ (n : α) * (n + 1))]
    have h2 : 12 * (px.rnoise / t) * (px.rnoise / t) = 12 * (px.rnoise / t) ^ 2 := by ring
    have h3 : ((n : α) * n * n - n) * px.gain * px.gain = ((n : α) * n * n - n) * px.gain ^ 2 := by ring
    rw [h2, h3]
    positivity
  simp only [fitSeg]
  split
  · exact key _ _
  · split
    · exact key _ _
    · dsimp only
      split
      · exact le_refl _
      · exact key _ _

theorem si_acc (l : List (SegFit α)) : (accSegs l).invR = (l.map fun f => 1 / f.varR).sum ∧
    (accSegs l).invP = (l.map fun f => if 0 < f.varP then 1 / f.varP else 0).sum ∧
    (accSegs l).invE = (l.map fun f => 1 / (f.varP + f.varR)).sum := by
  have h : ∀ (l : List (SegFit α)) (a : Acc α), (l.foldl (fun (a : Acc α) (f : SegFit α) =>
      { invR := a.invR + 1 / f.varR
        invP := if 0 < f.varP then a.invP + 1 / f.varP else a.invP
        invE := a.invE + 1 / (f.varP + f.varR)
        num := o2 (· + ·) a.num (f.slope.map fun s => s / f.varR) }) a).invR = a.invR + (l.map fun f => 1 / f.varR).sum ∧
      (l.foldl (fun (a : Acc α) (f : SegFit α) =>
      { invR := a.invR + 1 / f.varR
        invP := if 0 < f.varP then a.invP + 1 / f.varP else a.invP
        invE := a.invE + 1 / (f.varP + f.varR)
        num := o2 (· + ·) a.num (f.slope.map fun s => s / f.varR) }) a).invP =
          a.invP + (l.map fun f => if 0 < f.varP then 1 / f.varP else 0).sum ∧
      (l.foldl (fun (a : Acc α) (f : SegFit α) =>
      { invR := a.invR + 1 / f.varR
        invP := if 0 < f.varP then a.invP + 1 / f.varP else a.invP
        invE := a.invE + 1 / (f.varP + f.varR)
        num := o2 (· + ·) a.num (f.slope.map fun s => s / f.varR) }) a).invE =
          a.invE + (l.map fun f => 1 / (f.varP + f.varR)).sum := by
    intro l
    induction l with
    | nil => intro a; simp
    | cons f l ih =>
      intro a
      obtain ⟨h1, h2, h3⟩ := ih { invR := a.invR + 1 / f.varR
                                  invP := if 0 < f.varP then a.invP + 1 / f.varP else a.invP
                                  invE := a.invE + 1 / (f.varP + f.varR)
                                  num := o2 (· + ·) a.num (f.slope.map fun s => s / f.varR) }
      rw [List.foldl_cons, h1, h2, h3]
      simp only [List.map_cons, List.sum_cons]
      refine ⟨by ring, ?_, by ring⟩
      split <;> ring
  have := h l ⟨0, 0, 0, some 0⟩
  simp only [zero_add] at this
  exact this

/-- The raw result of an integration: either nothing was fitted, or the segments of the ramp were. -/
theorem si_shape (fl : Flags) (a b : Nat) (hda : fl.dnu = 2 ^ a) (hsb : fl.sat = 2 ^ b) (cfg : Cfg α) (px : Pix α) (med : Option α)
    (ngroups : Nat) (i : Integ α) (dq0 : Nat) (r : Rate α × Option (Acc α)) (hr : r = fitInteg fl cfg px med ngroups i dq0)
    (fits : List (SegFit α))
    (hf : fits = (computeSegs fl i.gdq).segs.map (fitSeg cfg px med i.is0th i.isZframe fun k => (i.data[k]?).join)) :
    (r.2 = none ∧ r.1.varP = 0 ∧ r.1.varR = 0 ∧ r.1.varErr = 0 ∧ (r.1.slope = some 0 ∨ hasB r.1.dq fl.dnu = true) ∧
      ∃ x, r.1.dq = dq0 ||| x ∧ (x = 0 ∨ x = 2 ^ a ∨ x = 2 ^ a ||| 2 ^ b)) ∨
    (firstSat fl i.gdq = false ∧ fits ≠ [] ∧ r = combineInteg fl cfg fits dq0) := by
  have hself : ∀ d, hasB (d ||| fl.dnu) fl.dnu = true := by
    intro d; rw [hda, si_hasB]; simp
  have hself' : ∀ d, hasB (d ||| fl.dnu ||| fl.sat) fl.dnu = true := by
    intro d; rw [hda, si_hasB]; simp
  have hdup : 2 ^ a ||| (2 ^ b ||| 2 ^ a) = 2 ^ a ||| 2 ^ b := by
    apply Nat.eq_of_testBit_eq; intro i; simp only [Nat.testBit_or]
    cases (2 ^ a).testBit i <;> cases (2 ^ b).testBit i <;> rfl
  have hdup' : 2 ^ a ||| (2 ^ b ||| (2 ^ a ||| 2 ^ b)) = 2 ^ a ||| 2 ^ b := by
    apply Nat.eq_of_testBit_eq; intro i; simp only [Nat.testBit_or]
    cases (2 ^ a).testBit i <;> cases (2 ^ b).testBit i <;> rfl
  simp only [fitInteg] at hr
  by_cases hearly : (ngroups : Int) = i.st.cntDnuSat
  · rw [if_pos hearly] at hr
    left
    subst hr
    dsimp only
    refine ⟨rfl, rfl, rfl, rfl, Or.inr ?_, ?_⟩
    · split <;> split <;> first | exact hself _ | exact hself' _
    · by_cases h1 : firstSat fl i.gdq = true <;> by_cases h2 : ngroups = i.st.cntSat
      · rw [if_pos h1, if_pos h2]
        exact ⟨2 ^ a ||| 2 ^ b, by rw [hda, hsb, Nat.or_assoc, Nat.or_assoc, Nat.or_assoc, hdup'], Or.inr (Or.inr rfl)⟩
      · rw [if_pos h1, if_neg h2]
        exact ⟨2 ^ a ||| 2 ^ b, by rw [hda, hsb, Nat.or_assoc, Nat.or_assoc, hdup], Or.inr (Or.inr rfl)⟩
      · rw [if_neg h1, if_pos h2]
        exact ⟨2 ^ a ||| 2 ^ b, by rw [hda, hsb, Nat.or_assoc], Or.inr (Or.inr rfl)⟩
      · rw [if_neg h1, if_neg h2]
        exact ⟨2 ^ a, by rw [hda], Or.inr (Or.inl rfl)⟩
  · rw [if_neg hearly] at hr
    by_cases h1 : firstSat fl i.gdq = true
    · left
      simp only [fitSegs, h1, if_true, SegList.empty, List.map_nil, List.isEmpty_nil, combineInteg] at hr
      subst hr
      exact ⟨rfl, rfl, rfl, rfl, Or.inr (hself' _), 2 ^ a ||| 2 ^ b, by rw [hda, hsb, Nat.or_assoc], Or.inr (Or.inr rfl)⟩
    · have h1' : firstSat fl i.gdq = false := by simpa using h1
      simp only [fitSegs, h1', Bool.false_eq_true, if_false] at hr
      rw [← hf] at hr
      by_cases hemp : fits = []
      · left
        subst hr
        simp only [hemp, List.isEmpty_nil, combineInteg, if_true]
        exact ⟨trivial, trivial, trivial, trivial, Or.inl trivial, 0, by simp, Or.inl rfl⟩
      · right
        refine ⟨h1', hemp, ?_⟩
        have : fits.isEmpty = false := by cases fits <;> simp_all
        rw [hr, this]
        rfl

/-- The two results of a pixel with one integration, in the form used below: `r` is the raw result of the integration. -/
theorem si_one (fl : Flags) (a b : Nat) (hda : fl.dnu = 2 ^ a) (hsb : fl.sat = 2 ^ b) (cfg : Cfg α) (ngroups : Nat) (p : PixIn α)
    (e : List (Option α) × List Nat × Option (Option α)) (he : p.ints = [e]) :
    ∃ x, (fitPixel fl cfg ngroups p).1 = [x] ∧
      (fitPixel fl cfg ngroups p).2.slope = x.slope ∧ (fitPixel fl cfg ngroups p).2.varP = x.varP ∧
      (fitPixel fl cfg ngroups p).2.varR = x.varR ∧ (fitPixel fl cfg ngroups p).2.dq = x.dq ∧
      (x.varErr ≠ 0 → ∃ i fits, fits ≠ [] ∧ i = loadInteg fl cfg.suppress1g e.1 e.2.1 e.2.2 ∧ firstSat fl i.gdq = false ∧
        fits = (computeSegs fl i.gdq).segs.map (fitSeg cfg p.px (medianRate fl cfg ngroups [i]) i.is0th i.isZframe
          fun k => (i.data[k]?).join) ∧
        (fitPixel fl cfg ngroups p).2.varErr = cfg.sqrt (x.varP + x.varR) ∧
        x.varP = (if (large : α) ≤ (if 0 < (accSegs fits).invP then 1 / (accSegs fits).invP else 0) then 0
          else (if 0 < (accSegs fits).invP then 1 / (accSegs fits).invP else 0)) ∧
        x.varR = (if (large : α) ≤ 1 / (accSegs fits).invR then 0 else 1 / (accSegs fits).invR) ∧
        ¬ (large : α) < 1 / (accSegs fits).invE ∧ x.varErr = cfg.sqrt (1 / (accSegs fits).invE)) := by
  have hp : p = siCopies p e 1 := by
    cases p; simp only at he; subst he; rfl
  have hL : ¬ (large : α) ≤ 0 := not_le.2 (by norm_num [large])
  set i := loadInteg fl cfg.suppress1g e.1 e.2.1 e.2.2 with hi
  have e1 := si_fit fl cfg ngroups 1 one_pos p e i hi _ rfl
  rw [← hp] at e1
  rw [e1]
  clear e1
  set r := siOne fl cfg ngroups p i with hr
  set dq0 := metaDq fl p ||| statBits fl i.st with hdq0
  refine ⟨(postInteg fl i r.1).1, rfl, ?_⟩
  have hor : ∀ d, hasB d (fl.dnu ||| fl.sat) = (hasB d fl.dnu || hasB d fl.sat) := by
    intro d
    rw [Bool.eq_iff_iff, Bool.or_eq_true, hasB_iff, hasB_iff, hasB_iff, has_or_right]
  set fits := (computeSegs fl i.gdq).segs.map (fitSeg cfg p.px (medianRate fl cfg ngroups [i]) i.is0th i.isZframe
    fun k => (i.data[k]?).join) with hfits
  have hshape := si_shape fl a b hda hsb cfg p.px (medianRate fl cfg ngroups [i]) ngroups i dq0 r hr fits hfits
  have hdq : ∃ x, r.1.dq = dq0 ||| x ∧ (x = 0 ∨ x = 2 ^ a ∨ x = 2 ^ a ||| 2 ^ b) := by
    rcases hshape with ⟨_, _, _, _, _, h⟩ | ⟨_, hne, h⟩
    · exact h
    · refine ⟨0, ?_, Or.inl rfl⟩
      have : fits.isEmpty = false := List.isEmpty_eq_false_iff.2 hne
      rw [h]
      simp only [combineInteg, this, Bool.false_eq_true, if_false]
      split <;> simp
  obtain ⟨x, hx, hx3⟩ := hdq
  have hd2 : (if hasB r.1.dq fl.sat = true then (if hasB r.1.dq fl.dnu = true then dq0 ||| fl.dnu else dq0) ||| fl.sat
      else if hasB r.1.dq fl.dnu = true then dq0 ||| fl.dnu else dq0) = r.1.dq := by
    rw [hx, hda, hsb]; exact si_dq dq0 a b x hx3
  dsimp only
  rw [hd2, hor]
  have hpd : (postInteg fl i r.1).1 = { r.1 with
      slope := if (hasB r.1.dq fl.dnu || hasB r.1.dq fl.sat) = true then none else r.1.slope
      dq := if 0 < i.st.cntSat then r.1.dq ||| fl.sat else r.1.dq } := rfl
  rw [hpd]
  dsimp only
  by_cases hin : (hasB r.1.dq fl.dnu || hasB r.1.dq fl.sat) = true
  · rw [if_pos hin, if_pos hin]
    rcases hshape with ⟨_, h1, h2, h3, _, _⟩ | ⟨_, hne, h⟩
    · rw [h1, h2, h3]
      exact ⟨rfl, rfl, rfl, rfl, fun h => absurd rfl h⟩
    · have hem : fits.isEmpty = false := List.isEmpty_eq_false_iff.2 hne
      have hd0 : hasB dq0 (fl.dnu ||| fl.sat) = true := by
        rw [hor]
        have : r.1.dq = dq0 := by
          rw [h]; simp only [combineInteg, hem, Bool.false_eq_true, if_false]; split <;> rfl
        rw [← this]; exact hin
      have : r.1 = ⟨none, 0, 0, 0, dq0⟩ := by
        rw [h]; simp only [combineInteg, hem, Bool.false_eq_true, if_false, hd0, if_true]
      rw [this]
      exact ⟨rfl, rfl, rfl, rfl, fun h => absurd rfl h⟩
  · rw [if_neg hin, if_neg hin]
    rcases hshape with ⟨h0, h1, h2, h3, h4, _⟩ | ⟨hfs, hne, h⟩
    · have hs : r.1.slope = some 0 := by
        rcases h4 with h | h
        · exact h
        · exact absurd (by rw [h]; rfl) hin
      rw [h0, h1, h2, h3, hs]
      simp [siSum]
    · have hem : fits.isEmpty = false := List.isEmpty_eq_false_iff.2 hne
      have hd0 : ¬ hasB dq0 (fl.dnu ||| fl.sat) = true := by
        intro hc
        apply hin
        have : r.1.dq = dq0 := by
          rw [h]; simp only [combineInteg, hem, Bool.false_eq_true, if_false]; split <;> rfl
        rw [this, ← hor]; exact hc
      have hr2 : r.2 = some (accSegs fits) := by
        rw [h]; simp only [combineInteg, hem, Bool.false_eq_true, if_false]; split <;> rfl
      have hR0 : 0 ≤ (accSegs fits).invR := by
        rw [(si_acc fits).1]
        apply List.sum_nonneg
        intro y hy
        obtain ⟨f, hf, rfl⟩ := List.mem_map.1 hy
        rw [hfits] at hf
        obtain ⟨sg, _, rfl⟩ := List.mem_map.1 hf
        have := si_varR_nonneg cfg p.px (medianRate fl cfg ngroups [i]) i.is0th i.isZframe (fun k => (i.data[k]?).join) sg
        positivity
      have hr1 : r.1 = (combineInteg fl cfg fits dq0).1 := by rw [h]
      simp only [combineInteg, hem, Bool.false_eq_true, if_false, if_neg hd0] at hr1
      have hvp : (if (large : α) ≤ (if 0 < (1 : α) * siSum (fun a => if 0 < a.invP then a.invP else 0) r.2 then
            1 / ((1 : α) * siSum (fun a => if 0 < a.invP then a.invP else 0) r.2) else
              1 * siSum (fun a => if 0 < a.invP then a.invP else 0) r.2) ∨
          (if 0 < (1 : α) * siSum (fun a => if 0 < a.invP then a.invP else 0) r.2 then
            1 / ((1 : α) * siSum (fun a => if 0 < a.invP then a.invP else 0) r.2) else
              1 * siSum (fun a => if 0 < a.invP then a.invP else 0) r.2) < 0 then 0 else
          (if 0 < (1 : α) * siSum (fun a => if 0 < a.invP then a.invP else 0) r.2 then
            1 / ((1 : α) * siSum (fun a => if 0 < a.invP then a.invP else 0) r.2) else
              1 * siSum (fun a => if 0 < a.invP then a.invP else 0) r.2)) = r.1.varP := by
        rw [hr1, hr2]
        simp only [siSum, Option.map_some, Option.getD_some, one_mul]
        by_cases h0 : 0 < (accSegs fits).invP
        · have : ¬ 1 / (accSegs fits).invP < 0 := not_lt.2 (by positivity)
          simp only [if_pos h0, this, or_false]
        · simp only [if_neg h0, lt_irrefl, if_false, or_false]
      have hvr : (if (large : α) ≤ (if 0 < (1 : α) * siSum (fun a => a.invR) r.2 then 1 / ((1 : α) * siSum (fun a => a.invR) r.2)
            else 1 * siSum (fun a => a.invR) r.2) then 0 else
          (if 0 < (1 : α) * siSum (fun a => a.invR) r.2 then 1 / ((1 : α) * siSum (fun a => a.invR) r.2)
            else 1 * siSum (fun a => a.invR) r.2)) = r.1.varR := by
        rw [hr1, hr2]
        simp only [siSum, Option.map_some, Option.getD_some, one_mul]
        rcases hR0.eq_or_lt with h0 | h0
        · simp [← h0]
        · simp only [if_pos h0]
      simp only [Nat.cast_one]
      rw [hvp, hvr]
      refine ⟨?_, rfl, rfl, trivial, ?_⟩
      · rw [hr2, hr1]
        simp
      · intro hne0
        refine ⟨i, fits, hne, rfl, hfs, rfl, rfl, by rw [hr1], by rw [hr1], ?_⟩
        rw [hr1] at hne0 ⊢
        dsimp only at hne0 ⊢
        by_cases hc : (large : α) < 1 / (accSegs fits).invE
        · rw [if_pos hc] at hne0; exact absurd rfl hne0
        · exact ⟨hc, by rw [if_neg hc]⟩

/-- **C174** (one integration).  For an exposure of one integration the rate product repeats the rateints product: same slope, same
variances, same DQ. -/
theorem C174_single (fl : Flags) (a b : Nat) (hda : fl.dnu = 2 ^ a) (hsb : fl.sat = 2 ^ b) (cfg : Cfg α) (ngroups : Nat) (p : PixIn α)
    (e : List (Option α) × List Nat × Option (Option α)) (he : p.ints = [e]) :
    ∃ x, (fitPixel fl cfg ngroups p).1 = [x] ∧
      (fitPixel fl cfg ngroups p).2.slope = x.slope ∧ (fitPixel fl cfg ngroups p).2.varP = x.varP ∧
      (fitPixel fl cfg ngroups p).2.varR = x.varR ∧ (fitPixel fl cfg ngroups p).2.dq = x.dq := by
  obtain ⟨x, h1, h2, h3, h4, h5, _⟩ := si_one fl a b hda hsb cfg ngroups p e he
  exact ⟨x, h1, h2, h3, h4, h5⟩

/-- Adding variances before or after combining: the sum of two harmonic totals is at most the harmonic total of the sums. -/
theorem si_parallel {ι : Type*} (l : List ι) (p r : ι → α) (hne : l ≠ []) (hp : ∀ x ∈ l, 0 < p x) (hr : ∀ x ∈ l, 0 < r x) :
    1 / (l.map fun x => 1 / p x).sum + 1 / (l.map fun x => 1 / r x).sum ≤ 1 / (l.map fun x => 1 / (p x + r x)).sum := by
  have hA : 0 < (l.map fun x => 1 / p x).sum := sum_pos_of_mem l _ (fun x hx => by have := hp x hx; positivity) hne
  have hB : 0 < (l.map fun x => 1 / r x).sum := sum_pos_of_mem l _ (fun x hx => by have := hr x hx; positivity) hne
  have hC : 0 < (l.map fun x => 1 / (p x + r x)).sum :=
    sum_pos_of_mem l _ (fun x hx => by have := hp x hx; have := hr x hx; positivity) hne
  have key : ∀ u : α, (l.map fun x => 1 / (p x + r x)).sum ≤
      u ^ 2 * (l.map fun x => 1 / p x).sum + (1 - u) ^ 2 * (l.map fun x => 1 / r x).sum := by
    intro u
    clear hne hA hB hC
    induction l with
    | nil => simp
    | cons x l ih =>
      simp only [List.map_cons, List.sum_cons]
      have := ih (fun y hy => hp y (by simp [hy])) (fun y hy => hr y (by simp [hy]))
      have h1 := hp x (by simp)
      have h2 := hr x (by simp)
      have h3 : 1 / (p x + r x) ≤ u ^ 2 * (1 / p x) + (1 - u) ^ 2 * (1 / r x) := by
        rw [div_le_iff₀ (by positivity)]
        have : (u ^ 2 * (1 / p x) + (1 - u) ^ 2 * (1 / r x)) * (p x + r x) - 1 = (u * r x - (1 - u) * p x) ^ 2 / (p x * r x) := by
          field_simp
          ring
        have h4 : 0 ≤ (u * r x - (1 - u) * p x) ^ 2 / (p x * r x) := by positivity
        linarith
      linarith
  generalize (l.map fun x => 1 / p x).sum = A at *
  generalize (l.map fun x => 1 / r x).sum = B at *
  generalize (l.map fun x => 1 / (p x + r x)).sum = C at *
  have hk := key (B / (A + B))
  have h1 : (B / (A + B)) ^ 2 * A + (1 - B / (A + B)) ^ 2 * B = A * B / (A + B) := by
    field_simp
    ring
  rw [h1, le_div_iff₀ (by positivity)] at hk
  rw [div_add_div _ _ hA.ne' hB.ne', div_le_div_iff₀ (by positivity) hC]
  linarith

theorem si_varP (cfg : Cfg α) (px : Pix α) (hg : 0 < px.gain) (ht : 0 < cfg.groupTime) (hft : 0 < cfg.frameTime)
    (hot : 0 < cfg.oneGroupTime) (med : Option α) (z0 zf : Bool) (data : Nat → Option α) (s : Seg) (hs : 1 ≤ s.len) :
    ∃ c : α, 0 < c ∧ (fitSeg cfg px med z0 zf data s).varP = poissonNum px med / c := by
  simp only [fitSeg]
  split
  · refine ⟨_, ?_, rfl⟩
    have : 0 < len1Timing cfg z0 zf := by rw [len1Timing]; split_ifs <;> assumption
    positivity
  · split
    · exact ⟨_, by positivity, rfl⟩
    · refine ⟨_, ?_, rfl⟩
      have h3 : 3 ≤ s.len := by omega
      have : (3 : α) ≤ s.len := by exact_mod_cast h3
      have : (0 : α) < (s.len : α) - 1 := by linarith
      positivity

/-- **C174** (error).  The errors of the two products of an exposure of one integration need not agree: the one of the rate never
exceeds the one of the integration, and they agree if the ramp is fitted in one segment. -/
theorem C174_error (fl : Flags) (a b : Nat) (hda : fl.dnu = 2 ^ a) (hsb : fl.sat = 2 ^ b) (cfg : Cfg α) (ngroups : Nat) (p : PixIn α)
    (e : List (Option α) × List Nat × Option (Option α)) (he : p.ints = [e])
    (hmono : ∀ u v, 0 ≤ u → u ≤ v → cfg.sqrt u ≤ cfg.sqrt v) (ht : 0 < cfg.groupTime) (hft : 0 < cfg.frameTime)
    (hot : 0 < cfg.oneGroupTime) (hg : 0 < p.px.gain) (hrn : p.px.rnoise ≠ 0) (hdc : 0 ≤ p.px.dcurrent) :
    ∃ x, (fitPixel fl cfg ngroups p).1 = [x] ∧ (x.varErr ≠ 0 → (fitPixel fl cfg ngroups p).2.varErr ≤ x.varErr ∧
      (0 < x.varR → (computeSegs fl (loadInteg fl cfg.suppress1g e.1 e.2.1 e.2.2).gdq).segs.length = 1 →
        (fitPixel fl cfg ngroups p).2.varErr = x.varErr)) := by
  obtain ⟨x, h1, _, _, _, _, h6⟩ := si_one fl a b hda hsb cfg ngroups p e he
  refine ⟨x, h1, fun hne => ?_⟩
  obtain ⟨i, fits, hfne, hi, _, hfits, herr, hvp, hvr, hnl, hxe⟩ := h6 hne
  rw [herr, hxe, ← hi]
  obtain ⟨a1, a2, a3⟩ := si_acc fits
  have hlen : ∀ s ∈ (computeSegs fl i.gdq).segs, 1 ≤ s.len := by
    intro s hs
    have := ((C27_segments_sound fl _).2 s hs).1
    rw [Seg.len]; omega
  have hrpos : ∀ f ∈ fits, 0 < f.varR := by
    intro f hf
    rw [hfits] at hf
    obtain ⟨s, hs, rfl⟩ := List.mem_map.1 hf
    exact fitSeg_varR_pos cfg p.px _ _ _ _ s (hlen s hs) hg hrn ht.ne' hft.ne' hot.ne'
  have hmed : 0 ≤ poissonNum p.px (medianRate fl cfg ngroups [i]) := by
    cases medianRate fl cfg ngroups [i] with
    | none => exact hdc
    | some m =>
      simp only [poissonNum]
      split
      · linarith
      · exact hdc
  have hpv : ∀ f ∈ fits, ∃ c : α, 0 < c ∧ f.varP = poissonNum p.px (medianRate fl cfg ngroups [i]) / c := by
    intro f hf
    rw [hfits] at hf
    obtain ⟨s, hs, rfl⟩ := List.mem_map.1 hf
    exact si_varP cfg p.px hg ht hft hot _ _ _ _ s (hlen s hs)
  have hB : 0 < (fits.map fun f => 1 / f.varR).sum :=
    sum_pos_of_mem fits _ (fun f hf => by have := hrpos f hf; positivity) hfne
  have hvr0 : 0 ≤ x.varR ∧ x.varR ≤ 1 / (accSegs fits).invR := by
    rw [hvr, a1]
    have : 0 < 1 / (fits.map fun f => 1 / f.varR).sum := by positivity
    split
    · exact ⟨le_refl _, this.le⟩
    · exact ⟨this.le, le_refl _⟩
  have hsum : 0 ≤ x.varP ∧ x.varP + x.varR ≤ 1 / (accSegs fits).invE := by
    rcases hmed.eq_or_lt with h0 | h0
    · have hz : ∀ f ∈ fits, f.varP = 0 := by
        intro f hf
        obtain ⟨c, _, h⟩ := hpv f hf
        rw [h, ← h0, zero_div]
      have e1 : (accSegs fits).invP = 0 := by
        rw [a2]
        apply List.sum_eq_zero
        intro y hy
        obtain ⟨f, hf, rfl⟩ := List.mem_map.1 hy
        simp [hz f hf]
      have e2 : (accSegs fits).invE = (accSegs fits).invR := by
        rw [a3, a1]
        congr 1
        apply List.map_congr_left
        intro f hf
        rw [hz f hf, zero_add]
      have e3 : x.varP = 0 := by rw [hvp, e1]; simp
      rw [e2, e3, zero_add]
      exact ⟨le_refl _, hvr0.2⟩
    · have hpp : ∀ f ∈ fits, 0 < f.varP := by
        intro f hf
        obtain ⟨c, hc, h⟩ := hpv f hf
        rw [h]; positivity
      have e1 : (accSegs fits).invP = (fits.map fun f => 1 / f.varP).sum := by
        rw [a2]
        congr 1
        apply List.map_congr_left
        intro f hf
        rw [if_pos (hpp f hf)]
      have hA : 0 < (fits.map fun f => 1 / f.varP).sum :=
        sum_pos_of_mem fits _ (fun f hf => by have := hpp f hf; positivity) hfne
      have hvp0 : 0 ≤ x.varP ∧ x.varP ≤ 1 / (accSegs fits).invP := by
        rw [hvp, e1, if_pos hA]
        have : 0 < 1 / (fits.map fun f => 1 / f.varP).sum := by positivity
        split
        · exact ⟨le_refl _, this.le⟩
        · exact ⟨this.le, le_refl _⟩
      refine ⟨hvp0.1, ?_⟩
      have hpar := si_parallel fits (fun f => f.varP) (fun f => f.varR) hfne hpp hrpos
      rw [a3]
      refine le_trans ?_ hpar
      have h1 := hvp0.2
      have h2 := hvr0.2
      rw [e1] at h1
      rw [a1] at h2
      linarith
  refine ⟨hmono _ _ (add_nonneg hsum.1 hvr0.1) hsum.2, fun hR h1 => ?_⟩
  have hl1 : fits.length = 1 := by rw [hfits, List.length_map]; exact h1
  obtain ⟨f, rfl⟩ := List.length_eq_one_iff.1 hl1
  have hf := hrpos f (by simp)
  simp only [List.map_cons, List.map_nil, List.sum_cons, List.sum_nil, add_zero] at a1 a2 a3
  rw [a3] at hnl ⊢
  rw [a2] at hvp
  rw [a1] at hvr
  simp only [one_div_one_div] at hnl hvr ⊢
  have hr' : x.varR = f.varR := by
    rw [hvr] at hR ⊢
    by_cases hc : large ≤ f.varR
    · rw [if_pos hc] at hR; exact absurd hR (lt_irrefl _)
    · rw [if_neg hc]
  obtain ⟨c, hc, hc'⟩ := hpv f (by simp)
  have hp0 : 0 ≤ f.varP := by rw [hc']; positivity
  have hp' : x.varP = f.varP := by
    rw [hvp]
    rcases hp0.eq_or_lt with h | h
    · simp [← h]
    · have h' : (0 : α) < 1 / f.varP := by positivity
      rw [if_pos h, if_pos h', one_div_one_div, if_neg]
      intro hc
      exact hnl (by linarith)
  rw [hr', hp']

end
/-! ## The likelihood fit -/

section
open Verif Verif.Likely Verif.LikelyDriver

variable {α : Type} [Field α] [LinearOrder α] [IsStrictOrderedRing α]

theorem si_nanmedian (n : Nat) (hn : 0 < n) (v : α) : Verif.Jump.nanmedian (List.replicate n (some v)) = some v := by
  have h1 : Verif.Jump.finite (List.replicate n (some v)) = List.replicate n v := by
    simp [Verif.Jump.finite]
  have h2 : (List.replicate n v).insertionSort (· ≤ ·) = List.replicate n v :=
    List.perm_replicate.1 (List.perm_insertionSort _ _)
  rw [Verif.Jump.nanmedian, h1, h2]
  simp only [Verif.Jump.medianSorted, List.length_replicate, hn.ne', if_false]
  split
  · rw [List.getElem?_replicate, if_pos (by omega)]
  · rw [List.getElem?_replicate, List.getElem?_replicate, if_pos (by omega), if_pos (by omega)]
    simp

theorem si_liMean (n : Nat) (hn : 0 < n) (s : α) (f : LiFit α) (hv : liVar s f ≠ 0) : liMean s (List.replicate n f) = f.d := by
  have hn' : (n : α) ≠ 0 := by exact_mod_cast hn.ne'
  simp only [liMean, List.map_replicate, si_sum_replicate]
  field_simp

/-- The rate product of `n` integrations with the same result. -/
theorem si_likely (fl : LikelyDriver.Flags) (n : Nat) (hn : 2 ≤ n) (o : IntOut α) (f : Result α) (hf : o.fit = some f)
    (hp : 0 ≤ f.varP) (hr : 0 < f.varR) :
    let m := imageInfo fl (List.replicate n o)
    m.comb.data = some f.countrate ∧ m.comb.varR = some (f.varR / n) ∧ m.chisq = some (n * f.chisq) ∧
    m.comb.varP = some (if f.countrate = 0 then 0 else f.varP / n) ∧
    m.err2 = some ((if f.countrate = 0 then f.varR else f.varP + f.varR) / n) := by
  intro m
  have hN : (0 : α) < n := by exact_mod_cast (by omega : 0 < n)
  have hl2 : 2 ≤ (List.replicate n o).length := by simpa using hn
  set F : LiFit α := ⟨f.countrate, f.varP, f.varR⟩ with hF
  have hu : liUsed (List.replicate n o) = List.replicate n F := by
    simp only [liUsed]
    rw [List.filterMap_replicate_of_isSome (by simp [hf])]
    simp [hf, hF]
  have hv : ∀ s, 0 < liVar s F := by
    intro s
    have : 0 ≤ max 0 (s / F.d) * F.p := mul_nonneg (le_max_left _ _) hp
    rw [liVar]
    have h2 : 0 < F.r := hr
    linarith
  have hmed : Verif.Jump.nanmedian ((List.replicate n o).map fun o => o.fit.map (·.countrate)) = some f.countrate := by
    rw [List.map_replicate, hf]
    exact si_nanmedian n (by omega) _
  have hne : liUsed (List.replicate n o) ≠ [] := by
    rw [hu]; simp; omega
  have hc := li_combine (List.replicate n o) hl2 hne f.countrate hmed
  have hmean : ∀ s, liMean s (List.replicate n F) = f.countrate := fun s => si_liMean n (by omega) s F (hv s).ne'
  simp only [hu, hmean, List.map_replicate, si_sum_replicate] at hc
  have hi : m = ⟨combine ((List.replicate n o).map toInt1), match (combine ((List.replicate n o).map toInt1)).varP,
      (combine ((List.replicate n o).map toInt1)).varR with
      | some p, some r => some (p + r)
      | _, _ => none, osum ((List.replicate n o).map fun o => o.fit.map (·.chisq)),
      RampDq.compressFinal fl.dnu ((List.replicate n o).map (·.dq))⟩ := by
    show imageInfo fl (List.replicate n o) = _
    obtain ⟨k, rfl⟩ : ∃ k, n = k + 2 := ⟨n - 2, by omega⟩
    rfl
  have hchi : m.chisq = some (n * f.chisq) := by
    have := (C119_chisq fl (List.replicate n o) hl2).1 (by
      intro x hx; rw [List.eq_of_mem_replicate hx, hf]; simp)
    rw [this, List.map_replicate, si_sum_replicate, hf]
    rfl
  have hw : ∀ c : α, (n : α) * (c * (1 / liVar f.countrate F / ((n : α) * (1 / liVar f.countrate F)) *
      (1 / liVar f.countrate F / ((n : α) * (1 / liVar f.countrate F))))) = c / n := by
    intro c
    have := (hv f.countrate).ne'
    field_simp
  have hP : m.comb.varP = some (if f.countrate = 0 then 0 else f.varP / n) := by
    rw [hi, List.map_replicate, hc]
    dsimp only
    rw [hw]
    congr 1
    by_cases h0 : f.countrate = 0
    · simp [h0, hF]
    · rw [if_neg h0]
      simp [hF, h0]
  have hR : m.comb.varR = some (f.varR / n) := by
    rw [hi, List.map_replicate, hc]
    dsimp only
    rw [hw]
  refine ⟨by rw [hi, List.map_replicate, hc], hR, hchi, hP, ?_⟩
  have he : m.err2 = match m.comb.varP, m.comb.varR with
      | some p, some r => some (p + r)
      | _, _ => none := by rw [hi]
  rw [he, hP, hR]
  dsimp only
  congr 1
  split
  · ring
  · ring

theorem si_likely_dq (fl : LikelyDriver.Flags) (a : Nat) (ha : fl.dnu = 2 ^ a) (n : Nat) (hn : 2 ≤ n) (o : IntOut α) :
    (imageInfo fl (List.replicate n o)).dq = some o.dq := by
  obtain ⟨v, hv, hb⟩ := C119_dq fl (List.replicate n o) (by simpa using hn)
  rw [hv]
  congr 1
  apply Nat.eq_of_testBit_eq
  intro i
  rw [Bool.eq_iff_iff, hb i]
  have hmem : ∀ P : IntOut α → Prop, (∀ x ∈ List.replicate n o, P x) ↔ P o := by
    intro P
    constructor
    · intro h; exact h o (List.mem_replicate.2 ⟨by omega, rfl⟩)
    · intro h x hx; rw [List.eq_of_mem_replicate hx]; exact h
  have hex : ∀ P : IntOut α → Prop, (∃ x ∈ List.replicate n o, P x) ↔ P o := by
    intro P
    constructor
    · rintro ⟨x, hx, h⟩; rw [List.eq_of_mem_replicate hx] at h; exact h
    · intro h; exact ⟨o, List.mem_replicate.2 ⟨by omega, rfl⟩, h⟩
  rw [hmem, hex, ha, Nat.testBit_two_pow]
  by_cases h : a = i
  · rw [if_pos (by simpa using h), ← hasB_iff, si_hasB, h]
  · rw [if_neg (by simpa using h)]

/-- **C174** (likelihood fit).  An exposure of `n` equal integrations compared with the exposure of one of them: every integration has the
result of the single one, and the DQ is the same.  If the single one has a rate that is not zero (and a positive read-noise variance),
the rate is the same, variances and squared error are divided by `n` and the chi-squares add up.  If the rate is exactly zero the
Poisson variance of the exposure is zero whatever that of the integrations. -/
theorem C174_likely (root : α → Nat → α) (fl : LikelyDriver.Flags) (a : Nat) (ha : fl.dnu = 2 ^ a) (ng nframes : Nat) (hng : 4 ≤ ng)
    (pattern : Option (List (List α))) (default : List (List α)) (hasZero : Bool) (c : Likely.Cfg α)
    (grow : Option ((Nat → Nat) → Nat → Nat)) (pixeldq : Nat) (n : Nat) (hn : 2 ≤ n) (e : IntIn α) :
    ∃ o one all, likelyPixel root fl ng nframes pattern default hasZero c (fun _ => grow) pixeldq [e] = some ([o], one) ∧
      likelyPixel root fl ng nframes pattern default hasZero c (fun _ => grow) pixeldq (List.replicate n e) =
        some (List.replicate n o, all) ∧
      all.dq = one.dq ∧ ∀ f, o.fit = some f → 0 ≤ f.varP → 0 < f.varR →
        one.comb = ⟨some f.countrate, some f.varP, some f.varR⟩ ∧ one.chisq = some f.chisq ∧
        all.chisq = some (n * f.chisq) ∧
        (f.countrate ≠ 0 → all.comb = ⟨some f.countrate, some (f.varP / n), some (f.varR / n)⟩ ∧ all.err2 = some ((f.varP + f.varR) / n)) ∧
        (f.countrate = 0 → all.comb = ⟨some 0, some 0, some (f.varR / n)⟩ ∧ all.err2 = some (f.varR / n)) := by
  set F : IntIn α → IntOut α := fun e => fitInt root fl ng nframes (readTimes pattern default hasZero).2.2
    (readTimes pattern default hasZero).2.1 c grow pixeldq e with hF
  have hm : ∀ l : List (IntIn α), (l.zipIdx.map fun e => fitInt root fl ng nframes (readTimes pattern default hasZero).2.2
      (readTimes pattern default hasZero).2.1 c grow pixeldq e.1) = l.map F := by
    intro l
    apply List.ext_getElem
    · simp
    · intro k h1 h2
      simp [hF]
  refine ⟨F e, imageInfo fl [F e], imageInfo fl (List.replicate n (F e)), ?_, ?_, ?_, ?_⟩
  · unfold likelyPixel
    rw [if_neg (by omega)]
    simp only [hm, List.map_cons, List.map_nil]
  · unfold likelyPixel
    rw [if_neg (by omega)]
    simp only [hm, List.map_replicate]
  · rw [si_likely_dq fl a ha n hn]; rfl
  · intro f hf hp hr
    obtain ⟨h1, h2, h3, h4, h5⟩ := si_likely fl n hn (F e) f hf hp hr
    have hcomb : ∀ k : Int1 α, k = ⟨k.data, k.varP, k.varR⟩ := fun k => rfl
    refine ⟨?_, ?_, h3, fun h0 => ?_, fun h0 => ?_⟩
    · simp [imageInfo, toInt1, hf]
    · simp [imageInfo, hf]
    · rw [if_neg h0] at h4 h5
      exact ⟨by rw [hcomb (imageInfo fl (List.replicate n (F e))).comb, h1, h2, h4], h5⟩
    · rw [if_pos h0] at h4 h5
      exact ⟨by rw [hcomb (imageInfo fl (List.replicate n (F e))).comb, h1, h2, h4, h0], h5⟩

end

/-! ## Examples -/

/-- Two segments: a jump in the third of four groups. -/
def siPixel : PixIn ℚ := ⟨false, ⟨2, 3, 1⟩, 0, [([some 5, some 8, some 21, some 24, some 28], [0, 0, 4, 0, 0], none)]⟩

/-- **C174** (finding): the errors differ for a ramp with a jump (square roots left out). -/
theorem C174_error_differs :
    (fitPixel exFlags exCfg 5 siPixel).1.map (fun x => x.varErr) ≠ [(fitPixel exFlags exCfg 5 siPixel).2.varErr] ∧
    (fitPixel exFlags exCfg 5 siPixel).1.map (fun x => x.varR) = [(fitPixel exFlags exCfg 5 siPixel).2.varR] ∧
    0 < (fitPixel exFlags exCfg 5 siPixel).2.varR ∧ 0 < (fitPixel exFlags exCfg 5 siPixel).2.varP := by
  decide +kernel

/-- The hypotheses of `C174_single` and `C174_error` hold for it, and those of `C174_copies` for three copies. -/
example : exFlags.dnu = 2 ^ 0 ∧ exFlags.sat = 2 ^ 1 ∧ 0 < exCfg.groupTime ∧ 0 < exCfg.frameTime ∧ 0 < exCfg.oneGroupTime ∧ 0 < siPixel.px.gain ∧
    siPixel.px.rnoise ≠ 0 ∧ 0 ≤ siPixel.px.dcurrent ∧ siPixel.ints.length = 1 ∧
    (computeSegs exFlags [0, 0, 4, 0, 0]).segs.length = 2 := by
  decide +kernel
example : (fitPixel exFlags exCfg 5 { siPixel with ints := siPixel.ints ++ siPixel.ints ++ siPixel.ints }).2.varR =
    (fitPixel exFlags exCfg 5 siPixel).2.varR / 3 := by
  decide +kernel

/-- Three equal integrations of the likelihood fit: the single one has a rate and positive variances, as `C174_likely` asks. -/
example :
    let e := (⟨fun g => some (2 * (3 * (g : ℚ) + 2)), fun _ => 0, none⟩ : LikelyDriver.IntIn ℚ)
    let run := fun l => (LikelyDriver.likelyPixel (fun _ _ => 1) ⟨1, 2, 4⟩ 5 2
      (some ((List.range 5).map fun g => [3 * (g : ℚ) + 1, 3 * (g : ℚ) + 3])) [] false ⟨1, 1, 0, 4, 9⟩ (fun _ => none) 0 l).map fun o =>
        (o.2.comb.data, o.2.comb.varP, o.2.comb.varR)
    (run [e]).map (fun o => o.1) = some (some 2) ∧ (run [e, e, e]).map (fun o => o.1) = some (some 2) ∧
    (run [e, e, e]).map (fun o => (o.2.1.map fun x => 3 * x, o.2.2.map fun x => 3 * x)) = (run [e]).map (fun o => o.2) ∧
    (run [e]).map (fun o => (o.2.1.map fun x => decide (0 < x), o.2.2.map fun x => decide (0 < x))) = some (some true, some true) := by
  decide +kernel

end Verif.Thm
