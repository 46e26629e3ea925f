import Verif.Thm.LikelyJump

/-!
# The likelihood fit finds a hit during a group: property C142
-/

namespace Verif.Thm

open Verif Verif.Likely Verif.LikelyDriver Finset Matrix

set_option linter.unusedSectionVars false

variable {α : Type} [Field α] [LinearOrder α] [IsStrictOrderedRing α]

/-! ## One pass -/

/-- A strictly best pair is the one dropped. -/
theorem lw_drops (n : Nat) (okTwo : Nat → Bool) (t1 t2 : α) (h2 : 0 ≤ t2)
    (one two : Nat → Option α) (k : Nat) (hk : k + 1 < n) (hok : okTwo k = true) (X : α) (hX : t2 < X) (htwo : two k = some X)
    (hone : ∀ i < n, ∃ g, one i = some g ∧ g - t1 ≤ X - t2)
    (hother : ∀ i, i + 1 < n → i ≠ k → ∃ g, two i = some g ∧ g < X) :
    dropsO n okTwo t1 t2 one two = (fun _ => false, fun i => decide (i = k)) := by
  have hsome : ((List.range n).all (fun i => (one i).isSome) && (List.range (n - 1)).all (fun i => (two i).isSome)) = true := by
    simp only [Bool.and_eq_true, List.all_eq_true, List.mem_range]
    refine ⟨fun i hi => ?_, fun i hi => ?_⟩
    · obtain ⟨g, e, -⟩ := hone i hi
      rw [e]; rfl
    · by_cases hik : i = k
      · rw [hik, htwo]; rfl
      · obtain ⟨g, e, -⟩ := hother i (by omega) hik
        rw [e]; rfl
  unfold dropsO
  rw [if_pos hsome]
  have hX0 : 0 < X := h2.trans_lt hX
  have b2 : amax (n - 1) (fun i => if okTwo i = true then (two i).getD 0 else 0) = X := by
    obtain ⟨i, hi, e⟩ := amax_mem (n - 1) (by omega) fun i => if okTwo i = true then (two i).getD 0 else 0
    have hge := le_amax (n - 1) (fun i => if okTwo i = true then (two i).getD 0 else 0) k (by omega)
    simp only [hok, if_true, htwo, Option.getD_some] at hge
    by_cases hik : i = k
    · rw [e, hik, if_pos hok, htwo]; rfl
    · obtain ⟨g, eg, hg⟩ := hother i (by omega) hik
      rw [eg] at e
      rw [e] at hge
      exfalso
      split at hge
      · exact absurd hge (not_le.2 hg)
      · exact absurd hge (not_le.2 hX0)
  have b1 : amax n (fun i => (one i).getD 0) - t1 ≤ X - t2 := by
    obtain ⟨i, hi, e⟩ := amax_mem n (by omega) fun i => (one i).getD 0
    obtain ⟨g, eg, hg⟩ := hone i hi
    rw [e, eg]
    exact hg
  simp only [drops, b2]
  generalize amax n (fun i => (one i).getD 0) = B at *
  have ho : ¬ B - t1 > X - t2 := not_lt.2 b1
  simp only [ho, decide_false, and_true, Bool.false_eq_true, and_false, if_false, zero_add, gt_iff_lt, if_pos hX,
    if_neg hX0.ne', Bool.and_false, Bool.not_false, Bool.and_true]
  refine Prod.ext rfl (funext fun i => ?_)
  show decide _ = decide _
  rw [decide_eq_decide]
  constructor
  · rintro ⟨hi, e⟩
    by_contra hik
    obtain ⟨g, eg, hg⟩ := hother i hi hik
    rw [eg] at e
    exact hg.ne e
  · rintro rfl
    exact ⟨hk, by rw [htwo]; rfl⟩

/-- Specification: two used adjacent differences `k` and `k + 1` are off, at least three others are used and all of those
agree. -/
def LwPair (n : Nat) (u : Nat → Bool) (diffs : Nat → α) (b : α) (k : Nat) : Prop :=
  k + 1 < n ∧ u k = true ∧ u (k + 1) = true ∧ diffs k ≠ b ∧ diffs (k + 1) ≠ b ∧
  (∀ i < n, u i = true → i ≠ k → i ≠ k + 1 → diffs i = b) ∧
  ∃ l : Fin 3 → Nat, Function.Injective l ∧ ∀ j, l j < n ∧ u (l j) = true ∧ l j ≠ k ∧ l j ≠ k + 1

/-- Of three different numbers one differs from two given ones. -/
theorem lw_third (l : Fin 3 → Nat) (hl : Function.Injective l) (i j : Nat) : ∃ m, l m ≠ i ∧ l m ≠ j := by
  by_contra h
  push Not at h
  have h01 : l 0 ≠ l 1 := fun e => by have := hl e; simp at this
  have h02 : l 0 ≠ l 2 := fun e => by have := hl e; simp at this
  have h12 : l 1 ≠ l 2 := fun e => by have := hl e; simp at this
  have a0 := h 0
  have a1 := h 1
  have a2 := h 2
  by_cases c0 : l 0 = i
  · have b1 := a1 (fun e => h01 (c0.trans e.symm))
    have b2 := a2 (fun e => h02 (c0.trans e.symm))
    exact h12 (b1.trans b2.symm)
  · by_cases c1 : l 1 = i
    · have b0 := a0 c0
      have b2 := a2 (fun e => h12 (c1.trans e.symm))
      exact h02 (b0.trans b2.symm)
    · exact h01 ((a0 c0).trans (a1 c1).symm)

/-- The masking drops the two differences that are off and nothing else. -/
theorem lw_mask {n : Nat} {u : Nat → Bool} {times : Nat → List α} {q : Noise α} {s : α} (h : LkPattern n times)
    (hq : LkNoiseOk q) (hs : 0 < s) (diffs : Nat → α) (b : α) (k : Nat) (hl : LwPair n u diffs b k)
    (okTwo : Nat → Bool) (hok : okTwo k = true) (t1 t2 : α) (h2 : 0 ≤ t2) (hbig : ∀ x, t2 < lkChi2 n u times q diffs x)
    (hone : ∀ i < n, ∀ x, t2 - t1 ≤ lkChi2 n (fun j => u j && decide (j ≠ i)) times q diffs x)
    (htwo : ∀ i, i + 1 < n → u i = true → u (i + 1) = true → ((search n (covar times) q s diffs).two u i).isSome = true) :
    (maskJumps n okTwo t1 t2 (search n (covar times) q s diffs) u).use = (fun i => u i && decide (i ≠ k) && decide (i ≠ k + 1))
    ∧ (maskJumps n okTwo t1 t2 (search n (covar times) q s diffs) u).rate = some b := by
  obtain ⟨hk, huk, huk', hkb, hkb', hb, l, hinj, hl⟩ := hl
  set S := search n (covar times) q s diffs with hS
  -- dropping the pair
  obtain ⟨X, f3⟩ := Option.isSome_iff_exists.1 (htwo k hk huk huk')
  obtain ⟨r, r0, f1, f2, fX, f4⟩ := C76_two_omitted h hq hs diffs k hk huk huk' X f3
  obtain ⟨r1, e1, c1, c2⟩ := ld_exact (u := fun j => u j && decide (j ≠ k) && decide (j ≠ k + 1)) h hq hs
    ⟨l 0, (hl 0).1, by simp [(hl 0).2]⟩ diffs b
    (fun i hi hv => by
      simp only [Bool.and_eq_true, decide_eq_true_eq] at hv
      exact hb i hi hv.1.1 hv.1.2 hv.2)
  rw [f2] at e1
  obtain rfl := Option.some.inj e1
  rw [c2, sub_zero] at fX
  rw [c1] at f4
  subst fX
  obtain ⟨⟨x, hx⟩, -⟩ := lj_fit h hq hs diffs ⟨k, by omega, huk⟩ r f1
  have hX : t2 < r.chisq := by rw [hx]; exact hbig x
  -- dropping one
  have hone' : ∀ i < n, ∃ g, S.one u i = some g ∧ g - t1 ≤ r.chisq - t2 ∧ g < r.chisq := by
    intro i hi
    rcases hui : u i with _ | _
    · refine ⟨0, (C76_masked_or_last h hq hs diffs i hi ⟨k, by omega, huk⟩).1 hui, ?_, h2.trans_lt hX⟩
      have heq : (fun j => u j && decide (j ≠ i)) = u := by
        funext j
        by_cases hji : j = i
        · rw [hji, hui]; rfl
        · simp [hji]
      have := hone i hi x
      rw [heq, ← hx] at this
      linarith
    · obtain ⟨m, hm1, -⟩ := lw_third l hinj i i
      obtain ⟨r', r'', g1, g2, g3, -, -⟩ := C76_one_omitted h hq hs diffs i hi hui ⟨l m, (hl m).1, (hl m).2.1, hm1⟩
      rw [f1] at g1
      obtain rfl := Option.some.inj g1
      obtain ⟨⟨y, hy⟩, -, hpos⟩ := lj_fit h hq hs diffs ⟨l m, (hl m).1, by simp [(hl m).2.1, hm1]⟩ r'' g2
      have h1 := hone i hi y
      rw [← hy] at h1
      refine ⟨_, g3, by linarith, ?_⟩
      have : 0 < r''.chisq := by
        by_cases hik : i = k
        · exact hpos (k + 1) (l m) hk (hl m).1 (by simp [huk', hik]) (by simp [(hl m).2.1, hm1])
            (by rw [hb (l m) (hl m).1 (hl m).2.1 (hl m).2.2.1 (hl m).2.2.2]; exact hkb')
        · exact hpos k (l m) (by omega) (hl m).1 (by simp [huk, Ne.symm hik]) (by simp [(hl m).2.1, hm1])
            (by rw [hb (l m) (hl m).1 (hl m).2.1 (hl m).2.2.1 (hl m).2.2.2]; exact hkb)
      linarith
  -- dropping another pair
  have hother : ∀ i, i + 1 < n → i ≠ k → ∃ g, S.two u i = some g ∧ g < r.chisq := by
    intro i hi hik
    rcases h1 : u i with _ | _
    · obtain ⟨g, e, -, hg⟩ := hone' (i + 1) hi
      refine ⟨g, ?_, hg⟩
      rw [← e]
      simp only [hS, search, h1, if_true]
    · rcases h2 : u (i + 1) with _ | _
      · obtain ⟨g, e, -, hg⟩ := hone' i (by omega)
        refine ⟨g, ?_, hg⟩
        rw [← e]
        simp only [hS, search, h1, h2, if_true]
        simp
      · obtain ⟨g, e⟩ := Option.isSome_iff_exists.1 (htwo i hi h1 h2)
        refine ⟨g, e, ?_⟩
        obtain ⟨r', r'', g1, g2, g3, -⟩ := C76_two_omitted h hq hs diffs i hi h1 h2 g e
        rw [f1] at g1
        obtain rfl := Option.some.inj g1
        obtain ⟨m, hm1, hm2⟩ := lw_third l hinj i (i + 1)
        have hum : (u (l m) && decide (l m ≠ i) && decide (l m ≠ i + 1)) = true := by simp [(hl m).2.1, hm1, hm2]
        have hpos := (lj_fit h hq hs diffs ⟨l m, (hl m).1, hum⟩ r'' g2).2.2
        have hbm := hb (l m) (hl m).1 (hl m).2.1 (hl m).2.2.1 (hl m).2.2.2
        have : 0 < r''.chisq := by
          by_cases hik' : k = i + 1
          · exact hpos (k + 1) (l m) hk (hl m).1 (by simp [huk']; omega) hum (by rw [hbm]; exact hkb')
          · exact hpos k (l m) (by omega) (hl m).1 (by simp [huk]; omega) hum (by rw [hbm]; exact hkb)
        linarith
  have hd := lw_drops n okTwo t1 t2 h2 (S.one u) (S.two u) k hk hok r.chisq hX f3
    (fun i hi => by obtain ⟨g, e, e', -⟩ := hone' i hi; exact ⟨g, e, e'⟩) hother
  -- the first pass
  have hrates : ∀ i < n - 1, (S.rateTwo u i).isSome = true := fun i hi => by
    by_cases hik : i = k
    · rw [hik, f4]; rfl
    · obtain ⟨g, e, -⟩ := hother i (by omega) hik
      exact (search_ratesThere n (covar times) q s diffs).2 u i (by rw [← hS, e]; rfl)
  have hsum : sumRates (n - 1) (S.rateTwo u) (fun i => decide (i = k)) = some b := by
    unfold sumRates
    rw [if_pos (by simpa using hrates)]
    congr 1
    have : ((List.range (n - 1)).map fun i => if decide (i = k) = true then (S.rateTwo u i).getD 0 else 0).sum
        = ∑ i ∈ range (n - 1), if decide (i = k) = true then (S.rateTwo u i).getD 0 else 0 := by
      rfl
    rw [this, sum_eq_single k]
    · rw [if_pos (by simp), f4]; rfl
    · intro j _ hjk
      rw [if_neg (by simpa using hjk)]
    · intro hk'
      exact absurd (mem_range.2 (by omega)) hk'
  have hp1 : passes n okTwo t1 t2 S u 1 = ⟨fun i => u i && decide (i ≠ k) && decide (i ≠ k + 1),
      decide (3 < count n fun i => u i && decide (i ≠ k) && decide (i ≠ k + 1)), some b⟩ := by
    show maskPass n okTwo t1 t2 S ⟨u, true, S.rate u⟩ 0 = _
    have hany2 : ((List.range n).any fun i => decide (i = k)) = true := by
      simp only [List.any_eq_true, List.mem_range, decide_eq_true_eq]
      exact ⟨k, by omega, rfl⟩
    have hany1 : ((List.range n).any fun _ => false) = false := by simp
    have hfun : (fun i => u i && !false && !decide (i = k) && !(decide (0 < i) && decide (i - 1 = k)))
        = fun i => u i && decide (i ≠ k) && decide (i ≠ k + 1) := by
      funext i
      by_cases h0 : i = k + 1
      · subst h0; simp
      · have : ¬ (0 < i ∧ i - 1 = k) := by omega
        by_cases hi0 : 0 < i
        · have h3 : i - 1 ≠ k := by omega
          simp [h0, h3]
        · have : i = 0 := by omega
          simp [this]
    simp only [maskPass, if_true, hd, hany1, hany2, hfun, Bool.false_or, hsum]
  have hpj : ∀ j, (passes n okTwo t1 t2 S u (j + 1)).use = (fun i => u i && decide (i ≠ k) && decide (i ≠ k + 1))
      ∧ (passes n okTwo t1 t2 S u (j + 1)).rate = some b := by
    intro j
    induction j with
    | zero => rw [hp1]; exact ⟨rfl, rfl⟩
    | succ j ih =>
      obtain ⟨ih1, ih2⟩ := ih
      show (maskPass n okTwo t1 t2 S (passes n okTwo t1 t2 S u (j + 1)) (j + 1)).use = _
        ∧ (maskPass n okTwo t1 t2 S (passes n okTwo t1 t2 S u (j + 1)) (j + 1)).rate = _
      simp only [maskPass]
      split
      · have hz := lj_quiet (v := fun i => u i && decide (i ≠ k) && decide (i ≠ k + 1)) h hq hs diffs b (fun i hi hv => by
          simp only [Bool.and_eq_true, decide_eq_true_eq] at hv
          exact hb i hi hv.1.1 hv.1.2 hv.2) okTwo t1 t2
        rw [if_neg]
        · exact ⟨ih1, ih2⟩
        · rw [ih1]
          simp only [Bool.or_eq_true, List.any_eq_true, not_or, not_exists, not_and, Bool.not_eq_true]
          exact ⟨fun i _ => (hz i).1, fun i _ => (hz i).2⟩
      · exact ⟨ih1, ih2⟩
  rw [maskJumps_eq]
  obtain ⟨m, rfl⟩ : ∃ m, n = m + 1 := ⟨n - 1, by omega⟩
  exact hpj m

/-! ## C142 -/

/-- C142 (one pixel).  Group differences that agree but for two adjacent ones, around a group of several reads: if no count
rate explains them within the threshold for two differences, nor, when any one difference is left out, within the
difference of the thresholds, and the jumps fitted to adjacent differences are correlated, then exactly the two odd
differences are dropped, the two groups after them are flagged, and the fit gives the common difference with chi-square
zero. -/
theorem C142_pair {root : α → Nat → α} (hr : RootOk root) {n : Nat} {times : Nat → List α}
    (h : LkPattern n times) (c : Cfg α) (hc : LjCfg c) (jump : Nat) (gdq : Nat → Nat) (diffs : Nat → α) (b : α) (k : Nat)
    (hl : LwPair n (diffs2use gdq) diffs b k) (hreads : 2 ≤ (times (k + 1)).length)
    (hbig : ∀ x, c.t2 < lkChi2 n (diffs2use gdq) times (ljNoise n c diffs) diffs x)
    (hone : ∀ i < n, ∀ x,
      c.t2 - c.t1 ≤ lkChi2 n (fun j => diffs2use gdq j && decide (j ≠ i)) times (ljNoise n c diffs) diffs x)
    (hpair : LjPairs n (diffs2use gdq) times (ljNoise n c diffs)) :
    let p := pixelFit root n (covar times) c jump gdq diffs
    (∀ i, p.1 i = true ↔ diffs2use gdq i = true ∧ i ≠ k ∧ i ≠ k + 1) ∧ p.2.1 (k + 1) = gdq (k + 1) ||| jump ∧
      p.2.1 (k + 2) = gdq (k + 2) ||| jump ∧ (∀ g, g ≠ k + 1 → g ≠ k + 2 → p.2.1 g = gdq g) ∧
      ∃ r, p.2.2 = some r ∧ r.countrate = b ∧ r.chisq = 0 ∧ 0 ≤ r.varP ∧ 0 < r.varR := by
  intro p
  obtain ⟨c1, c2, c3, c4, c5⟩ := hc
  have hn : 1 ≤ n := by have := hl.1; omega
  have hq0 : (⟨pos ((Verif.Jump.nanmedian ((List.range n).map fun i => some (diffs i))).getD 0), c.gain, c.rnoise⟩ : Noise α)
      = ljNoise n c diffs := by
    rw [lj_pos]; rfl
  have hq : LkNoiseOk (ljNoise n c diffs) := ⟨le_max_left _ _, c1, c2⟩
  have hs := (C38_rescaled_determinant hr h hq hn).1
  have htwo : ∀ i, i + 1 < n → diffs2use gdq i = true → diffs2use gdq (i + 1) = true →
      ((search n (covar times) (ljNoise n c diffs) (scaleOf root n (covar times) (ljNoise n c diffs)) diffs).two
        (diffs2use gdq) i).isSome = true := by
    intro i hi hu hu'
    refine (C76_two_defined h hq hs diffs i hi hu hu').2 ⟨?_, hpair i hi hu hu'⟩
    obtain ⟨-, -, -, -, -, -, l, hinj, hl⟩ := hl
    obtain ⟨m, h1, h2⟩ := lw_third l hinj i (i + 1)
    exact ⟨l m, (hl m).1, (hl m).2.1, h1, h2⟩
  obtain ⟨m1, m2⟩ := lw_mask h hq hs diffs b k hl (fun i => decide (1 < (covar times).nreads (i + 1)))
    (decide_eq_true (show 1 < (times (k + 1)).length from hreads)) c.t1 c.t2 (c4.trans c5.le) hbig hone htwo
  have hp1 : p.1 = fun i => diffs2use gdq i && decide (i ≠ k) && decide (i ≠ k + 1) := by
    rw [← m1, ← hq0]
    rfl
  have hp2 : p.2.1 = flagJumps jump gdq (diffs2use gdq) p.1 := rfl
  have hp3 : p.2.2 = fitWith n (covar times) ⟨pos b + c.dark, c.gain, c.rnoise⟩
      (scaleOf root n (covar times) ⟨pos b + c.dark, c.gain, c.rnoise⟩) diffs (num p.1) := by
    rw [hp1]
    rw [← hq0] at m1 m2
    show (pixelFit root n (covar times) c jump gdq diffs).2.2 = _
    simp only [pixelFit, m1, m2]
  have huk := hl.2.1
  have huk' := hl.2.2.1
  refine ⟨fun i => by rw [hp1]; simp [and_assoc], ?_, ?_, fun g hg hg' => ?_, ?_⟩
  · rw [hp2, hp1]
    simp [flagJumps, huk]
  · rw [hp2, hp1]
    simp [flagJumps, huk']
  · rw [hp2, hp1]
    unfold flagJumps
    split
    · rename_i h0; rw [h0]
    · have h3 : g - 1 ≠ k := by omega
      have h4 : g - 1 ≠ k + 1 := by omega
      simp [h3, h4]
  · obtain ⟨-, -, -, -, -, hb, l, hinj, hl⟩ := hl
    have hu : ∃ i < n, p.1 i = true := ⟨l 0, (hl 0).1, by rw [hp1]; simp [(hl 0).2]⟩
    have hq' : LkNoiseOk (⟨pos b + c.dark, c.gain, c.rnoise⟩ : Noise α) := ⟨add_nonneg (ld_pos b) c3, c1, c2⟩
    have hs' := (C38_rescaled_determinant hr h hq' hn).1
    obtain ⟨r, e1, e2, e3⟩ := ld_exact (u := p.1) h hq' hs' hu diffs b (fun i hi hv => by
      rw [hp1] at hv
      simp only [Bool.and_eq_true, decide_eq_true_eq] at hv
      exact hb i hi hv.1.1 hv.1.2 hv.2)
    obtain ⟨r', g1, -, -, -, -, -, -, -, -, -, -, g2, g3, -⟩ := C38_generalised_least_squares h hq' hs' hu diffs
    rw [e1] at g1
    obtain rfl := Option.some.inj g1
    exact ⟨r, hp3.trans e1, e2, e3, g2, g3⟩

/-! ## A hit at a moment during the ramp -/

/-- Specification: a ramp of slope `b` hit at the time `τ`: the reads from then on are higher by `d`.  Flagged groups hold
any numbers; the zero frame is the first read. -/
def LwHit (ng : Nat) (times : List (List α)) (a b d τ : α) (zero : Bool) (e : IntIn α) : Prop :=
  (∀ g < ng, ∃ x, e.data g = some x ∧ (LdClean (e.gdq g) →
    x = ((times.getD g []).map fun t => a + b * t + if τ ≤ t then d else 0).sum / ((times.getD g []).length : α))) ∧
  (zero = true → ∃ z, e.zf = some z ∧ (LdClean (e.gdq 0) → z = a + b * (times.getD 0 []).headD 0))

/-- What the hit adds to the mean of the reads of a group. -/
def lwOff (d τ : α) (l : List α) : α := d * ((l.countP fun t => decide (τ ≤ t) : Nat) : α) / (l.length : α)

theorem lw_sum (l : List α) (a b d τ : α) :
    (l.map fun t => a + b * t + if τ ≤ t then d else 0).sum
      = (l.map fun t => a + b * t).sum + d * ((l.countP fun t => decide (τ ≤ t) : Nat) : α) := by
  induction l with
  | nil => simp
  | cons x l ih =>
    rw [List.map_cons, List.sum_cons, ih, List.map_cons, List.sum_cons, List.countP_cons]
    by_cases hx : τ ≤ x
    · simp [hx]; ring
    · simp [hx]; ring

/-- The ramp without the hit. -/
def lwFlat (off : Nat → α) (e : IntIn α) : IntIn α := { e with data := fun g => (e.data g).map fun x => x - off g }

theorem lw_flat {ng : Nat} {times : List (List α)} {a b d τ : α} {zero : Bool} {e : IntIn α}
    (hs : LwHit ng times a b d τ zero e) :
    LdStraight ng times a b zero (lwFlat (fun g => lwOff d τ (times.getD g [])) e) := by
  obtain ⟨h1, h2⟩ := hs
  refine ⟨fun g hg => ?_, h2⟩
  obtain ⟨x, ex, hx⟩ := h1 g hg
  refine ⟨x - lwOff d τ (times.getD g []), by simp [lwFlat, ex], fun hcl => ?_⟩
  rw [hx hcl, lw_sum, lwOff, add_div, add_sub_cancel_right]

/-- The prepared samples of a ramp that is hit after its first group. -/
theorem lw_prepared (ng nframes : Nat) (pattern : Option (List (List α))) (default : List (List α)) (hasZero : Bool)
    (hng : 4 ≤ ng) (p : List (List α)) (hp : pattern.getD default = p) (ht : LdTimes ng p)
    (hfr : hasZero = true → (p.getD 0 []).length = nframes) (a b d τ : α) (e : IntIn α)
    (hs : LwHit ng p a b d τ hasZero e) (h0 : lwOff d τ (p.getD 0 []) = 0) (useZero : Bool) (times : List (List α))
    (hrt : (readTimes pattern default hasZero).2 = (times, useZero)) :
    LkPattern (ng + (if useZero then 1 else 0) - 1) (fun j => times.getD j []) ∧
    ∀ g < ng + (if useZero then 1 else 0), ∃ x, (if useZero then splitZero nframes e.zf e.data else e.data) g = some x ∧
      (LdClean ((if useZero then shiftDq e.gdq else e.gdq) g) →
        x = a + b * meanT (times.getD g []) + lwOff d τ (p.getD (g - if useZero then 1 else 0) [])) := by
  obtain ⟨-, k2, k3⟩ := ld_prepared ng nframes pattern default hasZero hng p hp ht hfr a b _ (lw_flat hs)
  rw [hrt] at k2 k3
  refine ⟨k2, fun g hg => ?_⟩
  obtain ⟨x', e1, e2⟩ := k3 g hg
  cases useZero with
  | true =>
    simp only [if_true] at e1 e2 ⊢
    match g with
    | 0 => exact ⟨x', e1, fun hc => by rw [e2 hc, Nat.zero_sub, h0, add_zero]⟩
    | 1 =>
      refine ⟨x', ?_, fun hc => by rw [e2 hc, Nat.sub_self, h0, add_zero]⟩
      rw [← e1]
      have : (lwFlat (fun g => lwOff d τ (p.getD g [])) e).data 0 = e.data 0 := by
        simp only [lwFlat, h0, sub_zero, Option.map_id']
      simp only [splitZero, this]
      rfl
    | g + 2 =>
      have e1' : (e.data (g + 1)).map (fun x => x - lwOff d τ (p.getD (g + 1) [])) = some x' := e1
      obtain ⟨x, ex, hx⟩ := Option.map_eq_some_iff.1 e1'
      refine ⟨x, ex, fun hc => ?_⟩
      have := e2 hc
      rw [← hx] at this
      rw [← this]
      show x = x - _ + lwOff d τ (p.getD (g + 1) [])
      ring
  | false =>
    simp only [Bool.false_eq_true, if_false] at e1 e2 ⊢
    have e1' : (e.data g).map (fun x => x - lwOff d τ (p.getD g [])) = some x' := e1
    obtain ⟨x, ex, hx⟩ := Option.map_eq_some_iff.1 e1'
    refine ⟨x, ex, fun hc => ?_⟩
    have := e2 hc
    rw [← hx] at this
    rw [← this, Nat.sub_zero]
    ring

/-- Before the group that is hit nothing is added, after it everything, and to the group itself a part. -/
theorem lw_off {ng : Nat} {p : List (List α)} (ht : LdTimes ng p) (d : α) (hd : d ≠ 0) (τ : α) (h : Nat) (hh : h < ng)
    (hbefore : ∃ t ∈ p.getD h [], t < τ) (hafter : ∃ t ∈ p.getD h [], τ ≤ t) :
    (∀ g < ng, g < h → lwOff d τ (p.getD g []) = 0) ∧ (∀ g < ng, h < g → lwOff d τ (p.getD g []) = d) ∧
      lwOff d τ (p.getD h []) ≠ 0 ∧ lwOff d τ (p.getD h []) ≠ d ∧ 2 ≤ (p.getD h []).length := by
  obtain ⟨h1, h2, h3⟩ := ht
  rw [List.pairwise_flatten] at h3
  obtain ⟨-, h4⟩ := h3
  have hget : ∀ j, j < ng → ∃ hj : j < p.length, p.getD j [] = p[j] := by
    intro j hj
    exact ⟨by omega, by simp [List.getD_eq_getElem?_getD, show j < p.length by omega]⟩
  obtain ⟨hh', eh⟩ := hget h hh
  obtain ⟨s, hs, hsτ⟩ := hbefore
  obtain ⟨t, ht, htτ⟩ := hafter
  refine ⟨fun g hg hgh => ?_, fun g hg hgh => ?_, ?_, ?_, ?_⟩
  · obtain ⟨hg', eg⟩ := hget g hg
    have : (p.getD g []).countP (fun t => decide (τ ≤ t)) = 0 := by
      rw [List.countP_eq_zero]
      intro x hx
      rw [eg] at hx
      rw [eh] at hs
      have := (List.pairwise_iff_getElem.1 h4) g h hg' hh' hgh x hx s hs
      simpa using this.trans hsτ
    rw [lwOff, this]
    simp
  · obtain ⟨hg', eg⟩ := hget g hg
    have : (p.getD g []).countP (fun t => decide (τ ≤ t)) = (p.getD g []).length := by
      rw [List.countP_eq_length]
      intro x hx
      rw [eg] at hx
      rw [eh] at ht
      have := (List.pairwise_iff_getElem.1 h4) h g hh' hg' hgh t ht x hx
      simpa using htτ.trans this.le
    have hne : ((p.getD g []).length : α) ≠ 0 := by
      have := List.length_pos_of_ne_nil (h2 _ (List.getElem_mem hg'))
      rw [eg]
      positivity
    rw [lwOff, this, mul_div_assoc, div_self hne, mul_one]
  all_goals
    have hlen : 0 < (p.getD h []).length := List.length_pos_of_mem hs
    have hlen' : ((p.getD h []).length : α) ≠ 0 := by positivity
    have hpos : 0 < (p.getD h []).countP (fun t => decide (τ ≤ t)) := List.countP_pos_iff.2 ⟨t, ht, by simpa using htτ⟩
    have hlt : (p.getD h []).countP (fun t => decide (τ ≤ t)) < (p.getD h []).length := by
      refine lt_of_le_of_ne List.countP_le_length fun e => ?_
      have := List.countP_eq_length.1 e s hs
      exact absurd (by simpa using this) (not_le.2 hsτ)
  · unfold lwOff
    exact div_ne_zero (mul_ne_zero hd (by exact_mod_cast hpos.ne')) hlen'
  · unfold lwOff
    rw [ne_eq, div_eq_iff hlen']
    intro e
    have := mul_left_cancel₀ hd e
    exact hlt.ne (by exact_mod_cast this)
  · omega

/-- C142 (one integration).  A ramp of slope `b` that is hit while group `h` is read, after some of its reads and before
others; the groups before, at and after the hit are clean.  If no count rate explains the differences within the
thresholds, the groups `h` and `h + 1` are flagged as jumps and no other, and the fit gives slope `b` with chi-square
zero. -/
theorem C142_integration {root : α → Nat → α} (hr : RootOk root) (fl : LikelyDriver.Flags) (ng nframes : Nat)
    (pattern : Option (List (List α))) (default : List (List α)) (hasZero : Bool) (c : Cfg α) (hc : LjCfg c) (pixeldq : Nat)
    (hng : 4 ≤ ng) (ht : LdTimes ng (pattern.getD default))
    (hfr : hasZero = true → ((pattern.getD default).getD 0 []).length = nframes) (a b d τ : α) (hd : d ≠ 0) (h : Nat)
    (hh : 1 ≤ h) (hhn : h + 1 < ng) (e : IntIn α) (hs : LwHit ng (pattern.getD default) a b d τ hasZero e)
    (hbefore : ∃ t ∈ (pattern.getD default).getD h [], t < τ) (hafter : ∃ t ∈ (pattern.getD default).getD h [], τ ≤ t)
    (hc0 : LdClean (e.gdq (h - 1))) (hc1 : LdClean (e.gdq h)) (hc2 : LdClean (e.gdq (h + 1)))
    (useZero : Bool) (times : List (List α))
    (hrt : (readTimes pattern default hasZero).2 = (times, useZero)) (n : Nat) (hn : n = ng + (if useZero then 1 else 0) - 1)
    (dq : Nat → Nat) (hdq : dq = if useZero then shiftDq e.gdq else e.gdq) (k : Nat)
    (hk : k = h - 1 + if useZero then 1 else 0)
    (hmore : ∃ l : Fin 3 → Nat, Function.Injective l ∧ ∀ j, l j < n ∧ LdClean (dq (l j)) ∧ LdClean (dq (l j + 1)) ∧
      l j ≠ k ∧ l j ≠ k + 1)
    (hbig : ∀ x, c.t2 < lkChi2 n (diffs2use dq) (fun j => times.getD j [])
      (ljNoise n c (ljDiffs nframes useZero times e)) (ljDiffs nframes useZero times e) x)
    (hone : ∀ i < n, ∀ x, c.t2 - c.t1 ≤ lkChi2 n (fun j => diffs2use dq j && decide (j ≠ i)) (fun j => times.getD j [])
      (ljNoise n c (ljDiffs nframes useZero times e)) (ljDiffs nframes useZero times e) x)
    (hpair : LjPairs n (diffs2use dq) (fun j => times.getD j []) (ljNoise n c (ljDiffs nframes useZero times e))) :
    let o := fitInt root fl ng nframes useZero times c none pixeldq e
    o.gdq h = e.gdq h ||| fl.jump ∧ o.gdq (h + 1) = e.gdq (h + 1) ||| fl.jump ∧
    (∀ g < ng, g ≠ h → g ≠ h + 1 → o.gdq g = e.gdq g) ∧
    ∃ r, o.fit = some r ∧ r.countrate = b ∧ r.chisq = 0 ∧ 0 ≤ r.varP ∧ 0 < r.varR := by
  intro o
  obtain ⟨o1, o2, o3, o4, o5⟩ := lw_off ht d hd τ h (by omega) hbefore hafter
  obtain ⟨hT, hx⟩ := lw_prepared ng nframes pattern default hasZero hng _ rfl ht hfr a b d τ e hs
    (o1 0 (by omega) (by omega)) useZero times hrt
  have hreads : 2 ≤ (times.getD (k + 1) []).length := by
    have : times.getD (k + 1) [] = (pattern.getD default).getD h [] := by
      rw [hk]
      cases useZero with
      | true =>
        obtain ⟨h', rfl⟩ : ∃ h', h = h' + 1 := ⟨h - 1, by omega⟩
        simp only [readTimes] at hrt
        split at hrt
        · split at hrt
          · rename_i heq
            obtain ⟨rfl, -⟩ := Prod.mk.inj hrt
            rw [heq]
            simp
          · exact absurd (Prod.mk.inj hrt).2 (by simp)
        · exact absurd (Prod.mk.inj hrt).2 (by simp)
      | false =>
        have hkh : h - 1 + (if false = true then 1 else 0) + 1 = h := by simp; omega
        rw [hkh]
        simp only [readTimes] at hrt
        split at hrt
        · split at hrt
          · exact absurd (Prod.mk.inj hrt).2 (by simp)
          · rw [(Prod.mk.inj hrt).1]
        · rw [(Prod.mk.inj hrt).1]
    rw [this]
    exact o5
  rw [← hn] at hT
  rw [← hdq] at hx
  have hrows : ng + (if useZero then 1 else 0) = n + 1 := by omega
  rw [hrows] at hx
  set data := if useZero then splitZero nframes e.zf e.data else e.data with hdata
  set cv := covar fun j => times.getD j [] with hcv
  set off : Nat → α := fun g => lwOff d τ ((pattern.getD default).getD (g - if useZero then 1 else 0) []) with hoff
  have hsome : ∀ i < n, (diffsOf cv data i).isSome = true := by
    intro i hi
    obtain ⟨x, e1, -⟩ := hx i (by omega)
    obtain ⟨y, e2, -⟩ := hx (i + 1) (by omega)
    simp [diffsOf, e1, e2]
  have hclk : LdClean (dq k) ∧ LdClean (dq (k + 1)) ∧ LdClean (dq (k + 2)) := by
    rw [hdq, hk]
    cases useZero with
    | true =>
      obtain ⟨h', rfl⟩ : ∃ h', h = h' + 1 := ⟨h - 1, by omega⟩
      exact ⟨hc0, hc1, hc2⟩
    | false =>
      obtain ⟨h', rfl⟩ : ∃ h', h = h' + 1 := ⟨h - 1, by omega⟩
      exact ⟨hc0, hc1, hc2⟩
  have hval : ∀ i < n, LdClean (dq i) → LdClean (dq (i + 1)) →
      ljDiffs nframes useZero times e i = b + (off (i + 1) - off i) / cv.delta i := by
    intro i hi u1 u2
    obtain ⟨x, e1, hx1⟩ := hx i (by omega)
    obtain ⟨y, e2, hx2⟩ := hx (i + 1) (by omega)
    have hdel : 0 < meanT (times.getD (i + 1) []) - meanT (times.getD i []) := hT.ordered.delta_pos hi
    show (diffsOf cv data i).getD 0 = _
    simp only [diffsOf, e1, e2, hcv, covar, Option.getD_some]
    rw [hx1 u1, hx2 u2, div_eq_iff hdel.ne']
    have := hdel.ne'
    field_simp
    ring
  have hoffk : off (k + 1) = lwOff d τ ((pattern.getD default).getD h []) := by
    have : k + 1 - (if useZero then 1 else 0) = h := by omega
    simp only [hoff, this]
  have hoff0 : ∀ g ≤ k, off g = 0 := fun g hg => o1 _ (by omega) (by omega)
  have hoffd : ∀ g ≤ n, k + 1 < g → off g = d := fun g hg hgk => o2 _ (by omega) (by omega)
  have hdel : ∀ i < n, cv.delta i ≠ 0 := fun i hi => (hT.ordered.delta_pos hi).ne'
  have hkn : k + 1 < n := by omega
  have hl : LwPair n (diffs2use dq) (ljDiffs nframes useZero times e) b k := by
    refine ⟨hkn, (ld_use dq k).2 ⟨hclk.1, hclk.2.1⟩, (ld_use dq (k + 1)).2 hclk.2, ?_, ?_, fun i hi hu hik hik' => ?_, ?_⟩
    · rw [hval k (by omega) hclk.1 hclk.2.1, hoffk, hoff0 k le_rfl, sub_zero]
      intro he
      have : lwOff d τ ((pattern.getD default).getD h []) / cv.delta k = 0 := by linarith
      rcases div_eq_zero_iff.1 this with h0 | h0
      · exact o3 h0
      · exact hdel k (by omega) h0
    · rw [hval (k + 1) hkn hclk.2.1 hclk.2.2, hoffk, hoffd (k + 2) (by omega) (by omega)]
      intro he
      have : (d - lwOff d τ ((pattern.getD default).getD h [])) / cv.delta (k + 1) = 0 := by linarith
      rcases div_eq_zero_iff.1 this with h0 | h0
      · exact o4 (by linarith)
      · exact hdel (k + 1) hkn h0
    · obtain ⟨u1, u2⟩ := (ld_use dq i).1 hu
      rw [hval i hi u1 u2]
      by_cases hgt : k < i
      · rw [hoffd (i + 1) (by omega) (by omega), hoffd i (by omega) (by omega)]
        simp
      · rw [hoff0 (i + 1) (by omega), hoff0 i (by omega)]
        simp
    · obtain ⟨l, hinj, hl⟩ := hmore
      exact ⟨l, hinj, fun j => ⟨(hl j).1, (ld_use dq (l j)).2 ⟨(hl j).2.1, (hl j).2.2.1⟩, (hl j).2.2.2⟩⟩
  obtain ⟨-, f2, f2', f3, f4⟩ := C142_pair hr hT c hc fl.jump dq _ b k hl hreads hbig hone hpair
  have hpix : pixelFitE root n cv c fl.jump none dq (diffsOf cv data)
      = pixelFit root n cv c fl.jump dq (ljDiffs nframes useZero times e) := by
    rw [ld_fitE, pixelFitO, if_pos]
    · rfl
    · simp only [List.all_eq_true, List.mem_range]
      exact hsome
  have ho : o.fit = (pixelFitE root n cv c fl.jump none dq (diffsOf cv data)).2.2 := by
    rw [hn, hdq]; rfl
  have hog : ∀ g, o.gdq g = e.gdq g ||| (pixelFitE root n cv c fl.jump none dq (diffsOf cv data)).2.1
      (g + if useZero then 1 else 0) := by
    intro g
    rw [hn, hdq]; rfl
  rw [hpix] at ho
  have hsh : ∀ g, dq (g + if useZero then 1 else 0) = e.gdq g := by
    intro g
    rw [hdq]
    cases useZero <;> rfl
  refine ⟨?_, ?_, fun g hg hgh hgh' => ?_, ?_⟩
  · rw [hog, hpix]
    have hkh : h + (if useZero then 1 else 0) = k + 1 := by omega
    rw [hkh, f2, ← hkh, hsh, ← Nat.or_assoc, Nat.or_self]
  · rw [hog, hpix]
    have hkh : h + 1 + (if useZero then 1 else 0) = k + 2 := by omega
    rw [hkh, f2', ← hkh, hsh, ← Nat.or_assoc, Nat.or_self]
  · rw [hog, hpix, f3 _ (by omega) (by omega), hsh, Nat.or_self]
  · rw [ho]
    exact f4

/-! ## Examples -/

/-- Ten groups of two reads, slope three, a hit of 50 between the two reads of the fifth; the last group is flagged. -/
def lwEx : IntIn ℚ :=
  ⟨fun g => some (if g = 9 then 0 else 9 * (g : ℚ) + 5 + if g = 4 then 25 else if 4 < g then 50 else 0),
    fun g => if g = 9 then 1 else 0, none⟩

example : LwHit 10 ljTimes (1 / 2) 3 50 (27 / 2) false lwEx := by
  refine ⟨fun g hg => ⟨_, rfl, fun hcl => ?_⟩, fun h => by cases h⟩
  interval_cases g <;> simp [List.range, List.range.loop, ljTimes, lwEx, LdClean] at hcl ⊢ <;> norm_num

example : (∃ t ∈ ljTimes.getD 4 [], t < 27 / 2) ∧ ∃ t ∈ ljTimes.getD 4 [], 27 / 2 ≤ t := by decide +kernel

example : LwPair 9 (diffs2use lwEx.gdq) (ljDiffs 2 false ljTimes lwEx) 3 3 := by
  refine ⟨by decide, by decide, by decide, by decide +kernel, by decide +kernel, by decide +kernel, fun j => j.1,
    fun i j h => Fin.ext h, by decide⟩

/-- Chi-square of the best fit bounds chi-square. -/
theorem lw_bound (t : ℚ) (u : Nat → Bool) (i : Nat) (hi : i < 9) (hu : u i = true)
    (h : ((fitWith 9 (covar fun j => ljTimes.getD j []) (ljNoise 9 ⟨1, 3, 0, 16, 20⟩ (ljDiffs 2 false ljTimes lwEx)) 1
      (ljDiffs 2 false ljTimes lwEx) (num u)).map fun r => decide (t < r.chisq)) = some true) (x : ℚ) :
    t < lkChi2 9 u (fun j => ljTimes.getD j []) (ljNoise 9 ⟨1, 3, 0, 16, 20⟩ (ljDiffs 2 false ljTimes lwEx))
      (ljDiffs 2 false ljTimes lwEx) x := by
  have hp : LkPattern 9 fun j => ljTimes.getD j [] := ld_times (ng := 10) ⟨rfl, by decide +kernel, by decide +kernel⟩ (by decide)
  obtain ⟨r, h1, h2, -, h3, -⟩ := C38_generalised_least_squares (s := 1) (u := u) hp
    (q := ljNoise 9 ⟨1, 3, 0, 16, 20⟩ (ljDiffs 2 false ljTimes lwEx)) ⟨le_max_left _ _, by decide +kernel, by decide +kernel⟩
    one_pos ⟨i, hi, hu⟩ (ljDiffs 2 false ljTimes lwEx)
  refine lt_of_lt_of_le ?_ (h2 x)
  rw [← h3]
  rw [h1] at h
  simpa using h

example : ∀ x, 20 < lkChi2 9 (diffs2use lwEx.gdq) (fun j => ljTimes.getD j [])
    (ljNoise 9 ⟨1, 3, 0, 16, 20⟩ (ljDiffs 2 false ljTimes lwEx)) (ljDiffs 2 false ljTimes lwEx) x :=
  lw_bound 20 _ 0 (by decide) (by decide) (by decide +kernel)

example : ∀ i < 9, ∀ x, 20 - 16 ≤ lkChi2 9 (fun j => diffs2use lwEx.gdq j && decide (j ≠ i)) (fun j => ljTimes.getD j [])
    (ljNoise 9 ⟨1, 3, 0, 16, 20⟩ (ljDiffs 2 false ljTimes lwEx)) (ljDiffs 2 false ljTimes lwEx) x := by
  intro i hi x
  have hall : ∀ i < 9, ((fitWith 9 (covar fun j => ljTimes.getD j []) (ljNoise 9 ⟨1, 3, 0, 16, 20⟩ (ljDiffs 2 false ljTimes lwEx)) 1
      (ljDiffs 2 false ljTimes lwEx) (num fun j => diffs2use lwEx.gdq j && decide (j ≠ i))).map
        fun r => decide (20 - 16 < r.chisq)) = some true := by decide +kernel
  by_cases h0 : i = 0
  · exact (lw_bound (20 - 16) _ 1 (by decide) (by subst h0; decide) (hall i hi) x).le
  · exact (lw_bound (20 - 16) _ 0 (by decide) (by simpa [lwEx, diffs2use] using Ne.symm h0) (hall i hi) x).le

example : LjPairs 9 (diffs2use lwEx.gdq) (fun j => ljTimes.getD j [])
    (ljNoise 9 ⟨1, 3, 0, 16, 20⟩ (ljDiffs 2 false ljTimes lwEx)) := by
  intro i hi hu hu'
  have hp : LkPattern 9 fun j => ljTimes.getD j [] := ld_times (ng := 10) ⟨rfl, by decide +kernel, by decide +kernel⟩ (by decide)
  have hall : ∀ i < 8, (((search 9 (covar fun j => ljTimes.getD j []) (ljNoise 9 ⟨1, 3, 0, 16, 20⟩ (ljDiffs 2 false ljTimes lwEx)) 1
    (ljDiffs 2 false ljTimes lwEx)).two (diffs2use lwEx.gdq) i).isSome = true) := by
    decide +kernel
  exact ((C76_two_defined hp ⟨le_max_left _ _, by decide +kernel, by decide +kernel⟩ one_pos _ i hi hu hu').1
    (hall i (by omega))).2

example : let o := fitInt (fun _ _ => 1) ⟨1, 2, 4⟩ 10 2 false ljTimes (⟨1, 3, 0, 16, 20⟩ : Cfg ℚ) none 0 lwEx
    ((List.range 10).map o.gdq, o.fit.map fun r => (r.countrate, r.chisq))
      = ([0, 0, 0, 0, 4, 4, 0, 0, 0, 1], some (3, 0)) := by
  decide +kernel

end Verif.Thm
