import Verif.Thm.Likely
import Verif.Proof.LikelyMask
import Verif.Proof.OlsFit
import Mathlib.Analysis.SpecialFunctions.Pow.Real

/-!
# Likelihood fit: jump masking, read pattern, combination of integrations (C38 for whole pixels, C39, C40, C41)
-/

namespace Verif.Thm

open Verif.Likely Finset Matrix

set_option linter.unusedSectionVars false

variable {α : Type} [Field α] [LinearOrder α] [IsStrictOrderedRing α]

/-! ## C39 -/

/-- **C39, a flagged group.** No difference that involves a group with a flag among the lowest eight bits is ever used, and
the final mask is contained in the initial one.  Missing: flags above the lowest eight bits, see
`C39_high_flags_are_ignored`. -/
theorem C39_flagged_group_not_used_partial (root : α → Nat → α) (n : Nat) (cv : Covar α) (c : Cfg α) (jump : Nat)
    (gdq : Nat → Nat) (diffs : Nat → Option α) (i : Nat)
    (hu : (pixelFitO root n cv c jump gdq diffs).1 i = true) :
    (∀ b < 8, (gdq i).testBit b = false ∧ (gdq (i + 1)).testBit b = false) := by
  have h0 : diffs2use gdq i = true := by
    unfold pixelFitO at hu
    split at hu
    · simp only [pixelFit] at hu
      rw [maskJumps_eq] at hu
      exact (passes_spec _ _ _ _ _ (search_maskedZero ..) _ _).1 i hu
    · exact hu
  simp only [diffs2use, Bool.and_eq_true, decide_eq_true_eq] at h0
  have key : ∀ x : Nat, x % 256 = 0 → ∀ b < 8, x.testBit b = false := by
    intro x hx b hb
    have := Nat.testBit_mod_two_pow x 8 b
    rw [show (2 : Nat) ^ 8 = 256 from rfl, hx] at this
    simpa [hb] using this.symm
  exact fun b hb => ⟨key _ h0.2 b hb, key _ h0.1 b hb⟩

/-- **C39 (finding).** A group with a flag above the lowest eight bits is used. -/
theorem C39_high_flags_are_ignored (k : Nat) (gdq : Nat → Nat) (h : ∀ g, gdq g = 256 * k) (i : Nat) :
    diffs2use gdq i = true := by
  simp [diffs2use, h]

/-- The fit of a mask, for the noise parameters of a search. -/
abbrev LkFit (n : Nat) (times : Nat → List α) (q : Noise α) (s : α) (diffs : Nat → α) (u : Nat → Bool) : Option (Result α) :=
  fitWith n (covar times) q s diffs (num u)

/-- **C39, the masking loop.** For every search that offers no improvement for masked differences (the code's search
does, `C39_pixel`), the loop only removes differences; after `n` passes there is nothing left to look at; what is left is
at most three differences, or a mask at which no improvement exceeds its threshold (unless some improvement is NaN); and
every difference removed was removed from a mask at which leaving it out, alone or with a neighbour, improved the
chi-square by more than the threshold. -/
theorem C39_masking_loop (n : Nat) (hn : 2 ≤ n) (okTwo : Nat → Bool) (t1 t2 : α) (h1 : 0 ≤ t1) (h2 : 0 ≤ t2) (sr : Search α)
    (hz1 : ∀ u i g, u i = false → sr.one u i = some g → g = 0)
    (hz2 : ∀ u i g, u i = false → u (i + 1) = false → sr.two u i = some g → g = 0) (u : Nat → Bool) :
    let s := maskJumps n okTwo t1 t2 sr u
    (∀ i, s.use i = true → u i = true)
    ∧ s.recheck = false ∧ maskPass n okTwo t1 t2 sr s n = s
    ∧ (((List.range n).filter fun i => s.use i).length ≤ 3
      ∨ (∃ i < n, sr.one s.use i = none) ∨ (∃ i, i + 1 < n ∧ sr.two s.use i = none)
      ∨ ((∀ i < n, ∀ g, sr.one s.use i = some g → g ≤ t1)
        ∧ ∀ i, i + 1 < n → okTwo i = true → ∀ g, sr.two s.use i = some g → g ≤ t2))
    ∧ ∀ i, u i = true → s.use i = false →
        ∃ v : Nat → Bool, (∀ k, v k = true → u k = true) ∧ v i = true
          ∧ ((∃ g, sr.one v i = some g ∧ t1 < g) ∨ (i + 1 < n ∧ ∃ g, sr.two v i = some g ∧ t2 < g)
            ∨ ∃ k, i = k + 1 ∧ i < n ∧ ∃ g, sr.two v k = some g ∧ t2 < g) := by
  have hz : MaskedZero sr := ⟨hz1, hz2⟩
  intro s
  have hs : s = passes n okTwo t1 t2 sr u n := maskJumps_eq n okTwo t1 t2 sr u
  obtain ⟨a1, -, a3, -, a5⟩ := passes_spec n okTwo t1 t2 sr hz u n
  have hd := passes_done n okTwo t1 t2 sr hz u (by omega)
  rw [← hs] at a1 a3 a5 hd
  refine ⟨a1, hd, (pass_spec n okTwo t1 t2 sr hz s n).2.2.2.2.1 hd, ?_, a5⟩
  rcases a3 hd with h | h
  · left
    rw [← List.countP_eq_length_filter]
    exact h
  · right
    exact dropsO_complete n hn okTwo t1 t2 h1 h2 _ _ (fun i hi => (h i hi).1) fun i hi => (h i hi).2

/-- **C39, a pixel.** The mask a pixel is finally fitted with is contained in the initial one, and every difference
removed was removed from a mask `v` at which the fit without it (or without it and a neighbour) had a chi-square smaller
by more than the threshold than the fit with it.  When more than three differences are left and the last search gave
numbers, no single used difference can be left out with an improvement above the threshold. -/
theorem C39_pixel {root : α → Nat → α} (hr : RootOk root) {n : Nat} (hn : 2 ≤ n) {times : Nat → List α}
    (h : LkPattern n times) (c : Cfg α) (hg : 0 < c.gain) (hrn : c.rnoise ≠ 0) (h1 : 0 ≤ c.t1) (h2 : 0 ≤ c.t2) (jump : Nat)
    (gdq : Nat → Nat) (diffs : Nat → α) :
    ∃ (q : Noise α) (s : α), LkNoiseOk q ∧ 0 < s
    ∧ (∀ i, (pixelFit root n (covar times) c jump gdq diffs).1 i = true → diffs2use gdq i = true)
    ∧ (∀ i < n, diffs2use gdq i = true → (pixelFit root n (covar times) c jump gdq diffs).1 i = false →
        ∃ (v v' : Nat → Bool) (r r' : Result α), v i = true ∧ v' i = false
          ∧ (∀ k, v' k = true → v k = true) ∧ (∀ k, v k = true → diffs2use gdq k = true)
          ∧ (∀ k, v k = true → v' k = false → k = i ∨ k = i + 1 ∨ k + 1 = i)
          ∧ LkFit n times q s diffs v = some r ∧ LkFit n times q s diffs v' = some r'
          ∧ (r.chisq - r'.chisq > c.t1 ∨ r.chisq - r'.chisq > c.t2))
    ∧ (3 < ((List.range n).filter fun i => (pixelFit root n (covar times) c jump gdq diffs).1 i).length →
        (∀ i, i + 1 < n → (search n (covar times) q s diffs).two (pixelFit root n (covar times) c jump gdq diffs).1 i ≠ none) →
        ∀ i < n, (pixelFit root n (covar times) c jump gdq diffs).1 i = true →
          ∃ r r', LkFit n times q s diffs (pixelFit root n (covar times) c jump gdq diffs).1 = some r
            ∧ LkFit n times q s diffs
                (fun j => (pixelFit root n (covar times) c jump gdq diffs).1 j && decide (j ≠ i)) = some r'
            ∧ r.chisq - r'.chisq ≤ c.t1) := by
  set guess := pos ((Verif.Jump.nanmedian ((List.range n).map fun i => some (diffs i))).getD 0) with hguess
  have hq : LkNoiseOk (⟨guess, c.gain, c.rnoise⟩ : Noise α) := by
    refine ⟨?_, hg, hrn⟩
    show 0 ≤ guess
    rw [hguess]
    unfold pos
    split
    · rename_i h; exact h.le
    · exact le_refl _
  have hs := (C38_rescaled_determinant hr h hq (by omega)).1
  refine ⟨⟨guess, c.gain, c.rnoise⟩, scaleOf root n (covar times) ⟨guess, c.gain, c.rnoise⟩, hq, hs, ?_⟩
  have hm : (pixelFit root n (covar times) c jump gdq diffs).1 = (maskJumps n
      (fun i => decide (1 < (covar times).nreads (i + 1))) c.t1 c.t2
      (search n (covar times) ⟨guess, c.gain, c.rnoise⟩ (scaleOf root n (covar times) ⟨guess, c.gain, c.rnoise⟩) diffs)
      (diffs2use gdq)).use := rfl
  rw [hm]
  have hz := search_maskedZero n (covar times) ⟨guess, c.gain, c.rnoise⟩
    (scaleOf root n (covar times) ⟨guess, c.gain, c.rnoise⟩) diffs
  obtain ⟨l1, -, -, l4, l5⟩ := C39_masking_loop n hn (fun i => decide (1 < (covar times).nreads (i + 1))) c.t1 c.t2 h1 h2
    (search n (covar times) ⟨guess, c.gain, c.rnoise⟩ (scaleOf root n (covar times) ⟨guess, c.gain, c.rnoise⟩) diffs)
    hz.1 hz.2 (diffs2use gdq)
  generalize (maskJumps n
      (fun i => decide (1 < (covar times).nreads (i + 1))) c.t1 c.t2
      (search n (covar times) ⟨guess, c.gain, c.rnoise⟩ (scaleOf root n (covar times) ⟨guess, c.gain, c.rnoise⟩) diffs)
      (diffs2use gdq)).use = w at *
  clear hm
  generalize scaleOf root n (covar times) ⟨guess, c.gain, c.rnoise⟩ = s at *
  generalize (⟨guess, c.gain, c.rnoise⟩ : Noise α) = q at *
  -- improvements as differences of chi-square
  have hone : ∀ (v : Nat → Bool) i g, i < n → v i = true → (search n (covar times) q s diffs).one v i = some g →
      ∃ r r', LkFit n times q s diffs v = some r
        ∧ LkFit n times q s diffs (fun j => v j && decide (j ≠ i)) = some r' ∧ g = r.chisq - r'.chisq := by
    intro v i g hi hv hg
    by_cases hne : ∃ j < n, v j = true ∧ j ≠ i
    · obtain ⟨r, r', e1, e2, e3, -⟩ := C76_one_omitted h hq hs diffs i hi hv hne
      rw [hg] at e3
      exact ⟨r, r', e1, e2, Option.some.inj e3⟩
    · have := (C76_masked_or_last h hq hs diffs i hi ⟨i, hi, hv⟩).2 hv fun j hj hvj => by
        by_contra hc
        exact hne ⟨j, hj, hvj, hc⟩
      rw [this] at hg
      simp at hg
  have htwo : ∀ (v : Nat → Bool) i g, i + 1 < n → (v i = true ∨ v (i + 1) = true) →
      (search n (covar times) q s diffs).two v i = some g →
      ∃ r r', LkFit n times q s diffs v = some r
        ∧ LkFit n times q s diffs (fun j => v j && decide (j ≠ i) && decide (j ≠ i + 1)) = some r'
        ∧ g = r.chisq - r'.chisq := by
    intro v i g hi hv hg
    by_cases a : v i = true
    · by_cases b : v (i + 1) = true
      · obtain ⟨r, r', e1, e2, e3, -⟩ := C76_two_omitted h hq hs diffs i hi a b g hg
        exact ⟨r, r', e1, e2, e3⟩
      · have e : (search n (covar times) q s diffs).two v i = (search n (covar times) q s diffs).one v i := by
          simp [search, a, b]
        rw [e] at hg
        obtain ⟨r, r', e1, e2, e3⟩ := hone v i g (by omega) a hg
        refine ⟨r, r', e1, ?_, e3⟩
        rw [← e2]
        congr 2
        funext j
        by_cases hj : j = i + 1
        · subst hj
          simp [b]
        · simp [hj]
    · have a' : v i = false := by simpa using a
      have b : v (i + 1) = true := by
        rcases hv with hv | hv
        · exact absurd hv a
        · exact hv
      have e : (search n (covar times) q s diffs).two v i = (search n (covar times) q s diffs).one v (i + 1) := by
        simp [search, a']
      rw [e] at hg
      obtain ⟨r, r', e1, e2, e3⟩ := hone v (i + 1) g hi b hg
      refine ⟨r, r', e1, ?_, e3⟩
      rw [← e2]
      congr 2
      funext j
      by_cases hj : j = i
      · subst hj
        simp [a']
      · simp [hj]
  refine ⟨l1, fun i hi hu hw => ?_, fun hc hnn i hi hwi => ?_⟩
  · obtain ⟨v, hvu, hvi, hcase⟩ := l5 i hu hw
    rcases hcase with ⟨g, hg, ht⟩ | ⟨hi1, g, hg, ht⟩ | ⟨k, hk, -, g, hg, ht⟩
    · obtain ⟨r, r', e1, e2, e3⟩ := hone v i g hi hvi hg
      refine ⟨v, _, r, r', hvi, by simp, fun k hk => ?_, hvu, fun k hk hk' => ?_, e1, e2, Or.inl (e3 ▸ ht)⟩
      · simp only [Bool.and_eq_true] at hk; exact hk.1
      · simp only [hk, Bool.true_and, decide_eq_false_iff_not, not_not] at hk'
        exact Or.inl hk'
    · obtain ⟨r, r', e1, e2, e3⟩ := htwo v i g hi1 (Or.inl hvi) hg
      refine ⟨v, _, r, r', hvi, by simp, fun k hk => ?_, hvu, fun k hk hk' => ?_, e1, e2, Or.inr (e3 ▸ ht)⟩
      · simp only [Bool.and_eq_true] at hk; exact hk.1.1
      · simp only [hk, Bool.true_and, Bool.and_eq_false_iff, decide_eq_false_iff_not, not_not] at hk'
        rcases hk' with hk' | hk'
        · exact Or.inl hk'
        · exact Or.inr (Or.inl hk')
    · subst hk
      obtain ⟨r, r', e1, e2, e3⟩ := htwo v k g hi (Or.inr hvi) hg
      refine ⟨v, _, r, r', hvi, by simp, fun k hk => ?_, hvu, fun j hj hj' => ?_, e1, e2, Or.inr (e3 ▸ ht)⟩
      · simp only [Bool.and_eq_true] at hk; exact hk.1.1
      · simp only [hj, Bool.true_and, Bool.and_eq_false_iff, decide_eq_false_iff_not, not_not] at hj'
        rcases hj' with hj' | hj'
        · exact Or.inr (Or.inr (by omega))
        · exact Or.inl hj'
  · have hex : ∀ j, ∃ k < n, w k = true ∧ k ≠ j := by
      intro j
      by_contra hno
      push Not at hno
      have hsub : (List.range n).filter (fun i => w i) ⊆ [j] := by
        intro k hk
        simp only [List.mem_filter, List.mem_range] at hk
        rw [List.mem_singleton]
        exact hno k hk.1 hk.2
      have := ((List.nodup_range.filter _).subperm hsub).length_le
      simp only [List.length_singleton] at this
      omega
    rcases l4 with l4 | ⟨j, hj, l4⟩ | ⟨j, hj, l4⟩ | ⟨l4, -⟩
    · omega
    · exfalso
      by_cases hwj : w j = true
      · obtain ⟨r, r', -, -, e3, -⟩ := C76_one_omitted h hq hs diffs j hj hwj (hex j)
        rw [l4] at e3
        simp at e3
      · have := (C76_masked_or_last h hq hs diffs j hj ⟨i, hi, hwi⟩).1 (by simpa using hwj)
        rw [l4] at this
        simp at this
    · exact absurd l4 (hnn j hj)
    · obtain ⟨r, r', e1, e2, e3, -⟩ := C76_one_omitted h hq hs diffs i hi hwi (hex i)
      exact ⟨r, r', e1, e2, l4 i hi _ e3⟩

/-- **C39, the DQ.** Exactly the later group of each difference removed gets the jump flag; everything else in the group DQ
stays. -/
theorem C39_jump_flags (root : α → Nat → α) (n : Nat) (cv : Covar α) (c : Cfg α) (jump : Nat) (gdq : Nat → Nat)
    (diffs : Nat → Option α) (b : Nat) :
    let p := pixelFitO root n cv c jump gdq diffs
    (p.2.1 0 = gdq 0) ∧ ∀ i, ((p.2.1 (i + 1)).testBit b = true ↔
      (gdq (i + 1)).testBit b = true ∨ (jump.testBit b = true ∧ diffs2use gdq i = true ∧ p.1 i = false)) := by
  intro p
  have hp : p = pixelFitO root n cv c jump gdq diffs := rfl
  unfold pixelFitO at hp
  split at hp
  · have hsub : ∀ i, p.1 i = true → diffs2use gdq i = true := by
      intro i hi
      rw [hp] at hi
      simp only [pixelFit] at hi
      rw [maskJumps_eq] at hi
      exact (passes_spec _ _ _ _ _ (search_maskedZero ..) _ _).1 i hi
    have e : p.2.1 = flagJumps jump gdq (diffs2use gdq) p.1 := by rw [hp]; rfl
    rw [e]
    refine ⟨rfl, fun i => ?_⟩
    simp only [flagJumps, Nat.add_sub_cancel]
    rw [if_neg (by omega)]
    have hs := hsub i
    cases h1 : diffs2use gdq i <;> cases h2 : p.1 i <;> simp_all
  · rw [hp]
    refine ⟨rfl, fun i => ?_⟩
    constructor
    · exact fun h => Or.inl h
    · rintro (h | ⟨-, h1, h2⟩)
      · exact h
      · simp [h1] at h2

/-- **C38, a pixel.** With the code's rescaling and rate guesses, a pixel has a result exactly if its final mask keeps a
difference, and then the count rate is the unique minimiser of the chi-square of the used differences for a covariance
with a non-negative rate, `chisq` is the minimum, and `uncert2` the variance. -/
theorem C38_pixel {root : α → Nat → α} (hr : RootOk root) {n : Nat} (hn : 1 ≤ n) {times : Nat → List α}
    (h : LkPattern n times) (c : Cfg α) (hg : 0 < c.gain) (hrn : c.rnoise ≠ 0) (hdk : 0 ≤ c.dark) (jump : Nat)
    (gdq : Nat → Nat) (diffs : Nat → α) :
    let p := pixelFit root n (covar times) c jump gdq diffs
    ((∀ i < n, p.1 i = false) → p.2.2 = none)
    ∧ ((∃ i < n, p.1 i = true) → ∃ guess ≥ 0, ∃ r, p.2.2 = some r
      ∧ (∀ x, lkChi2 n p.1 times ⟨guess, c.gain, c.rnoise⟩ diffs r.countrate
          ≤ lkChi2 n p.1 times ⟨guess, c.gain, c.rnoise⟩ diffs x)
      ∧ (∀ x, lkChi2 n p.1 times ⟨guess, c.gain, c.rnoise⟩ diffs x
          = lkChi2 n p.1 times ⟨guess, c.gain, c.rnoise⟩ diffs r.countrate → x = r.countrate)
      ∧ r.chisq = lkChi2 n p.1 times ⟨guess, c.gain, c.rnoise⟩ diffs r.countrate
      ∧ r.uncert2 = (fun i => r.weights i.1.1) ⬝ᵥ (lkCov n p.1 times ⟨guess, c.gain, c.rnoise⟩ *ᵥ fun i => r.weights i.1.1)
      ∧ r.countrate = ∑ i ∈ range n, r.weights i * diffs i ∧ (∑ i ∈ range n, r.weights i) = 1
      ∧ (∀ i, p.1 i = false → r.weights i = 0)
      ∧ r.varP + r.varR = r.uncert2 ∧ 0 ≤ r.varP ∧ 0 < r.varR) := by
  intro p
  have hp : p = pixelFit root n (covar times) c jump gdq diffs := rfl
  simp only [pixelFit] at hp
  have hpos : ∀ x : α, 0 ≤ pos x := by
    intro x
    unfold pos
    split
    · rename_i h; exact h.le
    · exact le_refl _
  set guess := pos ((Verif.Jump.nanmedian ((List.range n).map fun i => some (diffs i))).getD 0) with hguess
  have hq : LkNoiseOk (⟨guess, c.gain, c.rnoise⟩ : Noise α) := ⟨hpos _, hg, hrn⟩
  have hs := (C38_rescaled_determinant hr h hq hn).1
  rw [maskJumps_eq] at hp
  have hsub := (passes_spec n (fun i => decide (1 < (covar times).nreads (i + 1))) c.t1 c.t2 _
    (search_maskedZero n (covar times) ⟨guess, c.gain, c.rnoise⟩
      (scaleOf root n (covar times) ⟨guess, c.gain, c.rnoise⟩) diffs) (diffs2use gdq) n).1
  have hrate := passes_rate n (fun i => decide (1 < (covar times).nreads (i + 1))) c.t1 c.t2 _
    (search_ratesThere n (covar times) ⟨guess, c.gain, c.rnoise⟩
      (scaleOf root n (covar times) ⟨guess, c.gain, c.rnoise⟩) diffs) (diffs2use gdq) n
  have hrate0 : (∃ i < n, diffs2use gdq i = true) → ((search n (covar times) ⟨guess, c.gain, c.rnoise⟩
      (scaleOf root n (covar times) ⟨guess, c.gain, c.rnoise⟩) diffs).rate (diffs2use gdq)).isSome = true := by
    intro hu
    obtain ⟨m, hm, hC, -⟩ := lkFit_eq h hq hs hu diffs
    simp only [search, Option.isSome_map]
    rw [lkFitMatrix, ← hm, if_neg hC.ne']
    rfl
  generalize passes n (fun i => decide (1 < (covar times).nreads (i + 1))) c.t1 c.t2
    (search n (covar times) ⟨guess, c.gain, c.rnoise⟩ (scaleOf root n (covar times) ⟨guess, c.gain, c.rnoise⟩) diffs)
    (diffs2use gdq) n = st at *
  constructor
  · intro hu
    rw [hp] at hu ⊢
    dsimp only at hu ⊢
    split
    · rfl
    · exact C38_no_used_difference _ _ _ _ hu
  · rintro ⟨i, hi, hu⟩
    have hu' : st.use i = true := by rw [hp] at hu; exact hu
    have h3 := hrate (hrate0 ⟨i, hi, hsub i hu'⟩)
    obtain ⟨r, hr'⟩ := Option.isSome_iff_exists.1 h3
    have hq' : LkNoiseOk (⟨pos r + c.dark, c.gain, c.rnoise⟩ : Noise α) := ⟨add_nonneg (hpos _) hdk, hg, hrn⟩
    obtain ⟨res, e1, e2, e3, e4, e5, e6, e7, e8, e9, e10, e11, e12, e13, -⟩ := C38_generalised_least_squares h hq'
      (C38_rescaled_determinant hr h hq' hn).1 ⟨i, hi, hu'⟩ diffs
    refine ⟨pos r + c.dark, hq'.1, res, ?_, ?_⟩
    · rw [hp]
      simp only [hr']
      exact e1
    · rw [hp]
      exact ⟨e2, e3, e4, e10, e9, e8, e7, e11, e12, e13⟩

/-! ## C40 -/

/-- **C40.** The times of the reads: those of the read pattern, or without one the frames of each group one frame time apart,
the first at one frame time, and groups `nframes + groupgap` frames apart. -/
theorem C40_read_times (pattern : Option (List (List α))) (ngroups nframes groupgap : Nat) (frameTime : α) (zeroframe : Bool) :
    let used := (readTimes pattern (defaultTimes ngroups nframes groupgap frameTime) zeroframe).2
    (∀ p, pattern = some p → used.1.flatten = p.flatten) ∧
    (pattern = none → used.1.flatten = ((List.range ngroups).map fun k => (List.range nframes).map fun j =>
      ((k * (nframes + groupgap) + j + 1 : ℕ) : α) * frameTime).flatten) ∧
    (∀ rt, (∀ p, pattern = some p → rt = p) → (pattern = none → rt = defaultTimes ngroups nframes groupgap frameTime) →
      (used.2 = true ↔ zeroframe = true ∧ 2 ≤ (rt.getD 0 []).length) ∧
      (used.2 = false → used.1 = rt) ∧
      (used.2 = true → ∃ t l rest, rt = (t :: l) :: rest ∧ used.1 = [t] :: l :: rest)) := by
  intro used
  have hgen : ∀ rt, pattern.getD (defaultTimes ngroups nframes groupgap frameTime) = rt →
      used.1.flatten = rt.flatten ∧ (used.2 = true ↔ zeroframe = true ∧ 2 ≤ (rt.getD 0 []).length) ∧
      (used.2 = false → used.1 = rt) ∧
      (used.2 = true → ∃ t l rest, rt = (t :: l) :: rest ∧ used.1 = [t] :: l :: rest) := by
    intro rt hrt
    simp only [used, readTimes, hrt]
    cases zeroframe with
    | false => simp
    | true =>
      match rt with
      | [] => simp
      | [] :: rest => simp
      | [t] :: rest => simp
      | (t0 :: t1 :: ts) :: rest => simp
  refine ⟨?_, ?_, ?_⟩
  · rintro p rfl
    exact (hgen p rfl).1
  · rintro rfl
    rw [(hgen _ rfl).1]
    unfold defaultTimes
    congr 1
    refine List.map_congr_left fun k _ => List.map_congr_left fun j _ => ?_
    push_cast
    ring
  · intro rt h1 h2
    refine (hgen rt ?_).2
    cases pattern with
    | none => exact (h2 rfl).symm
    | some p => exact (h1 p rfl).symm

/-- **C40.** The read pattern of the caller is left alone exactly when there is no zero frame to split off: no zero frame,
no read pattern, or a first resultant of fewer than two reads.  Missing: with a zero frame and a first resultant of two
or more reads the pattern of the caller is changed, see `C40_second_fit_is_inconsistent`. -/
theorem C40_read_pattern_partial (pattern : Option (List (List α))) (default : List (List α)) (zeroframe : Bool) :
    (readTimes pattern default zeroframe).1 = pattern
      ↔ (zeroframe = true → ∀ p, pattern = some p → ∀ f, p.head? = some f → f.length < 2) := by
  cases pattern with
  | none => simp [readTimes]
  | some p =>
    cases zeroframe with
    | false => simp [readTimes]
    | true =>
      match p with
      | [] => simp [readTimes]
      | [] :: rest => simp [readTimes]
      | [t] :: rest => simp [readTimes]
      | (t0 :: t1 :: ts) :: rest =>
        simp only [readTimes, Option.getD_some, if_true, Option.map_some, Option.some.injEq]
        constructor
        · intro h
          have := congrArg List.length h
          simp at this
        · intro h
          have := h trivial _ rfl _ rfl
          simp at this

/-- **C40 (finding).** Fitting the same exposure twice: with a zero frame and a first resultant of two or more reads, the
first fit has one read time per resultant (the groups and the zero frame), the second one has a read time more than it
has resultants, because the zero frame is no longer used. -/
theorem C40_second_fit_is_inconsistent (t0 t1 : α) (ts : List α) (rest default : List (List α)) (ngroups : Nat)
    (hl : ((t0 :: t1 :: ts) :: rest).length = ngroups) :
    let first := readTimes (some ((t0 :: t1 :: ts) :: rest)) default true
    let second := readTimes first.1 default true
    first.2.1.length = ngroups + (if first.2.2 = true then 1 else 0)
    ∧ second.2.1.length = ngroups + (if second.2.2 = true then 1 else 0) + 1 := by
  subst hl
  simp [readTimes]

/-- Without a read pattern, all fits of an exposure use the same times. -/
theorem C40_without_pattern_partial (default : List (List α)) (zeroframe : Bool) :
    readTimes (readTimes none default zeroframe).1 default zeroframe = readTimes none default zeroframe := rfl

/-! ## C41 -/

/-- Integrations as the likelihood fit produces them: all three values or none, a positive read-noise variance and a
non-negative Poisson variance. -/
def LkInts (l : List (Int1 α)) : Prop :=
  ∀ i ∈ l, (i.data = none ∧ i.varP = none ∧ i.varR = none)
    ∨ ∃ d p r, i.data = some d ∧ i.varP = some p ∧ i.varR = some r ∧ 0 ≤ p ∧ 0 < r

theorem lkSum_div {β : Type} (l : List β) (f : β → α) (c : α) : (l.map fun i => f i / c).sum = (l.map f).sum / c := by
  induction l with
  | nil => simp
  | cons a l ih => simp only [List.map_cons, List.sum_cons, ih, add_div]

theorem lkNansum (l : List (Int1 α)) (f : Int1 α → Option α) (g : Int1 α → α)
    (h1 : ∀ i ∈ l, i.data = none → f i = none) (h2 : ∀ i ∈ l, i.data.isSome = true → f i = some (g i)) :
    nansum (l.map f) = ((l.filter fun i => i.data.isSome).map g).sum := by
  induction l with
  | nil => rfl
  | cons a l ih =>
    have ih' := ih (fun i hi => h1 i (List.mem_cons_of_mem _ hi)) fun i hi => h2 i (List.mem_cons_of_mem _ hi)
    cases ha : a.data with
    | none =>
      have : f a = none := h1 a (List.mem_cons_self ..) ha
      rw [List.filter_cons_of_neg (by simp [ha]), ← ih']
      simp [nansum, this]
    | some d =>
      have : f a = some (g a) := h2 a (List.mem_cons_self ..) (by simp [ha])
      rw [List.filter_cons_of_pos (by simp [ha])]
      simp only [List.map_cons, List.sum_cons]
      rw [← ih']
      simp [nansum, this]

theorem lkSumOrNan (l : List (Int1 α)) (f : Int1 α → Option α) (g : Int1 α → α)
    (h1 : ∀ i ∈ l, i.data = none → f i = none) (h2 : ∀ i ∈ l, i.data.isSome = true → f i = some (g i)) :
    sumOrNan (l.map f) = if ∀ i ∈ l, i.data = none then none
      else some ((l.filter fun i => i.data.isSome).map g).sum := by
  unfold sumOrNan
  rw [lkNansum l f g h1 h2]
  by_cases hc : ∀ i ∈ l, i.data = none
  · rw [if_pos hc, if_pos]
    simp only [List.all_map, List.all_eq_true, Function.comp]
    intro i hi
    simp [h1 i hi (hc i hi)]
  · rw [if_neg hc, if_neg]
    push Not at hc
    obtain ⟨i, hi, hne⟩ := hc
    simp only [List.all_map, List.all_eq_true, Function.comp, not_forall]
    exact ⟨i, hi, by simp [h2 i hi (Option.isSome_iff_ne_none.2 hne)]⟩

/-- **C41.** The combined slope is NaN exactly if no integration has a slope.  Otherwise it is the mean of the slopes that
are numbers with positive weights adding up to one, inversely proportional to a variance `k * varP + varR` with `k ≥ 0`;
it lies between any bounds of them; and the variances are the ones of that mean, with the Poisson variances scaled by the
same `k`. -/
theorem C41_weighted_mean (l : List (Int1 α)) (hl : LkInts l) :
    ((combine l).data = none ↔ ∀ i ∈ l, i.data = none)
    ∧ ∀ v, (combine l).data = some v → ∃ (w k : Int1 α → α) (c : α),
      0 < c
      ∧ (∀ i ∈ l, i.data.isSome = true → 0 ≤ k i ∧ 0 < w i ∧ w i * (k i * i.varP.getD 0 + i.varR.getD 0) = c)
      ∧ ((l.filter fun i => i.data.isSome).map w).sum = 1
      ∧ v = ((l.filter fun i => i.data.isSome).map fun i => w i * i.data.getD 0).sum
      ∧ (∀ lo hi, (∀ i ∈ l, ∀ d, i.data = some d → lo ≤ d ∧ d ≤ hi) → lo ≤ v ∧ v ≤ hi)
      ∧ (combine l).varR = some ((l.filter fun i => i.data.isSome).map fun i => w i * w i * i.varR.getD 0).sum
      ∧ (combine l).varP
          = some ((l.filter fun i => i.data.isSome).map fun i => w i * w i * (k i * i.varP.getD 0)).sum := by
  by_cases h1 : ∃ i, l = [i]
  · obtain ⟨i, rfl⟩ := h1
    have e : combine [i] = i := rfl
    rw [e]
    refine ⟨by simp, fun v hv => ?_⟩
    rcases hl i (by simp) with ⟨a, -, -⟩ | ⟨d, p, r, a, b, c, hp, hr⟩
    · rw [a] at hv; simp at hv
    · rw [a] at hv
      obtain rfl := Option.some.inj hv
      refine ⟨fun _ => 1, fun _ => 1, p + r, by linarith, ?_, ?_, ?_, ?_, ?_, ?_⟩
      · intro j hj _
        rw [List.mem_singleton.1 hj, b, c]
        refine ⟨zero_le_one, zero_lt_one, by simp⟩
      · simp [a]
      · simp [a]
      · intro lo hi hb
        exact hb i (by simp) d a
      · simp [a, c]
      · simp [a, b]
  · have e : combine l = 
      { data := combineRound l (combineRound l (Verif.Jump.nanmedian (l.map fun i => i.data)))
        varP := sumOrNan (l.map fun i => omul (omul i.varP
          (some (rateScale (combineRound l (Verif.Jump.nanmedian (l.map fun i => i.data))) i.data)))
          (omul (normWeight (combineRound l (Verif.Jump.nanmedian (l.map fun i => i.data))) l i)
            (normWeight (combineRound l (Verif.Jump.nanmedian (l.map fun i => i.data))) l i)))
        varR := sumOrNan (l.map fun i => omul i.varR
          (omul (normWeight (combineRound l (Verif.Jump.nanmedian (l.map fun i => i.data))) l i)
            (normWeight (combineRound l (Verif.Jump.nanmedian (l.map fun i => i.data))) l i))) } := by
      unfold combine
      match l with
      | [] => rfl
      | [i] => exact absurd ⟨i, rfl⟩ h1
      | _ :: _ :: _ => rfl
    rw [e]
    dsimp only
    generalize combineRound l (Verif.Jump.nanmedian (l.map fun i => i.data)) = s1
    set k : Int1 α → α := fun i => rateScale s1 i.data with hk
    set V : Int1 α → α := fun i => k i * i.varP.getD 0 + i.varR.getD 0 with hV
    set val := l.filter fun i => i.data.isSome with hval
    have hk0 : ∀ i, 0 ≤ k i := by
      intro i
      simp only [hk, rateScale]
      split
      · split
        · exact le_refl _
        · split
          · exact le_refl _
          · rename_i h; push Not at h; exact h
      · exact le_refl _
    have hV0 : ∀ i ∈ val, 0 < V i := by
      intro i hi
      rw [hval, List.mem_filter] at hi
      rcases hl i hi.1 with ⟨a, -, -⟩ | ⟨d, p, r, a, b, c, hp, hr⟩
      · rw [a] at hi; simp at hi
      · simp only [hV, b, c, Option.getD_some]
        have := mul_nonneg (hk0 i) hp
        linarith
    have hraw : ∀ i ∈ l, i.data.isSome = true → rawWeight s1 i = some (1 / V i) := by
      intro i hi hs
      rcases hl i hi with ⟨a, -, -⟩ | ⟨d, p, r, a, b, c, hp, hr⟩
      · rw [a] at hs; simp at hs
      · simp only [rawWeight, b, c, hV, hk, Option.getD_some]
        rw [mul_comm p]
    have hraw0 : ∀ i ∈ l, i.data = none → rawWeight s1 i = none := by
      intro i hi hs
      rcases hl i hi with ⟨a, b, -⟩ | ⟨d, p, r, a, b, c, hp, hr⟩
      · simp [rawWeight, b]
      · rw [a] at hs; simp at hs
    have hsum : nansum (l.map (rawWeight s1)) = (val.map fun i => 1 / V i).sum := lkNansum l _ _ hraw0 hraw
    set S := (val.map fun i => 1 / V i).sum with hS
    have hnw : ∀ i ∈ l, i.data.isSome = true → normWeight s1 l i = some (1 / V i / S) := by
      intro i hi hs
      simp only [normWeight, hraw i hi hs, Option.map_some, hsum]
    have hnw0 : ∀ i ∈ l, i.data = none → normWeight s1 l i = none := by
      intro i hi hs
      simp only [normWeight, hraw0 i hi hs, Option.map_none]
    have hdata : combineRound l s1 = if ∀ i ∈ l, i.data = none then none
        else some (val.map fun i => 1 / V i / S * i.data.getD 0).sum := by
      unfold combineRound
      refine lkSumOrNan l _ _ (fun i hi hs => ?_) fun i hi hs => ?_
      · simp [omul, hs]
      · rw [hnw i hi hs]
        obtain ⟨d, hd⟩ := Option.isSome_iff_exists.1 hs
        simp only [omul, hd, Option.getD_some, mul_comm]
    rw [hdata]
    refine ⟨?_, fun v hv => ?_⟩
    · by_cases hc : ∀ i ∈ l, i.data = none
      · rw [if_pos hc]; exact ⟨fun _ => hc, fun _ => rfl⟩
      · rw [if_neg hc]; simp only [reduceCtorEq, false_iff]; exact hc
    · by_cases hc : ∀ i ∈ l, i.data = none
      · rw [if_pos hc] at hv; simp at hv
      rw [if_neg hc] at hv
      have hv' := (Option.some.inj hv).symm
      have hne : val ≠ [] := by
        intro h0
        apply hc
        intro i hi
        by_contra hd
        have : i ∈ val := by rw [hval, List.mem_filter]; exact ⟨hi, by simpa [Option.isSome_iff_ne_none] using hd⟩
        rw [h0] at this
        simp at this
      have hSp : 0 < S := Ols.sum_pos_of_mem val _ (fun x hx => by have := hV0 x hx; positivity) hne
      refine ⟨fun i => 1 / V i / S, k, 1 / S, by positivity, ?_, ?_, ?_, ?_, ?_, ?_⟩
      · intro i hi hs
        have := hV0 i (by rw [hval, List.mem_filter]; exact ⟨hi, hs⟩)
        refine ⟨hk0 i, by positivity, ?_⟩
        show 1 / V i / S * V i = 1 / S
        field_simp
      · have : (val.map fun i => 1 / V i / S).sum = S / S := by
          rw [lkSum_div]
        rw [this, div_self hSp.ne']
      · exact hv'
      · intro lo hi hb
        have := (Ols.wmean_spec val (fun i => i.data.getD 0) V hne hV0).1 lo hi (by
          intro i hi'
          rw [hval, List.mem_filter] at hi'
          obtain ⟨d, hd⟩ := Option.isSome_iff_exists.1 hi'.2
          simpa [hd] using hb i hi'.1 d hd)
        have e2 : (val.map fun i => 1 / V i / S * i.data.getD 0) = val.map fun i => i.data.getD 0 / V i / S :=
          List.map_congr_left fun i _ => by rw [div_mul_eq_mul_div, one_div_mul_eq_div]
        rw [hv', e2, lkSum_div]
        rw [mul_one_div] at this
        exact this
      · rw [lkSumOrNan l _ (fun i => 1 / V i / S * (1 / V i / S) * i.varR.getD 0), if_neg hc]
        · intro i hi hs
          simp [hnw0 i hi hs, omul]
        · intro i hi hs
          rw [hnw i hi hs]
          rcases hl i hi with ⟨a, -, -⟩ | ⟨d, p, r, a, b, c, hp, hr⟩
          · rw [a] at hs; simp at hs
          · simp only [omul, c, Option.getD_some, mul_comm]
      · rw [lkSumOrNan l _ (fun i => 1 / V i / S * (1 / V i / S) * (k i * i.varP.getD 0)), if_neg hc]
        · intro i hi hs
          simp [hnw0 i hi hs, omul]
        · intro i hi hs
          rw [hnw i hi hs]
          rcases hl i hi with ⟨a, -, -⟩ | ⟨d, p, r, a, b, c, hp, hr⟩
          · rw [a] at hs; simp at hs
          · simp only [omul, b, Option.getD_some, hk]
            rw [mul_comm p, mul_comm]

/-! ### Examples -/

/-- A jump of 50 in the second difference is found and flagged in the group after it. -/
example : ((List.range 5).map (pixelFit (fun _ _ => 1) 4 (covar fun i => [(i : ℚ) + 1]) ⟨1, 1, 0, 4, 4⟩ 4 (fun _ => 0)
    fun i => if i = 1 then 50 else 3).2.1) = [0, 0, 4, 0, 0] := by decide +kernel

example : (pixelFit (fun _ _ => 1) 4 (covar fun i => [(i : ℚ) + 1]) ⟨1, 1, 0, 4, 4⟩ 4 (fun _ => 0)
    fun i => if i = 1 then 50 else 3).2.2.map (fun r => (r.countrate, r.chisq, r.uncert2)) = some (3, 0, 10 / 7) := by
  decide +kernel

/-- Roots as the fit needs them. -/
example : RootOk fun (x : ℝ) (i : Nat) => x ^ ((i : ℝ)⁻¹) := by
  intro x i hx hi
  exact ⟨Real.rpow_pos_of_pos hx _, Real.rpow_inv_natCast_pow hx.le (by omega)⟩

example : (readTimes (some [[1, 2], [3, 4]]) [] true : Option (List (List ℚ)) × List (List ℚ) × Bool)
    = (some [[1], [2], [3, 4]], [[1], [2], [3, 4]], true) := rfl

example : (readTimes none (defaultTimes 3 2 1 (10 : ℚ)) true).2 = ([[10], [20], [40, 50], [70, 80]], true) := by
  decide +kernel

/-- Two integrations and one without a slope. -/
def lkThree : List (Int1 ℚ) := [⟨some 4, some 1, some 1⟩, ⟨none, none, none⟩, ⟨some 2, some 1, some 1⟩]

example : LkInts lkThree := by
  intro i hi
  fin_cases hi
  · exact Or.inr ⟨4, 1, 1, rfl, rfl, rfl, by norm_num, by norm_num⟩
  · exact Or.inl ⟨rfl, rfl, rfl⟩
  · exact Or.inr ⟨2, 1, 1, rfl, rfl, rfl, by norm_num, by norm_num⟩

example : (combine lkThree).data = some (474 / 149) := by decide +kernel

end Verif.Thm
