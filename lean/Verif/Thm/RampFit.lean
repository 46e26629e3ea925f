import Verif.Model.RampFit
import Verif.Thm.Chargeloss
import Verif.Thm.RampDq
import Verif.Thm.Slicing

/-! # The ramp-fitting driver (C94, C95) and byte order (C96) -/

namespace Verif.Thm

open Verif.Dq Verif.Ols Verif.RampDq Verif.RampFit

set_option linter.unusedSectionVars false

section
open Verif.Slicing

theorem xc_sliceLoop {β : Type*} (rows : List β) (b : Bool) (ns : List Nat) (k : Nat) :
    sliceLoop ⟨rows, b⟩ k ns = sliceLoop ⟨rows, false⟩ k ns := by
  induction ns generalizing k with
  | nil => rfl
  | cons n ns ih => rw [sliceLoop, sliceLoop, ih]; rfl

/-- C03, the case missing from `C03_sliced_fit_partial`: a fit of several slices gives the result of one fit of the whole
detector without one-group suppression, whatever was asked for. -/
theorem C03_sliced_fit_never_suppresses {α β : Type*} (zero : β) (fitRow : Bool → α → Option β) (rows : List α) (suppress : Bool)
    (nslices : Nat) (hn : 0 < nslices) :
    fitMulti zero fitRow ⟨rows, suppress⟩ nslices = fitSingle fitRow ⟨rows, false⟩ := by
  rw [← C03_sliced_fit_partial zero fitRow rows nslices hn]
  simp only [fitMulti, computeSlices]
  rw [xc_sliceLoop]

end

section
variable {α : Type*} [Field α] [LinearOrder α] [IsStrictOrderedRing α]

/-! ## C94: algorithm and read noise -/

/-- The name means the likelihood algorithm. -/
def RfLikely (algorithm : List Char) : Prop := algorithm.map Char.toUpper = ['L', 'I', 'K', 'E', 'L', 'Y']

/-- The name means the C implementation of least squares. -/
def RfOlsC (algorithm : List Char) : Prop := algorithm.map Char.toUpper = ['O', 'L', 'S', '_', 'C']

instance (a : List Char) : Decidable (RfLikely a) := inferInstanceAs (Decidable (_ = _))
instance (a : List Char) : Decidable (RfOlsC a) := inferInstanceAs (Decidable (_ = _))

/-- Some group of the pixel carries CHARGELOSS. -/
def RfLost (fl : Flags) (p : RPix α) : Prop := ∃ e ∈ p.ints, ∃ d ∈ e.2.1, Has d fl.chargeloss

instance (fl : Flags) (p : RPix α) : Decidable (RfLost fl p) := by unfold RfLost; infer_instance

theorem rf_uses (algorithm : List Char) (ngroups : Nat) :
    usesLikely algorithm ngroups = true ↔ RfLikely algorithm ∧ 4 ≤ ngroups := by
  have e : "LIKELY".toList = ['L', 'I', 'K', 'E', 'L', 'Y'] := by decide
  simp only [usesLikely, upper, likelyMin, e, RfLikely]
  by_cases h : algorithm.map Char.toUpper = ['L', 'I', 'K', 'E', 'L', 'Y'] <;> by_cases h4 : ngroups < 4
  · simp [h, h4]
  · simp only [h, h4, and_false, if_false, decide_true, Bool.true_and, true_and]
    exact decide_eq_true_iff
  · simp [h]
  · simp [h]

theorem rf_keeps (fl : Flags) (algorithm : List Char) (rows : List (List (RPix α))) :
    keepsOrig fl algorithm rows = true ↔ RfOlsC algorithm ∧ ∃ row ∈ rows, ∃ p ∈ row, RfLost fl p := by
  have e : "OLS_C".toList = ['O', 'L', 'S', '_', 'C'] := by decide
  simp only [keepsOrig, upper, e, RfOlsC, RfLost, Bool.and_eq_true, decide_eq_true_eq, List.any_eq_true, hasB_iff]

/-- The likelihood algorithm runs exactly when it is asked for (in any case of letters) and the exposure has at least
four groups; every other request is fitted by least squares. -/
theorem C94_selection {γ : Type*} (fl : Flags) (cfg : Cfg α) (lik : List (List (RPix α)) → γ) (miri : Bool)
    (nframes ngroups : Nat) (algorithm : List Char) (suppress : Bool) (maxCores : List Char) (ncpu : Nat)
    (rows : List (List (RPix α))) :
    (RfLikely algorithm → 4 ≤ ngroups →
      (rampFit fl cfg lik miri nframes ngroups algorithm suppress maxCores ncpu rows).1 = .likely (lik rows))
    ∧ (¬ (RfLikely algorithm ∧ 4 ≤ ngroups) →
      ∃ r, (rampFit fl cfg lik miri nframes ngroups algorithm suppress maxCores ncpu rows).1 = .ols r) := by
  constructor
  · intro h h4
    rw [rampFit]
    simp only [(rf_uses algorithm ngroups).2 ⟨h, h4⟩, if_true]
  · intro h
    rw [← rf_uses] at h
    rw [rampFit]
    simp only [if_neg h]
    exact ⟨_, rfl⟩

/-- Every request that is not fitted by the likelihood algorithm, among them LIKELY for short ramps and unknown names,
has the same outcome as a request for OLS_C, provided no group is flagged CHARGELOSS.  Missing: exposures with charge
loss, see `C94_fallback_ignores_charge_loss`. -/
theorem C94_fallback_partial {γ : Type*} (fl : Flags) (cfg : Cfg α) (lik : List (List (RPix α)) → γ) (miri : Bool)
    (nframes ngroups : Nat) (algorithm algorithm' : List Char) (ha : ¬ (RfLikely algorithm ∧ 4 ≤ ngroups))
    (ha' : RfOlsC algorithm') (suppress : Bool) (maxCores : List Char) (ncpu : Nat) (rows : List (List (RPix α)))
    (hlost : ∀ row ∈ rows, ∀ p ∈ row, ¬ RfLost fl p) :
    rampFit fl cfg lik miri nframes ngroups algorithm suppress maxCores ncpu rows
      = rampFit fl cfg lik miri nframes ngroups algorithm' suppress maxCores ncpu rows := by
  have h1 : ∀ a : List Char, keepsOrig fl a rows = false := by
    intro a
    rw [← Bool.not_eq_true, rf_keeps]
    rintro ⟨-, row, hr, p, hp, h⟩
    exact hlost row hr p hp h
  have h2 : usesLikely algorithm ngroups = false := by rw [← Bool.not_eq_true, rf_uses]; exact ha
  have h3 : usesLikely algorithm' ngroups = false := by
    rw [← Bool.not_eq_true, rf_uses]
    rintro ⟨h, -⟩
    rw [RfOlsC] at ha'
    rw [RfLikely, ha'] at h
    exact absurd h (by decide)
  simp only [rampFit, h1, h2, h3]

/-- The caller's read-noise array: the likelihood fit leaves it alone; least squares replace it by the read noise in
electrons of the averaged frames of a difference, `rnoise · gain / √(2·nframes)`. -/
theorem C94_read_noise {γ : Type*} (fl : Flags) (cfg : Cfg α) (lik : List (List (RPix α)) → γ) (miri : Bool)
    (nframes ngroups : Nat) (algorithm : List Char) (suppress : Bool) (maxCores : List Char) (ncpu : Nat)
    (rows : List (List (RPix α))) (r c : Nat) (p : RPix α) (hp : (rows[r]?.bind fun row => row[c]?) = some p) :
    let out := (rampFit fl cfg lik miri nframes ngroups algorithm suppress maxCores ncpu rows).2
    (RfLikely algorithm ∧ 4 ≤ ngroups → (out[r]?.bind fun row => row[c]?) = some p.rnoise)
    ∧ (¬ (RfLikely algorithm ∧ 4 ≤ ngroups) → ∀ g, p.gain = some g →
        (out[r]?.bind fun row => row[c]?) = some (p.rnoise * g / cfg.sqrt (2 * nframes))) := by
  intro out
  have hmap : ∀ f : RPix α → α, ((rows.map fun row => row.map f)[r]?.bind fun row => row[c]?) = some (f p) := by
    intro f
    rw [List.getElem?_map]
    cases hr : rows[r]? with
    | none => rw [hr] at hp; simp at hp
    | some row =>
      rw [hr] at hp
      simp only [Option.bind_some] at hp
      simp [hp]
  constructor
  · intro h
    simp only [out, rampFit, (rf_uses algorithm ngroups).2 h, if_true]
    exact hmap _
  · intro h g hg
    rw [← rf_uses] at h
    simp only [out, rampFit, if_neg h]
    rw [hmap, scaledNoise, hg]
    simp [mul_div_assoc]

/-! ## C95: each pixel is fitted on its own -/

/-- The pixel the least-squares fit is given. -/
def rfPixIn (sqrt : α → α) (nframes : Nat) (p : RPix α)
    (ints : List (List (Option α) × List Nat × Option (Option α))) : PixIn α :=
  match p.gain with
  | some g => ⟨decide (g ≤ 0), ⟨g, p.rnoise * g / sqrt (2 * nframes), p.dark⟩, p.pixeldq, ints⟩
  | none => ⟨true, ⟨0, 0, p.dark⟩, p.pixeldq, ints⟩

/-- What is expected of a pixel: its own fit, with the charge-loss step if the algorithm is OLS_C and the pixel has
charge loss. -/
def rfExpected (fl : Flags) (cfg : Cfg α) (nframes ngroups : Nat) (olsC : Bool) (p : RPix α)
    (ints : List (List (Option α) × List Nat × Option (Option α))) (orig : List (List Nat)) : PixOut α :=
  if olsC = true ∧ RfLost fl p then fitPixelOrig fl cfg ngroups (rfPixIn cfg.sqrt nframes p ints) orig
  else fitPixel fl cfg ngroups (rfPixIn cfg.sqrt nframes p ints)

/-- The integrations of a pixel after the optional suppression of ramps with one good group (C34). -/
def rfInts (fl : Flags) (suppress : Bool) (p : RPix α) : List (List (Option α) × List Nat × Option (Option α)) :=
  p.ints.map fun e => (e.1, if suppress then suppressOne fl.dnu fl.pers e.2.1 else e.2.1, e.2.2)

theorem rf_suppress_has (dnu pers f : Nat) (hdf : ¬ Has dnu f) (g : List Nat) (n : Nat) :
    Has ((suppressOne dnu pers g).getD n 0) f ↔ Has (g.getD n 0) f := by
  rw [suppressOne]
  split
  · rw [List.getD_eq_getElem?_getD, List.getD_eq_getElem?_getD, List.getElem?_map]
    cases g[n]? with
    | none => simp
    | some d => simp [has_or_left, hdf]
  · rfl

theorem rf_suppress_mem (dnu pers f : Nat) (hdf : ¬ Has dnu f) (g : List Nat) (h : ∀ d ∈ g, ¬ Has d f) :
    ∀ d ∈ suppressOne dnu pers g, ¬ Has d f := by
  rw [suppressOne]
  split
  · intro d hd
    obtain ⟨x, hx, rfl⟩ := List.mem_map.1 hd
    rw [has_or_left]
    exact fun hc => hc.elim (h x hx) hdf
  · exact h

theorem rf_prepare (fl : Flags) (sqrt : α → α) (nframes : Nat) (suppress keep : Bool) (p : RPix α) :
    (prepare fl sqrt nframes suppress keep p).pix = rfPixIn sqrt nframes p (rfInts fl suppress p) := by
  unfold prepare rfPixIn rfInts scaledNoise
  cases p.gain with
  | none => simp
  | some g => simp [mul_div_assoc]

theorem rf_fitRows (fl : Flags) (cfg : Cfg α) (ngroups : Nat) (suppress : Bool) (slices : Nat)
    (hsl : 0 < slices) (rows : List (List (Job α))) :
    olsFitRows fl cfg ngroups suppress slices rows
      = if allFirstSat fl rows then none
        else some (rows.map fun row => row.map (fitJob fl cfg ngroups (suppress && decide (slices = 1)))) := by
  have hm : ∀ (s : Bool) (l : List (List (Job α))), l.mapM (fun row => some (row.map (fitJob fl cfg ngroups s)))
      = some (l.map fun row => row.map (fitJob fl cfg ngroups s)) := by
    intro s l
    induction l with
    | nil => rfl
    | cons a t ih => simp [List.mapM_cons, ih]
  rw [olsFitRows]
  split
  · rfl
  · simp only
    split
    · rename_i h
      simp only [Slicing.fitSingle, h, decide_true, Bool.and_true]; exact hm suppress rows
    · rename_i h
      rw [C03_sliced_fit_never_suppresses [] _ rows suppress slices hsl]
      simp only [Slicing.fitSingle, h, decide_false, Bool.and_false]; exact hm false rows

/-- Each pixel is fitted on its own (instruments other than MIRI, or one group), exactly: unless every ramp of the
exposure is saturated in its first group, in which case there is no result, the product has the shape of the exposure
and every pixel holds the fit of its own samples, flags, gain, noise and dark current, whatever the other pixels
contain.  With one process the fit knows that one-group ramps are to be suppressed, with several it does not, although
the flags set by the suppression are there. -/
theorem C95_each_pixel_exact {γ : Type*} (fl : Flags) (hds : ¬ Has fl.dnu fl.sat) (hdc : ¬ Has fl.dnu fl.chargeloss)
    (cfg : Cfg α) (lik : List (List (RPix α)) → γ) (miri : Bool) (nframes ngroups : Nat)
    (hm : miri = false ∨ ngroups ≤ 1) (algorithm : List Char) (ha : ¬ (RfLikely algorithm ∧ 4 ≤ ngroups))
    (suppress : Bool) (maxCores : List Char) (ncpu : Nat) (rows : List (List (RPix α)))
    (hsl : 0 < Slicing.computeNumCores maxCores rows.length ncpu) :
    (rampFit fl cfg lik miri nframes ngroups algorithm suppress maxCores ncpu rows).1
      = .ols (if ∀ row ∈ rows, ∀ p ∈ row, ∀ e ∈ p.ints, Has (e.2.1.getD 0 0) fl.sat then none
        else some (rows.map fun row => row.map fun p =>
          let s := suppress && decide (ngroups ≠ 1)
          rfExpected fl { cfg with suppress1g := s && decide (Slicing.computeNumCores maxCores rows.length ncpu = 1) }
            nframes ngroups (decide (RfOlsC algorithm)) p (rfInts fl s p) (p.ints.map fun e => e.2.1))) := by
  have hu : usesLikely algorithm ngroups = false := by rw [← Bool.not_eq_true, rf_uses]; exact ha
  have hsup : (if (suppress && decide (ngroups = 1)) = true then false else suppress)
      = (suppress && decide (ngroups ≠ 1)) := by
    cases suppress <;> by_cases h : ngroups = 1 <;> simp [h]
  simp only [rampFit, hu, Bool.false_eq_true, if_false, hsup]
  set s := (suppress && decide (ngroups ≠ 1)) with hsdef
  set keep := keepsOrig fl algorithm rows with hkeep
  have hmm : (miri && decide (1 < ngroups)) = false := by
    rcases hm with h | h
    · rw [h]; rfl
    · have : ¬ 1 < ngroups := by omega
      simp [this]
  simp only [olsMulti, hmm, Bool.false_eq_true, if_false, List.length_map]
  rw [rf_fitRows fl cfg ngroups s _ hsl]
  have hsat : allFirstSat fl (rows.map fun row => row.map (prepare fl cfg.sqrt nframes s keep)) = true
      ↔ ∀ row ∈ rows, ∀ p ∈ row, ∀ e ∈ p.ints, Has (e.2.1.getD 0 0) fl.sat := by
    simp only [allFirstSat, List.all_eq_true, List.mem_map, forall_exists_index, and_imp, forall_apply_eq_imp_iff₂,
      prepare, hasB_iff]
    refine forall₂_congr fun row _ => forall₂_congr fun p _ => forall₂_congr fun e _ => ?_
    cases s
    · rfl
    · exact rf_suppress_has _ _ _ hds _ _
  congr 1
  by_cases hall : ∀ row ∈ rows, ∀ p ∈ row, ∀ e ∈ p.ints, Has (e.2.1.getD 0 0) fl.sat
  · rw [if_pos (hsat.2 hall), if_pos hall]
  · rw [if_neg (fun h => hall (hsat.1 h)), if_neg hall, List.map_map]
    congr 1
    apply List.map_congr_left
    intro row hrow
    simp only [Function.comp_apply, List.map_map]
    apply List.map_congr_left
    intro p hp
    simp only [Function.comp_apply, rfExpected, fitJob, rf_prepare]
    have horig : (prepare fl cfg.sqrt nframes s keep p).orig
        = if keep then some (p.ints.map fun e => e.2.1) else none := rfl
    rw [horig]
    by_cases hk : keep = true
    · obtain ⟨ho, -⟩ := (rf_keeps fl algorithm rows).1 hk
      rw [if_pos hk]
      simp only [ho, decide_true, true_and]
      by_cases hl : RfLost fl p
      · rw [if_pos hl]
      · rw [if_neg hl]
        refine (C87_only_read_noise fl _ ngroups _ _ ?_).2.2.2.2.2.2 ?_
        · unfold rfPixIn rfInts; cases p.gain <;> simp
        · intro e he
          have he' : e ∈ rfInts fl s p := by
            unfold rfPixIn at he; cases hg : p.gain <;> rw [hg] at he <;> exact he
          obtain ⟨e0, h0, rfl⟩ := List.mem_map.1 he'
          have hno : ∀ d ∈ e0.2.1, ¬ Has d fl.chargeloss := fun d hd hc => hl ⟨e0, h0, d, hd, hc⟩
          cases s
          · exact hno
          · exact rf_suppress_mem _ _ _ hdc _ hno
    · rw [if_neg hk]
      have : ¬ (decide (RfOlsC algorithm) = true ∧ RfLost fl p) := by
        rintro ⟨h1, h2⟩
        exact hk ((rf_keeps fl algorithm rows).2 ⟨by simpa using h1, row, hrow, p, hp, h2⟩)
      rw [if_neg this]

/-- Each pixel is fitted on its own, however many processes are used (instruments other than MIRI, or one group): unless every ramp of the exposure is
saturated in its first group, in which case there is no result, the product has the shape of the exposure and
every pixel holds the fit of its own samples, flags, gain, noise and dark current, whatever the other pixels contain
and however many processes are used.  Missing: suppression of one-group ramps with several processes, where slices
lose the setting (`C03_sliced_fit_with_suppression_differs`). -/
theorem C95_each_pixel_partial {γ : Type*} (fl : Flags) (hds : ¬ Has fl.dnu fl.sat) (hdc : ¬ Has fl.dnu fl.chargeloss)
    (cfg : Cfg α) (lik : List (List (RPix α)) → γ) (miri : Bool) (nframes ngroups : Nat)
    (hm : miri = false ∨ ngroups ≤ 1) (algorithm : List Char) (ha : ¬ (RfLikely algorithm ∧ 4 ≤ ngroups))
    (suppress : Bool) (maxCores : List Char) (ncpu : Nat) (rows : List (List (RPix α)))
    (hsl : 0 < Slicing.computeNumCores maxCores rows.length ncpu)
    (hs : suppress = false ∨ ngroups = 1 ∨ Slicing.computeNumCores maxCores rows.length ncpu = 1) :
    (rampFit fl cfg lik miri nframes ngroups algorithm suppress maxCores ncpu rows).1
      = .ols (if ∀ row ∈ rows, ∀ p ∈ row, ∀ e ∈ p.ints, Has (e.2.1.getD 0 0) fl.sat then none
        else some (rows.map fun row => row.map fun p =>
          let s := suppress && decide (ngroups ≠ 1)
          rfExpected fl { cfg with suppress1g := s } nframes ngroups (decide (RfOlsC algorithm)) p (rfInts fl s p)
            (p.ints.map fun e => e.2.1))) := by
  have hx := C95_each_pixel_exact fl hds hdc cfg lik miri nframes ngroups hm algorithm ha suppress maxCores ncpu rows hsl
  have hs' : ((suppress && decide (ngroups ≠ 1)) && decide (Slicing.computeNumCores maxCores rows.length ncpu = 1))
      = (suppress && decide (ngroups ≠ 1)) := by
    rcases hs with h | h | h
    · rw [h]; rfl
    · rw [h]; simp
    · rw [h]; simp
  simp only [hs'] at hx
  exact hx

/-- The groups of the exposure: the words of all pixels and integrations. -/
def rfPlanes (fl : Flags) (s : Bool) (ngroups : Nat) (rows : List (List (RPix α))) : List (List Nat) :=
  (List.range ngroups).map fun g => rows.flatten.flatMap fun p => (rfInts fl s p).map fun e => e.2.1.getD g 0

/-- The groups `k … k+m-1` of the integrations; JUMP_DET is taken from the first of them if `k` is not zero. -/
def rfCut (jump k m : Nat) (ints : List (List (Option α) × List Nat × Option (Option α))) :
    List (List (Option α) × List Nat × Option (Option α)) :=
  ints.map fun e => ((e.1.drop k).take m,
    if 0 < k then clear (e.2.1.getD k 0) jump :: (e.2.1.drop (k + 1)).take (m - 1) else e.2.1.take m, e.2.2)

theorem rf_select {β : Type*} (l : List β) (k m : Nat) (h : k + m ≤ l.length) :
    select (List.range' k m) l = (l.drop k).take m := by
  induction m generalizing k with
  | zero => simp [select]
  | succ m ih =>
    have hk : k < l.length := by omega
    have ih' := ih (k + 1) (by omega)
    unfold select at ih' ⊢
    rw [List.range'_succ, List.filterMap_cons, List.getElem?_eq_getElem hk, ih', List.drop_eq_getElem_cons hk,
      List.take_succ_cons]

theorem rf_stripDq (fl : Flags) (b : Nat) (hb : fl.jump = 2 ^ b) (g : List Nat) (k m : Nat) (hm : 1 ≤ m)
    (h : k + m ≤ g.length) :
    stripDq fl (List.range' k m) g
      = if 0 < k then clear (g.getD k 0) fl.jump :: (g.drop (k + 1)).take (m - 1) else g.take m := by
  obtain ⟨m, rfl⟩ : ∃ m', m = m' + 1 := ⟨m - 1, by omega⟩
  have hk : k < g.length := by omega
  rw [stripDq, rf_select g k (m + 1) h]
  by_cases h0 : k = 0
  · subst h0; simp [List.range'_succ]
  · have h0' : 0 < k := by omega
    rw [if_neg (by simp [List.range'_succ, h0]), if_pos h0', List.drop_eq_getElem_cons hk, List.take_succ_cons]
    simp only [Nat.add_sub_cancel]
    congr 1
    rw [List.getD_eq_getElem?_getD, List.getElem?_eq_getElem hk, Option.getD_some]
    have := clearJump_eq (b := b) [g[k]]
    rw [← hb] at this
    simpa [clearJump] using this

/-- MIRI exposures of more than one group: with `k` leading groups that are unusable in all pixels and `m` groups left
after also dropping an all-unusable last one, there is no result if `m < 2` or if all ramps are saturated in
group `k`; otherwise every pixel holds the fit of the groups `k … k+m-1` of its own ramp.  With several processes the
fit does not know of the suppression, as above. -/
theorem C95_miri_exact {γ : Type*} (fl : Flags) (b : Nat) (hb : fl.jump = 2 ^ b) (hdj : ¬ Has fl.dnu fl.jump)
    (hsj : ¬ Has fl.jump fl.sat) (hdc : ¬ Has fl.dnu fl.chargeloss)
    (cfg : Cfg α) (lik : List (List (RPix α)) → γ) (nframes ngroups : Nat) (hng : 1 < ngroups)
    (algorithm : List Char) (ha : ¬ (RfLikely algorithm ∧ 4 ≤ ngroups))
    (suppress : Bool) (maxCores : List Char) (ncpu : Nat) (rows : List (List (RPix α)))
    (hshape : ∀ row ∈ rows, ∀ p ∈ row, ∀ e ∈ p.ints, e.1.length = ngroups ∧ e.2.1.length = ngroups)
    (hsl : 0 < Slicing.computeNumCores maxCores rows.length ncpu)
    (k : Nat) (hk : LeadCount fl.dnu (rfPlanes fl suppress ngroups rows) k)
    (m : Nat) (hm : m = keptCount fl.dnu (rfPlanes fl suppress ngroups rows) k) :
    (rampFit fl cfg lik true nframes ngroups algorithm suppress maxCores ncpu rows).1
      = .ols (if m < 2 then none
        else if ∀ row ∈ rows, ∀ p ∈ row, ∀ e ∈ rfInts fl suppress p, Has (e.2.1.getD k 0) fl.sat then none
        else some (rows.map fun row => row.map fun p =>
          rfExpected fl { cfg with suppress1g := suppress && decide (Slicing.computeNumCores maxCores rows.length ncpu = 1) } nframes m (decide (RfOlsC algorithm)) p
            (rfCut fl.jump k m (rfInts fl suppress p)) (p.ints.map fun e => (e.2.1.drop k).take m))) := by
  have hu : usesLikely algorithm ngroups = false := by rw [← Bool.not_eq_true, rf_uses]; exact ha
  have hsup : (if (suppress && decide (ngroups = 1)) = true then false else suppress) = suppress := by
    have : ngroups ≠ 1 := by omega
    simp [this]
  simp only [rampFit, hu, Bool.false_eq_true, if_false, hsup]
  set keep := keepsOrig fl algorithm rows with hkeep
  set jobs := rows.map fun row => row.map (prepare fl cfg.sqrt nframes suppress keep) with hjobs
  have hplanes : planes ngroups jobs = rfPlanes fl suppress ngroups rows := by
    rw [planes, rfPlanes, hjobs]
    apply List.map_congr_left
    intro g _
    rw [← List.map_flatten, List.flatMap_map]
    apply List.flatMap_congr
    intro p _
    simp only [rf_prepare]
    unfold rfPixIn
    cases p.gain <;> rfl
  have hplen : (rfPlanes fl suppress ngroups rows).length = ngroups := by simp [rfPlanes]
  have hdj' : ¬ Has fl.dnu (2 ^ b) := by rw [← hb]; exact hdj
  obtain ⟨d1, d2⟩ := C33_discard_exact fl.dnu b hdj' (List.range ngroups) (rfPlanes fl suppress ngroups rows) none
    (by rw [hplen, List.length_range]) (by simp) k hk
  rw [← hm, ← hb] at d1 d2
  have hmm : (true && decide (1 < ngroups)) = true := by simp [hng]
  have hjl : jobs.length = rows.length := by rw [hjobs, List.length_map]
  simp only [olsMulti, hmm, if_true, keptGroups, hplanes, hjl]
  by_cases hm2 : m < 2
  · rw [d1 hm2, if_pos hm2]; rfl
  · obtain ⟨q, hq, -, -⟩ := d2 (by omega)
    rw [hq, if_neg hm2]
    simp only [Option.map_some]
    have hkm : k + m ≤ ngroups := by
      have hk1 := hk.1
      rw [hplen] at hk1
      have : m ≤ ngroups - k := by
        rw [hm, keptCount]
        split
        · omega
        · rw [hplen]; split <;> omega
      omega
    have hkept : ((List.range ngroups).drop k).take m = List.range' k m := by
      rw [← rf_select (List.range ngroups) k m (by rw [List.length_range]; exact hkm), select]
      apply List.ext_getElem?
      intro i
      rw [show (List.range' k m).filterMap (fun (j : Nat) => (List.range ngroups)[j]?)
        = (List.range' k m).filterMap (fun (j : Nat) => some j) from by
          apply List.filterMap_congr
          intro j hj
          rw [List.mem_range'_1] at hj
          rw [List.getElem?_range (by omega)]]
      rw [List.filterMap_some]
    rw [hkept, List.length_range', rf_fitRows fl cfg m suppress _ hsl]
    have hlen : ∀ row ∈ rows, ∀ p ∈ row, ∀ e ∈ rfInts fl suppress p, e.1.length = ngroups ∧ e.2.1.length = ngroups := by
      intro row hrow p hp e he
      obtain ⟨e0, h0, rfl⟩ := List.mem_map.1 he
      obtain ⟨l1, l2⟩ := hshape row hrow p hp e0 h0
      refine ⟨l1, ?_⟩
      cases suppress
      · exact l2
      · simp only [if_true, suppressOne]
        split
        · rw [List.length_map]; exact l2
        · exact l2
    have hstrip : ∀ row ∈ rows, ∀ p ∈ row,
        (stripJob fl (List.range' k m) (prepare fl cfg.sqrt nframes suppress keep p)).pix
          = rfPixIn cfg.sqrt nframes p (rfCut fl.jump k m (rfInts fl suppress p)) := by
      intro row hrow p hp
      have e1 : (stripJob fl (List.range' k m) (prepare fl cfg.sqrt nframes suppress keep p)).pix
          = rfPixIn cfg.sqrt nframes p ((rfInts fl suppress p).map fun e =>
            (select (List.range' k m) e.1, stripDq fl (List.range' k m) e.2.1, e.2.2)) := by
        simp only [stripJob, rf_prepare]
        unfold rfPixIn
        cases p.gain <;> rfl
      rw [e1, rfCut]
      congr 1
      apply List.map_congr_left
      intro e he
      obtain ⟨l1, l2⟩ := hlen row hrow p hp e he
      rw [rf_select e.1 k m (by omega), rf_stripDq fl b hb e.2.1 k m (by omega) (by omega)]
    have hints : ∀ (p : RPix α) i, (rfPixIn cfg.sqrt nframes p i).ints = i := by
      intro p i; unfold rfPixIn; cases p.gain <;> rfl
    have hsat : allFirstSat fl (jobs.map fun row => row.map (stripJob fl (List.range' k m))) = true
        ↔ ∀ row ∈ rows, ∀ p ∈ row, ∀ e ∈ rfInts fl suppress p, Has (e.2.1.getD k 0) fl.sat := by
      simp only [allFirstSat, hjobs, List.all_eq_true, List.mem_map, forall_exists_index, and_imp,
        forall_apply_eq_imp_iff₂, hasB_iff]
      refine forall₂_congr fun row hrow => forall₂_congr fun p hp => ?_
      rw [hstrip row hrow p hp, hints, rfCut]
      simp only [List.mem_map, forall_exists_index, and_imp, forall_apply_eq_imp_iff₂]
      refine forall₂_congr fun e he => ?_
      obtain ⟨l1, l2⟩ := hlen row hrow p hp e he
      by_cases h0 : 0 < k
      · simp only [if_pos h0, List.getD_cons_zero]
        rw [has_iff, has_iff]
        refine exists_congr fun i => ?_
        rw [testBit_clear, Bool.and_eq_true]
        rw [not_has_iff] at hsj
        constructor
        · rintro ⟨⟨h1, -⟩, h2⟩; exact ⟨h1, h2⟩
        · rintro ⟨h1, h2⟩
          refine ⟨⟨h1, ?_⟩, h2⟩
          cases hji : fl.jump.testBit i
          · rfl
          · rw [hsj i hji] at h2; exact absurd h2 (by simp)
      · have : k = 0 := by omega
        subst this
        simp only [if_neg h0]
        have : e.2.1.take m = e.2.1.take m := rfl
        rw [List.getD_eq_getElem?_getD, List.getD_eq_getElem?_getD, List.getElem?_take_of_lt (by omega)]
    congr 1
    by_cases hall : ∀ row ∈ rows, ∀ p ∈ row, ∀ e ∈ rfInts fl suppress p, Has (e.2.1.getD k 0) fl.sat
    · rw [if_pos (hsat.2 hall), if_pos hall]
    · rw [if_neg (fun h => hall (hsat.1 h)), if_neg hall, hjobs, List.map_map, List.map_map]
      congr 1
      apply List.map_congr_left
      intro row hrow
      simp only [Function.comp_apply, List.map_map]
      apply List.map_congr_left
      intro p hp
      simp only [Function.comp_apply, rfExpected, fitJob]
      rw [hstrip row hrow p hp]
      have horig : (stripJob fl (List.range' k m) (prepare fl cfg.sqrt nframes suppress keep p)).orig
          = if keep then some (p.ints.map fun e => (e.2.1.drop k).take m) else none := by
        simp only [stripJob, prepare]
        split
        · simp only [Option.map_some, List.map_map]
          congr 1
          apply List.map_congr_left
          intro e he
          obtain ⟨l1, l2⟩ := hshape row hrow p hp e he
          simp only [Function.comp_apply]
          rw [rf_select e.2.1 k m (by omega)]
        · rfl
      rw [horig]
      by_cases hk' : keep = true
      · obtain ⟨ho, -⟩ := (rf_keeps fl algorithm rows).1 hk'
        rw [if_pos hk']
        simp only [ho, decide_true, true_and]
        by_cases hl : RfLost fl p
        · rw [if_pos hl]
        · rw [if_neg hl]
          refine (C87_only_read_noise fl _ m _ _ ?_).2.2.2.2.2.2 ?_
          · rw [hints]; simp [rfCut, rfInts]
          · rw [hints, rfCut]
            intro e he
            obtain ⟨e1, h1, rfl⟩ := List.mem_map.1 he
            obtain ⟨e0, h0, rfl⟩ := List.mem_map.1 h1
            have hno : ∀ d ∈ e0.2.1, ¬ Has d fl.chargeloss := fun d hd hc => hl ⟨e0, h0, d, hd, hc⟩
            have hno' : ∀ d ∈ (if suppress then suppressOne fl.dnu fl.pers e0.2.1 else e0.2.1), ¬ Has d fl.chargeloss := by
              cases suppress
              · exact hno
              · exact rf_suppress_mem _ _ _ hdc _ hno
            simp only
            generalize (if suppress then suppressOne fl.dnu fl.pers e0.2.1 else e0.2.1) = g at hno'
            split
            · intro d hd
              rcases List.mem_cons.1 hd with rfl | hd
              · intro hc
                rw [has_iff] at hc
                obtain ⟨i, hi1, hi2⟩ := hc
                rw [testBit_clear, Bool.and_eq_true] at hi1
                rcases Nat.lt_or_ge k g.length with hkl | hkl
                · apply hno' g[k] (List.getElem_mem _)
                  rw [List.getD_eq_getElem?_getD, List.getElem?_eq_getElem hkl, Option.getD_some] at hi1
                  exact has_iff.2 ⟨i, hi1.1, hi2⟩
                · rw [List.getD_eq_getElem?_getD, List.getElem?_eq_none (by omega)] at hi1
                  simp at hi1
              · exact hno' d (List.mem_of_mem_drop (List.mem_of_mem_take hd))
            · intro d hd
              exact hno' d (List.mem_of_mem_take hd)
      · rw [if_neg hk']
        have : ¬ (decide (RfOlsC algorithm) = true ∧ RfLost fl p) := by
          rintro ⟨h1, h2⟩
          exact hk' ((rf_keeps fl algorithm rows).2 ⟨by simpa using h1, row, hrow, p, hp, h2⟩)
        rw [if_neg this]

/-- MIRI exposures of more than one group: with `k` leading groups that are unusable in all pixels and `m` groups left
after also dropping an all-unusable last one, there is no result if `m < 2` or if all ramps are saturated in
group `k`; otherwise every pixel holds the fit of the groups `k … k+m-1` of its own ramp.  Missing: as above. -/
theorem C95_miri_partial {γ : Type*} (fl : Flags) (b : Nat) (hb : fl.jump = 2 ^ b) (hdj : ¬ Has fl.dnu fl.jump)
    (hsj : ¬ Has fl.jump fl.sat) (hdc : ¬ Has fl.dnu fl.chargeloss)
    (cfg : Cfg α) (lik : List (List (RPix α)) → γ) (nframes ngroups : Nat) (hng : 1 < ngroups)
    (algorithm : List Char) (ha : ¬ (RfLikely algorithm ∧ 4 ≤ ngroups))
    (suppress : Bool) (maxCores : List Char) (ncpu : Nat) (rows : List (List (RPix α)))
    (hshape : ∀ row ∈ rows, ∀ p ∈ row, ∀ e ∈ p.ints, e.1.length = ngroups ∧ e.2.1.length = ngroups)
    (hsl : 0 < Slicing.computeNumCores maxCores rows.length ncpu)
    (hs : suppress = false ∨ Slicing.computeNumCores maxCores rows.length ncpu = 1)
    (k : Nat) (hk : LeadCount fl.dnu (rfPlanes fl suppress ngroups rows) k)
    (m : Nat) (hm : m = keptCount fl.dnu (rfPlanes fl suppress ngroups rows) k) :
    (rampFit fl cfg lik true nframes ngroups algorithm suppress maxCores ncpu rows).1
      = .ols (if m < 2 then none
        else if ∀ row ∈ rows, ∀ p ∈ row, ∀ e ∈ rfInts fl suppress p, Has (e.2.1.getD k 0) fl.sat then none
        else some (rows.map fun row => row.map fun p =>
          rfExpected fl { cfg with suppress1g := suppress } nframes m (decide (RfOlsC algorithm)) p
            (rfCut fl.jump k m (rfInts fl suppress p)) (p.ints.map fun e => (e.2.1.drop k).take m))) := by
  have hx := C95_miri_exact fl b hb hdj hsj hdc cfg lik nframes ngroups hng algorithm ha suppress maxCores ncpu rows hshape
    hsl k hk m hm
  have hs' : (suppress && decide (Slicing.computeNumCores maxCores rows.length ncpu = 1)) = suppress := by
    rcases hs with h | h
    · rw [h]; rfl
    · rw [h]; simp
  simp only [hs'] at hx
  exact hx

end

/-! ## Examples and findings for C94 and C95 -/

/-- A pixel with charge loss in the last group, and one without. -/
def rfPixelA : RPix ℚ := ⟨some 2, 3, 0, 0, [([some 5, some 8, some 13], [0, 0, 129], none)]⟩
def rfPixelB : RPix ℚ := ⟨some 2, 3, 0, 0, [([some 5, some 8, some 11], [0, 0, 4], none)]⟩
/-- A configuration whose square root takes `2` (one frame) to `1`. -/
def rfRun (algorithm : String) (miri : Bool) (rows : List (List (RPix ℚ))) : Outcome Unit ℚ × List (List ℚ) :=
  rampFit exFlags { exCfg with sqrt := fun x => x / 2 } (fun _ => ()) miri 1 3 algorithm.toList false ['n', 'o', 'n', 'e'] 4
    rows

/-- Slopes and read-noise variances of the rate product. -/
def rfRates : Outcome Unit ℚ → Option (List (List (Option ℚ × ℚ)))
  | .likely _ => none
  | .ols r => r.map fun rows => rows.map fun row => row.map fun o => (o.2.slope, o.2.varR)

example : RfLikely "liKely".toList ∧ ¬ RfLikely "OLS".toList ∧ RfOlsC "ols_c".toList
    ∧ ¬ (RfLikely "LIKELY".toList ∧ 4 ≤ 3) := by decide

/-- Hypotheses of `C94_fallback_partial`, `C95_each_pixel_partial`; the two pixels have fits of their own. -/
example : ¬ RfLost exFlags rfPixelB ∧ ¬ Has exFlags.dnu exFlags.sat ∧ ¬ Has exFlags.dnu exFlags.chargeloss
    ∧ 0 < Slicing.computeNumCores ['n', 'o', 'n', 'e'] 2 4
    ∧ rfRates (rfRun "OLS_C" false [[rfPixelB], [{ rfPixelB with rnoise := 1 }]]).1
      = some [[(some (3 / 10), 9 / 50)], [(some (3 / 10), 1 / 50)]]
    ∧ (rfRun "OLS_C" false [[rfPixelB], [{ rfPixelB with rnoise := 1 }]]).2 = [[6], [2]] := by
  decide +kernel

/-- Hypotheses of `C95_miri_partial`: one leading group is unusable everywhere, two groups are kept. -/
def rfMiri : RPix ℚ := ⟨some 2, 3, 0, 0, [([some 5, some 8, some 11], [1, 4, 0], none)]⟩
example : LeadCount exFlags.dnu (rfPlanes exFlags false 3 [[rfMiri]]) 1
    ∧ keptCount exFlags.dnu (rfPlanes exFlags false 3 [[rfMiri]]) 1 = 2
    ∧ ¬ Has exFlags.dnu exFlags.jump ∧ ¬ Has exFlags.jump exFlags.sat ∧ exFlags.jump = 2 ^ 2
    ∧ rfRates (rfRun "OLS_C" true [[rfMiri]]).1 = some [[(some (3 / 10), 9 / 50)]] := by
  refine ⟨⟨by decide, ?_, ?_⟩, by decide, by decide, by decide, by decide, by decide +kernel⟩
  · intro i h hi
    have : i = 0 := by omega
    subst this
    change DeadGroup 1 [1]
    decide
  · intro h
    change ¬ DeadGroup 1 [4]
    decide

/-- A request for LIKELY with too few groups is not the same as a request for OLS_C when there is charge loss: the
group DQ was not kept because the name was not OLS_C, and the variance is not recomputed. -/
theorem C94_fallback_ignores_charge_loss :
    ∃ rows : List (List (RPix ℚ)), rfRates (rfRun "OLS_C" false rows).1 ≠ rfRates (rfRun "LIKELY" false rows).1 :=
  ⟨[[rfPixelA]], by decide +kernel⟩

/-- The read noise is scaled in the caller's array: a second fit with the same array uses another read noise and
returns other variances. -/
theorem C94_second_fit_differs :
    ∃ p : RPix ℚ, ∃ r : ℚ, (rfRun "OLS_C" false [[p]]).2 = [[r]] ∧ r ≠ p.rnoise
      ∧ rfRates (rfRun "OLS_C" false [[p]]).1 ≠ rfRates (rfRun "OLS_C" false [[{ p with rnoise := r }]]).1 :=
  ⟨rfPixelB, 6, by decide +kernel⟩

/-! ## C96: byte order -/

theorem rf_handle (sysBig : Bool) (a : Arr) :
    (handleEndian sysBig a).1.native sysBig = a.value := by
  rcases a with ⟨big, mem⟩
  cases big <;> cases sysBig <;> simp [handleEndian, Arr.native, Arr.value, Arr.swapMem]

theorem rf_back (sysBig : Bool) (a : Arr) :
    (if (handleEndian sysBig a).2 then (handleEndian sysBig a).1.swapMem else (handleEndian sysBig a).1) = a := by
  rcases a with ⟨big, mem⟩
  cases big <;> cases sysBig <;> simp [handleEndian, Arr.swapMem]

/-- Whatever the byte order of the machine and of each array, the C extension reads the numbers the caller sees; those of
the zero frame, if it has the byte order of the machine.  Missing: a zero frame of the other byte order, see
`C96_zero_frame_misread`. -/
theorem C96_fit_reads_values_partial (sysBig : Bool) (a : Arrays) :
    let inside := (fitArrays sysBig a).1
    inside.gain.native sysBig = a.gain.value ∧ inside.rnoise.native sysBig = a.rnoise.value
      ∧ inside.data.native sysBig = a.data.value ∧ inside.dark.native sysBig = a.dark.value
      ∧ inside.pixeldq.native sysBig = a.pixeldq.value
      ∧ ∀ z ∈ a.zeroframe, z.big = sysBig → inside.zeroframe.map (Arr.native sysBig) = some z.value := by
  refine ⟨rf_handle _ _, rf_handle _ _, rf_handle _ _, rf_handle _ _, rf_handle _ _, fun z hz h => ?_⟩
  simp only [fitArrays, Option.mem_def.1 hz, Option.map_some, Arr.native, Arr.value, h]

/-- A zero frame of the other byte order is read with every number's bytes reversed. -/
theorem C96_zero_frame_misread (sysBig : Bool) (a : Arrays) (z : Arr) (hz : z ∈ a.zeroframe) (h : z.big ≠ sysBig) :
    (fitArrays sysBig a).1.zeroframe.map (Arr.native sysBig) = some (z.value.map List.reverse) := by
  obtain ⟨big, mem⟩ := z
  simp only [fitArrays, Option.mem_def.1 hz, Option.map_some]
  cases big <;> cases sysBig <;> simp [Arr.native, Arr.value] at h ⊢

/-- On return the gain and read-noise arrays are as they were, and so are all arrays in the byte order of the machine.
Missing: science data, dark current and pixel DQ of the other byte order, see `C96_foreign_data_changed`. -/
theorem C96_arrays_restored_partial (sysBig : Bool) (a : Arrays) :
    let out := (fitArrays sysBig a).2
    out.gain = a.gain ∧ out.rnoise = a.rnoise
      ∧ (a.data.big = sysBig → out.data = a.data) ∧ (a.dark.big = sysBig → out.dark = a.dark)
      ∧ (a.pixeldq.big = sysBig → out.pixeldq = a.pixeldq) ∧ out.zeroframe = a.zeroframe := by
  refine ⟨rf_back _ _, rf_back _ _, ?_, ?_, ?_, rfl⟩ <;> intro h <;> simp [fitArrays, handleEndian, h]

/-- Science data, dark current and pixel DQ of the other byte order are returned with every number's bytes reversed. -/
theorem C96_foreign_data_changed (sysBig : Bool) (a : Arrays) :
    let out := (fitArrays sysBig a).2
    (a.data.big ≠ sysBig → out.data.value = a.data.value.map List.reverse)
      ∧ (a.dark.big ≠ sysBig → out.dark.value = a.dark.value.map List.reverse)
      ∧ (a.pixeldq.big ≠ sysBig → out.pixeldq.value = a.pixeldq.value.map List.reverse) := by
  have key : ∀ x : Arr, x.big ≠ sysBig → (handleEndian sysBig x).1.value = x.value.map List.reverse := by
    rintro ⟨big, mem⟩ h
    cases big <;> cases sysBig <;> simp [handleEndian, Arr.value, Arr.swapMem] at h ⊢
  exact ⟨key _, key _, key _⟩

/-- A big-endian array of two 16-bit numbers on a little-endian machine. -/
example : let x : Arr := ⟨true, [[1, 2], [3, 4]]⟩
    x.value = [[2, 1], [4, 3]] ∧ (handleEndian false x).1.native false = [[2, 1], [4, 3]]
      ∧ (handleEndian false x).1.value = [[1, 2], [3, 4]] ∧ x.big ≠ false ∧ (⟨false, []⟩ : Arr).big = false
      ∧ (fitArrays false ⟨x, x, x, x, x, some x⟩).1.zeroframe.map (Arr.native false) = some [[1, 2], [3, 4]] := by
  decide

end Verif.Thm
