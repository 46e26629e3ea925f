import Verif.Model.Saturation4
import Verif.Thm.Saturation

/-!
# C132-C133: saturation flagging with 4-D reference arrays, and the arrays it overwrites
-/

set_option linter.unusedSectionVars false

namespace Verif.Thm

open Verif.Dq Verif.Saturation

section
variable {α : Type*} [Field α] [LinearOrder α]

/-! ### The passes, in closed form -/

theorem sf_prev (p : Params α) (s : Stripes α) (i : Nat) (data : Nat → Img (Option α)) (gdq : Nat → Img Nat) (k r c : Nat) :
    (forward4 p s i data gdq k).1 r c = true ↔ ∃ g, g < k ∧ fge (data g r c) ((p.plane s i g).thresh r c) = true := by
  induction k with
  | zero => simp [forward4]
  | succ k ih =>
    simp only [forward4, forwardStep, Bool.or_eq_true, ih]
    constructor
    · rintro (⟨g, h1, h2⟩ | h)
      · exact ⟨g, by omega, h2⟩
      · exact ⟨k, by omega, h⟩
    · rintro ⟨g, h1, h2⟩
      rcases Nat.lt_succ_iff_lt_or_eq.mp h1 with h | rfl
      · exact Or.inl ⟨g, h, h2⟩
      · exact Or.inr h2

/-- The flags of a group before growth. -/
def sfPre (p : Params α) (s : Stripes α) (i : Nat) (data : Nat → Img (Option α)) (gdq : Nat → Img Nat) (g : Nat) : Img Nat :=
  fun r c => (gdq g r c ||| (if (forward4 p s i data gdq (g + 1)).1 r c then p.flags.sat else 0)) |||
    (if fle0 (data g r c) then p.flags.adFloor ||| p.flags.dnu else 0)

theorem sf_dq (p : Params α) (s : Stripes α) (i : Nat) (data : Nat → Img (Option α)) (gdq : Nat → Img Nat) (k g : Nat) :
    (forward4 p s i data gdq k).2 g = if g < k then p.grow p.flags.sat (sfPre p s i data gdq g) else gdq g := by
  induction k with
  | zero => simp [forward4]
  | succ k ih =>
    have hk : (forward4 p s i data gdq k).2 k = gdq k := by
      have : ∀ j, j ≤ k → (forward4 p s i data gdq j).2 k = gdq k := by
        intro j
        induction j with
        | zero => intro _; rfl
        | succ j ihj =>
          intro hj
          simp only [forward4, forwardStep, setGroup]
          rw [if_neg (by omega), ihj (by omega)]
      exact this k le_rfl
    by_cases hgk : g = k
    · subst hgk
      rw [if_pos (Nat.lt_succ_self g)]
      simp only [forward4, forwardStep, setGroup, if_true, hk]
      rfl
    · have : (forward4 p s i data gdq (k + 1)).2 g = (forward4 p s i data gdq k).2 g := by
        simp only [forward4, forwardStep, setGroup]; rw [if_neg hgk]
      rw [this, ih]
      by_cases hlt : g < k
      · rw [if_pos hlt, if_pos (by omega)]
      · rw [if_neg hlt, if_neg (by omega)]

theorem sf_back_add (p : Params α) (s : Stripes α) (i : Nat) (rp : List (List α)) (data : Nat → Img (Option α)) (k : Nat)
    (q : Nat → Img Nat) (g r c : Nat) : AddOnly p.flags.dnu (q g r c) (backward4 p s i rp data k q g r c) := by
  induction k generalizing q with
  | zero => exact AddOnly.refl _ _
  | succ k ih => exact (backwardStep_addOnly (p.plane s i k) rp data k q g r c).trans (ih _)

theorem sf_int_add (p : Params α) (s : Stripes α) (i : Nat) (data : Nat → Img (Option α)) (gdq : Nat → Img Nat) (g r c : Nat) :
    AddOnly p.flags.dnu ((forward4 p s i data gdq p.ngroups).2 g r c) (flagIntegration4 p s i data gdq g r c) := by
  unfold flagIntegration4
  cases p.readPattern with
  | none => exact AddOnly.refl _ _
  | some rp => exact (sf_back_add p s i rp data _ _ g r c).trans (group2_addOnly (p.plane s i 0) rp data _ g r c)

theorem sf_all (p : Params α) (s : Stripes α) (data : Nat → Nat → Img (Option α)) (gdq : Nat → Nat → Img Nat) (n i : Nat) :
    flagAll4 p s data gdq n i = if i < n then flagIntegration4 p s i (data i) (gdq i) else gdq i := by
  induction n with
  | zero => simp [flagAll4]
  | succ n ih =>
    simp only [flagAll4]
    by_cases h : i = n
    · subst h
      have : flagAll4 p s data gdq i i = gdq i := by rw [ih]; simp
      simp [this]
    · rw [if_neg h, ih]
      by_cases hlt : i < n
      · rw [if_pos hlt, if_pos (by omega)]
      · rw [if_neg hlt, if_neg (by omega)]

theorem sf_back_dnu (p : Params α) (s : Stripes α) (i : Nat) (rp : List (List α)) (data : Nat → Img (Option α)) (k : Nat)
    (q : Nat → Img Nat) (g r c : Nat) (hg : adjacentRaises p.nrows p.ncols p.nGrow = false) (hf : p.flags.dnu ≠ 0)
    (hds : ¬ Has p.flags.dnu p.flags.sat) (hr : r < p.nrows) (hc : c < p.ncols) :
    Has (backward4 p s i rp data k q g r c) p.flags.dnu ↔
      Has (q g r c) p.flags.dnu ∨ (g < k ∧ dilution rp g ≠ 1 ∧ ∃ r' c', Within p.nrows p.ncols p.nGrow r c r' c' ∧
        partialSat (p.plane s i g) (dilution rp g) (data g) (q g) (q (g + 1)) r' c' = true) := by
  induction k generalizing q with
  | zero => simp [backward4]
  | succ k ih =>
    rw [backward4, ih]
    by_cases hgk : g = k
    · subst hgk
      simp only [Nat.lt_irrefl, false_and, or_false, Nat.lt_succ_self, true_and]
      simp only [backwardStep]
      by_cases hd : dilution rp g = 1
      · simp [hd]
      · rw [if_neg hd]
        have hgrow := grow_has (p.plane s i g) p.flags.dnu (fun r c =>
          if partialSat (p.plane s i g) (dilution rp g) (data g) (q g) (q (g + 1)) r c then p.flags.dnu else 0) hg hf hr hc
        have hb : ∀ b : Bool, Has (if b = true then p.flags.dnu else 0) p.flags.dnu ↔ b = true := by
          intro b; cases b <;> simp [hf]
        simp only [hb] at hgrow
        simp only [setGroup, if_true, has_or_left, ne_eq, hd, not_false_eq_true, true_and]
        exact or_congr_right hgrow
    · have h1 : backwardStep (p.plane s i k) rp data k q g = q g := backwardStep_ne _ _ _ _ _ _ hgk
      rw [h1]
      have h2 : ∀ r c, Has (backwardStep (p.plane s i k) rp data k q (g + 1) r c) p.flags.sat ↔
          Has (q (g + 1) r c) p.flags.sat :=
        fun r c => (backwardStep_addOnly (p.plane s i k) rp data k q (g + 1) r c).has hds
      have h3 : ∀ dil r c, partialSat (p.plane s i g) dil (data g) (q g)
          (backwardStep (p.plane s i k) rp data k q (g + 1)) r c =
          partialSat (p.plane s i g) dil (data g) (q g) (q (g + 1)) r c := by
        intro dil r c
        have h2' : ∀ r c, Has (backwardStep (p.plane s i k) rp data k q (g + 1) r c) (p.plane s i g).flags.sat ↔
          Has (q (g + 1) r c) (p.plane s i g).flags.sat := h2
        simp only [partialSat, h2']
      simp only [h3]
      have : g < k ↔ g < k + 1 := by omega
      rw [this]

variable {p : Params α} {s : Stripes α} {nints : Nat} {data : Nat → Nat → Img (Option α)} {gdq pdq : Nat → Nat → Img Nat}
  {z : Option (Nat → Img (Option α))} {out pout : Nat → Nat → Img Nat} {zout : Option (Nat → Img (Option α))}

theorem sf_run (h : flagSaturatedPixels4 p s nints data gdq pdq z = some (out, pout, zout)) :
    out = flagAll4 p s data gdq nints ∧ (pout = fun i g => pixelDq (p.plane s i g) (pdq i g)) ∧
      zout = z.map (fun zf i => if i < nints then zeroFrame (p.plane s i 0) (zf i) else zf i) ∧
      ∀ i, i < nints → (∃ g, g < p.ngroups) ∨ z.isSome → adjacentRaises p.nrows p.ncols p.nGrow = false := by
  unfold flagSaturatedPixels4 at h
  split at h
  · exact absurd h (by simp)
  · next hc =>
    simp only [Option.some.injEq, Prod.mk.injEq] at h
    refine ⟨h.1.symm, h.2.1.symm, h.2.2.symm, ?_⟩
    rintro i hi hg
    by_contra hne
    apply hc
    refine ⟨by omega, ?_, by simpa using hne⟩
    rcases hg with ⟨g, hg⟩ | hz
    · exact Or.inl (by omega)
    · exact Or.inr hz

/-! ### The property -/

/-- C132: with thresholds that vary by integration and group the saturation flag is set exactly where it was set, or where some
pixel within the growth distance reached, in this or an earlier group of the integration, the threshold of *that* group. -/
theorem C132_saturated_iff (hf : FlagsOk p.flags)
    (h : flagSaturatedPixels4 p s nints data gdq pdq z = some (out, pout, zout))
    {i g r c : Nat} (hi : i < nints) (hg : g < p.ngroups) (hr : r < p.nrows) (hc : c < p.ncols) :
    Has (out i g r c) p.flags.sat ↔ ∃ r' c', Near p p.nGrow r c r' c' ∧
      (Has (gdq i g r' c') p.flags.sat ∨ ∃ g', g' ≤ g ∧ Reaches (p.plane s i g') r' c' (data i g' r' c')) := by
  obtain ⟨rfl, -, -, hrs⟩ := sf_run h
  have hgr := hrs i hi (Or.inl ⟨g, hg⟩)
  rw [sf_all, if_pos hi, (sf_int_add p s i (data i) (gdq i) g r c).has hf.dnu_sat, sf_dq, if_pos hg,
    grow_has p _ _ hgr hf.sat hr hc]
  have hno : ∀ r c, ¬ Has (if fle0 (data i g r c) = true then p.flags.adFloor ||| p.flags.dnu else 0) p.flags.sat := by
    intro r c
    split
    · rw [has_or_left]; exact fun h => h.elim hf.ad_sat hf.dnu_sat
    · simp
  have hpre : ∀ r c, Has (sfPre p s i (data i) (gdq i) g r c) p.flags.sat ↔
      (Has (gdq i g r c) p.flags.sat ∨ ∃ g', g' ≤ g ∧ Reaches (p.plane s i g') r c (data i g' r c)) := by
    intro r c
    simp only [sfPre, has_or_left, hno, or_false]
    refine or_congr_right ?_
    have hb : ∀ b : Bool, Has (if b = true then p.flags.sat else 0) p.flags.sat ↔ b = true := by
      intro b; cases b <;> simp [hf.sat]
    rw [hb, sf_prev]
    simp only [reaches_iff, Nat.lt_succ_iff]
  simp only [hpre]
  rfl

/-- C132: AD_FLOOR is set exactly where it was set or the value is a number at or below zero. -/
theorem C132_ad_floor_iff (hf : FlagsOk p.flags)
    (h : flagSaturatedPixels4 p s nints data gdq pdq z = some (out, pout, zout))
    {i g r c : Nat} (hi : i < nints) (hg : g < p.ngroups) :
    Has (out i g r c) p.flags.adFloor ↔ Has (gdq i g r c) p.flags.adFloor ∨ ∃ v, data i g r c = some v ∧ v ≤ 0 := by
  obtain ⟨rfl, -, -, -⟩ := sf_run h
  have h1 : ¬ Has p.flags.dnu p.flags.adFloor := fun hh => hf.ad_dnu (has_comm.mp hh)
  have h2 : ¬ Has p.flags.sat p.flags.adFloor := fun hh => hf.ad_sat (has_comm.mp hh)
  rw [sf_all, if_pos hi, (sf_int_add p s i (data i) (gdq i) g r c).has h1, sf_dq, if_pos hg,
    grow_has_other p _ _ _ h2]
  simp only [sfPre, has_or_left]
  have h3 : ∀ b : Bool, ¬ Has (if b = true then p.flags.sat else 0) p.flags.adFloor := by
    intro b; cases b <;> simp [h2]
  simp only [h3, or_false]
  refine or_congr_right ?_
  cases hd : data i g r c with
  | none => simp [fle0]
  | some v =>
    by_cases hv : v ≤ 0
    · simp [fle0, hv, has_or_left, hf.adFloor]
    · simp [fle0, hv]

/-- C132: DO_NOT_USE, exactly, for averaged groups: it was there; the value is not positive; a pixel nearby is above the diluted
threshold of this group, otherwise fine, and saturated in the next group; or the second-group criterion holds, with the
threshold and bias of the first group. -/
theorem C132_dnu_iff (hf : FlagsOk p.flags) {rp : List (List α)} (hrp : p.readPattern = some rp)
    (h : flagSaturatedPixels4 p s nints data gdq pdq z = some (out, pout, zout))
    {i g r c : Nat} (hi : i < nints) (hg : g < p.ngroups) (hr : r < p.nrows) (hc : c < p.ncols) :
    Has (out i g r c) p.flags.dnu ↔
      (Has (gdq i g r c) p.flags.dnu ∨ ∃ v, data i g r c = some v ∧ v ≤ 0) ∨
      (g + 1 < p.ngroups ∧ Dilution rp g ≠ 1 ∧ ∃ r' c', Near p p.nGrow r c r' c' ∧
        (∃ v t, data i g r' c' = some v ∧ Level (p.plane s i g) r' c' t ∧
          ((Exempt (p.plane s i g) r' c' ∧ t ≤ v) ∨ (¬ Exempt (p.plane s i g) r' c' ∧ t * Dilution rp g ≤ v))) ∧
        ¬ Has (out i g r' c') p.flags.sat ∧ ¬ (Has (gdq i g r' c') p.flags.dnu ∨ ∃ v, data i g r' c' = some v ∧ v ≤ 0) ∧
        Has (out i (g + 1) r' c') p.flags.sat) ∨
      (2 < p.ngroups ∧ g = 1 ∧ ∃ d0 d1 t, data i 0 r c = some d0 ∧ data i 1 r c = some d1 ∧ Level (p.plane s i 0) r c t ∧
        (d0 - s.bias i 0 r c) / ((rp.getD 0 []).sum / (rp.getD 0 []).length) * (rp.getD 2 []).getLastD 0 +
          s.bias i 0 r c < t ∧
        (t - d0) / (rp.getD 1 []).length < d1 - d0 ∧
        Has (out i 2 r c) p.flags.sat ∧ ¬ Has (out i 1 r c) p.flags.sat) := by
  obtain ⟨rfl, -, -, hrs⟩ := sf_run h
  have hgr := hrs i hi (Or.inl ⟨g, hg⟩)
  simp only [sf_all, if_pos hi]
  set base := (forward4 p s i (data i) (gdq i) p.ngroups).2 with hb
  have hsatb : ∀ g r c, Has (flagIntegration4 p s i (data i) (gdq i) g r c) p.flags.sat ↔ Has (base g r c) p.flags.sat :=
    fun g r c => (sf_int_add p s i (data i) (gdq i) g r c).has hf.dnu_sat
  have hsat : ∀ k g r c, Has (backward4 p s i rp (data i) k base g r c) p.flags.sat ↔ Has (base g r c) p.flags.sat :=
    fun k g r c => (sf_back_add p s i rp (data i) k base g r c).has hf.dnu_sat
  have h2 : ¬ Has p.flags.sat p.flags.dnu := fun hh => hf.dnu_sat (has_comm.mp hh)
  have hdnub : ∀ r c, Has (base g r c) p.flags.dnu ↔
      (Has (gdq i g r c) p.flags.dnu ∨ ∃ v, data i g r c = some v ∧ v ≤ 0) := by
    intro r c
    rw [hb, sf_dq, if_pos hg, grow_has_other p _ _ _ h2]
    simp only [sfPre, has_or_left]
    have h3 : ∀ b : Bool, ¬ Has (if b = true then p.flags.sat else 0) p.flags.dnu := by
      intro b; cases b <;> simp [h2]
    simp only [h3, or_false]
    refine or_congr_right ?_
    cases hd : data i g r c with
    | none => simp [fle0]
    | some v =>
      by_cases hv : v ≤ 0
      · simp [fle0, hv, has_or_left, hf.dnu]
      · simp [fle0, hv]
  simp only [hsatb, ← hdnub]
  have hpart : ∀ r' c', partialSat (p.plane s i g) (dilution rp g) (data i g) (base g) (base (g + 1)) r' c' = true ↔
      ((∃ v t, data i g r' c' = some v ∧ Level (p.plane s i g) r' c' t ∧
          ((Exempt (p.plane s i g) r' c' ∧ t ≤ v) ∨ (¬ Exempt (p.plane s i g) r' c' ∧ t * Dilution rp g ≤ v))) ∧
        ¬ Has (base g r' c') p.flags.sat ∧ ¬ Has (base g r' c') p.flags.dnu ∧
        Has (base (g + 1) r' c') p.flags.sat) := by
    intro r' c'
    have hfge : ∀ (x : Option α) t, fge x t = true ↔ ∃ v, x = some v ∧ t ≤ v := by
      intro x t; cases x <;> simp [fge]
    have hfl : (p.plane s i g).flags = p.flags := rfl
    simp only [partialSat, Bool.and_eq_true, decide_eq_true_eq, has_or_right, not_or, hfge, and_assoc, hfl]
    refine and_congr_left' (exists_congr fun v => ?_)
    simp only [level_iff]
    by_cases he : Exempt (p.plane s i g) r' c'
    · simp [he, (noCheck_iff (p.plane s i g) r' c').mpr he]
    · have hn : (p.plane s i g).noCheck r' c' = false := by
        cases hb : (p.plane s i g).noCheck r' c' with
        | false => rfl
        | true => exact absurd ((noCheck_iff (p.plane s i g) r' c').mp hb) he
      simp [he, hn, Dilution, dilution, mean]
  have hback := sf_back_dnu p s i rp (data i) (p.ngroups - 1) base g r c hgr hf.dnu hf.dnu_sat hr hc
  simp only [hpart] at hback
  have hlt : g < p.ngroups - 1 ↔ g + 1 < p.ngroups := by omega
  rw [hlt] at hback
  have hfi : flagIntegration4 p s i (data i) (gdq i) g r c =
      group2 (p.plane s i 0) rp (data i) (backward4 p s i rp (data i) (p.ngroups - 1) base) g r c := by
    simp only [flagIntegration4, hrp, hb]
  rw [hfi]
  have hng : (p.plane s i 0).ngroups = p.ngroups := rfl
  have hfl : (p.plane s i 0).flags = p.flags := rfl
  simp only [group2, hng]
  by_cases h2 : p.ngroups > 2
  · rw [if_pos h2]
    simp only [setGroup, hfl]
    by_cases hg1 : g = 1
    · subst hg1
      simp only [if_true, has_or_left]
      rw [hback]
      have hb2 : ∀ b : Bool, Has (if b = true then p.flags.dnu else 0) p.flags.dnu ↔ b = true := by
        intro b; cases b <;> simp [hf.dnu]
      rw [hb2]
      have hm : group2Mask (p.plane s i 0) rp (data i) (backward4 p s i rp (data i) (p.ngroups - 1) base) r c = true ↔
          ∃ d0 d1 t, data i 0 r c = some d0 ∧ data i 1 r c = some d1 ∧ Level (p.plane s i 0) r c t ∧
            (d0 - s.bias i 0 r c) / ((rp.getD 0 []).sum / (rp.getD 0 []).length) * (rp.getD 2 []).getLastD 0 +
              s.bias i 0 r c < t ∧
            (t - d0) / (rp.getD 1 []).length < d1 - d0 ∧
            Has (base 2 r c) p.flags.sat ∧ ¬ Has (base 1 r c) p.flags.sat := by
        have hbi : (p.plane s i 0).bias = s.bias i 0 := rfl
        unfold group2Mask
        cases h0 : data i 0 r c with
        | none => simp
        | some d0 =>
          cases h1 : data i 1 r c with
          | none => simp
          | some d1 => simp [hsat, mean, and_assoc, level_iff, hfl, hbi]
      rw [hm, or_assoc]
      simp only [gt_iff_lt] at h2
      simp only [h2, true_and]
      rfl
    · simp only [hg1, if_false, false_and, and_false, or_false]
      exact hback
  · have h2' : ¬ 2 < p.ngroups := h2
    rw [if_neg h2]
    simp only [h2', false_and, or_false]
    exact hback

/-- C132: reference arrays that are the same for every group of an integration give that integration the flags, pixel DQ and zero
frame that the 2-D arrays would. -/
theorem C132_like_two_d
    (h : flagSaturatedPixels4 p s nints data gdq pdq z = some (out, pout, zout)) {i : Nat} (hi : i < nints)
    {t : Img (Option α)} {d : Img Nat} {b : Img α}
    (ht : ∀ g, s.satThresh i g = t) (hd : ∀ g, s.satDq i g = d) (hb : s.bias i 0 = b)
    {pdq2 : Img Nat} {out2 : Nat → Nat → Img Nat} {pout2 : Img Nat} {zout2 : Option (Nat → Img (Option α))}
    (h2 : flagSaturatedPixels { p with satThresh := t, satDq := d, bias := b } nints data gdq pdq2 z =
      some (out2, pout2, zout2)) :
    out i = out2 i ∧ (∀ g r c, pdq i g r c = pdq2 r c → pout i g r c = pout2 r c) ∧
      zout.map (fun zf => zf i) = zout2.map (fun zf => zf i) := by
  obtain ⟨rfl, rfl, rfl, -⟩ := sf_run h
  obtain ⟨rfl, rfl, rfl, -⟩ := run_out h2
  have hnc : ∀ k, (p.plane s i k).noCheck = Params.noCheck { p with satThresh := t, satDq := d, bias := b } := by
    intro k
    funext r c
    simp only [Params.noCheck, Params.plane, ht, hd]
  have hth : ∀ k, (p.plane s i k).thresh = Params.thresh { p with satThresh := t, satDq := d, bias := b } := by
    intro k
    funext r c
    simp only [Params.thresh, hnc]
    simp only [Params.plane, ht]
  have hfw : ∀ k, forward4 p s i (data i) (gdq i) k =
      forward { p with satThresh := t, satDq := d, bias := b } (data i) (gdq i) k := by
    intro k
    induction k with
    | zero => rfl
    | succ k ih =>
      simp only [forward4, forward, ih, forwardStep, hth]
      rfl
  have hst : ∀ rp k q, backwardStep (p.plane s i k) rp (data i) k q =
      backwardStep { p with satThresh := t, satDq := d, bias := b } rp (data i) k q := by
    intro rp k q
    simp only [backwardStep, partialSat, hth, hnc]
    rfl
  have hbw : ∀ rp k q, backward4 p s i rp (data i) k q =
      backward { p with satThresh := t, satDq := d, bias := b } rp (data i) k q := by
    intro rp k
    induction k with
    | zero => intro q; rfl
    | succ k ih => intro q; rw [backward4, backward, ih, hst]
  have hp0 : p.plane s i 0 = { p with satThresh := t, satDq := d, bias := b } := by
    simp only [Params.plane, ht, hd, hb]
  refine ⟨?_, ?_, ?_⟩
  · rw [sf_all, flagAll_eq, if_pos hi, if_pos hi]
    simp only [flagIntegration4, flagIntegration, hfw, hbw, hp0]
    rfl
  · intro g r c hq
    simp only [pixelDq, Params.satDq', Params.plane, ht, hd, hq]
  · cases z with
    | none => rfl
    | some zf => simp only [Option.map_some, hi, if_true, hp0]

/-! ### The reference arrays are overwritten -/

/-- C133: what the caller finds in the arrays afterwards: the saturation level in force at each pixel, and the reference DQ with
NO_SAT_CHECK added where the threshold was NaN. -/
theorem C133_what_is_written (r c : Nat) :
    (∃ t, p.overwritten.satThresh r c = some t ∧ Level p r c t) ∧
      ∀ b, (p.overwritten.satDq r c).testBit b = true ↔ (p.satDq r c).testBit b = true ∨
        (p.satThresh r c = none ∧ p.flags.noSatCheck.testBit b = true) := by
  refine ⟨⟨_, rfl, (level_iff p r c _).mpr rfl⟩, fun b => ?_⟩
  simp only [Params.overwritten, Params.satDq']
  cases p.satThresh r c <;> simp [Nat.testBit_or]

/-- C133: a further call that is given the overwritten arrays behaves as with the originals, whatever its data. -/
theorem C133_second_call_same (pdq : Img Nat) :
    flagSaturatedPixels p.overwritten nints data gdq pdq z = flagSaturatedPixels p nints data gdq pdq z := by
  have hdq : ∀ r c, p.overwritten.satDq' r c = p.satDq' r c := by
    intro r c
    simp [Params.overwritten, Params.satDq']
  have hnc : ∀ r c, p.overwritten.noCheck r c = p.noCheck r c := by
    intro r c
    have h1 : p.overwritten.noCheck r c = true ↔ p.satDq' r c &&& p.flags.noSatCheck = p.flags.noSatCheck := by
      simp [Params.noCheck, Params.overwritten]
      exact decide_eq_true_iff
    have h2 : p.noCheck r c = true ↔ p.satDq r c &&& p.flags.noSatCheck = p.flags.noSatCheck ∨ p.satThresh r c = none := by
      simp [Params.noCheck]
    rw [Bool.eq_iff_iff, h1, h2]
    unfold Params.satDq'
    cases p.satThresh r c with
    | none =>
      have : (p.satDq r c ||| p.flags.noSatCheck) &&& p.flags.noSatCheck = p.flags.noSatCheck := by
        apply Nat.eq_of_testBit_eq
        intro b
        simp only [Nat.testBit_and, Nat.testBit_or]
        cases (p.satDq r c).testBit b <;> cases p.flags.noSatCheck.testBit b <;> rfl
      simp [this]
    | some t => simp
  have hth : p.overwritten.thresh = p.thresh := by
    funext r c
    simp only [Params.thresh, hnc]
    cases hb : p.noCheck r c with
    | true => rfl
    | false => simp [Params.overwritten, Params.thresh, hb]
  have hnc' : p.overwritten.noCheck = p.noCheck := by funext r c; exact hnc r c
  have hfw : ∀ d q k, forward p.overwritten d q k = forward p d q k := by
    intro d q k
    induction k with
    | zero => rfl
    | succ k ih => simp only [forward, ih, forwardStep, hth]; rfl
  have hbw : ∀ rp d k q, backward p.overwritten rp d k q = backward p rp d k q := by
    intro rp d k
    induction k with
    | zero => intro q; rfl
    | succ k ih =>
      intro q
      rw [backward, backward, ih]
      congr 1
      simp only [backwardStep, partialSat, hth, hnc']
      rfl
  have hg2 : ∀ rp d q, group2 p.overwritten rp d q = group2 p rp d q := by
    intro rp d q
    simp only [group2, group2Mask, hth]
    rfl
  have hfi : ∀ d q, flagIntegration p.overwritten d q = flagIntegration p d q := by
    intro d q
    simp only [flagIntegration, hfw, hbw, hg2]
    rfl
  have hall : flagAll p.overwritten data gdq nints = flagAll p data gdq nints := by
    funext i
    simp only [flagAll_eq, hfi]
  have hz : zeroFrame p.overwritten = zeroFrame p := by
    funext zf
    simp only [zeroFrame, hth]
    rfl
  have hpd : pixelDq p.overwritten pdq = pixelDq p pdq := by
    funext r c
    simp only [pixelDq, hdq]
  simp only [flagSaturatedPixels, hall, hz, hpd]
  rfl

end

/-! ### Concrete cases -/

/-- Two integrations of the detector of `exParams`, the second with thresholds of 50 (25 in its first group). -/
def sfStripes : Stripes ℚ where
  satThresh := fun i g r c => if r = 1 ∧ c = 2 then none else some (if i = 0 then 100 else if g = 0 then 25 else 50)
  satDq := fun _ _ r c => if r = 0 ∧ c = 2 then 2 ^ 21 else 0
  bias := fun _ _ _ _ => 0

/-- The first integration is flagged as by the 2-D arrays, the second by its own thresholds; its zero frame is compared with the
threshold of the first group. -/
example : ∃ out pout zo, flagSaturatedPixels4 exParams sfStripes 2 exData (fun _ _ _ _ => 0) (fun _ _ _ _ => 4)
      (some fun _ r c => if r = 0 ∧ c = 0 then some 30 else some 7) = some (out, pout, some zo) ∧
    out 0 1 0 0 = 1 ∧ out 0 2 0 0 = 2 ∧ out 1 1 0 0 = 2 ∧ out 1 2 0 0 = 2 ∧ out 1 0 0 0 = 0 ∧
    pout 1 0 1 2 = 4 + 2 ^ 21 ∧ zo 0 0 0 = some 30 ∧ zo 1 0 0 = some 0 ∧
    (∀ g, sfStripes.satThresh 0 g = exParams.satThresh) ∧ (∀ g, sfStripes.satDq 0 g = exParams.satDq) := by
  refine ⟨_, _, _, rfl, by decide +kernel, by decide +kernel, by decide +kernel, by decide +kernel, by decide +kernel,
    by decide +kernel, by decide +kernel, by decide +kernel, fun g => ?_, fun g => rfl⟩
  funext r c
  rfl

/-- The overwritten arrays of the same detector. -/
example : exParams.overwritten.satThresh 1 2 = some 65536 ∧ exParams.overwritten.satThresh 0 0 = some 100 ∧
    exParams.overwritten.satThresh 0 2 = some 65536 ∧ exParams.overwritten.satDq 1 2 = 2 ^ 21 := by
  refine ⟨by decide +kernel, by decide +kernel, by decide +kernel, by decide +kernel⟩

end Verif.Thm
