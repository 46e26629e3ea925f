import Verif.Proof.Saturation
import Mathlib.Algebra.Order.Ring.Rat

/-!
# C06-C13: saturation flagging
-/

set_option linter.unusedSectionVars false

namespace Verif.Thm

open Verif.Dq Verif.Saturation

section
variable {α : Type*} [Field α] [LinearOrder α]

/-- Spec: flags are non-empty and pairwise disjoint bit masks (true for the flag tables of JWST and Roman). -/
structure FlagsOk (f : Flags) : Prop where
  dnu : f.dnu ≠ 0
  sat : f.sat ≠ 0
  adFloor : f.adFloor ≠ 0
  dnu_sat : ¬ Has f.dnu f.sat
  ad_sat : ¬ Has f.adFloor f.sat
  ad_dnu : ¬ Has f.adFloor f.dnu

/-- Spec: the pixel is exempt from the saturation check: all NO_SAT_CHECK bits are set in the reference DQ, or the threshold is NaN. -/
def Exempt (p : Params α) (r c : Nat) : Prop :=
  (∀ i, p.flags.noSatCheck.testBit i = true → (p.satDq r c).testBit i = true) ∨ p.satThresh r c = none

/-- Spec: the value reaches saturation: for a checked pixel the reference threshold, for an exempt one a level above the A/D
limit. A NaN never does. -/
def Reaches (p : Params α) (r c : Nat) (x : Option α) : Prop :=
  ∃ v, x = some v ∧
    ((¬ Exempt p r c ∧ ∃ t, p.satThresh r c = some t ∧ t ≤ v) ∨ (Exempt p r c ∧ p.atodLimit + 1 ≤ v))

theorem noCheck_iff (p : Params α) (r c : Nat) : p.noCheck r c = true ↔ Exempt p r c := by
  simp only [Params.noCheck, Exempt, Bool.or_eq_true, decide_eq_true_eq, Option.isNone_iff_eq_none]
  refine or_congr_left ?_
  constructor
  · intro h i hi
    have := congrArg (fun n => n.testBit i) h
    simp only [Nat.testBit_and, hi, Bool.and_true] at this
    exact this
  · intro h
    apply Nat.eq_of_testBit_eq
    intro i
    rw [Nat.testBit_and]
    cases hi : p.flags.noSatCheck.testBit i with
    | false => simp
    | true => simp [h i hi]

theorem reaches_iff (p : Params α) (r c : Nat) (x : Option α) :
    fge x (p.thresh r c) = true ↔ Reaches p r c x := by
  have hnc := noCheck_iff p r c
  unfold Reaches
  cases x with
  | none => simp [fge]
  | some v =>
    simp only [fge, decide_eq_true_eq, Option.some.injEq, exists_eq_left']
    by_cases h : Exempt p r c
    · simp [Params.thresh, hnc.mpr h, h]
    · have hn : p.noCheck r c = false := by
        cases hb : p.noCheck r c with
        | false => rfl
        | true => exact absurd (hnc.mp hb) h
      simp only [Params.thresh, hn, h, false_and, or_false, not_false_eq_true, true_and]
      cases ht : p.satThresh r c with
      | none => exact absurd (Or.inr ht) h
      | some t => simp

/-- Spec: the saturation level in force at a pixel. -/
def Level (p : Params α) (r c : Nat) (t : α) : Prop :=
  (¬ Exempt p r c ∧ p.satThresh r c = some t) ∨ (Exempt p r c ∧ t = p.atodLimit + 1)

theorem level_iff (p : Params α) (r c : Nat) (t : α) : Level p r c t ↔ t = p.thresh r c := by
  have hnc := noCheck_iff p r c
  unfold Level
  by_cases h : Exempt p r c
  · simp [Params.thresh, hnc.mpr h, h]
  · have hn : p.noCheck r c = false := by
      cases hb : p.noCheck r c with
      | false => rfl
      | true => exact absurd (hnc.mp hb) h
    simp only [Params.thresh, hn, h, false_and, or_false, not_false_eq_true, true_and]
    cases ht : p.satThresh r c with
    | none => exact absurd (Or.inr ht) h
    | some t' => simp [eq_comm]

/-- Spec: the pixels of the image whose rows and columns differ by at most `n`. -/
def Near (p : Params α) (n r c r' c' : Nat) : Prop :=
  r' < p.nrows ∧ c' < p.ncols ∧ r' ≤ r + n ∧ r ≤ r' + n ∧ c' ≤ c + n ∧ c ≤ c' + n

variable {p : Params α} {nints : Nat} {data : Nat → Nat → Img (Option α)} {gdq : Nat → Nat → Img Nat} {pdq : Img Nat}
  {z : Option (Nat → Img (Option α))} {out : Nat → Nat → Img Nat} {pout : Img Nat}
  {zout : Option (Nat → Img (Option α))}

/-- Unfolding a successful run. -/
theorem run_out (h : flagSaturatedPixels p nints data gdq pdq z = some (out, pout, zout)) :
    out = flagAll p data gdq nints ∧ pout = pixelDq p pdq ∧
      zout = z.map (fun zf i => if i < nints then zeroFrame p (zf i) else zf i) ∧
      ∀ i, i < nints → (∃ g, g < p.ngroups) ∨ z.isSome → adjacentRaises p.nrows p.ncols p.nGrow = false := by
  unfold flagSaturatedPixels at h
  split at h
  · exact absurd h (by simp)
  · next hc =>
    simp only [Option.some.injEq, Prod.mk.injEq] at h
    refine ⟨h.1.symm, h.2.1.symm, h.2.2.symm, ?_⟩
    rintro i hi hg
    by_contra hne
    apply hc
    refine ⟨by omega, ?_, by simpa using hne⟩
    rcases hg with ⟨g, hg⟩ | hz
    · exact Or.inl (by omega)
    · exact Or.inr hz

/-- The saturation flag of the output, exactly, for every growth setting, with or without a read pattern. -/
theorem C07_saturated_iff_grown (hf : FlagsOk p.flags)
    (h : flagSaturatedPixels p nints data gdq pdq z = some (out, pout, zout))
    {i g r c : Nat} (hi : i < nints) (hg : g < p.ngroups) (hr : r < p.nrows) (hc : c < p.ncols) :
    Has (out i g r c) p.flags.sat ↔ ∃ r' c', Near p p.nGrow r c r' c' ∧
      (Has (gdq i g r' c') p.flags.sat ∨ ∃ g', g' ≤ g ∧ Reaches p r' c' (data i g' r' c')) := by
  obtain ⟨rfl, -, -, hrs⟩ := run_out h
  have hgr := hrs i hi (Or.inl ⟨g, hg⟩)
  rw [flagAll_eq, if_pos hi, (flagIntegration_addOnly p (data i) (gdq i) g r c).has hf.dnu_sat, forward_dq, if_pos hg,
    grow_has p _ _ hgr hf.sat hr hc]
  have hno : ∀ r c, ¬ Has (if fle0 (data i g r c) = true then p.flags.adFloor ||| p.flags.dnu else 0) p.flags.sat := by
    intro r c
    split
    · rw [has_or_left]; exact fun h => h.elim hf.ad_sat hf.dnu_sat
    · simp
  have hpre : ∀ r c, Has (preGrow p (data i) (gdq i) g r c) p.flags.sat ↔
      (Has (gdq i g r c) p.flags.sat ∨ ∃ g', g' ≤ g ∧ Reaches p r c (data i g' r c)) := by
    intro r c
    simp only [preGrow, has_or_left, hno, or_false]
    refine or_congr_right ?_
    have hb : ∀ b : Bool, Has (if b = true then p.flags.sat else 0) p.flags.sat ↔ b = true := by
      intro b; cases b <;> simp [hf.sat]
    rw [hb, forward_prev]
    simp only [reaches_iff, Nat.lt_succ_iff]
  simp only [hpre]
  rfl

/-- C07: without growth the saturation flag is set exactly if it was set, or this or an earlier group of the same
integration reached the threshold (with or without read pattern). -/
theorem C07_saturated_iff (hf : FlagsOk p.flags) (hn : p.nGrow = 0)
    (h : flagSaturatedPixels p nints data gdq pdq z = some (out, pout, zout))
    {i g r c : Nat} (hi : i < nints) (hg : g < p.ngroups) (hr : r < p.nrows) (hc : c < p.ncols) :
    Has (out i g r c) p.flags.sat ↔
      (Has (gdq i g r c) p.flags.sat ∨ ∃ g', g' ≤ g ∧ Reaches p r c (data i g' r c)) := by
  rw [C07_saturated_iff_grown hf h hi hg hr hc, hn]
  constructor
  · rintro ⟨r', c', hw, hh⟩
    have : r' = r ∧ c' = c := by unfold Near at hw; omega
    obtain ⟨rfl, rfl⟩ := this
    exact hh
  · intro hh
    exact ⟨r, c, ⟨hr, hc, by omega, by omega, by omega, by omega⟩, hh⟩

/-- C06: saturation is sticky. -/
theorem C06_saturation_sticky (hf : FlagsOk p.flags)
    (h : flagSaturatedPixels p nints data gdq pdq z = some (out, pout, zout))
    {i g g' r c : Nat} (hi : i < nints) (hgg : g ≤ g') (hg : g' < p.ngroups) (hr : r < p.nrows) (hc : c < p.ncols)
    {t v : α} (hchk : ¬ Exempt p r c) (ht : p.satThresh r c = some t) (hv : data i g r c = some v) (htv : t ≤ v) :
    Has (out i g' r c) p.flags.sat := by
  rw [C07_saturated_iff_grown hf h hi hg hr hc]
  exact ⟨r, c, ⟨hr, hc, by omega, by omega, by omega, by omega⟩, Or.inr ⟨g, hgg, v, hv, Or.inl ⟨hchk, t, ht, htv⟩⟩⟩

/-- C08: an exempt pixel whose values stay within the A/D limit is never itself detected as saturated: the flag is present only if it
was there before or came from a *different* pixel nearby. -/
theorem C08_exempt_never_detected [IsStrictOrderedRing α] (hf : FlagsOk p.flags)
    (h : flagSaturatedPixels p nints data gdq pdq z = some (out, pout, zout))
    {i g r c : Nat} (hi : i < nints) (hg : g < p.ngroups) (hr : r < p.nrows) (hc : c < p.ncols)
    (he : Exempt p r c) (hlim : ∀ g', g' ≤ g → ∀ v, data i g' r c = some v → v ≤ p.atodLimit) :
    Has (out i g r c) p.flags.sat ↔ Has (gdq i g r c) p.flags.sat ∨
      ∃ r' c', (r', c') ≠ (r, c) ∧ Near p p.nGrow r c r' c' ∧
        (Has (gdq i g r' c') p.flags.sat ∨ ∃ g', g' ≤ g ∧ Reaches p r' c' (data i g' r' c')) := by
  rw [C07_saturated_iff_grown hf h hi hg hr hc]
  constructor
  · rintro ⟨r', c', hw, hh⟩
    by_cases heq : (r', c') = (r, c)
    · obtain ⟨rfl, rfl⟩ := Prod.mk.inj heq
      left
      refine hh.resolve_right ?_
      rintro ⟨g', hg', v, hv, ⟨hne, -⟩ | ⟨-, hge⟩⟩
      · exact hne he
      · have := hlim g' hg' v hv
        linarith
    · exact Or.inr ⟨r', c', heq, hw, hh⟩
  · rintro (hh | ⟨r', c', -, hw, hh⟩)
    · exact ⟨r, c, ⟨hr, hc, by omega, by omega, by omega, by omega⟩, Or.inl hh⟩
    · exact ⟨r', c', hw, hh⟩

/-- C08, pixel DQ: a NaN threshold is reported as NO_SAT_CHECK; and the pixel DQ is the input, the reference DQ, and that. -/
theorem C08_no_sat_check_reported (h : flagSaturatedPixels p nints data gdq pdq z = some (out, pout, zout)) (r c i : Nat) :
    (pout r c).testBit i = true ↔ (pdq r c).testBit i = true ∨ (p.satDq r c).testBit i = true ∨
      (p.satThresh r c = none ∧ p.flags.noSatCheck.testBit i = true) := by
  obtain ⟨-, rfl, -, -⟩ := run_out h
  simp only [pixelDq, Params.satDq', Nat.testBit_or, Bool.or_eq_true]
  cases p.satThresh r c <;> simp [Nat.testBit_or]

/-- C09: a group at or below zero leaves with AD_FLOOR and DO_NOT_USE. -/
theorem C09_floor_flagged (h : flagSaturatedPixels p nints data gdq pdq z = some (out, pout, zout))
    {i g r c : Nat} (hi : i < nints) (hg : g < p.ngroups) {v : α} (hv : data i g r c = some v) (h0 : v ≤ 0) :
    ∀ b, (p.flags.adFloor.testBit b = true ∨ p.flags.dnu.testBit b = true) → (out i g r c).testBit b = true := by
  obtain ⟨rfl, -, -, -⟩ := run_out h
  intro b hb
  rw [flagAll_eq, if_pos hi]
  refine (flagIntegration_addOnly p (data i) (gdq i) g r c).1 b ?_
  rw [forward_dq, if_pos hg]
  refine grow_sub p _ _ r c b ?_
  simp only [preGrow, fle0, hv, h0, decide_true, if_true, Nat.testBit_or, Bool.or_eq_true]
  exact Or.inr hb

/-- C09, exactly: AD_FLOOR is set iff it was set or the value is a number at or below zero, under every option. -/
theorem C09_ad_floor_iff (hf : FlagsOk p.flags)
    (h : flagSaturatedPixels p nints data gdq pdq z = some (out, pout, zout))
    {i g r c : Nat} (hi : i < nints) (hg : g < p.ngroups) :
    Has (out i g r c) p.flags.adFloor ↔ Has (gdq i g r c) p.flags.adFloor ∨ ∃ v, data i g r c = some v ∧ v ≤ 0 := by
  obtain ⟨rfl, -, -, -⟩ := run_out h
  have h1 : ¬ Has p.flags.dnu p.flags.adFloor := fun hh => hf.ad_dnu (has_comm.mp hh)
  have h2 : ¬ Has p.flags.sat p.flags.adFloor := fun hh => hf.ad_sat (has_comm.mp hh)
  rw [flagAll_eq, if_pos hi, (flagIntegration_addOnly p (data i) (gdq i) g r c).has h1, forward_dq, if_pos hg,
    grow_has_other p _ _ _ h2]
  simp only [preGrow, has_or_left]
  have h3 : ∀ b : Bool, ¬ Has (if b = true then p.flags.sat else 0) p.flags.adFloor := by
    intro b; cases b <;> simp [h2]
  simp only [h3, or_false]
  refine or_congr_right ?_
  cases hd : data i g r c with
  | none => simp [fle0]
  | some v =>
    by_cases hv : v ≤ 0
    · simp [fle0, hv, has_or_left, hf.adFloor]
    · simp [fle0, hv]

/-- C09, exactly: without a read pattern DO_NOT_USE is set iff it was set or the value is a number at or below zero. -/
theorem C09_dnu_iff (hf : FlagsOk p.flags) (hrp : p.readPattern = none)
    (h : flagSaturatedPixels p nints data gdq pdq z = some (out, pout, zout))
    {i g r c : Nat} (hi : i < nints) (hg : g < p.ngroups) :
    Has (out i g r c) p.flags.dnu ↔ Has (gdq i g r c) p.flags.dnu ∨ ∃ v, data i g r c = some v ∧ v ≤ 0 := by
  obtain ⟨rfl, -, -, -⟩ := run_out h
  have h2 : ¬ Has p.flags.sat p.flags.dnu := fun hh => hf.dnu_sat (has_comm.mp hh)
  rw [flagAll_eq, if_pos hi]
  simp only [flagIntegration, hrp]
  rw [forward_dq, if_pos hg, grow_has_other p _ _ _ h2]
  simp only [preGrow, has_or_left]
  have h3 : ∀ b : Bool, ¬ Has (if b = true then p.flags.sat else 0) p.flags.dnu := by
    intro b; cases b <;> simp [h2]
  simp only [h3, or_false]
  refine or_congr_right ?_
  cases hd : data i g r c with
  | none => simp [fle0]
  | some v =>
    by_cases hv : v ≤ 0
    · simp [fle0, hv, has_or_left, hf.dnu]
    · simp [fle0, hv]

omit [Field α] [LinearOrder α] in
/-- C10 (partial): growing a flag by `n` is exactly the dilation by a square of side `2n+1` cut off at the image edges, and
changes no other bit, **for images of at least `2n` rows and columns**.  Missing: smaller images, for which the code raises, see
`C10_small_image_raises`. -/
theorem C10_growth_is_square_dilation_partial {nrows ncols n flag : Nat} (g : Img Nat)
    (hr : 2 * n ≤ nrows) (hc : 2 * n ≤ ncols) :
    ∃ g', adjacentPixels? nrows ncols n flag g = some g' ∧ ∀ r c, r < nrows → c < ncols → ∀ b,
      ((g' r c).testBit b = true ↔ (g r c).testBit b = true ∨ (flag.testBit b = true ∧
        ∃ r' c', r' < nrows ∧ c' < ncols ∧ r' ≤ r + n ∧ r ≤ r' + n ∧ c' ≤ c + n ∧ c ≤ c' + n ∧
          Has (g r' c') flag)) := by
  refine ⟨adjacentPixels nrows ncols n flag g, ?_, ?_⟩
  · unfold adjacentPixels? adjacentRaises
    rw [if_neg]
    simp only [Bool.and_eq_true, Bool.or_eq_true, decide_eq_true_eq]
    omega
  · intro r c hrr hcc b
    obtain ⟨h1, h2⟩ := adjacentPixels_eq (flag := flag) g hr hc hrr hcc
    simp only [Within, and_assoc] at h1 h2
    by_cases hex : ∃ r' c', r' < nrows ∧ c' < ncols ∧ r' ≤ r + n ∧ r ≤ r' + n ∧ c' ≤ c + n ∧ c ≤ c' + n ∧
          Has (g r' c') flag
    · rw [h1 hex, Nat.testBit_or, Bool.or_eq_true]
      exact or_congr_right ⟨fun h => ⟨h, hex⟩, fun h => h.1⟩
    · rw [h2 hex]
      exact ⟨Or.inl, fun h => h.resolve_right (fun h => hex h.2)⟩

omit [Field α] [LinearOrder α] in
/-- C10, negation at full strength: for images with fewer than `2n` rows (or columns) the growth step raises instead. -/
theorem C10_small_image_raises {nrows ncols n flag : Nat} (g : Img Nat) (hn : 0 < n)
    (h : nrows < 2 * n ∨ ncols < 2 * n) : adjacentPixels? nrows ncols n flag g = none := by
  unfold adjacentPixels? adjacentRaises
  rw [if_pos]
  simp only [Bool.and_eq_true, Bool.or_eq_true, decide_eq_true_eq]
  exact ⟨hn, h⟩

/-- C11: no flag is ever cleared. -/
theorem C11_flags_only_added (h : flagSaturatedPixels p nints data gdq pdq z = some (out, pout, zout)) (i g r c b : Nat) :
    ((gdq i g r c).testBit b = true → (out i g r c).testBit b = true) ∧
      ((pdq r c).testBit b = true → (pout r c).testBit b = true) := by
  obtain ⟨rfl, rfl, -, -⟩ := run_out h
  refine ⟨fun hb => ?_, fun hb => sub_or_left _ _ b hb⟩
  rw [flagAll_eq]
  split
  · refine (flagIntegration_addOnly p (data i) (gdq i) g r c).1 b ?_
    rw [forward_dq]
    split
    · refine grow_sub p _ _ r c b ?_
      simp [preGrow, Nat.testBit_or, hb]
    · exact hb
  · exact hb

/-- C11: the flags of an integration depend on that integration only. -/
theorem C11_integrations_independent {data' : Nat → Nat → Img (Option α)} {gdq' : Nat → Nat → Img Nat}
    {nints' : Nat} {pdq' : Img Nat} {z' : Option (Nat → Img (Option α))}
    {out' : Nat → Nat → Img Nat} {pout' : Img Nat} {zout' : Option (Nat → Img (Option α))}
    (h : flagSaturatedPixels p nints data gdq pdq z = some (out, pout, zout))
    (h' : flagSaturatedPixels p nints' data' gdq' pdq' z' = some (out', pout', zout'))
    {i j : Nat} (hi : i < nints) (hj : j < nints') (hd : data i = data' j) (hq : gdq i = gdq' j) : out i = out' j := by
  obtain ⟨rfl, -, -, -⟩ := run_out h
  obtain ⟨rfl, -, -, -⟩ := run_out h'
  rw [flagAll_eq, flagAll_eq, if_pos hi, if_pos hj, hd, hq]

/-- Spec for C12: what group averaging would make of a threshold crossing in the last read, `mean(reads) / last read`. -/
def Dilution (rp : List (List α)) (g : Nat) : α :=
  ((rp.getD g []).sum / (rp.getD g []).length) / (rp.getD g []).getLastD 0

/-- C12: the passes for averaged groups, exactly.  Compared with a run without read pattern (`base`) only DO_NOT_USE bits are
added; they are added where a pixel nearby is, in that group, above the diluted threshold, not saturated or unusable, and
saturated in the next group; and in the second group where the second-group criterion holds. -/
theorem C12_averaged_groups (hf : FlagsOk p.flags) {rp : List (List α)} (hrp : p.readPattern = some rp)
    (h : flagSaturatedPixels p nints data gdq pdq z = some (out, pout, zout)) :
    ∃ base, flagSaturatedPixels { p with readPattern := none } nints data gdq pdq z = some (base, pout, zout) ∧
      ∀ i g r c, i < nints → g < p.ngroups → r < p.nrows → c < p.ncols →
        (∀ b, p.flags.dnu.testBit b = false → (out i g r c).testBit b = (base i g r c).testBit b) ∧
        (Has (out i g r c) p.flags.dnu ↔ Has (base i g r c) p.flags.dnu ∨
          (g + 1 < p.ngroups ∧ Dilution rp g ≠ 1 ∧ ∃ r' c', Near p p.nGrow r c r' c' ∧
            (∃ v t, data i g r' c' = some v ∧ Level p r' c' t ∧
              ((Exempt p r' c' ∧ t ≤ v) ∨ (¬ Exempt p r' c' ∧ t * Dilution rp g ≤ v))) ∧
            ¬ Has (base i g r' c') p.flags.sat ∧ ¬ Has (base i g r' c') p.flags.dnu ∧
            Has (base i (g + 1) r' c') p.flags.sat) ∨
          (2 < p.ngroups ∧ g = 1 ∧ ∃ d0 d1 t, data i 0 r c = some d0 ∧ data i 1 r c = some d1 ∧ Level p r c t ∧
            (d0 - p.bias r c) / ((rp.getD 0 []).sum / (rp.getD 0 []).length) * (rp.getD 2 []).getLastD 0 + p.bias r c < t ∧
            (t - d0) / (rp.getD 1 []).length < d1 - d0 ∧
            Has (base i 2 r c) p.flags.sat ∧ ¬ Has (base i 1 r c) p.flags.sat)) := by
  obtain ⟨rfl, rfl, rfl, hrs⟩ := run_out h
  refine ⟨flagAll { p with readPattern := none } data gdq nints, ?_, ?_⟩
  · unfold flagSaturatedPixels at h ⊢
    split at h
    · exact absurd h (by simp)
    · next hc => rw [if_neg hc]; rfl
  · intro i g r c hi hg hr hc
    have hgr := hrs i hi (Or.inl ⟨g, hg⟩)
    simp only [flagAll_eq, if_pos hi]
    have hbase : ∀ g, flagIntegration { p with readPattern := none } (data i) (gdq i) g =
        (forward p (data i) (gdq i) p.ngroups).2 g := by
      intro g
      simp only [flagIntegration, forward_dq]
      have hpp : ∀ k r c, (forward { p with readPattern := none } (data i) (gdq i) k).1 r c =
          (forward p (data i) (gdq i) k).1 r c := by
        intro k r c
        rw [Bool.eq_iff_iff, forward_prev, forward_prev]
        rfl
      have hpre : preGrow { p with readPattern := none } (data i) (gdq i) g = preGrow p (data i) (gdq i) g := by
        funext r c; unfold preGrow; rw [hpp]
      rw [hpre]
      rfl
    set base := (forward p (data i) (gdq i) p.ngroups).2 with hb
    have hadd := flagIntegration_addOnly p (data i) (gdq i) g r c
    constructor
    · intro b hbb
      rw [hbase]
      have h1 := hadd.1 b
      have h2 := hadd.2 b
      simp only [hbb, Bool.false_eq_true, or_false] at h2
      rw [Bool.eq_iff_iff]
      exact ⟨h2, h1⟩
    · simp only [hbase]
      have hsat : ∀ k g r c, Has (backward p rp (data i) k base g r c) p.flags.sat ↔ Has (base g r c) p.flags.sat :=
        fun k g r c => (backward_addOnly p rp (data i) k base g r c).has hf.dnu_sat
      have hpart : ∀ r' c', partialSat p (dilution rp g) (data i g) (base g) (base (g + 1)) r' c' = true ↔
          ((∃ v t, data i g r' c' = some v ∧ Level p r' c' t ∧
              ((Exempt p r' c' ∧ t ≤ v) ∨ (¬ Exempt p r' c' ∧ t * Dilution rp g ≤ v))) ∧
            ¬ Has (base g r' c') p.flags.sat ∧ ¬ Has (base g r' c') p.flags.dnu ∧
            Has (base (g + 1) r' c') p.flags.sat) := by
        intro r' c'
        have hfge : ∀ (x : Option α) t, fge x t = true ↔ ∃ v, x = some v ∧ t ≤ v := by
          intro x t; cases x <;> simp [fge]
        simp only [partialSat, Bool.and_eq_true, decide_eq_true_eq, has_or_right, not_or, hfge, and_assoc]
        refine and_congr_left' (exists_congr fun v => ?_)
        simp only [level_iff]
        by_cases he : Exempt p r' c'
        · simp [he, (noCheck_iff p r' c').mpr he]
        · have hn : p.noCheck r' c' = false := by
            cases hb : p.noCheck r' c' with
            | false => rfl
            | true => exact absurd ((noCheck_iff p r' c').mp hb) he
          simp [he, hn, Dilution, dilution, mean]
      have hback := backward_dnu p rp (data i) (p.ngroups - 1) base g r c hgr hf.dnu hf.dnu_sat hr hc
      simp only [hpart] at hback
      have hlt : g < p.ngroups - 1 ↔ g + 1 < p.ngroups := by omega
      rw [hlt] at hback
      have hfi : flagIntegration p (data i) (gdq i) g r c =
          group2 p rp (data i) (backward p rp (data i) (p.ngroups - 1) base) g r c := by
        simp only [flagIntegration, hrp, hb]
      rw [hfi]
      simp only [group2]
      by_cases h2 : p.ngroups > 2
      · rw [if_pos h2]
        simp only [setGroup]
        by_cases hg1 : g = 1
        · subst hg1
          simp only [if_true, has_or_left]
          rw [hback]
          have hb2 : ∀ b : Bool, Has (if b = true then p.flags.dnu else 0) p.flags.dnu ↔ b = true := by
            intro b; cases b <;> simp [hf.dnu]
          rw [hb2]
          have hm : group2Mask p rp (data i) (backward p rp (data i) (p.ngroups - 1) base) r c = true ↔
              ∃ d0 d1 t, data i 0 r c = some d0 ∧ data i 1 r c = some d1 ∧ Level p r c t ∧
                (d0 - p.bias r c) / ((rp.getD 0 []).sum / (rp.getD 0 []).length) * (rp.getD 2 []).getLastD 0 +
                  p.bias r c < t ∧
                (t - d0) / (rp.getD 1 []).length < d1 - d0 ∧
                Has (base 2 r c) p.flags.sat ∧ ¬ Has (base 1 r c) p.flags.sat := by
            unfold group2Mask
            cases h0 : data i 0 r c with
            | none => simp
            | some d0 =>
              cases h1 : data i 1 r c with
              | none => simp
              | some d1 => simp [hsat, mean, and_assoc, level_iff]
          rw [hm, or_assoc]
          simp only [gt_iff_lt] at h2
          simp only [h2, true_and]
          rfl
        · simp only [hg1, if_false, false_and, and_false, or_false]
          exact hback
      · have h2' : ¬ 2 < p.ngroups := h2
        rw [if_neg h2]
        simp only [h2', false_and, or_false]
        exact hback

/-- C13: a zero-frame pixel that reaches saturation or is not positive becomes zero. -/
theorem C13_zero_frame_bad (hf : FlagsOk p.flags) {zf zo : Nat → Img (Option α)}
    (h : flagSaturatedPixels p nints data gdq pdq (some zf) = some (out, pout, some zo))
    {i r c : Nat} (hi : i < nints)
    (hbad : Reaches p r c (zf i r c) ∨ ∃ v, zf i r c = some v ∧ v ≤ 0) : zo i r c = some 0 := by
  obtain ⟨-, -, hz, -⟩ := run_out h
  simp only [Option.map_some, Option.some.injEq] at hz
  subst hz
  simp only [hi, if_true, zeroFrame]
  rw [if_pos]
  intro h0
  have hs := grow_sub p p.flags.sat (fun r c => (if fge (zf i r c) (p.thresh r c) then p.flags.sat else 0) |||
    (if fle0 (zf i r c) then p.flags.adFloor ||| p.flags.dnu else 0)) r c
  rw [h0] at hs
  rcases hbad with hb | ⟨v, hv, hv0⟩
  · obtain ⟨b, hb1⟩ := Nat.exists_testBit_of_ne_zero hf.sat
    have := hs b (by simp [(reaches_iff p r c _).mpr hb, Nat.testBit_or, hb1])
    simp at this
  · obtain ⟨b, hb1⟩ := Nat.exists_testBit_of_ne_zero hf.dnu
    have := hs b (by simp [hv, fle0, hv0, Nat.testBit_or, hb1])
    simp at this

/-- C13: a zero-frame pixel in range, with no pixel within the growth distance reaching saturation, keeps its value. -/
theorem C13_zero_frame_good (hf : FlagsOk p.flags) {zf zo : Nat → Img (Option α)}
    (h : flagSaturatedPixels p nints data gdq pdq (some zf) = some (out, pout, some zo))
    {i r c : Nat} (hi : i < nints) (hr : r < p.nrows) (hc : c < p.ncols)
    (hlow : ∀ v, zf i r c = some v → 0 < v)
    (hsat : ∀ r' c', Near p p.nGrow r c r' c' → ¬ Reaches p r' c' (zf i r' c')) : zo i r c = zf i r c := by
  obtain ⟨-, -, hz, hrs⟩ := run_out h
  have hgr := hrs i hi (Or.inr rfl)
  simp only [Option.map_some, Option.some.injEq] at hz
  subst hz
  simp only [hi, if_true, zeroFrame]
  rw [if_neg]
  rw [not_not]
  have hno : ∀ r c, ¬ Has (if fle0 (zf i r c) = true then p.flags.adFloor ||| p.flags.dnu else 0) p.flags.sat := by
    intro r c
    split
    · rw [has_or_left]; exact fun h => h.elim hf.ad_sat hf.dnu_sat
    · simp
  have h2 := (grow_spec p p.flags.sat (fun r c => (if fge (zf i r c) (p.thresh r c) then p.flags.sat else 0) |||
    (if fle0 (zf i r c) then p.flags.adFloor ||| p.flags.dnu else 0)) hgr hr hc).2
  rw [h2]
  · have h1 : fge (zf i r c) (p.thresh r c) = false := by
      cases hb : fge (zf i r c) (p.thresh r c) with
      | false => rfl
      | true =>
        exact absurd ((reaches_iff p r c _).mp hb) (hsat r c ⟨hr, hc, by omega, by omega, by omega, by omega⟩)
    have h3 : fle0 (zf i r c) = false := by
      cases hv : zf i r c with
      | none => rfl
      | some v => simp [fle0, hlow v hv]
    simp [h1, h3]
  · rintro ⟨r', c', hw, hh⟩
    rw [has_or_left] at hh
    rcases hh with hh | hh
    · refine hsat r' c' hw ((reaches_iff p r' c' _).mp ?_)
      by_contra hb
      simp [hb] at hh
    · exact hno r' c' hh

end

/-! ### Concrete cases -/

/-- A 2x3 detector, three groups of two reads, growth 1, thresholds 100 except an exempt corner and a NaN corner. -/
def exParams : Params ℚ where
  nrows := 2
  ncols := 3
  ngroups := 3
  flags := ⟨1, 2, 64, 2 ^ 21⟩
  satThresh := fun r c => if r = 1 ∧ c = 2 then none else some 100
  satDq := fun r c => if r = 0 ∧ c = 2 then 2 ^ 21 else 0
  atodLimit := 65535
  nGrow := 1
  readPattern := some [[1, 2], [3, 4], [5, 6]]
  bias := fun _ _ => 0

/-- Data: pixel (0,0) is 10, 60, 120; all others 10, 20, 30, and (1,1) is zero in the first group. -/
def exData : Nat → Nat → Img (Option ℚ) := fun _ g r c =>
  if r = 0 ∧ c = 0 then some ([10, 60, 120].getD g 0) else if r = 1 ∧ c = 1 ∧ g = 0 then some 0
  else if r = 1 ∧ c = 0 ∧ g = 1 then none else some (10 * (g + 1))

theorem exParams_flagsOk : FlagsOk exParams.flags := by
  constructor <;> decide

/-- The example runs and exercises saturation, growth, the floor, the exempt pixels and the second-group pass. -/
example : ∃ out pout, flagSaturatedPixels exParams 1 exData (fun _ _ _ _ => 0) (fun _ _ => 4) none = some (out, pout, none) ∧
    out 0 2 0 0 = 2 ∧ out 0 2 1 1 = 2 ∧ out 0 2 0 2 = 0 ∧ out 0 0 1 1 = 65 ∧ out 0 1 0 0 = 1 ∧
    pout 1 2 = 4 + 2 ^ 21 ∧ Exempt exParams 1 2 ∧ ¬ Exempt exParams 0 0 := by
  refine ⟨_, _, rfl, by decide +kernel, by decide +kernel, by decide +kernel, by decide +kernel, by decide +kernel,
    by decide +kernel, Or.inr rfl, ?_⟩
  rintro (h | h)
  · exact absurd (h 21 (by decide)) (by decide)
  · exact absurd h (by decide)

/-- The zero frame of the same detector: saturated pixel and its neighbours are zeroed, a far one is kept. -/
example : (zeroFrame exParams (fun r c => if r = 0 ∧ c = 0 then some 100 else some 7)) 0 1 = some 0 ∧
    (zeroFrame exParams (fun r c => if r = 0 ∧ c = 0 then some 100 else some 7)) 0 2 = some 7 := by
  constructor <;> decide +kernel

/-- Growth by one on a 3x4 image. -/
example : ∃ g', adjacentPixels? 3 4 1 2 (fun r c => if r = 0 ∧ c = 0 then 3 else 8) = some g' ∧
    g' 1 1 = 10 ∧ g' 0 0 = 3 ∧ g' 2 2 = 8 := ⟨_, rfl, by decide +kernel, by decide +kernel, by decide +kernel⟩

end Verif.Thm
