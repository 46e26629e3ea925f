import Verif.Thm.Saturation

/-!
# C147: repeating the saturation step, and monotonicity

`flag_saturated_pixels` (saturation.py:12-265) run a second time on its own result, and two runs with ordered inputs compared.
-/

set_option linter.unusedSectionVars false

namespace Verif.Thm

open Verif.Dq Verif.Saturation

section
variable {α : Type*} [Field α] [LinearOrder α]
variable {p : Params α} {nints : Nat} {data : Nat → Nat → Img (Option α)} {gdq : Nat → Nat → Img Nat} {pdq : Img Nat}
  {z : Option (Nat → Img (Option α))} {out : Nat → Nat → Img Nat} {pout : Img Nat} {zout : Option (Nat → Img (Option α))}

/-- Whether the run is possible does not depend on flags and data. -/
theorem sn_runs (h : flagSaturatedPixels p nints data gdq pdq z = some (out, pout, zout)) (gdq' : Nat → Nat → Img Nat) (pdq' : Img Nat) :
    ∃ out' pout' zout', flagSaturatedPixels p nints data gdq' pdq' zout = some (out', pout', zout') := by
  unfold flagSaturatedPixels at h ⊢
  split at h
  · exact absurd h (by simp)
  · next hc =>
    simp only [Option.some.injEq, Prod.mk.injEq] at h
    rw [if_neg]
    · exact ⟨_, _, _, rfl⟩
    · rw [← h.2.2, Option.isSome_map]
      exact hc

theorem sn_has_pow (a k : Nat) : Has a (2 ^ k) ↔ a.testBit k = true := by
  rw [has_iff]
  constructor
  · rintro ⟨i, h1, h2⟩
    rw [Nat.testBit_two_pow, decide_eq_true_eq] at h2
    exact h2 ▸ h1
  · intro h
    exact ⟨k, h, by simp⟩

/-- Without growth and read pattern, every bit of the result. -/
theorem sn_base_bits (hn : p.nGrow = 0) (hrp : p.readPattern = none)
    (h : flagSaturatedPixels p nints data gdq pdq z = some (out, pout, zout)) {i g : Nat} (hi : i < nints) (hg : g < p.ngroups) (r c b : Nat) :
    (out i g r c).testBit b = true ↔ (gdq i g r c).testBit b = true ∨
      (p.flags.sat.testBit b = true ∧ ∃ g', g' ≤ g ∧ Reaches p r c (data i g' r c)) ∨
      ((p.flags.adFloor.testBit b = true ∨ p.flags.dnu.testBit b = true) ∧ ∃ v, data i g r c = some v ∧ v ≤ 0) := by
  obtain ⟨rfl, -, -, -⟩ := run_out h
  have e1 : flagAll p data gdq nints i g r c = preGrow p (data i) (gdq i) g r c := by
    rw [flagAll_eq, if_pos hi]
    simp only [flagIntegration, hrp]
    rw [forward_dq, if_pos hg]
    simp [Params.grow, hn]
  rw [e1]
  have hprev : (forward p (data i) (gdq i) (g + 1)).1 r c = true ↔ ∃ g', g' ≤ g ∧ Reaches p r c (data i g' r c) := by
    rw [forward_prev]
    simp only [reaches_iff, Nat.lt_succ_iff]
  have hfle : fle0 (data i g r c) = true ↔ ∃ v, data i g r c = some v ∧ v ≤ 0 := by
    cases data i g r c <;> simp [fle0]
  have hite : ∀ (q : Bool) (m : Nat), (if q = true then m else 0).testBit b = true ↔ q = true ∧ m.testBit b = true := by
    intro q m
    cases q <;> simp
  simp only [preGrow]
  rw [Nat.testBit_or, Bool.or_eq_true, Nat.testBit_or, Bool.or_eq_true, hite, hite, Nat.testBit_or, Bool.or_eq_true, hprev, hfle]
  constructor
  · rintro ((h1 | ⟨h1, h2⟩) | ⟨h1, h2⟩)
    · exact Or.inl h1
    · exact Or.inr (Or.inl ⟨h2, h1⟩)
    · exact Or.inr (Or.inr ⟨h2, h1⟩)
  · rintro (h1 | ⟨h1, h2⟩ | ⟨h1, h2⟩)
    · exact Or.inl (Or.inl h1)
    · exact Or.inl (Or.inr ⟨h2, h1⟩)
    · exact Or.inr ⟨h2, h1⟩

/-- **C147** (repeating the step without growth): a second run on the flags, pixel DQ and zero frames of the first changes nothing. -/
theorem C147_again_same (hf : FlagsOk p.flags) (hn : p.nGrow = 0) (hd : ∃ k, p.flags.dnu = 2 ^ k)
    (h : flagSaturatedPixels p nints data gdq pdq z = some (out, pout, zout)) :
    ∃ out', flagSaturatedPixels p nints data out pout zout = some (out', pout, zout) ∧
      ∀ i < nints, ∀ g < p.ngroups, ∀ r < p.nrows, ∀ c < p.ncols, out' i g r c = out i g r c := by
  obtain ⟨k, hk⟩ := hd
  obtain ⟨out', pout', zout', h'⟩ := sn_runs h out pout
  have hp : pout' = pout := by
    obtain ⟨-, e1, -, -⟩ := run_out h
    obtain ⟨-, e2, -, -⟩ := run_out h'
    rw [e2, e1]
    funext r c
    simp [pixelDq]
  have hz : zout' = zout := by
    obtain ⟨-, -, e1, -⟩ := run_out h
    obtain ⟨-, -, e2, -⟩ := run_out h'
    rw [e2, e1]
    cases z with
    | none => rfl
    | some zf =>
      simp only [Option.map_some, Option.some.injEq]
      funext i
      split
      · funext r c
        simp only [zeroFrame, Params.grow, hn, gt_iff_lt, lt_self_iff_false, if_false]
        by_cases hb : ((if fge (zf i r c) (p.thresh r c) = true then p.flags.sat else 0) |||
            if fle0 (zf i r c) = true then p.flags.adFloor ||| p.flags.dnu else 0) ≠ 0
        · rw [if_pos hb]
          simp
        · rw [if_neg hb, if_neg hb]
      · rfl
  subst hp hz
  refine ⟨out', h', ?_⟩
  -- the run without read pattern
  have key : ∀ {o : Nat → Nat → Img Nat}, (∀ i < nints, ∀ g < p.ngroups, ∀ r < p.nrows, ∀ c < p.ncols, ∀ b, b ≠ k →
      (o i g r c).testBit b = (out i g r c).testBit b) → (∀ i < nints, ∀ g < p.ngroups, ∀ r < p.nrows, ∀ c < p.ncols,
      (Has (o i g r c) p.flags.dnu ↔ Has (out i g r c) p.flags.dnu)) →
      ∀ i < nints, ∀ g < p.ngroups, ∀ r < p.nrows, ∀ c < p.ncols, o i g r c = out i g r c := by
    intro o ho1 ho2 i hi g hg r hr c hc
    apply Nat.eq_of_testBit_eq
    intro b
    by_cases hb : b = k
    · have := ho2 i hi g hg r hr c hc
      rw [hk, sn_has_pow, sn_has_pow] at this
      rw [hb]
      cases h1 : (o i g r c).testBit k <;> cases h2 : (out i g r c).testBit k <;> simp_all
    · exact ho1 i hi g hg r hr c hc b hb
  cases hrp : p.readPattern with
  | none =>
    have hb1 := fun {i g : Nat} (hi : i < nints) (hg : g < p.ngroups) (r c b : Nat) => sn_base_bits hn hrp h hi hg r c b
    have hb2 := fun {i g : Nat} (hi : i < nints) (hg : g < p.ngroups) (r c b : Nat) => sn_base_bits hn hrp h' hi hg r c b
    intro i hi g hg r hr c hc
    apply Nat.eq_of_testBit_eq
    intro b
    rw [Bool.eq_iff_iff, hb2 hi hg]
    exact ⟨fun hh => hh.elim id fun hh => (hb1 hi hg r c b).2 (Or.inr hh), Or.inl⟩
  | some rp =>
    obtain ⟨base, k1, k2⟩ := C12_averaged_groups hf hrp h
    obtain ⟨base', k1', k2'⟩ := C12_averaged_groups hf hrp h'
    have hb1 := fun {i g : Nat} (hi : i < nints) (hg : g < p.ngroups) (r c b : Nat) =>
      sn_base_bits (p := { p with readPattern := none }) hn rfl k1 hi hg r c b
    have hb2 := fun {i g : Nat} (hi : i < nints) (hg : g < p.ngroups) (r c b : Nat) =>
      sn_base_bits (p := { p with readPattern := none }) hn rfl k1' hi hg r c b
    have hdk : ∀ b, b ≠ k → p.flags.dnu.testBit b = false := by
      intro b hb
      rw [hk, Nat.testBit_two_pow]
      simpa using fun e => hb e.symm
    -- second base is the first result
    have hbb : ∀ i < nints, ∀ g < p.ngroups, ∀ r < p.nrows, ∀ c < p.ncols, ∀ b,
        (base' i g r c).testBit b = true ↔ (out i g r c).testBit b = true := by
      intro i hi g hg r hr c hc b
      rw [hb2 hi hg]
      constructor
      · rintro (h1 | h1)
        · exact h1
        · by_cases hb : b = k
          · have hbase : Has (base i g r c) p.flags.dnu := by
              rw [hk, sn_has_pow, ← hb, hb1 hi hg]
              exact Or.inr h1
            have := ((k2 i g r c hi hg hr hc).2).2 (Or.inl hbase)
            rwa [hk, sn_has_pow, ← hb] at this
          · rw [(k2 i g r c hi hg hr hc).1 b (hdk b hb), hb1 hi hg]
            exact Or.inr h1
      · exact Or.inl
    have hbH : ∀ i < nints, ∀ g < p.ngroups, ∀ r < p.nrows, ∀ c < p.ncols, ∀ f, Has (base' i g r c) f ↔ Has (out i g r c) f := by
      intro i hi g hg r hr c hc f
      rw [has_iff, has_iff]
      simp only [hbb i hi g hg r hr c hc]
    have hsat : ∀ i < nints, ∀ g < p.ngroups, ∀ r < p.nrows, ∀ c < p.ncols,
        (Has (out i g r c) p.flags.sat ↔ Has (base i g r c) p.flags.sat) := by
      intro i hi g hg r hr c hc
      rw [has_iff, has_iff]
      constructor
      · rintro ⟨b, h1, h2⟩
        have hb : b ≠ k := by
          rintro rfl
          exact hf.dnu_sat (has_iff.2 ⟨b, by rw [hk]; simp, h2⟩)
        rw [(k2 i g r c hi hg hr hc).1 b (hdk b hb)] at h1
        exact ⟨b, h1, h2⟩
      · rintro ⟨b, h1, h2⟩
        have hb : b ≠ k := by
          rintro rfl
          exact hf.dnu_sat (has_iff.2 ⟨b, by rw [hk]; simp, h2⟩)
        rw [← (k2 i g r c hi hg hr hc).1 b (hdk b hb)] at h1
        exact ⟨b, h1, h2⟩
    refine key ?_ ?_
    · intro i hi g hg r hr c hc b hb
      rw [(k2' i g r c hi hg hr hc).1 b (hdk b hb), Bool.eq_iff_iff]
      exact hbb i hi g hg r hr c hc b
    · intro i hi g hg r hr c hc
      constructor
      · intro hh
        rcases ((k2' i g r c hi hg hr hc).2).1 hh with h1 | ⟨hg1, hdil, r', c', hnear, hv, hns, hnd, hnx⟩ | ⟨h3, hg1, d0, d1, t, a1, a2, a3, a4, a5, a6, a7⟩
        · exact (hbH i hi g hg r hr c hc _).1 h1
        · have hrc : r' = r ∧ c' = c := by
            simp only [Near, hn] at hnear
            omega
          obtain ⟨rfl, rfl⟩ := hrc
          rw [hbH i hi g hg r' hr c' hc] at hns hnd
          rw [hbH i hi (g + 1) hg1 r' hr c' hc, hsat i hi (g + 1) hg1 r' hr c' hc] at hnx
          rw [hsat i hi g hg r' hr c' hc] at hns
          exact ((k2 i g r' c' hi hg hr hc).2).2 (Or.inr (Or.inl ⟨hg1, hdil, r', c', hnear, hv, hns,
            fun hb => hnd (((k2 i g r' c' hi hg hr hc).2).2 (Or.inl hb)), hnx⟩))
        · rw [hbH i hi 2 h3 r hr c hc, hsat i hi 2 h3 r hr c hc] at a6
          rw [hbH i hi 1 (by omega) r hr c hc, hsat i hi 1 (by omega) r hr c hc] at a7
          exact ((k2 i g r c hi hg hr hc).2).2 (Or.inr (Or.inr ⟨h3, hg1, d0, d1, t, a1, a2, a3, a4, a5, a6, a7⟩))
      · intro hh
        exact ((k2' i g r c hi hg hr hc).2).2 (Or.inl ((hbH i hi g hg r hr c hc _).2 hh))

/-- **C147** (growth adds up): a second run, with growth `n`, on the flags of a first one with growth `m` sets the saturation flags of a single run
with growth `m + n`. -/
theorem C147_growth_adds (m n : Nat) (hf : FlagsOk p.flags) {out' out'' : Nat → Nat → Img Nat} {pout' pout'' : Img Nat}
    {zout' zout'' z' z'' : Option (Nat → Img (Option α))} {pdq' pdq'' : Img Nat}
    (h : flagSaturatedPixels { p with nGrow := m } nints data gdq pdq z = some (out, pout, zout))
    (h' : flagSaturatedPixels { p with nGrow := n } nints data out pdq' z' = some (out', pout', zout'))
    (h'' : flagSaturatedPixels { p with nGrow := m + n } nints data gdq pdq'' z'' = some (out'', pout'', zout''))
    {i g r c : Nat} (hi : i < nints) (hg : g < p.ngroups) (hr : r < p.nrows) (hc : c < p.ncols) :
    Has (out' i g r c) p.flags.sat ↔ Has (out'' i g r c) p.flags.sat := by
  have e1 := fun r c (hr : r < p.nrows) (hc : c < p.ncols) => C07_saturated_iff_grown (p := { p with nGrow := m }) hf h hi hg hr hc
  have e2 := C07_saturated_iff_grown (p := { p with nGrow := n }) hf h' hi hg hr hc
  have e3 := C07_saturated_iff_grown (p := { p with nGrow := m + n }) hf h'' hi hg hr hc
  rw [e2, e3]
  have hre : ∀ q r c x, Reaches { p with nGrow := q } r c x ↔ Reaches p r c x := fun _ _ _ _ => Iff.rfl
  simp only [hre, Near] at e1 ⊢
  constructor
  · rintro ⟨r', c', hw, hh⟩
    rcases hh with hh | hh
    · obtain ⟨r'', c'', hw', hh'⟩ := (e1 r' c' hw.1 hw.2.1).1 hh
      exact ⟨r'', c'', by omega, hh'⟩
    · exact ⟨r', c', by omega, Or.inr hh⟩
  · rintro ⟨r'', c'', hw, hh⟩
    refine ⟨if r ≤ r'' then min r'' (r + n) else max r'' (r - n), if c ≤ c'' then min c'' (c + n) else max c'' (c - n), ?_, Or.inl ?_⟩
    · split <;> split <;> omega
    · rw [e1 _ _ (by split <;> omega) (by split <;> omega)]
      exact ⟨r'', c'', by split <;> split <;> omega, hh⟩

/-- **C147** (monotone): larger values, lower saturation levels, more saturation flags on input and a larger growth never lose a saturation flag. -/
theorem C147_monotone {p' : Params α} {data' : Nat → Nat → Img (Option α)} {gdq' out' : Nat → Nat → Img Nat} {pdq' pout' : Img Nat}
    {z' zout' : Option (Nat → Img (Option α))} (hf : FlagsOk p.flags) (hflags : p'.flags = p.flags)
    (hshape : p'.nrows = p.nrows ∧ p'.ncols = p.ncols ∧ p'.ngroups = p.ngroups)
    (hex : ∀ r c, Exempt p' r c ↔ Exempt p r c) (hth : ∀ r c t, p.satThresh r c = some t → ∃ t', p'.satThresh r c = some t' ∧ t' ≤ t)
    (had : p'.atodLimit + 1 ≤ p.atodLimit + 1) (hgrow : p.nGrow ≤ p'.nGrow)
    (hdata : ∀ i g r c v, data i g r c = some v → ∃ v', data' i g r c = some v' ∧ v ≤ v')
    (hq : ∀ i g r c, Has (gdq i g r c) p.flags.sat → Has (gdq' i g r c) p.flags.sat)
    (h : flagSaturatedPixels p nints data gdq pdq z = some (out, pout, zout))
    (h' : flagSaturatedPixels p' nints data' gdq' pdq' z' = some (out', pout', zout'))
    {i g r c : Nat} (hi : i < nints) (hg : g < p.ngroups) (hr : r < p.nrows) (hc : c < p.ncols)
    (hs : Has (out i g r c) p.flags.sat) : Has (out' i g r c) p.flags.sat := by
  obtain ⟨s1, s2, s3⟩ := hshape
  have := C07_saturated_iff_grown (p := p') (by rw [hflags]; exact hf) h' hi (by omega : g < p'.ngroups) (by omega : r < p'.nrows) (by omega : c < p'.ncols)
  rw [hflags] at this
  rw [this]
  obtain ⟨r', c', hw, hh⟩ := (C07_saturated_iff_grown hf h hi hg hr hc).1 hs
  refine ⟨r', c', by unfold Near at hw ⊢; omega, ?_⟩
  rcases hh with hh | ⟨g', hg', v, hv, hrch⟩
  · exact Or.inl (hq _ _ _ _ hh)
  · refine Or.inr ⟨g', hg', ?_⟩
    obtain ⟨v', hv', hle⟩ := hdata _ _ _ _ _ hv
    refine ⟨v', hv', ?_⟩
    rcases hrch with ⟨hne, t, ht, htv⟩ | ⟨he, hav⟩
    · obtain ⟨t', ht', hle'⟩ := hth _ _ _ ht
      exact Or.inl ⟨fun h => hne ((hex _ _).1 h), t', ht', hle'.trans (htv.trans hle)⟩
    · exact Or.inr ⟨(hex _ _).2 he, had.trans (hav.trans hle)⟩

end

/-! ## Example -/

/-- Example: a line of seven pixels, the one in the middle saturates in group 1. -/
def snParams : Params ℚ := ⟨2, 7, 3, ⟨1, 2, 64, 128⟩, fun _ _ => some 100, fun _ _ => 0, 65535, 0, some [[1], [2, 3], [4, 5]], fun _ _ => 0⟩

/-- Example: the data. -/
def snData : Nat → Nat → Img (Option ℚ) := fun _ g r c => if r = 0 ∧ c = 3 then some (50 + 35 * g) else some (10 + g)

/-- Growth 1 twice is growth 2; the read pattern makes group 1 of the saturated pixel unusable; a second run without growth changes nothing. -/
example :
    let run := fun n q => flagAll { snParams with nGrow := n } snData q 1
    let z : Nat → Nat → Img Nat := fun _ _ _ _ => 0
    (List.range 7).map (run 1 (run 1 z) 0 2 0) = [0, 2, 2, 2, 2, 2, 0] ∧ (List.range 7).map (run 2 z 0 2 0) = [0, 2, 2, 2, 2, 2, 0] ∧
    (List.range 7).map (run 1 z 0 2 0) = [0, 0, 2, 2, 2, 0, 0] ∧
    (List.range 3).map (fun g => run 0 z 0 g 0 3) = [0, 1, 2] ∧ (List.range 3).map (fun g => run 0 (run 0 z) 0 g 0 3) = [0, 1, 2] := by
  decide +kernel

example : FlagsOk snParams.flags ∧ ∃ k, snParams.flags.dnu = 2 ^ k :=
  ⟨⟨by decide, by decide, by decide, by decide, by decide, by decide⟩, 0, rfl⟩

end Verif.Thm
