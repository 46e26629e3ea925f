import Verif.Thm.JumpDriver

/-!
# Jump detection on data that have jump flags already: property C139
-/

set_option linter.unusedSectionVars false

namespace Verif.Thm

open Verif Verif.Jump Verif.JumpDriver

variable {α : Type} [Field α] [LinearOrder α]

/-- Specification: two group DQ arrays call the same samples unusable. -/
def JrSame (p : Params α) (d : Dims) (a b : Cube Nat) : Prop :=
  ∀ i < d.ni, ∀ g < d.ng, ∀ r < d.nr, ∀ c < d.nc,
    (Dq.Has (a i g r c) p.dnu ↔ Dq.Has (b i g r c) p.dnu) ∧
    (Dq.Has (a i g r c) p.sat ↔ Dq.Has (b i g r c) p.sat)

theorem jr_has_or (w f g : Nat) : Dq.Has w (f ||| g) ↔ Dq.Has w f ∨ Dq.Has w g := by
  unfold Dq.Has
  rw [Nat.and_or_distrib_left, ne_eq, Nat.or_eq_zero_iff]
  tauto

theorem jr_dead {p : Params α} {d : Dims} {a b : Cube Nat} (h : JrSame p d a b) (i g : Nat) (hi : i < d.ni)
    (hg : g < d.ng) : JdDead p d a i g ↔ JdDead p d b i g := by
  unfold JdDead
  constructor
  · intro hd r hr c hc; exact (h i hi g hg r hr c hc).1.mp (hd r hr c hc)
  · intro hd r hr c hc; exact (h i hi g hg r hr c hc).1.mpr (hd r hr c hc)

theorem jr_usable {p : Params α} {d : Dims} {a b : Cube Nat} (h : JrSame p d a b) (i : Nat) (hi : i < d.ni) :
    jdUsable p d a i = jdUsable p d b i := by
  unfold jdUsable
  apply List.countP_congr
  intro g hg
  simp only [List.mem_range] at hg
  simp [jr_dead h i g hi hg]

theorem jr_tooFew {p : Params α} {s : Switch} {d : Dims} {a b : Cube Nat} (h : JrSame p d a b) (hi : 0 < d.ni) :
    JdTooFew p s d a ↔ JdTooFew p s d b := by
  unfold JdTooFew
  rw [jr_usable h (d.ni - 1) (by omega)]
  have : (∃ i < d.ni, jdUsable p d a i < s.minGroups) ↔ ∃ i < d.ni, jdUsable p d b i < s.minGroups := by
    constructor
    · rintro ⟨i, hi, hu⟩; exact ⟨i, hi, by rwa [← jr_usable h i hi]⟩
    · rintro ⟨i, hi, hu⟩; exact ⟨i, hi, by rwa [jr_usable h i hi]⟩
  rw [this]

theorem jr_clip {p : Params α} {s : Switch} {d : Dims} {a b : Cube Nat} (h : JrSame p d a b) :
    JdClip p s d a ↔ JdClip p s d b := by
  unfold JdClip
  have : (List.range d.ni).map (jdUsable p d a) = (List.range d.ni).map (jdUsable p d b) :=
    List.map_congr_left fun i hi => jr_usable h i (by simpa using hi)
  rw [this]

theorem jr_diff {p : Params α} {d : Dims} {a b : Cube Nat} (h : JrSame p d a b) (data : Cube (Option α))
    (i j r c : Nat) (hi : i < d.ni) (hj : j + 1 < d.ng) (hr : r < d.nr) (hc : c < d.nc) :
    jdDiff p data a i j r c = jdDiff p data b i j r c := by
  have h0 := h i hi j (by omega) r hr c hc
  have h1 := h i hi (j + 1) hj r hr c hc
  have e : (Dq.Has (a i j r c) (p.dnu ||| p.sat) ∨ Dq.Has (a i (j + 1) r c) (p.dnu ||| p.sat) ∨ p.dt j = 0) ↔
      (Dq.Has (b i j r c) (p.dnu ||| p.sat) ∨ Dq.Has (b i (j + 1) r c) (p.dnu ||| p.sat) ∨ p.dt j = 0) := by
    simp only [jr_has_or, h0.1, h0.2, h1.1, h1.2]
  unfold jdDiff
  simp only [e]

theorem jr_diffs {p : Params α} {d : Dims} {a b : Cube Nat} (h : JrSame p d a b) (data : Cube (Option α))
    (r c : Nat) (hr : r < d.nr) (hc : c < d.nc) : jdDiffs p d data a r c = jdDiffs p d data b r c := by
  unfold jdDiffs
  apply List.map_congr_left
  intro i hi
  apply List.map_congr_left
  intro j hj
  simp only [List.mem_range] at hi hj
  exact jr_diff h data i j r c hi (by omega) hr hc

theorem jr_outlier {p : Params α} {d : Dims} {a b : Cube Nat} (h : JrSame p d a b) (sqrt : α → α)
    (rn : Nat → Nat → α) (data : Cube (Option α)) (i g r c : Nat) (hi : i < d.ni) (hg : g < d.ng) (hr : r < d.nr)
    (hc : c < d.nc) : JdOutlier p sqrt d rn data a i g r c ↔ JdOutlier p sqrt d rn data b i g r c := by
  unfold JdOutlier
  rw [jr_diffs h data r c hr hc]
  by_cases h1 : 1 ≤ g
  · rw [jr_diff h data i (g - 1) r c hi (by omega) hr hc]
  · simp [h1]

/-- What is found does not depend on the jump flags of the input. -/
theorem jr_detect {p : Params α} {s : Switch} {d : Dims} {a b : Cube Nat} (h : JrSame p d a b) (sqrt : α → α)
    (clip : List (Option α) → List Bool) (rn : Nat → Nat → α) (data : Cube (Option α)) (hc : ¬ JdClip p s d a)
    (hi0 : 0 < d.ni) :
    ∃ new : Cube Bool, ∀ i < d.ni, ∀ g < d.ng, ∀ r < d.nr, ∀ c < d.nc,
      detect p sqrt clip s d rn data a i g r c = (if new i g r c then a i g r c ||| p.jump else a i g r c) ∧
      detect p sqrt clip s d rn data b i g r c = (if new i g r c then b i g r c ||| p.jump else b i g r c) := by
  have hca : usesClip p s d a = false := by rw [← Bool.not_eq_true, jd_usesClip]; exact hc
  have hcb : usesClip p s d b = false := by
    rw [← Bool.not_eq_true, jd_usesClip]; exact fun hh => hc ((jr_clip h).mpr hh)
  have hs : usesSingle p s d a = usesSingle p s d b := by
    rw [Bool.eq_iff_iff, jd_usesSingle p s d a hi0, jd_usesSingle p s d b hi0]
    exact forall₂_congr fun i hi => by rw [jr_usable h i hi]
  by_cases hsa : usesSingle p s d a = true
  · classical
    refine ⟨fun i g r c => decide (JdOutlier p sqrt d rn data a i g r c), ?_⟩
    intro i hi g hg r hr c hcc
    have h1 := jd_single p sqrt d rn data a i g r c hi hg
    have h2 := jd_single p sqrt d rn data b i g r c hi hg
    have ho := jr_outlier h sqrt rn data i g r c hi hg hr hcc
    simp only [detect, hca, hcb, ← hs, hsa, if_true, Bool.false_eq_true, if_false]
    by_cases hout : JdOutlier p sqrt d rn data a i g r c
    · simp only [decide_eq_true hout, if_true]
      exact ⟨h1.1 hout, h2.1 (ho.mp hout)⟩
    · simp only [decide_eq_false hout, Bool.false_eq_true, if_false]
      exact ⟨h1.2 hout, h2.2 (fun hh => hout (ho.mpr hh))⟩
  · have hsa' : usesSingle p s d a = false := by simpa using hsa
    refine ⟨fun i g r c => decide (1 ≤ g) &&
      entry false (iterative p sqrt (rn r c * rn r c) (diffs p d data a r c)).2 i (g - 1), ?_⟩
    intro i hi g hg r hr c hcc
    have hd : diffs p d data b r c = diffs p d data a r c := by
      rw [jd_diffs, jd_diffs, jr_diffs h data r c hr hcc]
    simp only [detect, hca, hcb, ← hs, hsa', Bool.false_eq_true, if_false, iterDetect, hd]
    exact ⟨trivial, trivial⟩

/-- C139 (jump flags of the input play no part).  Two group DQ arrays that agree on which samples are DO_NOT_USE and
SATURATED: without sigma clipping, neighbour and after-jump flagging, `find_crs` adds JUMP_DET to the same samples of
both, and changes nothing else. -/
theorem C139_old_flags_play_no_part (p : Params α) (sqrt : α → α) (clip : List (Option α) → List Bool) (s : Switch)
    (d : Dims) (rn : Nat → Nat → α) (data : Cube (Option α)) (a b : Cube Nat) (h : JrSame p d a b)
    (hc : ¬ JdClip p s d a) (h4 : s.flag4 = false) (h1 : p.n1 = 0) (h2 : p.n2 = 0) :
    ∃ new : Cube Bool, ∀ i < d.ni, ∀ g < d.ng, ∀ r < d.nr, ∀ c < d.nc,
      (findCrs p sqrt clip s d rn data a).gdq i g r c = (if new i g r c then a i g r c ||| p.jump else a i g r c) ∧
      (findCrs p sqrt clip s d rn data b).gdq i g r c = (if new i g r c then b i g r c ||| p.jump else b i g r c) := by
  by_cases hi0 : 0 < d.ni
  · by_cases hfew : JdTooFew p s d a
    · have e1 := (C97_too_few_groups p sqrt clip s d rn data a hi0 hfew).1
      have e2 := (C97_too_few_groups p sqrt clip s d rn data b hi0 ((jr_tooFew h hi0).mp hfew)).1
      exact ⟨fun _ _ _ _ => false, fun i _ g _ r _ c _ => by rw [e1, e2]; simp⟩
    · have hfb : ¬ JdTooFew p s d b := fun hh => hfew ((jr_tooFew h hi0).mpr hh)
      rw [jd_plain p sqrt clip s d rn data a hi0 hfew h4 h1 h2, jd_plain p sqrt clip s d rn data b hi0 hfb h4 h1 h2]
      exact jr_detect h sqrt clip rn data hc hi0
  · exact ⟨fun _ _ _ _ => false, fun i hi => absurd hi (by omega)⟩

theorem jr_bit (u k : Nat) : Dq.Has u (2 ^ k) ↔ u.testBit k = true := by
  unfold Dq.Has
  rw [Nat.and_two_pow]
  cases u.testBit k <;> simp

/-- A word changed in the JUMP_DET bit only calls the same samples unusable. -/
theorem jr_same_of_bits (p : Params α) (d : Dims) (ja jb jc : Nat) (hf : FlagBits p ja jb jc) (a b : Cube Nat)
    (h : ∀ i < d.ni, ∀ g < d.ng, ∀ r < d.nr, ∀ c < d.nc, ∀ k, k ≠ ja → (b i g r c).testBit k = (a i g r c).testBit k) :
    JrSame p d a b := by
  obtain ⟨_, hd, hs, hab, hac⟩ := hf
  intro i hi g hg r hr c hc
  rw [hd, hs, jr_bit, jr_bit, jr_bit, jr_bit, h i hi g hg r hr c hc jb (Ne.symm hab),
    h i hi g hg r hr c hc jc (Ne.symm hac)]
  exact ⟨Iff.rfl, Iff.rfl⟩

/-- C139 (repetition).  Without sigma clipping, neighbour and after-jump flagging, a second run of `find_crs` on the
flags of the first run changes nothing. -/
theorem C139_repeat (p : Params α) (sqrt : α → α) (clip : List (Option α) → List Bool) (s : Switch)
    (d : Dims) (rn : Nat → Nat → α) (data : Cube (Option α)) (gdq : Cube Nat) (ja jb jc : Nat)
    (hf : FlagBits p ja jb jc) (hcl : ¬ JdClip p s d gdq) (h4 : s.flag4 = false) (h1 : p.n1 = 0) (h2 : p.n2 = 0)
    (i g r c : Nat) (hi : i < d.ni) (hg : g < d.ng) (hr : r < d.nr) (hc : c < d.nc) :
    (findCrs p sqrt clip s d rn data (findCrs p sqrt clip s d rn data gdq).gdq).gdq i g r c =
      (findCrs p sqrt clip s d rn data gdq).gdq i g r c := by
  have hsame : JrSame p d gdq (findCrs p sqrt clip s d rn data gdq).gdq :=
    jr_same_of_bits p d ja jb jc hf _ _ fun i hi g hg r _ c hc =>
      (C98_only_jump_flags p sqrt clip s d rn data gdq ja hf.1 i g r c hi hg hc).1
  obtain ⟨new, hn⟩ := C139_old_flags_play_no_part p sqrt clip s d rn data _ _ hsame hcl h4 h1 h2
  obtain ⟨e1, e2⟩ := hn i hi g hg r hr c hc
  rw [e2]
  cases hb : new i g r c with
  | false => simp
  | true =>
    rw [hb] at e1
    simp only [if_true] at e1 ⊢
    rw [e1, Nat.or_assoc, Nat.or_self]

/-- C139 (repetition of the step).  The same for the two-point difference step of `detect_jumps_data` with its clean-up,
run in one process. -/
theorem C139_repeat_step (p : Params α) (sqrt : α → α) (clip : List (Option α) → List Bool) (s : Switch)
    (e : Exposure α) (maxCores : List Char) (ncpu : Nat) (ja jb jc : Nat) (hf : FlagBits p ja jb jc)
    (hone : Slicing.computeNumCores maxCores e.d.nr ncpu = 1) (hcl : ¬ JdClip p s e.d e.gdq) (h4 : s.flag4 = false)
    (h1 : p.n1 = 0) (h2 : p.n2 = 0)
    (i g r c : Nat) (hi : i < e.d.ni) (hg : g < e.d.ng) (hr : r < e.d.nr) (hc : c < e.d.nc) :
    let e' := { e with gdq := (twoPoint p sqrt clip s e maxCores ncpu).1 }
    (twoPoint p sqrt clip s e' maxCores ncpu).1 i g r c = (twoPoint p sqrt clip s e maxCores ncpu).1 i g r c := by
  intro e'
  have hf' : FlagBits (stepParams p e) ja jb jc := hf
  have hcl' : ¬ JdClip (stepParams p e) { s with minGroups := 3 } e.d e.gdq := hcl
  have hone' : Slicing.computeNumCores maxCores e'.d.nr ncpu = 1 := hone
  set F := findCrs (stepParams p e) sqrt clip { s with minGroups := 3 } e.d (noiseElectrons e) (electrons e) with hF
  have ht : ∀ i g r c, (twoPoint p sqrt clip s e maxCores ncpu).1 i g r c = cleanup p ((F e.gdq).gdq i g r c) := by
    intro i g r c
    simp only [twoPoint, hone, if_true]
    rfl
  have ht' : ∀ i g r c, (twoPoint p sqrt clip s e' maxCores ncpu).1 i g r c = cleanup p ((F e'.gdq).gdq i g r c) := by
    intro i g r c
    simp only [twoPoint, hone', if_true]
    rfl
  have hclean : ∀ w k, k ≠ ja → (cleanup p w).testBit k = w.testBit k := fun w => (C23_cleanup p ja jb jc hf w).2
  have hsame : JrSame (stepParams p e) e.d e.gdq e'.gdq := by
    apply jr_same_of_bits (stepParams p e) e.d ja jb jc hf'
    intro i hi g hg r _ c hc k hk
    have h0 := (C98_only_jump_flags (stepParams p e) sqrt clip { s with minGroups := 3 } e.d (noiseElectrons e)
      (electrons e) e.gdq ja hf.1 i g r c hi hg hc).1 k hk
    have : e'.gdq i g r c = cleanup p ((F e.gdq).gdq i g r c) := ht i g r c
    rw [this, hclean _ k hk]
    exact h0
  obtain ⟨new, hn⟩ := C139_old_flags_play_no_part (stepParams p e) sqrt clip { s with minGroups := 3 } e.d
    (noiseElectrons e) (electrons e) e.gdq e'.gdq hsame hcl' h4 h1 h2
  obtain ⟨e1, e2⟩ := hn i hi g hg r hr c hc
  have e1' : (F e.gdq).gdq i g r c = if new i g r c then e.gdq i g r c ||| p.jump else e.gdq i g r c := e1
  have e2' : (F e'.gdq).gdq i g r c = if new i g r c then e'.gdq i g r c ||| p.jump else e'.gdq i g r c := e2
  have hw : e'.gdq i g r c = cleanup p ((F e.gdq).gdq i g r c) := ht i g r c
  rw [ht', ht, e2', hw]
  obtain ⟨hj, hd, hs, hab, hac⟩ := hf
  apply Nat.eq_of_testBit_eq
  intro k
  have hj' : ∀ u : Nat, (u ||| p.jump).testBit k = (u.testBit k || decide (k = ja)) := by
    intro u
    rw [Nat.testBit_or, hj, Nat.testBit_two_pow]
    simp [eq_comm]
  have hjb : ∀ (u m : Nat), m ≠ ja → (u ||| p.jump).testBit m = u.testBit m := by
    intro u m hm
    rw [Nat.testBit_or, hj, Nat.testBit_two_pow]
    simp [Ne.symm hm]
  have hct := fun u k => cleanup_testBit p ja jb jc u hj hd hs hab hac k
  cases hb : new i g r c with
  | false =>
    simp only [Bool.false_eq_true, if_false]
    by_cases hk : k = ja
    · subst hk
      simp only [hct, if_true, if_neg (Ne.symm hab), if_neg (Ne.symm hac)]
      cases ((F e.gdq).gdq i g r c).testBit k <;> cases ((F e.gdq).gdq i g r c).testBit jb <;>
        cases ((F e.gdq).gdq i g r c).testBit jc <;> rfl
    · simp only [hct, if_neg hk]
  | true =>
    rw [hb] at e1'
    simp only [if_true] at e1' ⊢
    rw [e1']
    by_cases hk : k = ja
    · subst hk
      simp only [hct, if_true, if_neg (Ne.symm hab), if_neg (Ne.symm hac), hj', hjb _ _ (Ne.symm hab),
        hjb _ _ (Ne.symm hac), decide_true, Bool.or_true]
    · simp only [hct, if_neg hk, hjb _ _ hk]

/-- C139 (any options).  Whatever options are on, a second run without sigma clipping keeps every JUMP_DET of the first
run. -/
theorem C139_repeat_keeps (p : Params α) (sqrt : α → α) (clip : List (Option α) → List Bool) (s : Switch)
    (d : Dims) (rn : Nat → Nat → α) (data : Cube (Option α)) (gdq : Cube Nat) (ja jb jc : Nat)
    (hf : FlagBits p ja jb jc) (hcl : ¬ JdClip p s d gdq)
    (i g r c : Nat) (hi : i < d.ni) (hg : g < d.ng) (hc : c < d.nc)
    (hj : Dq.Has ((findCrs p sqrt clip s d rn data gdq).gdq i g r c) p.jump) :
    Dq.Has ((findCrs p sqrt clip s d rn data (findCrs p sqrt clip s d rn data gdq).gdq).gdq i g r c) p.jump := by
  have hsame : JrSame p d gdq (findCrs p sqrt clip s d rn data gdq).gdq :=
    jr_same_of_bits p d ja jb jc hf _ _ fun i hi g hg r _ c hc =>
      (C98_only_jump_flags p sqrt clip s d rn data gdq ja hf.1 i g r c hi hg hc).1
  by_contra hno
  have := (C98_only_jump_flags p sqrt clip s d rn data (findCrs p sqrt clip s d rn data gdq).gdq ja hf.1 i g r c hi hg
    hc).2.2 hj hno
  exact hcl ((jr_clip hsame).mpr this.1)

/-- Example: three rows; row 0 has a jump, row 1 a smaller one, row 2 none. -/
def jrData : Cube (Option ℚ) := fun _ g r _ =>
  (([[some 0, some 1, some 2, some 202, some 203], [some 0, some 1, some 2, some 62, some 63],
    [some 0, some 1, some 2, some 3, some 4]].getD r []).getD g none)

/-- Example: a threshold for jumps above that for neighbours. -/
def jrPar : Params ℚ := { exJump with normalThresh := 40, minNeighbor := 10, n1 := 0, n2 := 0 }

/-- With neighbour flagging a second run spreads the flags: in the first run row 1 is flagged as neighbour of row 0; in
the second it counts as a jump itself (its deviation is above the minimum for flagging neighbours), and row 2 is
flagged. -/
theorem C139_neighbours_spread :
    let f := fun w => (findCrs jrPar id jdClipRule jdSw ⟨1, 5, 3, 1⟩ (fun _ _ => 1) jrData w).gdq
    (f jdClean 0 3 0 0, f jdClean 0 3 1 0, f jdClean 0 3 2 0) = (4, 4, 0) ∧
    (f (f jdClean) 0 3 0 0, f (f jdClean) 0 3 1 0, f (f jdClean) 0 3 2 0) = (4, 4, 4) := by decide +kernel

/-- Example: a jump followed by a slow decay. -/
def jrTail : Cube (Option ℚ) := fun _ g _ _ =>
  (([0, 1, 2, 62, 65, 68, 69, 70].map some).getD g none)

/-- With after-jump flagging a second run flags further groups: the group after the jump, flagged by the first run, is
above the after-jump threshold and counts as a jump in the second. -/
theorem C139_after_jump_spreads :
    let p := { exJump with e1 := 1, n1 := 1, n2 := 0 }
    let f := fun w => (findCrs p id jdClipRule { jdSw with flag4 := false } ⟨1, 8, 1, 1⟩ (fun _ _ => 1) jrTail w).gdq
    ((List.range 8).map fun g => f jdClean 0 g 0 0) = [0, 0, 0, 4, 4, 0, 0, 0] ∧
    ((List.range 8).map fun g => f (f jdClean) 0 g 0 0) = [0, 0, 0, 4, 4, 4, 0, 0] := by decide +kernel

instance (p : Params ℚ) (s : Switch) (d : Dims) (gdq : Cube Nat) : Decidable (JdClip p s d gdq) := by
  unfold JdClip
  have : Decidable (∀ j, j + 1 < d.ng → p.nReads j = p.nReads 0 ∧ p.dt j = p.dt 0) :=
    decidable_of_iff (∀ j < d.ng - 1, p.nReads j = p.nReads 0 ∧ p.dt j = p.dt 0)
      ⟨fun h j hj => h j (by omega), fun h j hj => h j (by omega)⟩
  infer_instance

-- C139_repeat: a jump is found, no clipping
example : ¬ JdClip jrPar jdSw ⟨1, 5, 3, 1⟩ jdClean ∧
    (findCrs jrPar id jdClipRule { jdSw with flag4 := false } ⟨1, 5, 3, 1⟩ (fun _ _ => 1) jrData jdClean).gdq 0 3 0 0
      = 4 ∧
    Slicing.computeNumCores "none".toList 3 4 = 1 := by decide +kernel
example : FlagBits jrPar 2 0 1 := by unfold FlagBits; decide +kernel

end Verif.Thm
