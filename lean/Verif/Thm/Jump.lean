import Verif.Proof.Jump
import Mathlib.Algebra.Field.Rat
import Mathlib.Algebra.Order.Ring.Rat

/-!
# Jump detection: properties C05, C23-C25
-/

set_option linter.unusedSectionVars false

namespace Verif.Thm

open Verif Verif.Jump

variable {α : Type} [Field α] [LinearOrder α]

/-- The three flags are single, different bits (as in every DQ dictionary). -/
def FlagBits (p : Params α) (a b c : Nat) : Prop :=
  p.jump = 2 ^ a ∧ p.dnu = 2 ^ b ∧ p.sat = 2 ^ c ∧ a ≠ b ∧ a ≠ c

/-! ## C23 -/

/-- C23.  After the clean-up of `detect_jumps_data` no word carries JUMP_DET
together with DO_NOT_USE or SATURATED; JUMP_DET survives exactly on words with
neither; and every other bit is unchanged. -/
theorem C23_cleanup (p : Params α) (a b c : Nat) (hf : FlagBits p a b c) (w : Nat) :
    (Dq.Has (cleanup p w) p.jump ↔
      Dq.Has w p.jump ∧ ¬ Dq.Has w p.dnu ∧ ¬ Dq.Has w p.sat) ∧
    (∀ i, i ≠ a → (cleanup p w).testBit i = w.testBit i) := by
  obtain ⟨hj, hd, hs, hab, hac⟩ := hf
  have hbit : ∀ (u k : Nat), Dq.Has u (2 ^ k) ↔ u.testBit k = true := by
    intro u k
    unfold Dq.Has
    rw [Nat.and_two_pow]
    cases u.testBit k <;> simp
  constructor
  · rw [hj, hd, hs, hbit, hbit, hbit, hbit, cleanup_testBit p a b c w hj hd hs hab hac]
    simp [and_assoc]
  · intro i hi
    rw [cleanup_testBit p a b c w hj hd hs hab hac, if_neg hi]

/-- Example parameters: JUMP_DET 4, DO_NOT_USE 1, SATURATED 2. -/
def exJump : Params ℚ :=
  { jump := 4, sat := 2, dnu := 1, normalThresh := 4, threeThresh := 5, twoThresh := 6,
    maxNeighbor := 200, minNeighbor := 10, dt := fun _ => 1, nReads := fun _ => 1, e1 := 100,
    e2 := 1000, n1 := 1, n2 := 3 }

example : FlagBits exJump 2 0 1 := by unfold FlagBits; decide +kernel
example : [4, 5, 6, 7, 12, 13].map (cleanup exJump) = [4, 1, 2, 3, 12, 9] := by decide +kernel

/-! ## C05 -/

/-- C05.  For every image, every ratio image, every DQ plane and every number of
slices between one and the number of rows: flagging the four neighbours slice by
slice, exchanging the edge rows and cleaning up gives, word for word, the same
DQ plane as flagging the whole image and cleaning up. -/
theorem C05_neighbors_slicing_transparent (p : Params α) (a b c : Nat) (hf : FlagBits p a b c)
    (nrows nc n : Nat) (hn : 1 ≤ n) (hle : n ≤ nrows) (ratio : Img (Option α)) (gdq : Img Nat)
    (r x : Nat) (hr : r < nrows) :
    cleanup p (slicedNeighbors p nrows nc n ratio gdq r x) =
      cleanup p ((fourNeighbors p nrows nc ratio gdq).gdq r x) := by
  obtain ⟨hj, hd, hs, hab, hac⟩ := hf
  have hy : 1 ≤ nrows / n := (Nat.le_div_iff_mul_le (by omega)).mpr (by omega)
  have hny : n * (nrows / n) ≤ nrows := Nat.mul_div_le _ _
  simp only [slicedNeighbors]
  rw [reassemble_eq nrows n (nrows / n) _ gdq hn hy hny r x hr]
  set y := nrows / n with hydef
  clear_value y
  simp only [fourNeighbors]
  have hdivr := Nat.div_add_mod r y
  have hmodr := Nat.mod_lt r (show y > 0 by omega)
  have hcomm : y * (r / y) = r / y * y := Nat.mul_comm _ _
  set s := min (r / y) (n - 1) with hsdef
  have hsle : s * y ≤ r := by
    have : s * y ≤ r / y * y := Nat.mul_le_mul_right _ (by omega)
    omega
  have hsn : s + 1 ≤ n := by omega
  have hslt : s + 1 = n ∨ r < (s + 1) * y := by
    rcases Nat.lt_or_ge (r / y) (n - 1) with h | h
    · right
      have h2 : s = r / y := by omega
      have h3 : (s + 1) * y = s * y + y := by ring
      rw [h3, h2]; omega
    · left; omega
  clear_value s
  set f := primary p ratio gdq with hfdef
  have hfs : ∀ k r' c', primary p (fun r c => ratio (r + k * y) c)
      (fun r c => gdq (r + k * y) c) r' c' = f (r' + k * y) c' := by
    intro k r' c'; rfl
  have hrs : r - s * y + s * y = r := by omega
  -- dilation inside the slice, completed by the exchanged rows, is the whole dilation
  have hdil := dilate_slices f nrows nc n y s r x hy hny hr hsle hsn hslt
  -- exchanged words
  have hbel : (if r + 1 = (s + 1) * y ∧ s + 1 < n then
        (if primary p (fun r c => ratio (r + (s + 1) * y) c)
          (fun r c => gdq (r + (s + 1) * y) c) 0 x = true then p.jump else 0) else 0) =
      if (r + 1 = (s + 1) * y ∧ s + 1 < n) ∧ f ((s + 1) * y) x = true then p.jump else 0 := by
    rw [hfs, Nat.zero_add]
    exact (ite_and _ _ _ _).symm
  have habv : (if r = s * y ∧ 0 < s then
        (if primary p (fun r c => ratio (r + (s - 1) * y) c)
          (fun r c => gdq (r + (s - 1) * y) c)
            ((if n = s - 1 + 1 then nrows - (s - 1) * y else y) - 1) x = true
          then p.jump else 0) else 0) =
      if (r = s * y ∧ 0 < s) ∧ f (r - 1) x = true then p.jump else 0 := by
    by_cases hc : r = s * y ∧ 0 < s
    · obtain ⟨m, rfl⟩ := Nat.exists_eq_add_of_le (show 1 ≤ s from hc.2)
      have e1 : ¬ (n = 1 + m - 1 + 1) := by omega
      have e2 : y - 1 + (1 + m - 1) * y = r - 1 := by
        have : 1 + m - 1 = m := by omega
        rw [this, hc.1]
        have : (1 + m) * y = m * y + y := by ring
        omega
      rw [hfs, if_neg e1, e2]
      exact (ite_and _ _ _ _).symm
    · rw [if_neg hc, if_neg (fun h => hc h.1)]
  rw [hbel, habv]
  simp only [hrs]
  have hDeq : dilate4 (if n = s + 1 then nrows - s * y else y) nc
        (primary p (fun r c => ratio (r + s * y) c) (fun r c => gdq (r + s * y) c))
        (r - s * y) x = dilate4 (if n = s + 1 then nrows - s * y else y) nc
        (fun r' c => f (r' + s * y) c) (r - s * y) x := rfl
  rw [hDeq]
  set D := dilate4 (if n = s + 1 then nrows - s * y else y) nc
        (fun r' c => f (r' + s * y) c) (r - s * y) x with hD
  clear_value D
  generalize dilate4 nrows nc f r x = W at hdil ⊢
  generalize gdq r x = g
  clear hbel habv hfs hrs hsle hslt hsn
  have hzero : g &&& (p.sat ||| p.dnu) = 0 ↔ g.testBit c = false ∧ g.testBit b = false := by
    rw [hs, hd]; exact and_two_pow_eq_zero g c b
  apply Nat.eq_of_testBit_eq
  intro i
  rw [cleanup_testBit p a b c _ hj hd hs hab hac, cleanup_testBit p a b c _ hj hd hs hab hac]
  rw [hj]
  simp only [or_jump_testBit, or_jump_testBit', Ne.symm hab, Ne.symm hac, decide_false,
    Bool.false_and, Bool.or_false]
  by_cases hi : i = a
  · subst hi
    simp only [if_true, decide_true, Bool.true_and]
    by_cases hz : g &&& (p.sat ||| p.dnu) = 0
    · congr 3
      rw [decide_eq_decide]
      simp only [hz, decide_true, Bool.true_and]
      exact hdil
    · have : g.testBit c = true ∨ g.testBit b = true := by
        by_contra hc
        push Not at hc
        exact hz (hzero.mpr ⟨by simpa using hc.1, by simpa using hc.2⟩)
      rcases this with h | h
      · simp [h]
      · simp [h]
  · simp [hi]

/-- Example: a primary jump in row 1 of a 3×1 image processed in three slices. -/
example :
    (List.range 3).map (fun r => slicedNeighbors exJump 3 1 3
      (fun _ _ => some 50) (fun r _ => if r = 1 then 4 else 0) r 0) = [4, 4, 4] := by
  decide +kernel

/-! ## C24 -/

/-- C24 (propagation).  Whichever of the two strategies is chosen, after
propagation by `n` groups a group of the ramp is flagged exactly if some flagged
group lies at most `n` groups before it (group 0 is never flagged on entry:
`bigjump[0]` is never set). -/
theorem C24_propagation_exact (ngroups npix n : Nat) (flag : Nat → Nat → Bool) (g x : Nat)
    (hg : g < ngroups) (h0 : ∀ x, flag 0 x = false) :
    propagateFlags ngroups npix n flag g x = true ↔
      ∃ g0, g0 ≤ g ∧ g ≤ g0 + n ∧ flag g0 x = true :=
  propagateFlags_iff ngroups npix n flag g x hg (h0 x)

/-- Specification: group `g0` of pixel `x` is a jump whose excess in counts is at
least `e`. -/
def LargeJump (p : Params α) (fd : Nat → Nat → Option α) (med : Nat → Option α)
    (gdq : Nat → Nat → Nat) (e : α) (g0 x : Nat) : Prop :=
  1 ≤ g0 ∧ Dq.Has (gdq g0 x) p.jump ∧
    ∃ d m, fd (g0 - 1) x = some d ∧ med x = some m ∧ e ≤ (d - m) * p.dt (g0 - 1)

/-- C24 (transients).  A group gets JUMP_DET from after-jump flagging exactly if it
is neither saturated nor unusable and lies from a large jump to `n1` groups after
it, or from a very large jump to `n2` groups after it; all other words are
unchanged. -/
theorem C24_transients_exact (p : Params α) (ngroups npix : Nat) (fd : Nat → Nat → Option α)
    (med : Nat → Option α) (gdq : Nat → Nat → Nat) (g x : Nat) (hg : g < ngroups) :
    ((¬ Dq.Has (gdq g x) (p.sat ||| p.dnu) ∧
      ((∃ g0, g0 ≤ g ∧ g ≤ g0 + p.n1 ∧ LargeJump p fd med gdq p.e1 g0 x) ∨
       (∃ g0, g0 ≤ g ∧ g ≤ g0 + p.n2 ∧ LargeJump p fd med gdq p.e2 g0 x))) →
        transientInt p ngroups npix fd med gdq g x = gdq g x ||| p.jump) ∧
    (¬ (¬ Dq.Has (gdq g x) (p.sat ||| p.dnu) ∧
      ((∃ g0, g0 ≤ g ∧ g ≤ g0 + p.n1 ∧ LargeJump p fd med gdq p.e1 g0 x) ∨
       (∃ g0, g0 ≤ g ∧ g ≤ g0 + p.n2 ∧ LargeJump p fd med gdq p.e2 g0 x))) →
        transientInt p ngroups npix fd med gdq g x = gdq g x) := by
  set ej := fun (j x : Nat) => match fd j x, med x with
    | some a, some b => some ((a - b) * p.dt j)
    | _, _ => none with hej
  set big := fun (e : α) (g x : Nat) =>
    decide (1 ≤ g) && ge (ej (g - 1) x) e && decide (gdq g x &&& p.jump ≠ 0) with hbig
  have hb : ∀ e g0, big e g0 x = true ↔ LargeJump p fd med gdq e g0 x := by
    intro e g0
    simp only [hbig, Bool.and_eq_true, decide_eq_true_eq, LargeJump, Dq.Has]
    have : ge (ej (g0 - 1) x) e = true ↔
        ∃ d m, fd (g0 - 1) x = some d ∧ med x = some m ∧ e ≤ (d - m) * p.dt (g0 - 1) := by
      simp only [hej]
      cases fd (g0 - 1) x with
      | none => simp [ge]
      | some d =>
        cases med x with
        | none => simp [ge]
        | some m => simp [ge]
    rw [this]; tauto
  have hprop : ∀ e n, propagateFlags ngroups npix n (big e) g x = true ↔
      ∃ g0, g0 ≤ g ∧ g ≤ g0 + n ∧ LargeJump p fd med gdq e g0 x := by
    intro e n
    rw [propagateFlags_iff ngroups npix n (big e) g x hg (by simp [hbig])]
    simp only [hb]
  have hdef : transientInt p ngroups npix fd med gdq g x =
      if (propagateFlags ngroups npix p.n1 (big p.e1) g x ||
          propagateFlags ngroups npix p.n2 (big p.e2) g x) &&
          decide (gdq g x &&& (p.sat ||| p.dnu) = 0) then gdq g x ||| p.jump else gdq g x := rfl
  rw [hdef]
  simp only [Dq.Has, ne_eq, not_not]
  constructor
  · rintro ⟨h1, h2⟩
    rw [if_pos]
    simp only [Bool.and_eq_true, Bool.or_eq_true, decide_eq_true_eq, hprop]
    exact ⟨h2, h1⟩
  · intro h
    rw [if_neg]
    simp only [Bool.and_eq_true, Bool.or_eq_true, decide_eq_true_eq, hprop]
    exact fun hc => h ⟨hc.2, hc.1⟩

/-- Example: a very large jump in group 1 of a six-group ramp, `n2 = 3`; group 2 is
saturated. -/
example : (List.range 6).map (fun g => transientInt exJump 6 1
    (fun j _ => if j = 0 then some 2000 else some 1) (fun _ => some 1)
    (fun g _ => if g = 1 then 4 else if g = 2 then 2 else 0) g 0) = [0, 4, 2, 4, 4, 0] := by
  decide +kernel

/-! ## C25 -/

/-- Specification: group `g` of an integration has a usable value `v`. -/
def Usable (p : Params α) (data : List (Option α)) (gdq : List Nat) (g : Nat) (v : α) : Prop :=
  ∃ w, gdq[g]? = some w ∧ ¬ Dq.Has w (p.dnu ||| p.sat) ∧ data[g]? = some (some v)

/-- Specification: the difference leading to group `g` is an outlier with respect
to the median difference `m`. -/
def Outlier (p : Params α) (sqrt : α → α) (rn2 m : α) (data : List (Option α)) (gdq : List Nat)
    (g : Nat) : Prop :=
  1 ≤ g ∧ ∃ v0 v1, Usable p data gdq (g - 1) v0 ∧ Usable p data gdq g v1 ∧
    p.dt (g - 1) ≠ 0 ∧
    let s := sqrt (|m| * p.dt (g - 1) + rn2 / (1 / 2 * p.nReads (g - 1))) / p.dt (g - 1)
    s ≠ 0 ∧ p.normalThresh < |(v1 - v0) / p.dt (g - 1) - m| / s

theorem firstDiffs_get (p : Params α) (data : List (Option α)) (gdq : List Nat)
    (hlen : data.length = gdq.length) (j : Nat) (d : α) :
    ((firstDiffs p data gdq)[j]?).getD none = some d ↔
      ∃ v0 v1, Usable p data gdq j v0 ∧ Usable p data gdq (j + 1) v1 ∧ p.dt j ≠ 0 ∧
        d = (v1 - v0) / p.dt j := by
  set m := List.zipWith (maskData p) gdq data with hm
  have hml : m.length = gdq.length := by simp [hm, hlen]
  have hget : ∀ (g : Nat) (v : α), (m[g]?).getD none = some v ↔ Usable p data gdq g v := by
    intro g v
    unfold Usable
    rcases Nat.lt_or_ge g gdq.length with hg | hg
    · have hg2 : g < data.length := by omega
      have : m[g]? = some (maskData p gdq[g] data[g]) := by
        simp [hm, hg, hg2]
      rw [this]
      simp only [Option.getD_some, maskData, List.getElem?_eq_getElem hg,
        List.getElem?_eq_getElem hg2, Option.some.injEq, Dq.Has]
      split
      · rename_i h
        simp [h]
      · rename_i h
        simp only [ne_eq, not_not] at h
        constructor
        · intro hv; exact ⟨_, rfl, by simp [h], hv⟩
        · rintro ⟨w, rfl, _, hv⟩; exact hv
    · have h1 : gdq[g]? = none := List.getElem?_eq_none (by omega)
      have h2 : m[g]? = none := List.getElem?_eq_none (by omega)
      simp [h1, h2]
  have hfd : firstDiffs p data gdq = (List.range (m.length - 1)).map
      (fun j => diff p j ((m[j]?).getD none) ((m[j + 1]?).getD none)) := rfl
  rw [hfd]
  rcases Nat.lt_or_ge j (m.length - 1) with hj | hj
  · simp only [List.getElem?_map, List.getElem?_range hj, Option.map_some, Option.getD_some]
    constructor
    · intro h
      cases h0 : (m[j]?).getD none with
      | none => simp [h0, diff] at h
      | some v0 =>
        cases h1 : (m[j + 1]?).getD none with
        | none => simp [h0, h1, diff] at h
        | some v1 =>
          simp only [h0, h1, diff] at h
          split at h
          · simp at h
          · rename_i hdt
            simp only [Option.some.injEq] at h
            exact ⟨v0, v1, (hget j v0).mp h0, (hget _ v1).mp h1, hdt, h.symm⟩
    · rintro ⟨v0, v1, h0, h1, hdt, rfl⟩
      rw [(hget j v0).mpr h0, (hget _ v1).mpr h1]
      simp [diff, hdt]
  · have hnone : ((List.range (m.length - 1)).map
      (fun j => diff p j ((m[j]?).getD none) ((m[j + 1]?).getD none)))[j]? = none :=
      List.getElem?_eq_none (by simpa using hj)
    rw [hnone]
    constructor
    · intro h; simp at h
    · rintro ⟨v0, v1, _, ⟨w, hw, _⟩, _⟩
      have := (List.getElem?_eq_some_iff.mp hw).1
      omega

theorem sigma_some (p : Params α) (sqrt : α → α) (rn2 : α) (med : Option α) (j : Nat) (s : α) :
    sigma p sqrt rn2 med j = some s ↔ ∃ m, med = some m ∧
      s = sqrt (|m| * p.dt j + rn2 / (1 / 2 * p.nReads j)) / p.dt j ∧ s ≠ 0 := by
  unfold sigma
  cases med with
  | none => simp
  | some m =>
    simp only
    split
    · rename_i h
      simp only [reduceCtorEq, Option.some.injEq, exists_eq_left', false_iff, not_and]
      intro hs; rw [hs]; exact fun hc => hc h
    · rename_i h
      simp only [Option.some.injEq, exists_eq_left']
      constructor
      · intro hs; exact ⟨hs.symm, by rw [← hs]; exact h⟩
      · rintro ⟨hs, _⟩; exact hs.symm

/-- C25.  Single-pass two-point detection: with `m` the median of all usable
differences of the pixel, group `g` gains JUMP_DET exactly if the difference
leading to it is an outlier (both groups usable, noise known and non-zero,
deviation from the median over noise above the threshold); every other word -
in particular that of the first group - is unchanged, and if there is no median
(no usable difference) nothing changes. -/
theorem C25_single_pass_exact (p : Params α) (sqrt : α → α) (rn2 : α)
    (data : List (List (Option α))) (gdq : List (List Nat)) (i g : Nat)
    (dr : List (Option α)) (gr : List Nat) (w : Nat)
    (hd : data[i]? = some dr) (hg : gdq[i]? = some gr) (hw : gr[g]? = some w)
    (hlen : dr.length = gr.length) :
    ∃ orow, (singlePass p sqrt rn2 data gdq)[i]? = some orow ∧ orow.length = gr.length ∧
      ((∃ m, nanmedian ((List.zipWith (firstDiffs p) data gdq).flatten) = some m ∧
          Outlier p sqrt rn2 m dr gr g) → orow[g]? = some (w ||| p.jump)) ∧
      (¬ (∃ m, nanmedian ((List.zipWith (firstDiffs p) data gdq).flatten) = some m ∧
          Outlier p sqrt rn2 m dr gr g) → orow[g]? = some w) := by
  set fds := List.zipWith (firstDiffs p) data gdq with hfds
  set med := nanmedian fds.flatten with hmed
  have hfi : fds[i]? = some (firstDiffs p dr gr) := by
    simp [hfds, List.getElem?_zipWith, hd, hg]
  have hout : (singlePass p sqrt rn2 data gdq)[i]? =
      some (singlePassInt p sqrt rn2 med (firstDiffs p dr gr) gr) := by
    have : singlePass p sqrt rn2 data gdq =
      List.zipWith (singlePassInt p sqrt rn2 med) fds gdq := rfl
    rw [this, List.getElem?_zipWith, hfi, hg]
  refine ⟨_, hout, by simp [singlePassInt], ?_⟩
  set fd := firstDiffs p dr gr with hfd
  have hcond : (g ≠ 0 ∧ gt (ratio ((fd[g - 1]?).getD none) med (sigma p sqrt rn2 med (g - 1)))
      p.normalThresh = true ∧ ((fd[g - 1]?).getD none).isSome = true) ↔
      ∃ m, med = some m ∧ Outlier p sqrt rn2 m dr gr g := by
    constructor
    · rintro ⟨h0, h1, h2⟩
      obtain ⟨d, hdd⟩ := Option.isSome_iff_exists.mp h2
      cases hm : med with
      | none => rw [hm] at h1; simp [hdd, ratio, gt] at h1
      | some m =>
        rw [hm] at h1
        cases hs : sigma p sqrt rn2 (some m) (g - 1) with
        | none => rw [hs] at h1; simp [hdd, ratio, gt] at h1
        | some s =>
          rw [hs] at h1
          obtain ⟨m', hm', hsv, hs0⟩ := (sigma_some p sqrt rn2 (some m) (g - 1) s).mp hs
          simp only [Option.some.injEq] at hm'
          subst hm'
          obtain ⟨v0, v1, hu0, hu1, hdt, hdv⟩ :=
            (firstDiffs_get p dr gr hlen (g - 1) d).mp hdd
          rw [show g - 1 + 1 = g by omega] at hu1
          refine ⟨m, rfl, by omega, v0, v1, hu0, hu1, hdt, ?_⟩
          simp only
          rw [← hsv, ← hdv]
          refine ⟨hs0, ?_⟩
          simpa [hdd, ratio, gt] using h1
    · rintro ⟨m, hm, h1, v0, v1, hu0, hu1, hdt, hs0, hgt⟩
      have hdd : ((fd[g - 1]?).getD none) = some ((v1 - v0) / p.dt (g - 1)) := by
        apply (firstDiffs_get p dr gr hlen (g - 1) _).mpr
        exact ⟨v0, v1, hu0, by rw [show g - 1 + 1 = g by omega]; exact hu1, hdt, rfl⟩
      have hs := (sigma_some p sqrt rn2 med (g - 1) _).mpr ⟨m, hm, rfl, hs0⟩
      refine ⟨by omega, ?_, by simp [hdd]⟩
      rw [hdd, hs, hm]
      simpa [ratio, gt] using hgt
  have hval : (singlePassInt p sqrt rn2 med fd gr)[g]? = some (
      if g = 0 then w else if gt (ratio ((fd[g - 1]?).getD none) med
        (sigma p sqrt rn2 med (g - 1))) p.normalThresh && ((fd[g - 1]?).getD none).isSome
        then w ||| p.jump else w) := by
    simp [singlePassInt, hw]
  rw [hval]
  constructor
  · intro h
    obtain ⟨h0, h1, h2⟩ := hcond.mpr h
    rw [if_neg h0, if_pos (by simp only [h1, h2, Bool.and_self])]
  · intro h
    by_cases h0 : g = 0
    · rw [if_pos h0]
    · rw [if_neg h0, if_neg]
      intro hc
      rw [Bool.and_eq_true] at hc
      exact h (hcond.mp ⟨h0, hc.1, hc.2⟩)

/-- C25 (the reference level).  The median used is a median of the usable
differences: at least half of them are at most, and at least half at least, this
value; and it exists as soon as one difference is usable. -/
theorem C25_median_is_median [IsStrictOrderedRing α] (l : List (Option α)) :
    (nanmedian l = none ↔ ∀ x ∈ l, x = none) ∧
    ∀ m, nanmedian l = some m →
      (l.filterMap id).length ≤ 2 * (l.filterMap id).countP (fun x => decide (x ≤ m)) ∧
      (l.filterMap id).length ≤ 2 * (l.filterMap id).countP (fun x => decide (m ≤ x)) := by
  constructor
  · rw [nanmedian_none_iff, finite, List.filterMap_eq_nil_iff]
  · intro m h
    exact nanmedian_spec l m h

/-- Example: one jump among five differences (identity as square root). -/
example : singlePass exJump (fun x => x) 1 [[some 0, some 1, some 2, some 50, some 51, none]]
    [[0, 0, 0, 0, 0, 1]] = [[0, 0, 0, 4, 0, 1]] := by decide +kernel

end Verif.Thm
