import Verif.Thm.CutStart
import Verif.Thm.RampFit

/-!
# C167: the removal of unusable groups of MIRI exposures and the fit

`ramp_fit` (ramp_fit.py:117-277) removes leading groups and a last group that are unusable in all pixels if the instrument is MIRI
(ols_fit.py:74-82, 670-760) and leaves them in place otherwise.  Compared are the results for the same exposure with and without that
removal.
-/

set_option linter.unusedSectionVars false

namespace Verif.Thm

open Verif

section
open Verif.Ols Verif.Dq Verif.RampFit Verif.RampDq
variable {α : Type*} [Field α] [LinearOrder α]

/-- Spec: a ramp of which the groups before `k` and from `k + m` on report no saturation, jump or persistence, the group `k` neither
saturation nor a jump, and in which two neighbouring groups in between are good and have samples that are numbers. -/
def MgRamp (fl : Flags) (k m : Nat) (e : List (Option α) × List Nat × Option (Option α)) : Prop :=
  (∀ i w : Nat, e.2.1[i]? = some w → i < k ∨ k + m ≤ i → ¬ Has w fl.sat ∧ ¬ Has w fl.jump ∧ ¬ Has w fl.pers) ∧
  (¬ Has (e.2.1.getD k 0) fl.sat ∧ ¬ Has (e.2.1.getD k 0) fl.jump) ∧
  ∃ (i : Nat) (a b : α), k ≤ i ∧ i + 1 < k + m ∧ e.2.1[i]? = some 0 ∧ e.2.1[i + 1]? = some 0 ∧
    e.1[i]? = some (some a) ∧ e.1[i + 1]? = some (some b)

/-- Spec: the value of an array at a row and a column. -/
def mgAt {β : Type*} (a : List (List β)) (r c : Nat) : Option β := (a[r]?).bind fun row => row[c]?

theorem mg_at_map {β γ : Type*} (f : β → γ) (a : List (List β)) (r c : Nat) (x : β) (h : mgAt a r c = some x) :
    mgAt (a.map fun row => row.map f) r c = some (f x) := by
  unfold mgAt at *
  rw [List.getElem?_map]
  cases hr : a[r]? with
  | none => rw [hr] at h; simp at h
  | some row =>
    rw [hr] at h
    simp only [Option.bind_some] at h
    simp [h]

theorem mg_mem {β : Type*} (a : List (List β)) (r c : Nat) (x : β) (h : mgAt a r c = some x) : ∃ row ∈ a, x ∈ row := by
  unfold mgAt at h
  obtain ⟨row, h1, h2⟩ := Option.bind_eq_some_iff.1 h
  exact ⟨row, List.mem_of_getElem? h1, List.mem_of_getElem? h2⟩

theorem mg_suppress (dnu pers : Nat) (g : List Nat) (i : Nat) (h1 : g[i]? = some 0) (h2 : g[i + 1]? = some 0) : suppressOne dnu pers g = g := by
  have h : 2 ≤ (g.map fun d => if clear d pers = 0 then 1 else 0).sum := by
    have := cu_two g i h1 h2
    refine this.trans ?_
    clear h1 h2 this
    induction g with
    | nil => simp
    | cons a g ih =>
      rw [List.countP_cons, List.map_cons, List.sum_cons]
      by_cases ha : a = 0
      · subst ha
        have : clear 0 pers = 0 := by simp [clear]
        rw [this]
        simp only [decide_true, if_true]
        omega
      · simp only [ha, decide_false, Bool.false_eq_true, if_false]
        omega
  rw [suppressOne, if_neg (by omega)]

theorem mg_ints (fl : Flags) (s : Bool) (k m : Nat) (p : RPix α) (h : ∀ e ∈ p.ints, MgRamp fl k m e) : rfInts fl s p = p.ints := by
  unfold rfInts
  conv_rhs => rw [← List.map_id p.ints]
  refine List.map_congr_left fun e he => ?_
  obtain ⟨-, -, i, a, b, -, -, h1, h2, -⟩ := h e he
  rw [mg_suppress fl.dnu fl.pers e.2.1 i h1 h2]
  simp

theorem mg_getD {g : List Nat} {i : Nat} (h : i < g.length) : g[i]? = some (g.getD i 0) := by
  rw [List.getD_eq_getElem?_getD, List.getElem?_eq_getElem h, Option.getD_some]

theorem mg_get {β : Type*} {k m : Nat} (l : List β) (q : Nat) (q1 : k ≤ q) (q2 : q < k + m) : ((l.drop k).take m)[q - k]? = l[q]? := by
  rw [List.getElem?_take_of_lt (by omega), List.getElem?_drop]
  congr 1
  omega

/-- The fit of the whole ramp and of the groups `k … k+m-1` of it. -/
theorem mg_cut (fl : Flags) (cfg : Cfg α) (k m j : Nat) (hm : 2 ≤ m) (p : PixIn α)
    (hlen : ∀ e ∈ p.ints, e.1.length = k + m + j ∧ e.2.1.length = k + m + j)
    (hdead : ∀ e ∈ p.ints, ∀ i w : Nat, e.2.1[i]? = some w → i < k ∨ k + m ≤ i → Has w fl.dnu)
    (h : ∀ e ∈ p.ints, MgRamp fl k m e) :
    fitPixel fl cfg (k + m + j) p = fitPixel fl cfg m { p with ints := rfCut fl.jump k m p.ints } := by
  have hcut : rfCut fl.jump k m p.ints = p.ints.map fun e => ((e.1.drop k).take m, (e.2.1.drop k).take m, e.2.2) := by
    unfold rfCut
    refine List.map_congr_left fun e he => ?_
    obtain ⟨l1, l2⟩ := hlen e he
    by_cases hk : 0 < k
    · have hj := (h e he).2.1.2
      rw [if_pos hk, List.drop_eq_getElem_cons (show k < e.2.1.length by omega)]
      obtain ⟨m, rfl⟩ : ∃ m', m = m' + 1 := ⟨m - 1, by omega⟩
      rw [List.take_succ_cons, Nat.add_sub_cancel]
      have he' : e.2.1.getD k 0 = e.2.1[k]'(by omega) := by
        rw [List.getD_eq_getElem?_getD, List.getElem?_eq_getElem (by omega), Option.getD_some]
      rw [he'] at hj
      rw [he']
      congr 3
      apply Nat.eq_of_testBit_eq
      intro i
      rw [testBit_clear]
      rw [not_has_iff] at hj
      cases hi : (e.2.1[k]'(by omega)).testBit i
      · rfl
      · rw [hj i hi]; rfl
    · obtain rfl : k = 0 := by omega
      simp
  -- the groups at the end
  have h1 : fitPixel fl cfg (k + m + j) p = fitPixel fl cfg (k + m) { p with ints := p.ints.map fun e => (e.1.take (k + m), e.2.1.take (k + m), e.2.2) } := by
    have hF : List.Forall₂ (CgLonger fl (k + m) j) (p.ints.map fun e => (e.1.take (k + m), e.2.1.take (k + m), e.2.2)) p.ints := by
      refine List.forall₂_map_left_iff.2 (List.forall₂_same.2 fun e he => ?_)
      obtain ⟨l1, l2⟩ := hlen e he
      refine ⟨by simp only [List.length_take]; omega, by simp only [List.length_take]; omega, rfl, e.1.drop (k + m), e.2.1.drop (k + m), by simp [l1], by simp [l2], ?_,
        (List.take_append_drop _ _).symm, (List.take_append_drop _ _).symm⟩
      intro w hw
      obtain ⟨i, hi⟩ := List.mem_iff_getElem?.1 hw
      rw [List.getElem?_drop] at hi
      have hd := hdead e he _ w hi (Or.inr (by omega))
      have hs := (h e he).1 _ w hi (Or.inr (by omega))
      exact ⟨Or.inl hd, hs.2.1, hs.2.2⟩
    obtain ⟨r1, r2⟩ := C165_ols fl cfg (k + m) j (by omega) { p with ints := p.ints.map fun e => (e.1.take (k + m), e.2.1.take (k + m), e.2.2) } p
      rfl rfl rfl hF
    have hno : ∀ e ∈ p.ints, CgSatAfter fl (k + m) e = false := by
      intro e he
      unfold CgSatAfter
      rw [List.any_eq_false]
      intro w hw
      obtain ⟨i, hi⟩ := List.mem_iff_getElem?.1 hw
      rw [List.getElem?_drop] at hi
      simpa using ((h e he).1 _ w hi (Or.inr (by omega))).1
    have hsame : ∀ r r' : Rate α, CgSame fl false r r' → r' = r := by
      rintro ⟨a1, a2, a3, a4, a5⟩ ⟨b1, b2, b3, b4, b5⟩ ⟨c1, c2, c3, c4, c5⟩
      simp only [Bool.false_eq_true, if_false] at c1 c2 c3 c4 c5
      subst c1 c2 c3 c4 c5
      rfl
    refine Prod.ext ?_ ?_
    · have hz : p.ints.map (CgSatAfter fl (k + m)) = List.replicate p.ints.length false := by
        rw [List.eq_replicate_iff]
        refine ⟨by simp, fun b hb => ?_⟩
        obtain ⟨e, he, rfl⟩ := List.mem_map.1 hb
        exact hno e he
      have hlen1 : (fitPixel fl cfg (k + m + j) p).1.length = p.ints.length := by simp [fitPixel, pixelInts, loadPixel]
      rw [hz] at r1
      rw [← List.forall₂_eq_eq_eq]
      rw [List.forall₂_iff_get] at r1 ⊢
      obtain ⟨q1, q2⟩ := r1
      rw [List.length_zip, List.length_replicate, hlen1, Nat.min_self] at q1
      refine ⟨by rw [hlen1, q1], fun i i1 i2 => ?_⟩
      have := q2 i i2 (by rw [List.length_zip, List.length_replicate]; omega)
      simp only [List.get_eq_getElem, List.getElem_zip, List.getElem_replicate] at this
      exact hsame _ _ this
    · have : p.ints.any (CgSatAfter fl (k + m)) = false := List.any_eq_false.2 fun e he => by rw [hno e he]; simp
      rw [this] at r2
      exact hsame _ _ r2
  rw [h1, hcut]
  -- the groups at the beginning
  refine C166_ols fl cfg k m hm _ _ rfl rfl rfl ?_ ?_
  · refine List.forall₂_map_left_iff.2 (List.forall₂_map_right_iff.2 (List.forall₂_same.2 fun e he => ?_))
    obtain ⟨l1, l2⟩ := hlen e he
    refine ⟨by simp [l1]; omega, by simp [l2]; omega, rfl, e.1.take k, e.2.1.take k, by simp [l1]; omega, by simp [l2]; omega, ?_, ?_, ?_⟩
    · intro w hw
      obtain ⟨i, hi⟩ := List.mem_iff_getElem?.1 hw
      have hik : i < k := by
        by_contra hc
        rw [List.getElem?_eq_none (by simp only [List.length_take]; omega)] at hi
        simp at hi
      rw [List.getElem?_take_of_lt hik] at hi
      have hs := (h e he).1 _ w hi (Or.inl hik)
      exact ⟨hdead e he _ w hi (Or.inl hik), hs.1, hs.2.1, hs.2.2⟩
    · exact List.take_add
    · exact List.take_add
  · intro x hx
    obtain ⟨e, he, rfl⟩ := List.mem_map.1 hx
    obtain ⟨-, ⟨hs, -⟩, i, a, b, i1, i2, g1, g2, d1, d2⟩ := h e he
    refine ⟨?_, i - k, a, b, ?_, ?_, ?_, ?_⟩
    · have := mg_get (k := k) (m := m) e.2.1 k (le_refl _) (by omega)
      rw [Nat.sub_self] at this
      simp only [List.getD_eq_getElem?_getD, this]
      rw [List.getD_eq_getElem?_getD] at hs
      exact hs
    · exact (mg_get (k := k) (m := m) e.2.1 i i1 (by omega)).trans g1
    · have := mg_get (k := k) (m := m) e.2.1 (i + 1) (by omega) i2
      rw [Nat.sub_add_comm i1] at this
      exact this.trans g2
    · exact (mg_get (k := k) (m := m) e.1 i i1 (by omega)).trans d1
    · have := mg_get (k := k) (m := m) e.1 (i + 1) (by omega) i2
      rw [Nat.sub_add_comm i1] at this
      exact this.trans d2

section
variable [IsStrictOrderedRing α]

/-- C167.  If the removal of groups of a MIRI exposure leaves at least two of them, then with the removal and without it every pixel gets
exactly the same result (all integrations and the exposure; rates, variances, errors, DQ) whose removed groups report no saturation, jump
or persistence, whose first group left is neither saturated nor a jump, which has two neighbouring good groups among those left in every
integration, and which has no charge loss (or the algorithm does not look at it). -/
theorem C167_miri_groups {γ : Type*} (fl : Flags) (b : Nat) (hb : fl.jump = 2 ^ b) (hdj : ¬ Has fl.dnu fl.jump)
    (hds : ¬ Has fl.dnu fl.sat) (hsj : ¬ Has fl.jump fl.sat) (hdc : ¬ Has fl.dnu fl.chargeloss)
    (cfg : Cfg α) (lik : List (List (RPix α)) → γ) (nframes ngroups : Nat) (hng : 1 < ngroups)
    (algorithm : List Char) (ha : ¬ (RfLikely algorithm ∧ 4 ≤ ngroups))
    (suppress : Bool) (maxCores : List Char) (ncpu : Nat) (rows : List (List (RPix α)))
    (hshape : ∀ row ∈ rows, ∀ p ∈ row, ∀ e ∈ p.ints, e.1.length = ngroups ∧ e.2.1.length = ngroups)
    (hsl : 0 < Slicing.computeNumCores maxCores rows.length ncpu)
    (k : Nat) (hk : LeadCount fl.dnu (rfPlanes fl suppress ngroups rows) k)
    (m : Nat) (hm : m = keptCount fl.dnu (rfPlanes fl suppress ngroups rows) k) (hm2 : 2 ≤ m)
    (r c : Nat) (p : RPix α) (hp : mgAt rows r c = some p) (hne : p.ints ≠ []) (hr : ∀ e ∈ p.ints, MgRamp fl k m e)
    (hl : ¬ (RfOlsC algorithm ∧ RfLost fl p)) :
    ∃ x y, (rampFit fl cfg lik true nframes ngroups algorithm suppress maxCores ncpu rows).1 = .ols (some x) ∧
      (rampFit fl cfg lik false nframes ngroups algorithm suppress maxCores ncpu rows).1 = .ols (some y) ∧
      ∃ v, mgAt x r c = some v ∧ mgAt y r c = some v := by
  obtain ⟨row, hrow, hprow⟩ := mg_mem rows r c p hp
  have hmi := C95_miri_exact fl b hb hdj hsj hdc cfg lik nframes ngroups hng algorithm ha suppress maxCores ncpu rows hshape hsl k hk m hm
  have hno := C95_each_pixel_exact fl hds hdc cfg lik false nframes ngroups (Or.inl rfl) algorithm ha suppress maxCores ncpu rows hsl
  have hsup : (suppress && decide (ngroups ≠ 1)) = suppress := by
    have : ngroups ≠ 1 := by omega
    simp [this]
  simp only [hsup] at hno
  obtain ⟨e0, he0⟩ := List.exists_mem_of_ne_nil _ hne
  have hplen : (rfPlanes fl suppress ngroups rows).length = ngroups := by simp [rfPlanes]
  have hplane : ∀ (i : Nat) (hi : i < (rfPlanes fl suppress ngroups rows).length) (e), e ∈ p.ints → ∀ w : Nat, e.2.1[i]? = some w →
      DeadGroup fl.dnu (rfPlanes fl suppress ngroups rows)[i] → Has w fl.dnu := by
    intro i hi e he w hw hdead
    refine hdead w ?_
    simp only [rfPlanes, List.getElem_map, List.getElem_range]
    refine List.mem_flatMap.2 ⟨p, List.mem_flatten.2 ⟨row, hrow, hprow⟩, ?_⟩
    rw [mg_ints fl suppress k m p hr]
    exact List.mem_map.2 ⟨e, he, by rw [List.getD_eq_getElem?_getD, hw, Option.getD_some]⟩
  have hkl := hk.1
  rw [hplen] at hkl
  -- the number of groups at the end
  obtain ⟨j, hj, hlast⟩ : ∃ j, ngroups = k + m + j ∧ ∀ i, k + m ≤ i → (hi : i < (rfPlanes fl suppress ngroups rows).length) →
      DeadGroup fl.dnu (rfPlanes fl suppress ngroups rows)[i] := by
    unfold keptCount at hm
    have hlast : (rfPlanes fl suppress ngroups rows).getLast? = some ((rfPlanes fl suppress ngroups rows)[ngroups - 1]'(by omega)) := by
      rw [List.getLast?_eq_getElem?, List.getElem?_eq_getElem (by omega)]
      simp only [hplen]
    rw [hlast] at hm
    simp only [hplen] at hm
    split at hm
    · rename_i hd
      refine ⟨1, by omega, fun i h1 h2 => ?_⟩
      have : i = ngroups - 1 := by omega
      subst this
      exact hd.2
    · exact ⟨0, by omega, fun i h1 h2 => by omega⟩
  have hfit := mg_cut fl { cfg with suppress1g := suppress && decide (Slicing.computeNumCores maxCores rows.length ncpu = 1) } k m j hm2 (rfPixIn cfg.sqrt nframes p p.ints)
    (fun e he => by
      have : e ∈ p.ints := by unfold rfPixIn at he; cases hg : p.gain <;> rw [hg] at he <;> exact he
      rw [← hj]
      exact hshape row hrow p hprow e this)
    (fun e he i w hw hi => by
      have he' : e ∈ p.ints := by unfold rfPixIn at he; cases hg : p.gain <;> rw [hg] at he <;> exact he
      have hin : i < ngroups := by
        rw [← (hshape row hrow p hprow e he').2]
        exact (List.getElem?_eq_some_iff.1 hw).1
      rcases hi with hi | hi
      · exact hplane i (by omega) e he' w hw (hk.2.1 i (by omega) hi)
      · exact hplane i (by omega) e he' w hw (hlast i hi (by omega)))
    (fun e he => by
      have : e ∈ p.ints := by unfold rfPixIn at he; cases hg : p.gain <;> rw [hg] at he <;> exact he
      exact hr e this)
  have hn1 : ¬ ∀ row ∈ rows, ∀ p ∈ row, ∀ e ∈ rfInts fl suppress p, Has (e.2.1.getD k 0) fl.sat := by
    intro hall
    exact (hr e0 he0).2.1.1 (hall row hrow p hprow e0 (by rw [mg_ints fl suppress k m p hr]; exact he0))
  have hn2 : ¬ ∀ row ∈ rows, ∀ p ∈ row, ∀ e ∈ p.ints, Has (e.2.1.getD 0 0) fl.sat := by
    intro hall
    have h0 := hall row hrow p hprow e0 he0
    rcases Nat.eq_zero_or_pos k with hk0 | hk0
    · subst hk0
      exact (hr e0 he0).2.1.1 h0
    · have hl0 : 0 < e0.2.1.length := by rw [(hshape row hrow p hprow e0 he0).2]; omega
      exact ((hr e0 he0).1 0 _ (mg_getD hl0) (Or.inl hk0)).1 h0
  rw [if_neg (by omega), if_neg hn1] at hmi
  rw [if_neg hn2] at hno
  refine ⟨_, _, hmi, hno, _, mg_at_map _ rows r c p hp, ?_⟩
  rw [mg_at_map _ rows r c p hp, mg_ints fl suppress k m p hr]
  congr 1
  have hd : ¬ (decide (RfOlsC algorithm) = true ∧ RfLost fl p) := by simpa using hl
  rw [rfExpected, rfExpected, if_neg hd, if_neg hd]
  have e1 : rfPixIn cfg.sqrt nframes p (rfCut fl.jump k m p.ints)
      = { rfPixIn cfg.sqrt nframes p p.ints with ints := rfCut fl.jump k m (rfPixIn cfg.sqrt nframes p p.ints).ints } := by
    unfold rfPixIn
    cases p.gain <;> rfl
  simp only
  rw [e1, ← hfit, hj]

end

end

/-! ## Examples and finding -/

section
open Verif.Ols Verif.Dq Verif.RampFit Verif.RampDq

/-- An exposure of five groups, the first and the last unusable everywhere; the second pixel has a jump. -/
def mgRows (first : Nat) : List (List (RPix ℚ)) :=
  [[⟨some 2, 3, 0, 0, [([some 9, some 5, some 8, some 11, some 2], [1, 0, 0, 0, 1], none)]⟩,
    ⟨some 2, 3, 0, 0, [([some 9, some 5, some 8, some 50, some 2], [1, first, 0, 4, 1], none)]⟩,
    ⟨some 2, 3, 0, 0, [([some 9, some 5, some 9, some 12, some 2], [1, first, 0, 0, 1], none)]⟩]]

def mgRun (miri : Bool) (first : Nat) : Option (List (List (Option ℚ × ℚ × Nat))) :=
  match (rampFit exFlags { exCfg with sqrt := fun x => x / 2 } (fun _ => ()) miri 1 5 "OLS_C".toList false ['n', 'o', 'n', 'e'] 4 (mgRows first)).1 with
  | .likely _ => none
  | .ols r => r.map fun rows => rows.map fun row => row.map fun o => (o.2.slope, o.2.varR, o.2.dq)

example : LeadCount exFlags.dnu (rfPlanes exFlags false 5 (mgRows 0)) 1
    ∧ keptCount exFlags.dnu (rfPlanes exFlags false 5 (mgRows 0)) 1 = 3 := by
  refine ⟨⟨by decide, ?_, ?_⟩, by decide⟩
  · intro i h hi
    obtain rfl : i = 0 := by omega
    change DeadGroup 1 [1, 1, 1]
    decide
  · intro h
    change ¬ DeadGroup 1 [0, 0, 0]
    decide
example : MgRamp exFlags 1 3 (([some 9, some 5, some 8, some 11, some 2], [1, 0, 0, 0, 1], none) : List (Option ℚ) × List Nat × Option (Option ℚ)) := by
  refine ⟨?_, by decide, 1, 5, 8, by decide, by decide, rfl, rfl, rfl, rfl⟩
  intro i w hw hi
  have hlt : i < 5 := (List.getElem?_eq_some_iff.1 hw).1
  have : i = 0 ∨ i = 4 := by omega
  rcases this with rfl | rfl <;>
  · simp only [List.getElem?_cons_zero, List.getElem?_cons_succ, Option.some.injEq] at hw
    subst hw
    decide
example : mgRun true 0 = mgRun false 0 ∧ mgRun true 0 ≠ none ∧ ((mgRun true 0).map fun r => (mgAt r 0 0).map fun v => v.1) = some (some (some (3 / 10))) := by
  decide +kernel

/-- Why the first group left must not be a jump: the removal takes JUMP_DET from that group (ols_fit.py:712-719), so that the rate product
of a pixel without other jumps does not report it, as it does without the removal; the rates are the same here. -/
theorem C167_first_jump_forgotten :
    ((mgRun true 4).map fun r => mgAt r 0 2) = some (some (some (7 / 20), 9 / 200, 0)) ∧
    ((mgRun false 4).map fun r => mgAt r 0 2) = some (some (some (7 / 20), 9 / 200, 4)) := by decide +kernel
end

end Verif.Thm
