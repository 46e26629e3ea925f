import Verif.Thm.Ols
import Mathlib.Algebra.BigOperators.Group.List.Lemmas

/-! # Combination of segments into rates, and the DQ of the rate products (C30, C31, C71, C72) -/

namespace Verif.Thm

open Verif.Dq Verif.Ols

set_option linter.unusedSectionVars false

theorem hasB_iff {d f : Nat} : hasB d f = true ↔ Has d f := by simp [hasB, Has]
theorem hasB_false {d f : Nat} : hasB d f = false ↔ ¬ Has d f := by
  rw [← hasB_iff, Bool.not_eq_true]

/-- The flags are non-zero words without common bits. -/
structure OlsFlagsOk (fl : Flags) : Prop where
  dnu0 : fl.dnu ≠ 0
  sat0 : fl.sat ≠ 0
  ds : ¬ Has fl.dnu fl.sat
  jd : ¬ Has fl.jump fl.dnu
  js : ¬ Has fl.jump fl.sat
  pd : ¬ Has fl.pers fl.dnu
  ps : ¬ Has fl.pers fl.sat

theorem olsExFlags_ok : OlsFlagsOk exFlags := by constructor <;> decide

section
variable {α : Type*} [Field α] [LinearOrder α] [IsStrictOrderedRing α]

/-! ## C30, integration level -/

/-- Integration result: with positive read-noise variances (combined below the cut-off) and an entry not flagged
unusable or saturated, the slope is the inverse-variance mean `Σ(sᵢ/vᵢ)/Σ(1/vᵢ)` of the segment slopes and lies
between the least and the greatest; the read-noise variance is `1/Σ(1/vᵢ)`, positive and at most every `vᵢ`. -/
theorem C30_integration_mean (fl : Flags) (cfg : Cfg α) (fits : List (SegFit α)) (dq : Nat) (hne : fits ≠ [])
    (sl : SegFit α → α) (hs : ∀ f ∈ fits, f.slope = some (sl f)) (hv : ∀ f ∈ fits, 0 < f.varR)
    (hd : ¬ Has dq fl.dnu) (hst : ¬ Has dq fl.sat) (hlarge : 1 / (fits.map fun f => 1 / f.varR).sum < large) :
    ∃ m, (combineInteg fl cfg fits dq).1.slope = some m
      ∧ m = (fits.map fun f => sl f / f.varR).sum / (fits.map fun f => 1 / f.varR).sum
      ∧ (combineInteg fl cfg fits dq).1.varR = 1 / (fits.map fun f => 1 / f.varR).sum
      ∧ (∀ lo hi, (∀ f ∈ fits, lo ≤ sl f ∧ sl f ≤ hi) → lo ≤ m ∧ m ≤ hi)
      ∧ 0 < (combineInteg fl cfg fits dq).1.varR
      ∧ ∀ f ∈ fits, (combineInteg fl cfg fits dq).1.varR ≤ f.varR := by
  obtain ⟨a1, -, a3⟩ := accSegs_spec fits sl hs
  obtain ⟨m1, m2, m3⟩ := wmean_spec fits sl (fun f => f.varR) hne hv
  have hemp : fits.isEmpty = false := by cases fits <;> simp_all
  have hinv : hasB dq (fl.dnu ||| fl.sat) = false := by
    rw [hasB_false, has_or_right]; exact fun h => h.elim hd hst
  have hnl : ¬ (large : α) ≤ 1 / (fits.map fun f => 1 / f.varR).sum := not_le.2 hlarge
  have e1 : (combineInteg fl cfg fits dq).1.slope
      = some ((fits.map fun f => sl f / f.varR).sum * (1 / (fits.map fun f => 1 / f.varR).sum)) := by
    simp only [combineInteg, hemp, hinv, Bool.false_eq_true, if_false, a1, a3, Option.map_some, hnl]
  have e2 : (combineInteg fl cfg fits dq).1.varR = 1 / (fits.map fun f => 1 / f.varR).sum := by
    simp only [combineInteg, hemp, hinv, Bool.false_eq_true, if_false, a1, hnl]
  refine ⟨_, e1, by rw [mul_one_div], e2, m1, by rw [e2]; exact m2, fun f hf => by rw [e2]; exact m3 f hf⟩

/-! ## Loading an integration -/

/-- The zero frame replaces the first group: no suppression, no group with DQ zero, and a non-zero (possibly NaN)
zero-frame value. -/
def ZeroSub (suppress : Bool) (g : List Nat) (z : Option (Option α)) : Prop :=
  suppress = false ∧ (∀ d ∈ g, d ≠ 0) ∧ ∃ v, z = some v ∧ v ≠ some 0

theorem cntGood_zero (fl : Flags) (g : List Nat) : (stats fl g).cntGood = 0 ↔ ∀ d ∈ g, d ≠ 0 := by
  simp [stats, List.countP_eq_zero]

theorem load_sub (fl : Flags) (su : Bool) (d : List (Option α)) (g : List Nat) (z : Option (Option α))
    (h : ZeroSub su g z) :
    (loadInteg fl su d g z).gdq = g.set 0 0
    ∧ (loadInteg fl su d g z).st.cntDnuSat = (stats fl g).cntDnuSat - 1
    ∧ (loadInteg fl su d g z).st.cntSat
        = (if g.length = (stats fl g).cntSat then (stats fl g).cntSat - 1 else (stats fl g).cntSat)
    ∧ (loadInteg fl su d g z).isZframe = true := by
  obtain ⟨h1, h2, v, h3, h4⟩ := h
  have hc := (cntGood_zero fl g).2 h2
  subst h1 h3
  simp only [loadInteg, hc, Bool.false_eq_true, if_false, h4]
  simp

theorem load_nosub (fl : Flags) (su : Bool) (d : List (Option α)) (g : List Nat) (z : Option (Option α))
    (h : ¬ ZeroSub su g z) :
    (loadInteg fl su d g z).gdq = g ∧ (loadInteg fl su d g z).st = stats fl g
    ∧ (loadInteg fl su d g z).isZframe = false := by
  simp only [loadInteg]
  split
  · exact ⟨rfl, rfl, rfl⟩
  · rename_i hsu
    split
    · exact ⟨rfl, rfl, rfl⟩
    · split
      · rename_i hc
        cases z with
        | none => exact ⟨rfl, rfl, rfl⟩
        | some v =>
          simp only
          split
          · exact ⟨rfl, rfl, rfl⟩
          · rename_i hz
            exact absurd ⟨by simpa using hsu, (cntGood_zero fl g).1 hc, v, rfl, hz⟩ h
      · exact ⟨rfl, rfl, rfl⟩

theorem load_bits (fl : Flags) (su : Bool) (d : List (Option α)) (g : List Nat) (z : Option (Option α)) :
    (loadInteg fl su d g z).st.jumpDet = (stats fl g).jumpDet
    ∧ (loadInteg fl su d g z).st.persistence = (stats fl g).persistence := by
  by_cases h : ZeroSub su g z
  · obtain ⟨h1, h2, v, h3, h4⟩ := h
    have hc := (cntGood_zero fl g).2 h2
    subst h1 h3
    simp only [loadInteg, hc, Bool.false_eq_true, if_false, h4]
    simp
  · rw [(load_nosub fl su d g z h).2.1]; exact ⟨rfl, rfl⟩

/-! ## C31 -/

/-- The pixel's own DQ on entry: a bad gain makes it unusable. -/
def entryDq (fl : Flags) (p : PixIn α) : Nat := if p.gainBad then p.pixeldq ||| (fl.dnu ||| fl.ngval) else p.pixeldq

/-- An integration without usable data: the first group is saturated or all groups are unusable or saturated, and
no zero frame stands in. -/
def DeadInteg (fl : Flags) (su : Bool) (g : List Nat) (z : Option (Option α)) : Prop :=
  ¬ ZeroSub su g z ∧ (Has (g.getD 0 0) fl.sat ∨ ∀ d ∈ g, Has d fl.dnu ∨ Has d fl.sat)

/-- An integration with a saturated group (when a one-group ramp is replaced by the zero frame none is left). -/
def SatInteg (fl : Flags) (su : Bool) (g : List Nat) (z : Option (Option α)) : Prop :=
  (∃ d ∈ g, Has d fl.sat) ∧ ¬ (ZeroSub su g z ∧ g.length = 1)

theorem cntDnuSat_full (fl : Flags) (g : List Nat) :
    (g.length : Int) = (stats fl g).cntDnuSat ↔ ∀ d ∈ g, Has d fl.dnu ∨ Has d fl.sat := by
  have : (g.length : Int) = (stats fl g).cntDnuSat
      ↔ g.countP (fun d => hasB d fl.dnu || hasB d fl.sat) = g.length := by
    simp only [stats]; omega
  rw [this, List.countP_eq_length]
  simp only [Bool.or_eq_true, hasB_iff]

theorem cntDnuSat_le (fl : Flags) (g : List Nat) : (stats fl g).cntDnuSat ≤ g.length := by
  simp only [stats]
  exact_mod_cast List.countP_le_length

theorem load_full (fl : Flags) (su : Bool) (d : List (Option α)) (g : List Nat) (z : Option (Option α)) :
    (g.length : Int) = (loadInteg fl su d g z).st.cntDnuSat
      ↔ ¬ ZeroSub su g z ∧ ∀ d ∈ g, Has d fl.dnu ∨ Has d fl.sat := by
  by_cases h : ZeroSub su g z
  · have h1 := (load_sub fl su d g z h).2.1
    have h2 := cntDnuSat_le fl g
    rw [h1]
    constructor
    · intro h'; omega
    · rintro ⟨h', -⟩; exact absurd h h'
  · rw [(load_nosub fl su d g z h).2.1, cntDnuSat_full]
    exact ⟨fun h' => ⟨h, h'⟩, fun h' => h'.2⟩

theorem load_firstSat (fl : Flags) (su : Bool) (d : List (Option α)) (g : List Nat) (z : Option (Option α)) :
    firstSat fl (loadInteg fl su d g z).gdq = true ↔ ¬ ZeroSub su g z ∧ Has (g.getD 0 0) fl.sat := by
  by_cases h : ZeroSub su g z
  · rw [(load_sub fl su d g z h).1, firstSat]
    have : (g.set 0 0).getD 0 0 = 0 := by cases g <;> simp
    rw [this]
    constructor
    · intro h'; simp [hasB] at h'
    · rintro ⟨h', -⟩; exact absurd h h'
  · rw [(load_nosub fl su d g z h).1, firstSat, hasB_iff]
    exact ⟨fun h' => ⟨h, h'⟩, fun h' => h'.2⟩

theorem load_cntSat (fl : Flags) (su : Bool) (d : List (Option α)) (g : List Nat) (z : Option (Option α)) :
    0 < (loadInteg fl su d g z).st.cntSat ↔ SatInteg fl su g z := by
  have hp : 0 < (stats fl g).cntSat ↔ ∃ d ∈ g, Has d fl.sat := by
    simp only [stats, List.countP_pos_iff, hasB_iff]
  unfold SatInteg
  rw [← hp]
  by_cases h : ZeroSub su g z
  · rw [(load_sub fl su d g z h).2.2.1]
    simp only [h, true_and]
    have : (stats fl g).cntSat ≤ g.length := by simp only [stats]; exact List.countP_le_length
    split <;> omega
  · rw [(load_nosub fl su d g z h).2.1]
    simp only [h, false_and, not_false_eq_true, and_true]

theorem combine_dq (fl : Flags) (cfg : Cfg α) (fits : List (SegFit α)) (dq : Nat) :
    (combineInteg fl cfg fits dq).1.dq = dq := by
  simp only [combineInteg]
  split
  · rfl
  · split <;> rfl

theorem fitInteg_dq (fl : Flags) (cfg : Cfg α) (px : Pix α) (med : Option α) (ng : Nat) (i : Integ α) (dq0 : Nat) :
    (fitInteg fl cfg px med ng i dq0).1.dq =
      if (ng : Int) = i.st.cntDnuSat then
        (if ng = i.st.cntSat then (if firstSat fl i.gdq then dq0 ||| fl.dnu ||| fl.sat else dq0) ||| fl.dnu ||| fl.sat
         else (if firstSat fl i.gdq then dq0 ||| fl.dnu ||| fl.sat else dq0) ||| fl.dnu)
      else (if firstSat fl i.gdq then dq0 ||| fl.dnu ||| fl.sat else dq0) := by
  simp only [fitInteg]
  split
  · split <;> rfl
  · split <;> simp [combine_dq]

theorem statBits_not (fl : Flags) (hf : OlsFlagsOk fl) (s : Stats) :
    ¬ Has (statBits fl s) fl.dnu ∧ ¬ Has (statBits fl s) fl.sat := by
  unfold statBits
  rw [has_or_left, has_or_left]
  have z : ∀ f, ¬ Has 0 f := fun f => by simp [Has]
  refine ⟨fun h => ?_, fun h => ?_⟩ <;> rcases h with h | h <;> split at h
  · exact hf.jd h
  · exact z _ h
  · exact hf.pd h
  · exact z _ h
  · exact hf.js h
  · exact z _ h
  · exact hf.ps h
  · exact z _ h

/-- Before the partial-saturation mark, an integration entry is unusable exactly when the pixel is or the
integration is dead. -/
theorem integ_dnu (fl : Flags) (hf : OlsFlagsOk fl) (cfg : Cfg α) (px : Pix α) (med : Option α) (dqp : Nat)
    (su : Bool) (d : List (Option α)) (g : List Nat) (z : Option (Option α)) :
    Has (fitInteg fl cfg px med g.length (loadInteg fl su d g z)
        (dqp ||| statBits fl (loadInteg fl su d g z).st)).1.dq fl.dnu
      ↔ Has dqp fl.dnu ∨ DeadInteg fl su g z := by
  have hb := (statBits_not fl hf (loadInteg fl su d g z).st).1
  have hd : Has fl.dnu fl.dnu := by unfold Has; rw [Nat.and_self]; exact hf.dnu0
  have hA := load_full fl su d g z
  have hB := load_firstSat fl su d g z
  rw [fitInteg_dq]
  unfold DeadInteg
  by_cases h1 : (g.length : Int) = (loadInteg fl su d g z).st.cntDnuSat
  · rw [if_pos h1]
    have hr : ¬ ZeroSub su g z ∧ (Has (g.getD 0 0) fl.sat ∨ ∀ d ∈ g, Has d fl.dnu ∨ Has d fl.sat) :=
      ⟨(hA.1 h1).1, Or.inr (hA.1 h1).2⟩
    constructor
    · intro _; exact Or.inr hr
    · intro _
      split
      · rw [has_or_left, has_or_left]; exact Or.inl (Or.inr hd)
      · rw [has_or_left]; exact Or.inr hd
  · rw [if_neg h1]
    by_cases h2 : firstSat fl (loadInteg fl su d g z).gdq = true
    · rw [if_pos h2]
      constructor
      · intro _; exact Or.inr ⟨(hB.1 h2).1, Or.inl (hB.1 h2).2⟩
      · intro _; rw [has_or_left, has_or_left]; exact Or.inl (Or.inr hd)
    · rw [if_neg h2, has_or_left]
      constructor
      · rintro (h | h)
        · exact Or.inl h
        · exact absurd h hb
      · rintro (h | ⟨h3, h4 | h4⟩)
        · exact Or.inl h
        · exact absurd (hB.2 ⟨h3, h4⟩) h2
        · exact absurd (hA.2 ⟨h3, h4⟩) h1

/-- Before the partial-saturation mark, an entry marked saturated belongs to a saturated pixel or to an integration
with a saturated group; a dead integration that is saturated from its first group is marked. -/
theorem integ_sat (fl : Flags) (hf : OlsFlagsOk fl) (cfg : Cfg α) (px : Pix α) (med : Option α) (dqp : Nat)
    (su : Bool) (d : List (Option α)) (g : List Nat) (hg : g ≠ []) (z : Option (Option α))
    (h : Has (fitInteg fl cfg px med g.length (loadInteg fl su d g z)
        (dqp ||| statBits fl (loadInteg fl su d g z).st)).1.dq fl.sat) :
    Has dqp fl.sat ∨ SatInteg fl su g z := by
  have hb := (statBits_not fl hf (loadInteg fl su d g z).st).2
  have hnd : ¬ Has fl.dnu fl.sat := hf.ds
  have hB := load_firstSat fl su d g z
  have hfs : firstSat fl (loadInteg fl su d g z).gdq = true → SatInteg fl su g z := by
    intro h2
    obtain ⟨h3, h4⟩ := hB.1 h2
    refine ⟨?_, fun h5 => h3 h5.1⟩
    cases g with
    | nil => exact absurd rfl hg
    | cons a t => exact ⟨a, List.mem_cons_self .., by simpa using h4⟩
  have hlen : 0 < g.length := List.length_pos_of_ne_nil hg
  have base : Has (if firstSat fl (loadInteg fl su d g z).gdq = true then
      dqp ||| statBits fl (loadInteg fl su d g z).st ||| fl.dnu ||| fl.sat
      else dqp ||| statBits fl (loadInteg fl su d g z).st) fl.sat → Has dqp fl.sat ∨ SatInteg fl su g z := by
    intro h'
    by_cases h2 : firstSat fl (loadInteg fl su d g z).gdq = true
    · exact Or.inr (hfs h2)
    · rw [if_neg h2, has_or_left] at h'
      exact h'.imp id fun h => absurd h hb
  rw [fitInteg_dq] at h
  split at h
  · split at h
    · rename_i h3
      right
      rw [← load_cntSat fl su d g z]
      omega
    · rw [has_or_left] at h
      exact h.elim base fun h => absurd h hnd
  · exact base h

/-- DQ and slope of the integration product: DO_NOT_USE exactly for dead integrations (or an unusable pixel),
SATURATED exactly when some group is saturated (or the pixel was), and unusable integrations have no slope. -/
theorem C31_rateints_dq (fl : Flags) (hf : OlsFlagsOk fl) (cfg : Cfg α) (ngroups : Nat) (hn : 0 < ngroups) (p : PixIn α)
    (hlen : ∀ x ∈ p.ints, x.2.1.length = ngroups) :
    (fitPixel fl cfg ngroups p).1.length = p.ints.length
    ∧ ∀ (j : Nat) (h : j < p.ints.length) (h' : j < (fitPixel fl cfg ngroups p).1.length),
        (Has ((fitPixel fl cfg ngroups p).1[j]).dq fl.dnu ↔ Has (entryDq fl p) fl.dnu
            ∨ DeadInteg fl cfg.suppress1g p.ints[j].2.1 p.ints[j].2.2)
        ∧ (Has ((fitPixel fl cfg ngroups p).1[j]).dq fl.sat ↔ Has (entryDq fl p) fl.sat
            ∨ SatInteg fl cfg.suppress1g p.ints[j].2.1 p.ints[j].2.2)
        ∧ (Has ((fitPixel fl cfg ngroups p).1[j]).dq fl.dnu → ((fitPixel fl cfg ngroups p).1[j]).slope = none) := by
  have hl : (fitPixel fl cfg ngroups p).1.length = p.ints.length := by simp [fitPixel, pixelInts, loadPixel]
  refine ⟨hl, fun j h h' => ?_⟩
  have hnds : ¬ Has fl.sat fl.dnu := fun h => hf.ds (has_comm.1 h)
  rcases hx : p.ints[j] with ⟨d, g, z⟩
  have hgl : g.length = ngroups := by
    have := hlen p.ints[j] (List.getElem_mem h)
    rw [hx] at this; exact this
  have hg : g ≠ [] := by intro h; subst h; simp at hgl; omega
  have hmeta : metaDq fl p = entryDq fl p := rfl
  set med := medianRate fl cfg ngroups (loadPixel fl cfg p) with hmed
  have e : (fitPixel fl cfg ngroups p).1[j] =
      (postInteg fl (loadInteg fl cfg.suppress1g d g z)
        (fitInteg fl cfg p.px med ngroups (loadInteg fl cfg.suppress1g d g z)
          (entryDq fl p ||| statBits fl (loadInteg fl cfg.suppress1g d g z).st)).1).1 := by
    simp only [fitPixel, pixelInts, loadPixel, List.getElem_map, hx, hmeta]
    rfl
  rw [e, ← hgl]
  have hD := integ_dnu fl hf cfg p.px med (entryDq fl p) cfg.suppress1g d g z
  have hS := integ_sat fl hf cfg p.px med (entryDq fl p) cfg.suppress1g d g hg z
  have hC := load_cntSat fl cfg.suppress1g d g z
  have hSat : Has (entryDq fl p) fl.sat → Has (fitInteg fl cfg p.px med g.length (loadInteg fl cfg.suppress1g d g z)
        (entryDq fl p ||| statBits fl (loadInteg fl cfg.suppress1g d g z).st)).1.dq fl.sat := by
    intro h
    rw [fitInteg_dq]
    have h0 : Has (entryDq fl p ||| statBits fl (loadInteg fl cfg.suppress1g d g z).st) fl.sat :=
      has_or_left.2 (Or.inl h)
    have h1 : Has (if firstSat fl (loadInteg fl cfg.suppress1g d g z).gdq = true then
      entryDq fl p ||| statBits fl (loadInteg fl cfg.suppress1g d g z).st ||| fl.dnu ||| fl.sat
      else entryDq fl p ||| statBits fl (loadInteg fl cfg.suppress1g d g z).st) fl.sat := by
      split
      · exact has_or_left.2 (Or.inl (has_or_left.2 (Or.inl h0)))
      · exact h0
    split
    · split
      · exact has_or_left.2 (Or.inl (has_or_left.2 (Or.inl h1)))
      · exact has_or_left.2 (Or.inl h1)
    · exact h1
  set r := (fitInteg fl cfg p.px med g.length (loadInteg fl cfg.suppress1g d g z)
        (entryDq fl p ||| statBits fl (loadInteg fl cfg.suppress1g d g z).st)).1 with hr
  clear_value r
  simp only [postInteg]
  refine ⟨?_, ?_, ?_⟩
  · rw [← hD]
    split
    · rw [has_or_left]; exact ⟨fun h => h.elim id fun h => absurd h hnds, Or.inl⟩
    · exact Iff.rfl
  · rw [← hC]
    split
    · rename_i hc
      rw [has_or_left]
      refine ⟨fun _ => Or.inr hc, fun _ => Or.inr ?_⟩
      unfold Has; rw [Nat.and_self]; exact hf.sat0
    · rename_i hc
      exact ⟨fun h => (hS h).imp id hC.2, fun h => h.elim hSat fun h => absurd h hc⟩
  · intro h
    have : Has r.dq fl.dnu := by
      split at h
      · rw [has_or_left] at h; exact h.elim id fun h => absurd h hnds
      · exact h
    rw [hasB_iff.2 this]; simp

/-- DQ of the exposure product: DO_NOT_USE exactly when the pixel was unusable or every integration is dead;
SATURATED exactly when the pixel was saturated or some integration has a saturated group; unusable pixels have no
slope. -/
theorem C31_rate_dq (fl : Flags) (hf : OlsFlagsOk fl) (cfg : Cfg α) (ngroups : Nat) (hn : 0 < ngroups) (p : PixIn α)
    (hne : p.ints ≠ []) (hlen : ∀ x ∈ p.ints, x.2.1.length = ngroups) :
    (Has (fitPixel fl cfg ngroups p).2.dq fl.dnu ↔ Has (entryDq fl p) fl.dnu
        ∨ ∀ x ∈ p.ints, DeadInteg fl cfg.suppress1g x.2.1 x.2.2)
    ∧ (Has (fitPixel fl cfg ngroups p).2.dq fl.sat ↔ Has (entryDq fl p) fl.sat
        ∨ ∃ x ∈ p.ints, SatInteg fl cfg.suppress1g x.2.1 x.2.2)
    ∧ (Has (fitPixel fl cfg ngroups p).2.dq fl.dnu → (fitPixel fl cfg ngroups p).2.slope = none) := by
  have hnds : ¬ Has fl.sat fl.dnu := fun h => hf.ds (has_comm.1 h)
  have hdd : Has fl.dnu fl.dnu := by unfold Has; rw [Nat.and_self]; exact hf.dnu0
  have hss : Has fl.sat fl.sat := by unfold Has; rw [Nat.and_self]; exact hf.sat0
  set med := medianRate fl cfg ngroups (loadPixel fl cfg p) with hmed
  set rs := pixelInts fl cfg ngroups p with hrs
  have hrs' : rs = p.ints.map fun x => (loadInteg fl cfg.suppress1g x.1 x.2.1 x.2.2,
      postInteg fl (loadInteg fl cfg.suppress1g x.1 x.2.1 x.2.2)
        (fitInteg fl cfg p.px med ngroups (loadInteg fl cfg.suppress1g x.1 x.2.1 x.2.2)
          (entryDq fl p ||| statBits fl (loadInteg fl cfg.suppress1g x.1 x.2.1 x.2.2).st)).1,
      (fitInteg fl cfg p.px med ngroups (loadInteg fl cfg.suppress1g x.1 x.2.1 x.2.2)
          (entryDq fl p ||| statBits fl (loadInteg fl cfg.suppress1g x.1 x.2.1 x.2.2).st)).2) := by
    rw [hrs]
    simp only [pixelInts, loadPixel, List.map_map]
    rfl
  -- DNU count
  have hdnu : rs.length = rs.countP (fun r => r.2.1.2.1)
      ↔ Has (entryDq fl p) fl.dnu ∨ ∀ x ∈ p.ints, DeadInteg fl cfg.suppress1g x.2.1 x.2.2 := by
    rw [eq_comm, List.countP_eq_length, hrs']
    simp only [List.mem_map, forall_exists_index, and_imp, forall_apply_eq_imp_iff₂]
    have hx : ∀ x ∈ p.ints, ((postInteg fl (loadInteg fl cfg.suppress1g x.1 x.2.1 x.2.2)
        (fitInteg fl cfg p.px med ngroups (loadInteg fl cfg.suppress1g x.1 x.2.1 x.2.2)
          (entryDq fl p ||| statBits fl (loadInteg fl cfg.suppress1g x.1 x.2.1 x.2.2).st)).1).2.1 = true
        ↔ Has (entryDq fl p) fl.dnu ∨ DeadInteg fl cfg.suppress1g x.2.1 x.2.2) := by
      intro x hx
      have := integ_dnu fl hf cfg p.px med (entryDq fl p) cfg.suppress1g x.1 x.2.1 x.2.2
      rw [hlen x hx] at this
      simp only [postInteg]
      rw [hasB_iff]; exact this
    constructor
    · intro h
      by_cases hd : Has (entryDq fl p) fl.dnu
      · exact Or.inl hd
      · exact Or.inr fun x hxm => ((hx x hxm).1 (h x hxm)).resolve_left hd
    · rintro (h | h) x hxm
      · exact (hx x hxm).2 (Or.inl h)
      · exact (hx x hxm).2 (Or.inr (h x hxm))
  -- accumulated statistics bits
  have hfold : ∀ (l : List (Integ α × (Rate α × Bool × Bool) × Option (Acc α))) (a f : Nat),
      (∀ s : Stats, ¬ Has (statBits fl s) f) →
      (Has (l.foldl (fun acc r => acc ||| statBits fl r.1.st) a) f ↔ Has a f) := by
    intro l a f hnb
    induction l generalizing a with
    | nil => exact Iff.rfl
    | cons x t ih =>
      rw [List.foldl_cons, ih, has_or_left]
      exact ⟨fun h => h.elim id fun h => absurd h (hnb _), Or.inl⟩
  set dq0 := rs.foldl (fun acc r => acc ||| statBits fl r.1.st) (metaDq fl p) with hdq0
  have hdq0d : Has dq0 fl.dnu ↔ Has (entryDq fl p) fl.dnu := hfold rs _ _ fun s => (statBits_not fl hf s).1
  have hdq0s : Has dq0 fl.sat ↔ Has (entryDq fl p) fl.sat := hfold rs _ _ fun s => (statBits_not fl hf s).2
  set dq1 := if rs.length = rs.countP (fun r => r.2.1.2.1) then dq0 ||| fl.dnu else dq0 with hdq1
  set dq2 := if rs.countP (fun r => r.2.1.2.2) = rs.length then dq1 ||| fl.sat else dq1 with hdq2
  set dq3 := if rs.any (fun r => decide (0 < r.1.st.cntSat)) then dq2 ||| fl.sat else dq2 with hdq3
  have h1d : Has dq1 fl.dnu ↔ Has (entryDq fl p) fl.dnu
        ∨ ∀ x ∈ p.ints, DeadInteg fl cfg.suppress1g x.2.1 x.2.2 := by
    rw [hdq1]
    by_cases hc : rs.length = rs.countP fun r => r.2.1.2.1
    · rw [if_pos hc, has_or_left]
      exact ⟨fun _ => hdnu.1 hc, fun _ => Or.inr hdd⟩
    · rw [if_neg hc, hdq0d]
      exact ⟨Or.inl, fun h => h.elim id fun h => absurd (hdnu.2 (Or.inr h)) hc⟩
  have h1s : Has dq1 fl.sat ↔ Has (entryDq fl p) fl.sat := by
    rw [hdq1, ← hdq0s]
    split
    · rw [has_or_left]; exact ⟨fun h => h.elim id fun h => absurd h hf.ds, Or.inl⟩
    · exact Iff.rfl
  have h2d : Has dq2 fl.dnu ↔ Has dq1 fl.dnu := by
    rw [hdq2]
    split
    · rw [has_or_left]; exact ⟨fun h => h.elim id fun h => absurd h hnds, Or.inl⟩
    · exact Iff.rfl
  have h3d : Has dq3 fl.dnu ↔ Has dq2 fl.dnu := by
    rw [hdq3]
    split
    · rw [has_or_left]; exact ⟨fun h => h.elim id fun h => absurd h hnds, Or.inl⟩
    · exact Iff.rfl
  have hany : rs.any (fun r => decide (0 < r.1.st.cntSat)) = true
      ↔ ∃ x ∈ p.ints, SatInteg fl cfg.suppress1g x.2.1 x.2.2 := by
    rw [List.any_eq_true, hrs']
    constructor
    · rintro ⟨r, hr, hc⟩
      obtain ⟨x, hx, rfl⟩ := List.mem_map.1 hr
      exact ⟨x, hx, (load_cntSat fl cfg.suppress1g x.1 x.2.1 x.2.2).1 (by simpa using hc)⟩
    · rintro ⟨x, hx, hc⟩
      exact ⟨_, List.mem_map.2 ⟨x, hx, rfl⟩, by
        simpa using (load_cntSat fl cfg.suppress1g x.1 x.2.1 x.2.2).2 hc⟩
  have h2s : Has dq2 fl.sat → Has (entryDq fl p) fl.sat ∨ ∃ x ∈ p.ints, SatInteg fl cfg.suppress1g x.2.1 x.2.2 := by
    rw [hdq2]
    split
    · rename_i hc
      intro _
      obtain ⟨x, hx⟩ := List.exists_mem_of_ne_nil _ hne
      have hall := List.countP_eq_length.1 hc
      rw [hrs'] at hall
      have := hall _ (List.mem_map.2 ⟨x, hx, rfl⟩)
      simp only [postInteg] at this
      rw [hasB_iff, ← hlen x hx] at this
      have hg : x.2.1 ≠ [] := by intro h; have := hlen x hx; rw [h] at this; simp at this; omega
      exact (integ_sat fl hf cfg p.px med (entryDq fl p) cfg.suppress1g x.1 x.2.1 hg x.2.2 this).imp id
        fun h => ⟨x, hx, h⟩
    · rw [h1s]; exact Or.inl
  have h2s' : Has (entryDq fl p) fl.sat → Has dq2 fl.sat := by
    intro h
    rw [hdq2]
    split
    · exact has_or_left.2 (Or.inl (h1s.2 h))
    · exact h1s.2 h
  have hdqeq : (fitPixel fl cfg ngroups p).2.dq = dq3 := by
    have hite : ∀ (c : Bool) (a b : Rate α) (q : Nat), a.dq = q → b.dq = q → (if c then a else b).dq = q := by
      intro c a b q ha hb
      cases c
      · exact hb
      · exact ha
    exact hite _ _ _ _ rfl rfl
  refine ⟨?_, ?_, ?_⟩
  · rw [hdqeq, h3d, h2d, h1d]
  · rw [hdqeq, ← hany, hdq3]
    by_cases hc : rs.any (fun r => decide (0 < r.1.st.cntSat)) = true
    · rw [if_pos hc, has_or_left]
      exact ⟨fun _ => Or.inr hc, fun _ => Or.inr hss⟩
    · rw [if_neg hc]
      exact ⟨fun h => (h2s h).imp id fun h => hany.2 h, fun h => h.elim h2s' fun h => absurd h hc⟩
  · intro h
    rw [hdqeq, h3d] at h
    have hinv : hasB dq2 (fl.dnu ||| fl.sat) = true := by
      rw [hasB_iff, has_or_right]; exact Or.inl h
    simp only [fitPixel]
    rw [← hrs]
    have e : hasB (if List.countP (fun r => r.2.1.2.2) rs = rs.length then
        (if rs.length = List.countP (fun r => r.2.1.2.1) rs then
          List.foldl (fun acc r => acc ||| statBits fl r.1.st) (metaDq fl p) rs ||| fl.dnu
          else List.foldl (fun acc r => acc ||| statBits fl r.1.st) (metaDq fl p) rs) ||| fl.sat
        else (if rs.length = List.countP (fun r => r.2.1.2.1) rs then
          List.foldl (fun acc r => acc ||| statBits fl r.1.st) (metaDq fl p) rs ||| fl.dnu
          else List.foldl (fun acc r => acc ||| statBits fl r.1.st) (metaDq fl p) rs)) (fl.dnu ||| fl.sat) = true := hinv
    rw [if_pos e]

/-! ## C30, exposure level -/

/-- The segment fits that enter the exposure sums from one loaded integration: none when all its groups are
unusable or saturated. -/
def usedFits (fl : Flags) (cfg : Cfg α) (px : Pix α) (med : Option α) (ngroups : Nat) (i : Integ α) :
    List (SegFit α) :=
  if (ngroups : Int) = i.st.cntDnuSat then []
  else (fitSegs fl i.gdq).segs.map (fitSeg cfg px med i.is0th i.isZframe fun k => (i.data[k]?).join)

theorem fitInteg_acc (fl : Flags) (cfg : Cfg α) (px : Pix α) (med : Option α) (ng : Nat) (i : Integ α) (dq0 : Nat) :
    (fitInteg fl cfg px med ng i dq0).2 =
      if (usedFits fl cfg px med ng i).isEmpty then none else some (accSegs (usedFits fl cfg px med ng i)) := by
  unfold usedFits
  simp only [fitInteg]
  by_cases h : (ng : Int) = i.st.cntDnuSat
  · rw [if_pos h, if_pos h]; rfl
  · rw [if_neg h, if_neg h]
    simp only [combineInteg]
    split
    · rfl
    · generalize (if firstSat fl i.gdq then _ else _ : Nat) = dq
      split <;> rfl

theorem usedFits_alive (fl : Flags) (cfg : Cfg α) (px : Pix α) (med : Option α) (ng : Nat) (i : Integ α)
    (h : usedFits fl cfg px med ng i ≠ []) : (ng : Int) ≠ i.st.cntDnuSat ∧ firstSat fl i.gdq = false := by
  unfold usedFits at h
  by_cases h1 : (ng : Int) = i.st.cntDnuSat
  · rw [if_pos h1] at h; exact absurd rfl h
  · rw [if_neg h1] at h
    refine ⟨h1, ?_⟩
    by_contra hc
    rw [Bool.not_eq_false] at hc
    simp [fitSegs, hc, SegList.empty] at h

/-- Read-noise variance of every segment is positive for a positive gain, a non-zero read noise and non-zero
times. -/
theorem fitSeg_varR_pos (cfg : Cfg α) (px : Pix α) (med : Option α) (z0 zf : Bool) (data : Nat → Option α) (s : Seg)
    (hlen : 1 ≤ s.len) (hg : 0 < px.gain) (hr : px.rnoise ≠ 0) (ht : cfg.groupTime ≠ 0) (hf : cfg.frameTime ≠ 0)
    (ho : cfg.oneGroupTime ≠ 0) : 0 < (fitSeg cfg px med z0 zf data s).varR := by
  have key : ∀ (n : Nat) (t : α), 2 ≤ n → t ≠ 0 → 0 < rnoiseVar px n t := by
    intro n t hn ht
    unfold rnoiseVar
    have h2 : (2 : α) ≤ (n : α) := by exact_mod_cast hn
    have hq : 0 < (px.rnoise / t) * (px.rnoise / t) := mul_self_pos.2 (div_ne_zero hr ht)
    have hc : 0 < (n : α) * n * n - n := by
      have : (n : α) * n * n - n = n * (n * n - 1) := by ring
      rw [this]
      have : (0 : α) < n := by linarith
      have : (1 : α) < n * n := by nlinarith
      exact mul_pos ‹_› (by linarith)
    rw [mul_assoc 12]
    positivity
  simp only [fitSeg]
  split
  · refine key 2 _ le_rfl ?_
    unfold len1Timing
    split
    · exact ho
    · split
      · exact hf
      · exact ht
  · split
    · exact key 2 _ le_rfl ht
    · simp only [not_le.2 hg, if_false]
      exact key _ _ (by omega) ht

/-- Exposure result: for a pixel that is itself usable, if some segment is fitted, all fitted slopes are numbers
with positive read-noise variance and the combined variance is below the cut-off, then the exposure slope is the
inverse-variance mean of all segments of all integrations, between the least and the greatest of them, and the
read-noise variance is `1/Σ(1/vᵢ)`, at most every `vᵢ`. -/
theorem C30_exposure_mean (fl : Flags) (hf : OlsFlagsOk fl) (cfg : Cfg α) (ngroups : Nat) (p : PixIn α)
    (hd : ¬ Has (entryDq fl p) fl.dnu) (hst : ¬ Has (entryDq fl p) fl.sat)
    (F : List (SegFit α))
    (hF : F = (loadPixel fl cfg p).flatMap
      (usedFits fl cfg p.px (medianRate fl cfg ngroups (loadPixel fl cfg p)) ngroups))
    (hne : F ≠ []) (sl : SegFit α → α) (hs : ∀ f ∈ F, f.slope = some (sl f)) (hv : ∀ f ∈ F, 0 < f.varR)
    (hlarge : 1 / (F.map fun f => 1 / f.varR).sum < large) :
    ∃ m, (fitPixel fl cfg ngroups p).2.slope = some m
      ∧ m = (F.map fun f => sl f / f.varR).sum / (F.map fun f => 1 / f.varR).sum
      ∧ (fitPixel fl cfg ngroups p).2.varR = 1 / (F.map fun f => 1 / f.varR).sum
      ∧ (∀ lo hi, (∀ f ∈ F, lo ≤ sl f ∧ sl f ≤ hi) → lo ≤ m ∧ m ≤ hi)
      ∧ ∀ f ∈ F, (fitPixel fl cfg ngroups p).2.varR ≤ f.varR := by
  obtain ⟨m1, m2, m3⟩ := wmean_spec F sl (fun f => f.varR) hne hv
  set med := medianRate fl cfg ngroups (loadPixel fl cfg p) with hmed
  set u := usedFits fl cfg p.px med ngroups with hu
  set rs := pixelInts fl cfg ngroups p with hrs
  have hrs' : rs = (loadPixel fl cfg p).map fun i => (i,
      postInteg fl i (fitInteg fl cfg p.px med ngroups i (metaDq fl p ||| statBits fl i.st)).1,
      (fitInteg fl cfg p.px med ngroups i (metaDq fl p ||| statBits fl i.st)).2) := rfl
  set accs := rs.filterMap (fun r => r.2.2) with haccs
  have hacc : accs = (loadPixel fl cfg p).filterMap fun i =>
      if (u i).isEmpty then none else some (accSegs (u i)) := by
    rw [haccs, hrs', List.filterMap_map]
    congr 1
    funext i
    exact fitInteg_acc fl cfg p.px med ngroups i _
  -- sums over the integrations are sums over all segments
  have hsums : ∀ (L : List (Integ α)) (n0 : α), (∀ i ∈ L, ∀ f ∈ u i, f.slope = some (sl f)) →
      ((L.filterMap fun i => if (u i).isEmpty then none else some (accSegs (u i))).map fun a => a.invR).sum
        = ((L.flatMap u).map fun f => 1 / f.varR).sum
      ∧ (L.filterMap fun i => if (u i).isEmpty then none else some (accSegs (u i))).foldl
          (fun s a => o2 (· + ·) s a.num) (some n0)
        = some (n0 + ((L.flatMap u).map fun f => sl f / f.varR).sum) := by
    intro L
    induction L with
    | nil => intro n0 _; simp
    | cons i L ih =>
      intro n0 hL
      have hi := hL i (List.mem_cons_self ..)
      have hL' : ∀ i ∈ L, ∀ f ∈ u i, f.slope = some (sl f) := fun j hj => hL j (List.mem_cons_of_mem _ hj)
      by_cases hem : (u i).isEmpty = true
      · have hnil : u i = [] := List.isEmpty_iff.1 hem
        rw [List.filterMap_cons_none (by rw [if_pos hem]), List.flatMap_cons, hnil, List.nil_append]
        exact ih n0 hL'
      · obtain ⟨a1, -, a3⟩ := accSegs_spec (u i) sl hi
        rw [List.filterMap_cons_some (by rw [if_neg hem]), List.flatMap_cons, List.map_cons, List.sum_cons,
          List.foldl_cons, a3, o2_some, List.map_append, List.sum_append, List.map_append, List.sum_append, a1]
        obtain ⟨b1, b2⟩ := ih (n0 + ((u i).map fun f => sl f / f.varR).sum) hL'
        refine ⟨by rw [b1], ?_⟩
        rw [b2]; congr 1; ring
  have hmemF : ∀ i ∈ loadPixel fl cfg p, ∀ f ∈ u i, f.slope = some (sl f) := by
    intro i hi f hfi
    exact hs f (by rw [hF]; exact List.mem_flatMap.2 ⟨i, hi, hfi⟩)
  obtain ⟨hR, hN⟩ := hsums (loadPixel fl cfg p) 0 hmemF
  rw [← hacc, ← hF] at hR
  rw [← hacc, ← hF, zero_add] at hN
  -- the pixel is not invalid
  obtain ⟨f0, hf0⟩ := List.exists_mem_of_ne_nil _ hne
  obtain ⟨i0, hi0, hfi0⟩ := List.mem_flatMap.1 (by rw [hF] at hf0; exact hf0)
  obtain ⟨al1, al2⟩ := usedFits_alive fl cfg p.px med ngroups i0 (List.ne_nil_of_mem hfi0)
  have hdq : (fitInteg fl cfg p.px med ngroups i0 (metaDq fl p ||| statBits fl i0.st)).1.dq
      = metaDq fl p ||| statBits fl i0.st := by
    rw [fitInteg_dq, if_neg al1, al2]; rfl
  have hm : metaDq fl p = entryDq fl p := rfl
  have hsb := statBits_not fl hf i0.st
  have hr0 : (i0, postInteg fl i0 (fitInteg fl cfg p.px med ngroups i0 (metaDq fl p ||| statBits fl i0.st)).1,
      (fitInteg fl cfg p.px med ngroups i0 (metaDq fl p ||| statBits fl i0.st)).2) ∈ rs := by
    rw [hrs']; exact List.mem_map.2 ⟨i0, hi0, rfl⟩
  have hdnu : ¬ rs.length = rs.countP (fun r => r.2.1.2.1) := by
    intro h
    have := List.countP_eq_length.1 h.symm _ hr0
    simp only [postInteg, hdq] at this
    rw [hasB_iff, has_or_left, hm] at this
    exact this.elim hd hsb.1
  have hsat : ¬ rs.countP (fun r => r.2.1.2.2) = rs.length := by
    intro h
    have := List.countP_eq_length.1 h _ hr0
    simp only [postInteg, hdq] at this
    rw [hasB_iff, has_or_left, hm] at this
    exact this.elim hst hsb.2
  have hfold : ∀ (l : List (Integ α × (Rate α × Bool × Bool) × Option (Acc α))) (a f : Nat),
      (∀ s : Stats, ¬ Has (statBits fl s) f) → ¬ Has a f →
      ¬ Has (l.foldl (fun acc r => acc ||| statBits fl r.1.st) a) f := by
    intro l
    induction l with
    | nil => intro a f _ h; exact h
    | cons x t ih =>
      intro a f hnb h
      rw [List.foldl_cons]
      refine ih _ f hnb ?_
      rw [has_or_left]
      exact fun h' => h'.elim h (hnb _)
  have hinv : hasB (rs.foldl (fun acc r => acc ||| statBits fl r.1.st) (metaDq fl p)) (fl.dnu ||| fl.sat) = false := by
    rw [hasB_false, has_or_right]
    rintro (h | h)
    · exact hfold rs _ _ (fun s => (statBits_not fl hf s).1) hd h
    · exact hfold rs _ _ (fun s => (statBits_not fl hf s).2) hst h
  have hSpos : 0 < (F.map fun f => 1 / f.varR).sum :=
    sum_pos_of_mem F _ (fun x hx => by have := hv x hx; positivity) hne
  have hnl : ¬ (large : α) ≤ 1 / (F.map fun f => 1 / f.varR).sum := not_le.2 hlarge
  have e : (fitPixel fl cfg ngroups p).2.slope
        = some ((F.map fun f => sl f / f.varR).sum * (1 / (F.map fun f => 1 / f.varR).sum))
      ∧ (fitPixel fl cfg ngroups p).2.varR = 1 / (F.map fun f => 1 / f.varR).sum := by
    simp only [fitPixel]
    rw [← hrs]
    simp only [hdnu, hsat, if_false, hinv, Bool.false_eq_true, ← haccs, hR, hN, hSpos, if_true, hnl, Option.map_some]
    exact ⟨trivial, trivial⟩
  exact ⟨_, e.1, by rw [mul_one_div], e.2, m1, fun f hfm => by rw [e.2]; exact m3 f hfm⟩

end

/-! ## Examples and findings -/

/-- Two integrations of four groups; the second is saturated from its third group. -/
def exPixel : PixIn ℚ :=
  ⟨false, exPix, 0, [([some 1, some 4, some 7, some 10], [0, 0, 0, 0], none),
    ([some 2, some 7, some 90, some 99], [0, 0, 2, 2], none)]⟩

example : ((fitPixel exFlags exCfg 4 exPixel).2.slope, (fitPixel exFlags exCfg 4 exPixel).2.dq) = (some (7 / 22), 2)
    ∧ (fitPixel exFlags exCfg 4 exPixel).1.map (fun r => (r.slope, r.dq)) = [(some (3 / 10), 0), (some (1 / 2), 2)] := by
  decide +kernel

/-- All groups saturated: unusable and saturated, no slope. -/
example : let r := fitPixel exFlags exCfg 2 ⟨false, exPix, 0, [([some 1, some 4], [2, 2], none)]⟩
    (r.2.slope, r.2.dq) = (none, 3) := by decide +kernel

/-- Finding (C30): a combined read-noise variance of 10⁶ or more is reported as zero, and the slope, computed by
multiplying with it, becomes zero whatever the data. -/
theorem C30_large_variance_zeroes_slope :
    let r := (fitPixel exFlags exCfg 2 ⟨false, ⟨1, 10000, 0⟩, 0, [([some 1, some 101], [0, 0], none)]⟩).2
    (r.slope, r.varR, r.dq) = (some 0, 0, 0)
    ∧ (fitSeg exCfg ⟨1, 10000, 0⟩ (some 10) false false (fun i => if i = 0 then some 1 else some (101 : ℚ)) ⟨0, 2⟩).slope
      = some 10 := by decide +kernel

/-! ## C71: integrations without usable group -/

section
variable {α : Type*} [Field α] [LinearOrder α] [IsStrictOrderedRing α]

/-- Partial: an integration all of whose groups are unusable or saturated and that has no zero-frame substitute has
no slope and is flagged.  Missing: groups excluded from the fit for another reason (jumps), see below. -/
theorem C71_no_usable_group_no_slope_partial (fl : Flags) (hf : OlsFlagsOk fl) (cfg : Cfg α) (ngroups : Nat)
    (hn : 0 < ngroups) (p : PixIn α) (hlen : ∀ x ∈ p.ints, x.2.1.length = ngroups) (j : Nat) (h : j < p.ints.length)
    (h' : j < (fitPixel fl cfg ngroups p).1.length) (hz : ¬ ZeroSub cfg.suppress1g p.ints[j].2.1 p.ints[j].2.2)
    (hall : ∀ d ∈ p.ints[j].2.1, Has d fl.dnu ∨ Has d fl.sat) :
    ((fitPixel fl cfg ngroups p).1[j]).slope = none ∧ Has ((fitPixel fl cfg ngroups p).1[j]).dq fl.dnu := by
  obtain ⟨h1, -, h3⟩ := (C31_rateints_dq fl hf cfg ngroups hn p hlen).2 j h h'
  have := h1.2 (Or.inr ⟨hz, Or.inr hall⟩)
  exact ⟨h3 this, this⟩

/-- An integration without any group that is clean but for PERSISTENCE, and without zero-frame substitute, has no slope or slope 0, and
all its variances are 0. -/
theorem C71_no_clean_group_no_variance (fl : Flags) (cfg : Cfg α) (ngroups : Nat) (p : PixIn α) (j : Nat) (h : j < p.ints.length)
    (h' : j < (fitPixel fl cfg ngroups p).1.length) (hz : ¬ ZeroSub cfg.suppress1g p.ints[j].2.1 p.ints[j].2.2)
    (hall : ∀ i, ¬ GoodGroup fl.pers p.ints[j].2.1 i) :
    let r := (fitPixel fl cfg ngroups p).1[j]
    (r.slope = none ∨ r.slope = some 0) ∧ r.varP = 0 ∧ r.varR = 0 ∧ r.varErr = 0 := by
  intro r
  rcases hx : p.ints[j] with ⟨d, g, z⟩
  rw [hx] at hz hall
  set med := medianRate fl cfg ngroups (loadPixel fl cfg p) with hmed
  have e : r = (postInteg fl (loadInteg fl cfg.suppress1g d g z)
        (fitInteg fl cfg p.px med ngroups (loadInteg fl cfg.suppress1g d g z)
          (metaDq fl p ||| statBits fl (loadInteg fl cfg.suppress1g d g z).st)).1).1 := by
    simp only [r, fitPixel, pixelInts, loadPixel, List.getElem_map, hx]
    rfl
  have hg : (loadInteg fl cfg.suppress1g d g z).gdq = g := (load_nosub fl cfg.suppress1g d g z hz).1
  have hs : (fitSegs fl g).segs = [] := by
    unfold fitSegs
    split
    · rfl
    · obtain ⟨-, h2⟩ := C27_segments_sound fl g
      rw [List.eq_nil_iff_forall_not_mem]
      intro s hs
      obtain ⟨-, -, h3, h4, -⟩ := h2 s hs
      rcases h4 with h4 | ⟨-, h4⟩
      · exact hall _ h4
      · exact hall _ (h3 (s.start + 1) (by omega) h4)
  rw [e]
  simp only [postInteg, fitInteg, hg, hs, List.map_nil, List.isEmpty_nil, if_true, combineInteg]
  split_ifs <;> simp

end

/-- Finding: a ramp in which no group can be fitted, because the groups that are not unusable or saturated carry
jump flags, is reported with slope 0, zero variance and without DO_NOT_USE. -/
theorem C71_unfittable_ramp_reports_zero_slope :
    (computeSegs exFlags [1, 4, 4]).segs = []
    ∧ let r := (fitPixel exFlags exCfg 3 ⟨false, exPix, 0, [([some 1, some 40, some 70], [1, 4, 4], none)]⟩)
      (r.2.slope, r.2.varP, r.2.varR, r.2.varErr, r.2.dq) = (some 0, 0, 0, 0, 4)
        ∧ r.1.map (fun r => (r.slope, r.varP, r.varR, r.varErr, r.dq)) = [(some 0, 0, 0, 0, 4)] := by
  decide +kernel

/-! ## C72: zero frame -/

section
variable {α : Type*} [Field α] [LinearOrder α] [IsStrictOrderedRing α]

/-- Partial: the zero frame stands in only when suppression is off and no group has an all-clear DQ; it then becomes
the first sample, timed with the frame time when it is the only usable sample, and no other sample changes; in all
other cases samples and DQ are those of the input (saturated samples blanked).  Missing: groups flagged only with
PERSISTENCE are usable for the fit but do not prevent the substitution, see below. -/
theorem C72_zero_frame_use_partial (fl : Flags) (su : Bool) (d : List (Option α)) (g : List Nat)
    (hlen : d.length = g.length) (z : Option (Option α)) :
    (ZeroSub su g z → (loadInteg fl su d g z).isZframe = true
        ∧ ∀ v, z = some v → ∀ k, k < g.length →
          (loadInteg fl su d g z).data[k]? = some (if k = 0 then v else if Has (g.getD k 0) fl.sat then none else d.getD k none)
          ∧ (loadInteg fl su d g z).gdq[k]? = some (if k = 0 then 0 else g.getD k 0))
    ∧ (¬ ZeroSub su g z → (loadInteg fl su d g z).isZframe = false
        ∧ (loadInteg fl su d g z).gdq = g
        ∧ ∀ k, k < g.length → (loadInteg fl su d g z).data[k]?
            = some (if Has (g.getD k 0) fl.sat then none else d.getD k none)) := by
  have hzip : ∀ k, k < g.length → (List.zipWith (fun x q => if hasB q fl.sat then none else x) d g)[k]?
      = some (if Has (g.getD k 0) fl.sat then none else d.getD k none) := by
    intro k hk
    rw [List.getElem?_zipWith, List.getElem?_eq_getElem hk, List.getElem?_eq_getElem (by omega : k < d.length)]
    simp only [List.getD_eq_getElem _ _ hk, List.getD_eq_getElem _ _ (by omega : k < d.length)]
    by_cases hh : Has g[k] fl.sat
    · rw [hasB_iff.2 hh]; simp [hh]
    · rw [hasB_false.2 hh]; simp [hh]
  constructor
  · intro h
    refine ⟨(load_sub fl su d g z h).2.2.2, fun v hv k hk => ?_⟩
    obtain ⟨h1, h2, v', h3, h4⟩ := h
    have hc := (cntGood_zero fl g).2 h2
    have hvv : v = v' := by rw [hv] at h3; exact Option.some.inj h3
    subst hvv h1 hv
    have hd : (loadInteg fl false d g (some v)).data
        = (List.zipWith (fun x q => if hasB q fl.sat then none else x) d g).set 0 v := by
      simp only [loadInteg, hc, Bool.false_eq_true, if_false, h4]
      simp
    have hg : (loadInteg fl false d g (some v)).gdq = g.set 0 0 :=
      (load_sub fl false d g (some v) ⟨rfl, h2, v, rfl, h4⟩).1
    rw [hd, hg, List.getElem?_set, List.getElem?_set]
    by_cases hk0 : k = 0
    · subst hk0
      simp [hlen, hk]
    · have hk0' : ¬ 0 = k := fun h => hk0 h.symm
      rw [if_neg hk0', if_neg hk0', hzip k hk, if_neg hk0, if_neg hk0, List.getElem?_eq_getElem hk,
        List.getD_eq_getElem _ _ hk]
      exact ⟨rfl, rfl⟩
  · intro h
    obtain ⟨h1, h2, h3⟩ := load_nosub fl su d g z h
    refine ⟨h3, h1, fun k hk => ?_⟩
    have hd : (loadInteg fl su d g z).data = List.zipWith (fun x q => if hasB q fl.sat then none else x) d g := by
      simp only [loadInteg]
      split
      · rfl
      · rename_i hsu
        split
        · rfl
        · split
          · rename_i hc
            cases z with
            | none => rfl
            | some v =>
              simp only
              split
              · rfl
              · rename_i hz
                exact absurd ⟨by simpa using hsu, (cntGood_zero fl g).1 hc, v, rfl, hz⟩ h
          · rfl
    rw [hd]; exact hzip k hk

end

example : ZeroSub (α := ℚ) false [2, 2] (some (some 5)) := ⟨rfl, by decide, some 5, rfl, by decide⟩
example : (fitPixel exFlags exCfg 2 ⟨false, exPix, 0, [([some 1, some 4], [2, 2], some (some 6))]⟩).2.slope = some 3 := by
  decide +kernel

/-- Finding: in a ramp whose groups carry only PERSISTENCE (which the fit treats as usable) the first sample is
replaced by the zero-frame sample, although it was taken at another time, and the fit mixes both: the line
`10 + 3·group` gets another slope as soon as a zero frame is present. -/
theorem C72_zero_frame_mixed_into_persistent_ramp :
    (fitPixel exFlags exCfg 3 ⟨false, exPix, 0, [([some 10, some 13, some 16], [16, 16, 16], none)]⟩).2.slope = some (3 / 10)
    ∧ (fitPixel exFlags exCfg 3 ⟨false, exPix, 0, [([some 10, some 13, some 16], [16, 16, 16], some (some 1))]⟩).2.slope
      = some (3 / 4) := by decide +kernel

end Verif.Thm
