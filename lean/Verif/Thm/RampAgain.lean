import Verif.Thm.RampFit

/-! # What ramp fitting does to the caller's group DQ, and fitting again (C140) -/

namespace Verif.Thm

open Verif.Dq Verif.Ols Verif.RampDq Verif.RampFit

set_option linter.unusedSectionVars false

/-! ## Words -/

/-- The ramp has exactly one usable group. -/
def RgOneGood (pers : Nat) (g : List Nat) : Prop :=
  ∃ j, (∃ h : j < g.length, FitUsable pers g[j]) ∧ ∀ j', (∃ h : j' < g.length, FitUsable pers g[j']) → j' = j

open Classical in
theorem rg_suppress (dnu pers : Nat) (g : List Nat) :
    suppressOne dnu pers g = if RgOneGood pers g then g.map fun d => d ||| dnu else g := by
  split
  · exact (C34_suppression_exact dnu pers g).1 ‹_›
  · exact (C34_suppression_exact dnu pers g).2 ‹_›

theorem rg_sub {b d : Nat} : (if isSet d (2 ^ b) = true then d - 2 ^ b else d) = clear d (2 ^ b) := by
  have := clearJump_eq (b := b) [d]
  simpa [clearJump] using this

theorem rg_subtract {b k : Nat} (g : List Nat) :
    subtractJump (2 ^ b) k g = g.mapIdx fun i d => if 1 ≤ i ∧ i ≤ k then clear d (2 ^ b) else d := by
  unfold subtractJump
  apply List.ext_getElem?
  intro i
  rw [List.getElem?_mapIdx, List.getElem?_mapIdx]
  congr 1
  funext d
  by_cases h : 1 ≤ i ∧ i ≤ k
  · rw [if_pos h, ← rg_sub]
    simp [h]
  · rw [if_neg h, if_neg (fun h' => h ⟨h'.1, h'.2.1⟩)]

theorem rg_clear_clear (d f : Nat) : clear (clear d f) f = clear d f := by
  apply Nat.eq_of_testBit_eq
  intro i
  simp only [testBit_clear]
  cases d.testBit i <;> cases f.testBit i <;> rfl

theorem rg_has_clear {d f e : Nat} (h : ¬ Has e f) : Has (clear d f) e ↔ Has d e := by
  rw [not_has_iff] at h
  rw [has_iff, has_iff]
  refine exists_congr fun i => ?_
  rw [testBit_clear, Bool.and_eq_true]
  constructor
  · rintro ⟨⟨h1, -⟩, h2⟩; exact ⟨h1, h2⟩
  · rintro ⟨h1, h2⟩; exact ⟨⟨h1, by rw [h i h2]; rfl⟩, h2⟩

theorem rg_has_clear_mono {d f e : Nat} (h : Has (clear d f) e) : Has d e := by
  rw [has_iff] at h ⊢
  obtain ⟨i, h1, h2⟩ := h
  rw [testBit_clear, Bool.and_eq_true] at h1
  exact ⟨i, h1.1, h2⟩

/-! ## The loop -/

/-- The groups from which JUMP_DET is taken: those, but the first, before which all groups are dead. -/
theorem rg_cleared {dnu b : Nat} (hdj : ¬ Has dnu (2 ^ b)) (n : Nat) (l : List (List Nat)) (hl : l.length = n) (g : Nat) :
    g ≤ clearedGroups dnu (2 ^ b) l ↔
      g = 0 ∨ (g < l.length ∧ ∀ (g' : Nat), g' < g → ∀ x ∈ l[g']?, DeadGroup dnu x) := by
  induction n generalizing l g with
  | zero =>
    have : l = [] := List.eq_nil_of_length_eq_zero hl
    subst this
    simp [clearedGroups]
  | succ n ih =>
    cases l with
    | nil => simp at hl
    | cons a rest =>
      by_cases ha : DeadGroup dnu a
      · cases rest with
        | nil =>
          rw [clearedGroups, if_pos (allDnu_iff.2 ha)]
          constructor
          · intro h; left; omega
          · rintro (h | ⟨h, -⟩)
            · omega
            · simp at h; omega
        | cons a' rest' =>
          have e : clearedGroups dnu (2 ^ b) (a :: a' :: rest')
              = clearedGroups dnu (2 ^ b) (clearJump (2 ^ b) a' :: rest') + 1 := by
            rw [clearedGroups, if_pos (allDnu_iff.2 ha)]
          rw [e]
          cases g with
          | zero => simp
          | succ g =>
            rw [Nat.add_le_add_iff_right, ih _ (by simpa using hl)]
            constructor
            · rintro (rfl | ⟨h1, h2⟩)
              · right
                refine ⟨by simp, fun g' hg' x hx => ?_⟩
                have : g' = 0 := by omega
                subst this
                simp at hx; subst hx; exact ha
              · right
                refine ⟨by simp at h1 ⊢; omega, fun g' hg' x hx => ?_⟩
                cases g' with
                | zero => simp at hx; subst hx; exact ha
                | succ g' =>
                  cases g' with
                  | zero =>
                    simp at hx; subst hx
                    exact (dead_clearJump hdj a').1 (h2 0 (by omega) _ (by simp))
                  | succ g' =>
                    exact h2 (g' + 1) (by omega) x (by simpa using hx)
            · rintro (h | ⟨h1, h2⟩)
              · omega
              · right
                refine ⟨by simp at h1 ⊢; omega, fun g' hg' x hx => ?_⟩
                cases g' with
                | zero =>
                  simp at hx; subst hx
                  exact (dead_clearJump hdj a').2 (h2 1 (by omega) _ (by simp))
                | succ g' => exact h2 (g' + 2) (by omega) x (by simpa using hx)
      · rw [clearedGroups.eq_def]
        simp only [if_neg (fun h => ha (allDnu_iff.1 h))]
        constructor
        · intro h; left; omega
        · rintro (h | ⟨h1, h2⟩)
          · omega
          · by_cases hg : g = 0
            · omega
            · exact absurd (h2 0 (by omega) a (by simp)) ha

section
variable {α : Type*} [Field α] [LinearOrder α] [IsStrictOrderedRing α]

/-! ## C140: what changes -/

/-- The ramp is suppressed: suppression is requested, the exposure has more than one group and the ramp one usable
group. -/
def RgSuppressed (fl : Flags) (ngroups : Nat) (suppress : Bool) (g : List Nat) : Prop :=
  suppress = true ∧ ngroups ≠ 1 ∧ RgOneGood fl.pers g

/-- Group `g` starts the ramps of a MIRI exposure once dead groups are removed: it is not the first, and in all groups
before it every sample is unusable or belongs to a suppressed ramp. -/
def RgAfterDead (fl : Flags) (miri : Bool) (ngroups : Nat) (suppress : Bool) (rows : List (List (RPix α))) (g : Nat) :
    Prop :=
  miri = true ∧ 1 ≤ g ∧ g < ngroups ∧ ∀ g' < g, ∀ row ∈ rows, ∀ p ∈ row, ∀ e ∈ p.ints,
    Has (e.2.1.getD g' 0) fl.dnu ∨ RgSuppressed fl ngroups suppress e.2.1

/-- Suppression as it is applied. -/
def rgEff (ngroups : Nat) (suppress : Bool) : Bool := suppress && decide (ngroups ≠ 1)

theorem rg_eff (ngroups : Nat) (suppress : Bool) :
    (if (suppress && decide (ngroups = 1)) = true then false else suppress) = rgEff ngroups suppress := by
  unfold rgEff
  cases suppress <;> by_cases h : ngroups = 1 <;> simp [h]

/-- Number of groups in which JUMP_DET is subtracted. -/
def rgK (fl : Flags) (miri : Bool) (ngroups : Nat) (s : Bool) (rows : List (List (RPix α))) : Nat :=
  if miri && decide (1 < ngroups) then clearedGroups fl.dnu fl.jump (rfPlanes fl s ngroups rows) else 0

theorem rg_dqAfter (fl : Flags) (miri : Bool) (ngroups : Nat) (suppress : Bool) (rows : List (List (RPix α))) :
    dqAfter fl miri ngroups suppress rows
      = rows.map fun row => row.map fun p =>
        { p with
          ints := (rfInts fl (rgEff ngroups suppress) p).map fun e =>
            (e.1, subtractJump fl.jump (rgK fl miri ngroups (rgEff ngroups suppress) rows) e.2.1, e.2.2) } := by
  simp only [dqAfter, rg_eff]
  generalize rgEff ngroups suppress = s
  have hp : ((List.range ngroups).map fun g =>
      (rows.map fun row => row.map fun p =>
        { p with ints := p.ints.map fun e => (e.1, if s then suppressOne fl.dnu fl.pers e.2.1 else e.2.1, e.2.2) }).flatten.flatMap
          fun p : RPix α => p.ints.map fun e => e.2.1.getD g 0) = rfPlanes fl s ngroups rows := by
    rw [rfPlanes]
    apply List.map_congr_left
    intro g _
    rw [← List.map_flatten, List.flatMap_map]
    rfl
  rw [hp, List.map_map]
  apply List.map_congr_left
  intro row _
  simp only [Function.comp_apply, List.map_map]
  apply List.map_congr_left
  intro p _
  rfl

theorem rg_plane_dead (fl : Flags) (hd0 : fl.dnu ≠ 0) (ngroups : Nat) (suppress : Bool) (rows : List (List (RPix α)))
    (hshape : ∀ row ∈ rows, ∀ p ∈ row, ∀ e ∈ p.ints, e.2.1.length = ngroups) (g : Nat) (hg : g < ngroups) :
    (∀ x ∈ (rfPlanes fl (rgEff ngroups suppress) ngroups rows)[g]?, DeadGroup fl.dnu x) ↔
      ∀ row ∈ rows, ∀ p ∈ row, ∀ e ∈ p.ints, Has (e.2.1.getD g 0) fl.dnu ∨ RgSuppressed fl ngroups suppress e.2.1 := by
  have hself : ∀ d, Has (d ||| fl.dnu) fl.dnu := by
    intro d
    rw [has_or_left]
    right
    unfold Has
    rwa [Nat.and_self]
  rw [rfPlanes, List.getElem?_map, List.getElem?_range hg]
  simp only [Option.map_some, Option.mem_def, Option.some.injEq, forall_eq', DeadGroup, List.mem_flatMap, List.mem_flatten,
    List.mem_map, rfInts, forall_exists_index, and_imp]
  constructor
  · intro h row hrow p hp e he
    have := h _ p row hrow hp _ e he rfl rfl
    simp only [rgEff] at this
    by_cases hs : RgSuppressed fl ngroups suppress e.2.1
    · exact Or.inr hs
    · left
      by_cases hc : suppress = true ∧ ngroups ≠ 1
      · have hno : ¬ RgOneGood fl.pers e.2.1 := fun ho => hs ⟨hc.1, hc.2, ho⟩
        simpa [hc.1, hc.2, rg_suppress, hno] using this
      · have : (suppress && decide (ngroups ≠ 1)) = false := by
          rw [Bool.eq_false_iff]
          intro h
          rw [Bool.and_eq_true, decide_eq_true_iff] at h
          exact hc h
        simp_all
  · intro h d p row hrow hp e' e he he' hd
    subst he' hd
    rcases h row hrow p hp e he with h | ⟨h1, h2, h3⟩
    · rcases Bool.eq_false_or_eq_true (rgEff ngroups suppress) with hE | hE
      · simp only [hE, if_true]
        rw [rg_suppress]
        split
        · have hl := hshape row hrow p hp e he
          rw [List.getD_eq_getElem?_getD, List.getElem?_map, List.getElem?_eq_getElem (by omega)]
          exact hself _
        · exact h
      · simpa [hE] using h
    · have hl := hshape row hrow p hp e he
      simp only [rgEff, h1, h2, ne_eq, not_false_eq_true, decide_true, Bool.and_self, if_true, rg_suppress, h3]
      rw [List.getD_eq_getElem?_getD, List.getElem?_map, List.getElem?_eq_getElem (by omega)]
      exact hself _

open Classical in
/-- What least squares leave in the caller's group DQ: samples, gain, pixel DQ and zero frame are untouched, all groups of a
suppressed ramp (one usable group, suppression requested) have DO_NOT_USE added, and in MIRI exposures JUMP_DET is taken from
every group, but the first, before which there are only dead groups; there is no other change. -/
theorem C140_group_dq_left (fl : Flags) (b : Nat) (hb : fl.jump = 2 ^ b) (hd0 : fl.dnu ≠ 0) (hdj : ¬ Has fl.dnu fl.jump)
    (miri : Bool) (ngroups : Nat) (suppress : Bool) (rows : List (List (RPix α)))
    (hshape : ∀ row ∈ rows, ∀ p ∈ row, ∀ e ∈ p.ints, e.2.1.length = ngroups) :
    dqAfter fl miri ngroups suppress rows
      = rows.map fun row => row.map fun p =>
        { p with
          ints := p.ints.map fun e => (e.1, e.2.1.mapIdx fun g d =>
            let d1 := if RgSuppressed fl ngroups suppress e.2.1 then d ||| fl.dnu else d
            if RgAfterDead fl miri ngroups suppress rows g then clear d1 fl.jump else d1, e.2.2) } := by
  rw [rg_dqAfter]
  apply List.map_congr_left
  intro row hrow
  apply List.map_congr_left
  intro p hp
  congr 1
  rw [rfInts, List.map_map]
  apply List.map_congr_left
  intro e he
  have hl := hshape row hrow p hp e he
  simp only [Function.comp_apply]
  congr 2
  have h1 : (if rgEff ngroups suppress = true then suppressOne fl.dnu fl.pers e.2.1 else e.2.1)
      = e.2.1.map fun d => if RgSuppressed fl ngroups suppress e.2.1 then d ||| fl.dnu else d := by
    by_cases hs : RgSuppressed fl ngroups suppress e.2.1
    · have : rgEff ngroups suppress = true := by simp [rgEff, hs.1, hs.2.1]
      rw [if_pos this, rg_suppress, if_pos hs.2.2]
      simp [hs]
    · simp only [hs, if_false, List.map_id']
      split
      · rename_i h
        rw [rg_suppress, if_neg]
        intro ho
        rw [rgEff, Bool.and_eq_true, decide_eq_true_iff] at h
        exact hs ⟨h.1, h.2, ho⟩
      · rfl
  rw [h1, hb, rg_subtract]
  apply List.ext_getElem?
  intro g
  rw [List.getElem?_mapIdx, List.getElem?_mapIdx, List.getElem?_map]
  rcases Nat.lt_or_ge g e.2.1.length with hg | hg
  · rw [List.getElem?_eq_getElem hg]
    simp only [Option.map_some]
    congr 1
    have key : (1 ≤ g ∧ g ≤ rgK fl miri ngroups (rgEff ngroups suppress) rows)
        ↔ RgAfterDead fl miri ngroups suppress rows g := by
      unfold rgK RgAfterDead
      by_cases hm : miri = true ∧ 1 < ngroups
      · have : (miri && decide (1 < ngroups)) = true := by simp [hm]
        rw [if_pos this, hb, rg_cleared (by rw [← hb]; exact hdj) _ _ rfl]
        have hpl : (rfPlanes fl (rgEff ngroups suppress) ngroups rows).length = ngroups := by simp [rfPlanes]
        rw [hpl]
        constructor
        · rintro ⟨h1, h2 | ⟨h2, h3⟩⟩
          · omega
          · exact ⟨hm.1, h1, h2, fun g' hg' => (rg_plane_dead fl hd0 ngroups suppress rows hshape g' (by omega)).1 (h3 g' hg')⟩
        · rintro ⟨-, h1, h2, h3⟩
          exact ⟨h1, Or.inr ⟨h2, fun g' hg' =>
            (rg_plane_dead fl hd0 ngroups suppress rows hshape g' (by omega)).2 (h3 g' hg')⟩⟩
      · have : (miri && decide (1 < ngroups)) = false := by
          rw [Bool.eq_false_iff]
          intro h
          rw [Bool.and_eq_true, decide_eq_true_iff] at h
          exact hm h
        rw [if_neg (by simp [this])]
        constructor
        · rintro ⟨h1, h2⟩; omega
        · rintro ⟨h1, h2, h3, -⟩; exact absurd ⟨h1, by omega⟩ hm
    by_cases hk : RgAfterDead fl miri ngroups suppress rows g
    · rw [if_pos (key.2 hk), if_pos hk]
    · rw [if_neg (fun h => hk (key.1 h)), if_neg hk]
  · rw [List.getElem?_eq_none hg]; rfl

/-! ## C140: fitting again -/

/-- The words of a job with JUMP_DET taken from groups `1 … k`. -/
def rgClear (jump k : Nat) (j : Job α) : Job α :=
  { j with pix := { j.pix with ints := j.pix.ints.map fun e => (e.1, subtractJump jump k e.2.1, e.2.2) } }

theorem rg_getD {b k : Nat} (g : List Nat) (n : Nat) :
    (subtractJump (2 ^ b) k g).getD n 0 = if 1 ≤ n ∧ n ≤ k then clear (g.getD n 0) (2 ^ b) else g.getD n 0 := by
  rw [rg_subtract, List.getD_eq_getElem?_getD, List.getD_eq_getElem?_getD, List.getElem?_mapIdx]
  cases g[n]? with
  | none => simp [clear]
  | some d => simp

theorem rg_lead (dnu : Nat) (l : List (List Nat)) : ∃ k, LeadCount dnu l k := by
  induction l with
  | nil => exact ⟨0, by simp [LeadCount]⟩
  | cons a l ih =>
    by_cases ha : DeadGroup dnu a
    · obtain ⟨k, h1, h2, h3⟩ := ih
      refine ⟨k + 1, by simpa using h1, fun i h hi => ?_, fun h => ?_⟩
      · cases i with
        | zero => exact ha
        | succ i => exact h2 i (by simpa using h) (by omega)
      · exact h3 (by simpa using h)
    · exact ⟨0, by simp, fun i h hi => by omega, fun h => ha⟩

/-- Planes of equal number that are dead at the same places are cut in the same way. -/
theorem rg_discard {δ : Type*} {dnu b : Nat} (hdj : ¬ Has dnu (2 ^ b)) (data : List δ) (l l' : List (List Nat))
    (hd : data.length = l.length) (hl : l'.length = l.length)
    (h : ∀ (i : Nat) (h : i < l.length) (h' : i < l'.length), DeadGroup dnu l'[i] ↔ DeadGroup dnu l[i]) :
    ((discardGroups dnu (2 ^ b) data l' none).map fun r => r.1)
      = (discardGroups dnu (2 ^ b) data l none).map fun r => r.1 := by
  obtain ⟨k, hk⟩ := rg_lead dnu l
  have hk' : LeadCount dnu l' k :=
    ⟨by rw [hl]; exact hk.1, fun i hi hik => (h i (by omega) hi).2 (hk.2.1 i (by omega) hik),
      fun hi hd => hk.2.2 (by omega) ((h k (by omega) hi).1 hd)⟩
  have hc : keptCount dnu l' k = keptCount dnu l k := by
    unfold keptCount
    rcases Nat.eq_zero_or_pos l.length with h0 | h0
    · have e1 : l = [] := List.eq_nil_of_length_eq_zero h0
      have e2 : l' = [] := List.eq_nil_of_length_eq_zero (by omega)
      rw [e1, e2]
    · have n1 : l ≠ [] := by intro e; rw [e] at h0; simp at h0
      have n2 : l' ≠ [] := by intro e; rw [e] at hl; simp at hl; omega
      rw [List.getLast?_eq_some_getLast n1, List.getLast?_eq_some_getLast n2]
      simp only [hl]
      have : DeadGroup dnu (l'.getLast n2) ↔ DeadGroup dnu (l.getLast n1) := by
        rw [List.getLast_eq_getElem, List.getLast_eq_getElem]
        have := h (l.length - 1) (by omega) (by omega)
        simpa [hl] using this
      simp only [this]
  obtain ⟨a1, a2⟩ := C33_discard_exact dnu b hdj data l none hd (by simp) k hk
  obtain ⟨b1, b2⟩ := C33_discard_exact dnu b hdj data l' none (by omega) (by simp) k hk'
  rw [hc] at b1 b2
  rcases Nat.lt_or_ge (keptCount dnu l k) 2 with hlt | hge
  · rw [a1 hlt, b1 hlt]
  · obtain ⟨q, e1, -⟩ := a2 hge
    obtain ⟨q', e2, -⟩ := b2 hge
    rw [e1, e2]
    rfl

theorem rg_planes_clear {b : Nat} (k ngroups : Nat) (rows : List (List (Job α))) :
    planes ngroups (rows.map fun row => row.map (rgClear (2 ^ b) k))
      = (List.range ngroups).map fun g =>
        if 1 ≤ g ∧ g ≤ k then (rows.flatten.flatMap fun j => j.pix.ints.map fun e => e.2.1.getD g 0).map
          (fun d => clear d (2 ^ b))
        else rows.flatten.flatMap fun j => j.pix.ints.map fun e => e.2.1.getD g 0 := by
  rw [planes]
  apply List.map_congr_left
  intro g _
  rw [← List.map_flatten, List.flatMap_map]
  split
  · rename_i h
    rw [List.map_flatMap]
    apply List.flatMap_congr
    intro j _
    simp only [rgClear, List.map_map]
    apply List.map_congr_left
    intro e _
    simp only [Function.comp_apply, rg_getD, if_pos h]
  · rename_i h
    apply List.flatMap_congr
    intro j _
    simp only [rgClear, List.map_map]
    apply List.map_congr_left
    intro e _
    simp only [Function.comp_apply, rg_getD, if_neg h]

theorem rg_cleared_clear {dnu b : Nat} (hdj : ¬ Has dnu (2 ^ b)) (k ngroups : Nat) (rows : List (List (Job α))) :
    clearedGroups dnu (2 ^ b) (planes ngroups (rows.map fun row => row.map (rgClear (2 ^ b) k)))
      = clearedGroups dnu (2 ^ b) (planes ngroups rows) := by
  apply eq_of_forall_le_iff
  intro g
  rw [rg_cleared hdj _ _ rfl, rg_cleared hdj _ _ rfl, rg_planes_clear]
  simp only [planes, List.length_map, List.length_range, List.getElem?_map]
  refine or_congr_right (and_congr_right fun hg => forall₂_congr fun g' hg' => ?_)
  rw [List.getElem?_range (by omega)]
  simp only [Option.map_some, Option.mem_def, Option.some.injEq, forall_eq']
  by_cases hc : 1 ≤ g' ∧ g' ≤ k
  · rw [if_pos hc, ← clearJump_eq]; exact dead_clearJump hdj _
  · rw [if_neg hc]

theorem rg_kept_clear (fl : Flags) (b : Nat) (hb : fl.jump = 2 ^ b) (hdj : ¬ Has fl.dnu fl.jump) (k ngroups : Nat)
    (rows : List (List (Job α))) :
    keptGroups fl ngroups (rows.map fun row => row.map (rgClear fl.jump k)) = keptGroups fl ngroups rows := by
  rw [hb] at hdj ⊢
  rw [keptGroups, keptGroups, hb]
  apply rg_discard hdj
  · simp [planes]
  · simp [planes]
  · intro i h h'
    simp only [rg_planes_clear]
    simp only [planes, List.getElem_map, List.getElem_range]
    split
    · rw [← clearJump_eq]
      exact dead_clearJump hdj _
    · exact Iff.rfl

/-- The kept groups start with the last group from which JUMP_DET is taken. -/
theorem rg_kept_range (fl : Flags) (b : Nat) (hb : fl.jump = 2 ^ b) (hdj : ¬ Has fl.dnu fl.jump) (ngroups : Nat)
    (rows : List (List (Job α))) (kept : List Nat) (h : keptGroups fl ngroups rows = some kept) :
    ∃ m, 1 ≤ m ∧ kept = List.range' (clearedGroups fl.dnu fl.jump (planes ngroups rows)) m := by
  rw [hb] at hdj
  have hplen : (planes ngroups rows).length = ngroups := by simp [planes]
  obtain ⟨k, hk⟩ := rg_lead fl.dnu (planes ngroups rows)
  obtain ⟨a1, a2⟩ := C33_discard_exact fl.dnu b hdj (List.range ngroups) (planes ngroups rows) none
    (by rw [hplen, List.length_range]) (by simp) k hk
  rw [keptGroups, hb] at h
  rcases Nat.lt_or_ge (keptCount fl.dnu (planes ngroups rows) k) 2 with hlt | hge
  · rw [a1 hlt] at h; simp at h
  · obtain ⟨q, e, -⟩ := a2 hge
    rw [e] at h
    simp only [Option.map_some, Option.some.injEq] at h
    generalize hm : keptCount fl.dnu (planes ngroups rows) k = m at *
    have hkn : k < ngroups ∧ k + m ≤ ngroups := by
      have hk1 := hk.1
      rw [hplen] at hk1
      have : m ≤ ngroups - k := by
        rw [← hm, keptCount]
        split
        · omega
        · rw [hplen]; split <;> omega
      omega
    have hck : clearedGroups fl.dnu (2 ^ b) (planes ngroups rows) = k := by
      have hle : k ≤ clearedGroups fl.dnu (2 ^ b) (planes ngroups rows) := by
        rw [rg_cleared hdj _ _ rfl]
        refine Or.inr ⟨by omega, fun g' hg' x hx => ?_⟩
        have hl : g' < (planes ngroups rows).length := by omega
        rw [List.getElem?_eq_getElem hl] at hx
        simp only [Option.mem_def, Option.some.injEq] at hx
        rw [← hx]
        exact hk.2.1 g' hl hg'
      by_contra hne
      have : k + 1 ≤ clearedGroups fl.dnu (2 ^ b) (planes ngroups rows) := by omega
      rw [rg_cleared hdj _ _ rfl] at this
      rcases this with h0 | ⟨h1, h2⟩
      · omega
      · have hl : k < (planes ngroups rows).length := by omega
        exact hk.2.2 hl (h2 k (by omega) _ (by rw [List.getElem?_eq_getElem hl]; rfl))
    refine ⟨m, by omega, ?_⟩
    rw [hb, hck, ← h]
    apply List.ext_getElem
    · simp; omega
    · intro i h1 h2
      simp

theorem rg_select_ge {β : Type*} (l : List β) (k m : Nat) (h : l.length ≤ k) : select (List.range' k m) l = [] := by
  unfold select
  rw [List.filterMap_eq_nil_iff]
  intro i hi
  rw [List.mem_range'_1] at hi
  exact List.getElem?_eq_none (by omega)

theorem rg_strip (fl : Flags) (b : Nat) (hb : fl.jump = 2 ^ b) (k m : Nat) (hm : 1 ≤ m) (g : List Nat) :
    stripDq fl (List.range' k m) (subtractJump fl.jump k g) = stripDq fl (List.range' k m) g := by
  obtain ⟨m, rfl⟩ : ∃ m', m = m' + 1 := ⟨m - 1, by omega⟩
  have hlen : (subtractJump fl.jump k g).length = g.length := by simp [subtractJump]
  rcases Nat.lt_or_ge k g.length with hk | hk
  · have hs : select (List.range' (k + 1) m) (subtractJump fl.jump k g) = select (List.range' (k + 1) m) g := by
      unfold select
      apply List.filterMap_congr
      intro i hi
      rw [List.mem_range'_1] at hi
      rw [hb, rg_subtract, List.getElem?_mapIdx]
      have : ¬ (1 ≤ i ∧ i ≤ k) := by omega
      simp [this]
    have h1 : select (List.range' k (m + 1)) g = g[k] :: select (List.range' (k + 1) m) g := by
      unfold select
      rw [List.range'_succ, List.filterMap_cons, List.getElem?_eq_getElem hk]
    have h2 : select (List.range' k (m + 1)) (subtractJump fl.jump k g)
        = (if 1 ≤ k then clear g[k] fl.jump else g[k]) :: select (List.range' (k + 1) m) g := by
      rw [← hs]
      unfold select
      rw [List.range'_succ, List.filterMap_cons]
      have : (subtractJump fl.jump k g)[k]? = some (if 1 ≤ k then clear g[k] fl.jump else g[k]) := by
        rw [hb, rg_subtract, List.getElem?_mapIdx, List.getElem?_eq_getElem hk]
        simp
      rw [this]
    rw [stripDq, stripDq, h1, h2]
    by_cases h0 : k = 0
    · subst h0; simp
    · have hh : ¬ ((List.range' k (m + 1)).head? = some 0) := by simp [List.range'_succ, h0]
      have h1k : 1 ≤ k := by omega
      rw [if_neg hh, if_neg hh, if_pos h1k]
      simp only [hb, rg_sub, rg_clear_clear]
  · rw [stripDq, stripDq, rg_select_ge _ _ _ hk, rg_select_ge _ _ _ (by omega)]

theorem rg_multi (fl : Flags) (b : Nat) (hb : fl.jump = 2 ^ b) (hdj : ¬ Has fl.dnu fl.jump) (cfg : Cfg α) (miri : Bool)
    (ngroups : Nat) (s : Bool) (maxCores : List Char) (ncpu : Nat) (rows : List (List (Job α))) (k : Nat)
    (hk : k = if miri && decide (1 < ngroups) then clearedGroups fl.dnu fl.jump (planes ngroups rows) else 0) :
    olsMulti fl cfg miri ngroups s maxCores ncpu (rows.map fun row => row.map (rgClear fl.jump k))
      = olsMulti fl cfg miri ngroups s maxCores ncpu rows := by
  by_cases hm : (miri && decide (1 < ngroups)) = true
  · rw [if_pos hm] at hk
    simp only [olsMulti, hm, if_true, List.length_map]
    rw [rg_kept_clear fl b hb hdj]
    cases hkept : keptGroups fl ngroups rows with
    | none => rfl
    | some kept =>
      obtain ⟨m, hm1, rfl⟩ := rg_kept_range fl b hb hdj ngroups rows kept hkept
      simp only
      congr 1
      rw [List.map_map]
      apply List.map_congr_left
      intro row _
      simp only [Function.comp_apply, List.map_map]
      apply List.map_congr_left
      intro j _
      rw [← hk]
      simp only [Function.comp_apply, stripJob, rgClear, List.map_map]
      congr 2
      apply List.map_congr_left
      intro e _
      simp only [Function.comp_apply]
      rw [rg_strip fl b hb k m hm1]
  · rw [if_neg hm] at hk
    subst hk
    have : ∀ j : Job α, rgClear fl.jump 0 j = j := by
      intro j
      unfold rgClear
      have : ∀ g : List Nat, subtractJump fl.jump 0 g = g := by
        intro g
        unfold subtractJump
        apply List.ext_getElem?
        intro i
        rw [List.getElem?_mapIdx]
        have : ¬ (1 ≤ i ∧ i ≤ 0 ∧ True) := by omega
        cases g[i]? with
        | none => rfl
        | some d =>
          simp only [Option.map_some]
          rw [if_neg]
          rintro ⟨h1, h2, -⟩
          omega
      simp [this]
    have : rgClear (α := α) fl.jump 0 = id := funext this
    simp [this]

theorem rg_planes (fl : Flags) (sqrt : α → α) (nframes : Nat) (s keep : Bool) (ngroups : Nat) (rows : List (List (RPix α))) :
    planes ngroups (rows.map fun row => row.map (prepare fl sqrt nframes s keep)) = rfPlanes fl s ngroups rows := by
  rw [planes, rfPlanes]
  apply List.map_congr_left
  intro g _
  rw [← List.map_flatten, List.flatMap_map]
  apply List.flatMap_congr
  intro p _
  simp only [rf_prepare]
  unfold rfPixIn
  cases p.gain <;> rfl

theorem rg_keep_after (fl : Flags) (b : Nat) (hb : fl.jump = 2 ^ b) (hdc : ¬ Has fl.dnu fl.chargeloss) (miri : Bool)
    (ngroups : Nat) (suppress : Bool) (algorithm : List Char) (rows : List (List (RPix α)))
    (hlost : ¬ RfOlsC algorithm ∨ ∀ row ∈ rows, ∀ p ∈ row, ¬ RfLost fl p) :
    keepsOrig fl algorithm rows = false
    ∧ keepsOrig fl algorithm (dqAfter fl miri ngroups suppress rows) = false := by
  constructor
  · rw [← Bool.not_eq_true, rf_keeps]
    rintro ⟨ha, row, hr, p, hp, h⟩
    rcases hlost with hl | hl
    · exact hl ha
    · exact hl row hr p hp h
  · rw [← Bool.not_eq_true, rf_keeps]
    rintro ⟨ha, row', hr', p', hp', e', he', d', hd', hc⟩
    rcases hlost with hl | hl
    · exact hl ha
    · rw [rg_dqAfter] at hr'
      obtain ⟨row, hr, rfl⟩ := List.mem_map.1 hr'
      obtain ⟨p, hp, rfl⟩ := List.mem_map.1 hp'
      obtain ⟨e1, he1, rfl⟩ := List.mem_map.1 he'
      obtain ⟨e, he, rfl⟩ := List.mem_map.1 he1
      simp only [hb, rg_subtract] at hd'
      obtain ⟨i, hi, hd'⟩ := List.mem_mapIdx.1 hd'
      have hmem : ∀ d ∈ (if rgEff ngroups suppress = true then suppressOne fl.dnu fl.pers e.2.1 else e.2.1),
          ¬ Has d fl.chargeloss := by
        have hno : ∀ d ∈ e.2.1, ¬ Has d fl.chargeloss := fun d hd h => hl row hr p hp ⟨e, he, d, hd, h⟩
        split
        · exact rf_suppress_mem _ _ _ hdc _ hno
        · exact hno
      apply hmem _ (List.getElem_mem hi)
      rw [← hd'] at hc
      split at hc
      · exact rg_has_clear_mono hc
      · exact hc

theorem rg_prepare_after (fl : Flags) (sqrt : α → α) (nframes : Nat) (s : Bool) (k : Nat) (p : RPix α)
    (h : s = true → ∀ e ∈ rfInts fl s p, ¬ RgOneGood fl.pers (subtractJump fl.jump k e.2.1)) :
    prepare fl sqrt nframes s false
        { p with ints := (rfInts fl s p).map fun e => (e.1, subtractJump fl.jump k e.2.1, e.2.2) }
      = rgClear fl.jump k (prepare fl sqrt nframes s false p) := by
  unfold prepare rgClear
  simp only [Bool.false_eq_true, if_false]
  congr 2
  unfold rfInts at h ⊢
  simp only [List.map_map]
  apply List.map_congr_left
  intro e he
  simp only [Function.comp_apply]
  congr 2
  cases s
  · simp
  · have := h rfl _ (List.mem_map_of_mem he)
    simp only [if_true] at this ⊢
    rw [rg_suppress _ _ (subtractJump _ _ _), if_neg this]

/-- Fitting again with least squares: given the exposure as the first call left it, with the read noise put back, a second call
has the same result and leaves the group DQ as it is, if the group DQ is not kept for the treatment of charge loss (another
algorithm name than OLS_C, or no group with CHARGELOSS) and, with suppression, the first call left no ramp with exactly one
usable group.  Missing: charge loss and ramps that get their only usable group from the first call, see
`C140_suppressed_late` and `C140_charge_loss_again`; read noise scaled twice, see `C94_second_fit_differs`. -/
theorem C140_again_partial {γ : Type*} (fl : Flags) (b : Nat) (hb : fl.jump = 2 ^ b) (hdj : ¬ Has fl.dnu fl.jump)
    (hdc : ¬ Has fl.dnu fl.chargeloss) (cfg : Cfg α) (lik : List (List (RPix α)) → γ) (miri : Bool) (nframes ngroups : Nat)
    (algorithm : List Char) (ha : ¬ (RfLikely algorithm ∧ 4 ≤ ngroups)) (suppress : Bool) (maxCores : List Char) (ncpu : Nat)
    (rows : List (List (RPix α))) (hlost : ¬ RfOlsC algorithm ∨ ∀ row ∈ rows, ∀ p ∈ row, ¬ RfLost fl p)
    (hone : suppress = false ∨ ngroups = 1 ∨
      ∀ row ∈ dqAfter fl miri ngroups suppress rows, ∀ p ∈ row, ∀ e ∈ p.ints, ¬ RgOneGood fl.pers e.2.1) :
    (rampFit fl cfg lik miri nframes ngroups algorithm suppress maxCores ncpu (dqAfter fl miri ngroups suppress rows)).1
        = (rampFit fl cfg lik miri nframes ngroups algorithm suppress maxCores ncpu rows).1
    ∧ dqAfter fl miri ngroups suppress (dqAfter fl miri ngroups suppress rows) = dqAfter fl miri ngroups suppress rows := by
  have hu : usesLikely algorithm ngroups = false := by rw [← Bool.not_eq_true, rf_uses]; exact ha
  obtain ⟨k1, k2⟩ := rg_keep_after fl b hb hdc miri ngroups suppress algorithm rows hlost
  have hone' : rgEff ngroups suppress = true → ∀ row ∈ rows, ∀ p ∈ row, ∀ e ∈ rfInts fl (rgEff ngroups suppress) p,
      ¬ RgOneGood fl.pers (subtractJump fl.jump (rgK fl miri ngroups (rgEff ngroups suppress) rows) e.2.1) := by
    intro hs row hr p hp e he
    rw [rgEff, Bool.and_eq_true, decide_eq_true_iff] at hs
    rcases hone with h | h | h
    · rw [h] at hs; simp at hs
    · exact absurd h hs.2
    · rw [rg_dqAfter] at h
      exact h _ (List.mem_map_of_mem hr) _ (List.mem_map_of_mem hp) _ (List.mem_map_of_mem he)
  have hjobs : ((dqAfter fl miri ngroups suppress rows).map fun row =>
        row.map (prepare fl cfg.sqrt nframes (rgEff ngroups suppress) false))
      = (rows.map fun row => row.map (prepare fl cfg.sqrt nframes (rgEff ngroups suppress) false)).map fun row =>
        row.map (rgClear fl.jump (rgK fl miri ngroups (rgEff ngroups suppress) rows)) := by
    rw [rg_dqAfter, List.map_map, List.map_map]
    apply List.map_congr_left
    intro row hr
    simp only [Function.comp_apply, List.map_map]
    apply List.map_congr_left
    intro p hp
    simp only [Function.comp_apply]
    exact rg_prepare_after fl cfg.sqrt nframes _ _ p fun hs => hone' hs row hr p hp
  constructor
  · simp only [rampFit, hu, Bool.false_eq_true, if_false, k1, k2, rg_eff]
    rw [hjobs, rg_multi fl b hb hdj]
    rw [rgK, rg_planes]
  · have hints : ∀ row ∈ rows, ∀ p ∈ row, ∀ e ∈ rfInts fl (rgEff ngroups suppress) p,
        (if rgEff ngroups suppress = true then
            suppressOne fl.dnu fl.pers (subtractJump fl.jump (rgK fl miri ngroups (rgEff ngroups suppress) rows) e.2.1)
          else subtractJump fl.jump (rgK fl miri ngroups (rgEff ngroups suppress) rows) e.2.1)
        = subtractJump fl.jump (rgK fl miri ngroups (rgEff ngroups suppress) rows) e.2.1 := by
      intro row hr p hp e he
      split
      · rename_i hs
        rw [rg_suppress, if_neg (hone' hs row hr p hp e he)]
      · rfl
    have hk : rgK fl miri ngroups (rgEff ngroups suppress) (dqAfter fl miri ngroups suppress rows)
        = rgK fl miri ngroups (rgEff ngroups suppress) rows := by
      have hpl : rfPlanes fl (rgEff ngroups suppress) ngroups (dqAfter fl miri ngroups suppress rows)
          = planes ngroups ((rows.map fun row => row.map (prepare fl cfg.sqrt nframes (rgEff ngroups suppress) false)).map
            fun row => row.map (rgClear fl.jump (rgK fl miri ngroups (rgEff ngroups suppress) rows))) := by
        rw [← hjobs, rg_planes]
      unfold rgK at hpl ⊢
      split
      · rename_i hm
        rw [hpl]
        rw [hb] at hdj ⊢
        rw [rg_cleared_clear hdj, rg_planes]
      · rfl
    rw [rg_dqAfter, hk]
    conv_rhs => rw [rg_dqAfter]
    conv_lhs => rw [rg_dqAfter]
    rw [List.map_map]
    apply List.map_congr_left
    intro row hr
    simp only [Function.comp_apply, List.map_map]
    apply List.map_congr_left
    intro p hp
    simp only [Function.comp_apply]
    congr 1
    conv_lhs => rw [rfInts]
    simp only [List.map_map]
    apply List.map_congr_left
    intro e he
    simp only [Function.comp_apply]
    rw [hints row hr p hp e he]
    congr 2
    rw [hb, rg_subtract, rg_subtract]
    apply List.ext_getElem?
    intro i
    rw [List.getElem?_mapIdx, List.getElem?_mapIdx]
    cases e.2.1[i]? with
    | none => rfl
    | some d =>
      simp only [Option.map_some]
      split
      · rw [rg_clear_clear]
      · rfl

/-- For instruments other than MIRI, and for one group, the condition on suppression is always met. -/
theorem C140_again_not_miri_partial {γ : Type*} (fl : Flags) (b : Nat) (hb : fl.jump = 2 ^ b) (hdj : ¬ Has fl.dnu fl.jump)
    (hdc : ¬ Has fl.dnu fl.chargeloss) (hdp : ∃ i, fl.dnu.testBit i = true ∧ fl.pers.testBit i = false) (cfg : Cfg α)
    (lik : List (List (RPix α)) → γ) (miri : Bool) (nframes ngroups : Nat) (hm : miri = false ∨ ngroups ≤ 1)
    (algorithm : List Char) (ha : ¬ (RfLikely algorithm ∧ 4 ≤ ngroups)) (suppress : Bool) (maxCores : List Char) (ncpu : Nat)
    (rows : List (List (RPix α))) (hlost : ¬ RfOlsC algorithm ∨ ∀ row ∈ rows, ∀ p ∈ row, ¬ RfLost fl p) :
    (rampFit fl cfg lik miri nframes ngroups algorithm suppress maxCores ncpu (dqAfter fl miri ngroups suppress rows)).1
        = (rampFit fl cfg lik miri nframes ngroups algorithm suppress maxCores ncpu rows).1
    ∧ dqAfter fl miri ngroups suppress (dqAfter fl miri ngroups suppress rows) = dqAfter fl miri ngroups suppress rows := by
  apply C140_again_partial fl b hb hdj hdc cfg lik miri nframes ngroups algorithm ha suppress maxCores ncpu rows hlost
  by_cases hs : rgEff ngroups suppress = true
  · right; right
    intro row' hr' p' hp' e' he'
    rw [rg_dqAfter] at hr'
    obtain ⟨row, hr, rfl⟩ := List.mem_map.1 hr'
    obtain ⟨p, hp, rfl⟩ := List.mem_map.1 hp'
    obtain ⟨e1, he1, rfl⟩ := List.mem_map.1 he'
    obtain ⟨e, he, rfl⟩ := List.mem_map.1 he1
    have hk : rgK fl miri ngroups (rgEff ngroups suppress) rows = 0 := by
      unfold rgK
      rw [if_neg]
      rcases hm with h | h
      · rw [h]; simp
      · have : ¬ 1 < ngroups := by omega
        simp [this]
    have h0 : ∀ g : List Nat, subtractJump fl.jump 0 g = g := by
      intro g
      rw [hb, rg_subtract]
      apply List.ext_getElem?
      intro i
      rw [List.getElem?_mapIdx]
      cases g[i]? with
      | none => rfl
      | some d =>
        have : ¬ (1 ≤ i ∧ i ≤ 0) := by omega
        simp only [Option.map_some, if_neg this]
    simp only [hk, h0, if_pos hs]
    rw [rg_suppress]
    split
    · rintro ⟨j, ⟨hj, hu⟩, -⟩
      obtain ⟨i, h1, h2⟩ := hdp
      rw [List.getElem_map] at hu
      have := hu i (by rw [Nat.testBit_or, h1, Bool.or_true])
      rw [h2] at this
      simp at this
    · assumption
  · rw [rgEff, Bool.and_eq_true, decide_eq_true_iff] at hs
    by_cases h : suppress = true
    · right; left
      by_contra hn
      exact hs ⟨h, hn⟩
    · left; simpa using h

end

/-! ## Examples and findings for C140 -/

/-- Least squares on exposures of `ngroups` groups, one process. -/
def rgRun (miri : Bool) (ngroups : Nat) (suppress : Bool) (rows : List (List (RPix ℚ))) : Outcome Unit ℚ × List (List ℚ) :=
  rampFit exFlags { exCfg with sqrt := fun x => x / 2 } (fun _ => ()) miri 1 ngroups "OLS_C".toList suppress
    ['n', 'o', 'n', 'e'] 4 rows

/-- The group DQ of an exposure. -/
def rgDq (rows : List (List (RPix ℚ))) : List (List (List (List Nat))) :=
  rows.map fun row => row.map fun p => p.ints.map fun e => e.2.1

/-- Two MIRI pixels: in the first, all groups are flagged, the second as a jump; the first group is dead. -/
def rgMiriA : RPix ℚ := ⟨some 2, 3, 0, 0, [([some 5, some 8, some 13, some 15], [1, 4, 1, 1], none)]⟩
def rgMiriB : RPix ℚ := ⟨some 2, 3, 0, 0, [([some 5, some 8, some 13, some 15], [1, 0, 0, 0], none)]⟩

example : rgDq (dqAfter exFlags true 4 false [[rgMiriA, rgMiriB]]) = [[[[1, 0, 1, 1]], [[1, 0, 0, 0]]]]
    ∧ rgDq (dqAfter exFlags false 4 false [[rgMiriA, rgMiriB]]) = rgDq [[rgMiriA, rgMiriB]]
    ∧ rgDq (dqAfter exFlags false 3 true [[⟨some 2, 3, 0, 0, [([some 5, some 8, some 13], [0, 1, 4], none)]⟩]])
      = [[[[1, 1, 5]]]] := by decide +kernel

/-- Hypotheses of `C140_group_dq_left`, `C140_again_partial` and `C140_again_not_miri_partial`. -/
example : exFlags.jump = 2 ^ 2 ∧ exFlags.dnu ≠ 0 ∧ ¬ Has exFlags.dnu exFlags.jump ∧ ¬ Has exFlags.dnu exFlags.chargeloss
    ∧ (∀ row ∈ [[rgMiriA, rgMiriB]], ∀ p ∈ row, ∀ e ∈ p.ints, e.2.1.length = 4)
    ∧ (∀ row ∈ [[rgMiriA, rgMiriB]], ∀ p ∈ row, ¬ RfLost exFlags p)
    ∧ (exFlags.dnu.testBit 0 = true ∧ exFlags.pers.testBit 0 = false) := by decide
example : ¬ RgOneGood exFlags.pers [1, 0, 0, 0] := by
  rintro ⟨j, -, h⟩
  have h1 := h 1 ⟨by decide, fun i hi => by simp at hi⟩
  have h2 := h 2 ⟨by decide, fun i hi => by simp at hi⟩
  omega

/-- The first call on a MIRI exposure counts usable groups before it removes JUMP_DET from the first remaining group: a ramp that
has one usable group only after that is fitted although suppression was requested, and a second call suppresses it. -/
theorem C140_suppressed_late :
    ∃ rows : List (List (RPix ℚ)), (∀ row ∈ rows, ∀ p ∈ row, ¬ RfLost exFlags p)
      ∧ rfRates (rgRun true 4 true rows).1 = some [[(some (4 / 5), 9 / 50), (some (7 / 20), 9 / 200)]]
      ∧ rfRates (rgRun true 4 true (dqAfter exFlags true 4 true rows)).1 = some [[(none, 0), (some (7 / 20), 9 / 200)]] :=
  ⟨[[rgMiriA, rgMiriB]], by decide, by decide +kernel, by decide +kernel⟩

/-- With charge loss the group DQ is copied before the suppression in the first call, and after it in the second: the read-noise
variance of a suppressed ramp changes. -/
theorem C140_charge_loss_again :
    ∃ rows : List (List (RPix ℚ)),
      rfRates (rgRun false 3 true rows).1 ≠ rfRates (rgRun false 3 true (dqAfter exFlags false 3 true rows)).1 :=
  ⟨[[⟨some 2, 3, 0, 0, [([some 5, some 8, some 13], [0, 129, 129], none)]⟩, rfPixelA]], by decide +kernel⟩

end Verif.Thm
