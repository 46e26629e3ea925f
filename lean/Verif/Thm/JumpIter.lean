import Verif.Proof.JumpIter
import Verif.Thm.Jump

/-!
# Iterative jump detection: property C66
-/

set_option linter.unusedSectionVars false

namespace Verif.Thm

open Verif Verif.Jump

variable {α : Type} [Field α] [LinearOrder α]

/-- Specification: with the differences `fa` still in use and reference level `m`, the
difference `(i, j)` deviates from the reference by `r` noise units. -/
def Deviates (p : Params α) (sqrt : α → α) (rn2 : α) (fa : List (List (Option α)))
    (i j : Nat) (r : α) : Prop :=
  ∃ d m, at2 fa i j = some d ∧ calcMed fa.flatten = some m ∧
    let s := sqrt (|m| * p.dt j + rn2 / (1 / 2 * p.nReads j)) / p.dt j
    s ≠ 0 ∧ r = |d - m| / s

/-- Specification: the rejection threshold that applies with `n` differences in use. -/
def Applies (p : Params α) (n : Nat) (t : α) : Prop :=
  (4 ≤ n ∧ t = p.normalThresh) ∨ (n = 3 ∧ t = p.threeThresh) ∨ (n = 2 ∧ t = p.twoThresh)

/-- Number of differences still in use. -/
def inUse (fa : List (List (Option α))) : Nat := (fa.flatten.filter Option.isSome).length

theorem inUse_eq (fa : List (List (Option α))) : inUse fa = (finite fa.flatten).length := by
  unfold inUse finite
  induction fa.flatten with
  | nil => rfl
  | cons x l ih =>
    cases x with
    | none => simpa using ih
    | some v => simpa using ih

theorem applies_iff (p : Params α) (n : Nat) (t : α) :
    threshold p n = some t ↔ Applies p n t := by
  unfold threshold Applies
  split_ifs with h1 h2 h3
  · simp only [Option.some.injEq]; constructor
    · rintro rfl; exact Or.inl ⟨h1, rfl⟩
    · rintro (⟨_, h⟩ | ⟨h, _⟩ | ⟨h, _⟩)
      · exact h.symm
      · omega
      · omega
  · simp only [Option.some.injEq]; constructor
    · rintro rfl; exact Or.inr (Or.inl ⟨h2, rfl⟩)
    · rintro (⟨h, _⟩ | ⟨_, h⟩ | ⟨h, _⟩)
      · omega
      · exact h.symm
      · omega
  · simp only [Option.some.injEq]; constructor
    · rintro rfl; exact Or.inr (Or.inr ⟨h3, rfl⟩)
    · rintro (⟨h, _⟩ | ⟨h, _⟩ | ⟨_, h⟩)
      · omega
      · omega
      · exact h.symm
  · simp only [false_iff]
    rintro (⟨h, _⟩ | ⟨h, _⟩ | ⟨h, _⟩) <;> omega

theorem deviates_iff (p : Params α) (sqrt : α → α) (rn2 : α) (fa : List (List (Option α)))
    (i j : Nat) (r : α) :
    at2 (ratios p sqrt rn2 fa) i j = some r ↔ Deviates p sqrt rn2 fa i j r := by
  rw [ratios_at2]
  unfold Deviates
  constructor
  · intro h
    cases hd : at2 fa i j with
    | none => simp [hd, ratio] at h
    | some d =>
      cases hm : calcMed fa.flatten with
      | none => simp [hd, hm, ratio] at h
      | some m =>
        cases hs : sigma p sqrt rn2 (some m) j with
        | none => simp [hd, hm, hs, ratio] at h
        | some s =>
          obtain ⟨m', hm', hsv, hs0⟩ := (sigma_some p sqrt rn2 (some m) j s).mp hs
          cases hm'
          simp only [hd, hm, hs, ratio, Option.some.injEq] at h
          refine ⟨d, m, rfl, rfl, ?_⟩
          simp only
          rw [← hsv]
          exact ⟨hs0, h.symm⟩
  · rintro ⟨d, m, hd, hm, hs0, rfl⟩
    have hs := (sigma_some p sqrt rn2 (some m) j _).mpr ⟨m, rfl, rfl, hs0⟩
    rw [hd, hm, hs]
    rfl

/-- The absolute first differences with which the loop starts. -/
def absDiffs (fds : List (List (Option α))) : List (List (Option α)) :=
  fds.map (fun row => row.map (fun x => x.map (fun v => |v|)))

/-- Loop invariant and result. -/
theorem iterLoop_spec (p : Params α) (sqrt : α → α) (rn2 : α) (fa0 : List (List (Option α))) :
    ∀ (fuel : Nat) (fa : List (List (Option α))) (acc : List (List Bool)),
      SameShape fa acc → (finite fa.flatten).length ≤ fuel →
      (∀ i j, at2 fa i j = if bat2 acc i j = true then none else at2 fa0 i j) →
      let res := iterLoop p sqrt rn2 fuel fa acc
      SameShape fa res.2 ∧
      (∀ i j, at2 res.1 i j = if bat2 res.2 i j = true then none else at2 fa0 i j) ∧
      (∀ i j, bat2 acc i j = true → bat2 res.2 i j = true) ∧
      (∀ i j, bat2 res.2 i j = true → bat2 acc i j = true ∨
        ∃ mid r t, (∀ i' j', at2 mid i' j' = at2 fa0 i' j' ∨
            (at2 mid i' j' = none ∧ bat2 res.2 i' j' = true)) ∧
          Deviates p sqrt rn2 mid i j r ∧ Applies p (inUse mid) t ∧ t < r ∧
          ∀ i' j' r', Deviates p sqrt rn2 mid i' j' r' → r' ≤ r) ∧
      (∀ i j r t, Deviates p sqrt rn2 res.1 i j r → Applies p (inUse res.1) t → r ≤ t) := by
  -- when nothing new is found, no deviation exceeds the threshold
  have hstop : ∀ fa : List (List (Option α)), (¬ ∃ i j, bat2 (newCr p sqrt rn2 fa) i j = true) →
      ∀ i j r t, Deviates p sqrt rn2 fa i j r → Applies p (inUse fa) t → r ≤ t := by
    intro fa hno i j r t hr ht
    by_contra hlt
    push Not at hlt
    rw [inUse_eq] at ht
    have hr' := (deviates_iff p sqrt rn2 fa i j r).mpr hr
    obtain ⟨m, hm⟩ := nanmax_exists _ _ ((mem_at2 _ r).mpr ⟨i, j, hr'⟩)
    obtain ⟨hmem, hle⟩ := nanmax_spec _ _ hm
    obtain ⟨i', j', hij⟩ := (mem_at2 _ m).mp hmem
    apply hno
    refine ⟨i', j', (newCr_bat2 p sqrt rn2 fa i' j').mpr ⟨m, t, hij, (applies_iff _ _ _).mpr ht, ?_, ?_⟩⟩
    · exact lt_of_lt_of_le hlt (hle r ((mem_at2 _ r).mpr ⟨i, j, hr'⟩))
    · intro i2 j2 r2 h2
      exact hle r2 ((mem_at2 _ r2).mpr ⟨i2, j2, h2⟩)
  intro fuel
  induction fuel with
  | zero =>
    intro fa acc hsh hfuel hinv
    simp only [iterLoop]
    refine ⟨hsh, hinv, fun _ _ h => h, fun _ _ h => Or.inl h, ?_⟩
    apply hstop
    rintro ⟨i, j, h⟩
    obtain ⟨r, t, _, ht, _⟩ := (newCr_bat2 p sqrt rn2 fa i j).mp h
    have h0 : (finite fa.flatten).length = 0 := by omega
    rw [h0] at ht
    simp [threshold] at ht
  | succ fuel ih =>
    intro fa acc hsh hfuel hinv
    have hdef : iterLoop p sqrt rn2 (fuel + 1) fa acc =
        if (newCr p sqrt rn2 fa).flatten.any (fun b => b) = false then (fa, acc)
        else iterLoop p sqrt rn2 fuel (maskNew fa (newCr p sqrt rn2 fa))
          (orFlags acc (newCr p sqrt rn2 fa)) := rfl
    rw [hdef]
    have hnsh := sameShape_newCr p sqrt rn2 fa
    by_cases hany : (newCr p sqrt rn2 fa).flatten.any (fun b => b) = false
    · rw [if_pos hany]
      refine ⟨hsh, hinv, fun _ _ h => h, fun _ _ h => Or.inl h, ?_⟩
      apply hstop
      intro h
      have := (any_bat2 _).mpr h
      rw [hany] at this
      exact Bool.false_ne_true this
    · rw [if_neg hany]
      have hex := (any_bat2 (newCr p sqrt rn2 fa)).mp (by simpa using hany)
      set new := newCr p sqrt rn2 fa with hnew
      have hanew : SameShape acc new := hsh.symm.trans hnsh
      have hmsh : SameShape fa (maskNew fa new) := sameShape_zipWith _ _ _ hnsh
      have hosh : SameShape acc (orFlags acc new) := sameShape_zipWith _ _ _ hanew
      have hfin : (finite (maskNew fa new).flatten).length < (finite fa.flatten).length := by
        apply (finite_maskNew fa new).2
        obtain ⟨i, j, h⟩ := hex
        obtain ⟨r, t, hr, _⟩ := (newCr_bat2 p sqrt rn2 fa i j).mp h
        obtain ⟨d, m, hd, _⟩ := (deviates_iff p sqrt rn2 fa i j r).mp hr
        exact ⟨i, j, d, hd, h⟩
      have hinv' : ∀ i j, at2 (maskNew fa new) i j =
          if bat2 (orFlags acc new) i j = true then none else at2 fa0 i j := by
        intro i j
        rw [maskNew_at2 fa new hnsh, orFlags_bat2 acc new hanew, hinv]
        cases bat2 new i j <;> cases bat2 acc i j <;> simp
      obtain ⟨h1, h2, h3, h4, h5⟩ := ih (maskNew fa new) (orFlags acc new)
        (hmsh.symm.trans (hsh.trans hosh)) (by omega) hinv'
      refine ⟨hmsh.trans h1, h2, ?_, ?_, h5⟩
      · intro i j h
        apply h3
        rw [orFlags_bat2 acc new hanew, h, Bool.true_or]
      · intro i j h
        rcases h4 i j h with h' | h'
        · rw [orFlags_bat2 acc new hanew, Bool.or_eq_true] at h'
          rcases h' with h' | h'
          · exact Or.inl h'
          · right
            obtain ⟨r, t, hr, ht, hlt, hall⟩ := (newCr_bat2 p sqrt rn2 fa i j).mp h'
            refine ⟨fa, r, t, ?_, (deviates_iff _ _ _ _ _ _ _).mp hr, ?_, hlt, ?_⟩
            · intro i' j'
              rw [hinv i' j']
              by_cases hb : bat2 acc i' j' = true
              · right
                rw [if_pos hb]
                refine ⟨rfl, h3 i' j' ?_⟩
                rw [orFlags_bat2 acc new hanew, hb, Bool.true_or]
              · left; rw [if_neg hb]
            · rw [inUse_eq]; exact (applies_iff _ _ _).mp ht
            · intro i' j' r' hr'
              exact hall i' j' r' ((deviates_iff _ _ _ _ _ _ _).mpr hr')
        · exact Or.inr h'

/-- C66.  Iterative two-point detection, for every set of differences:
* the differences left in use are exactly those not flagged, unchanged;
* only numbers are flagged, and each flagged difference was, at some point when a
  subset of the finally flagged ones had been taken out, the largest deviation from
  the reference level of the rest and above the threshold for the number in use;
* at the end no remaining deviation exceeds the threshold for the number in use
  (the bounded loop never stops too early). -/
theorem C66_iterative_fixpoint (p : Params α) (sqrt : α → α) (rn2 : α)
    (fds : List (List (Option α))) :
    let res := iterative p sqrt rn2 fds
    SameShape fds res.2 ∧
    (∀ i j, at2 res.1 i j =
      if bat2 res.2 i j = true then none else at2 (absDiffs fds) i j) ∧
    (∀ i j, bat2 res.2 i j = true →
      ∃ mid r t, (∀ i' j', at2 mid i' j' = at2 (absDiffs fds) i' j' ∨
          (at2 mid i' j' = none ∧ bat2 res.2 i' j' = true)) ∧
        Deviates p sqrt rn2 mid i j r ∧ Applies p (inUse mid) t ∧ t < r ∧
        ∀ i' j' r', Deviates p sqrt rn2 mid i' j' r' → r' ≤ r) ∧
    (∀ i j r t, Deviates p sqrt rn2 res.1 i j r → Applies p (inUse res.1) t → r ≤ t) := by
  have hacc : ∀ i j, bat2 (fds.map (fun row => row.map (fun _ => false))) i j = false := by
    intro i j
    unfold bat2
    simp only [List.getElem?_map]
    cases fds[i]? with
    | none => simp
    | some row =>
      simp only [Option.map_some, Option.getD_some, List.getElem?_map]
      cases row[j]? <;> simp
  have hsh : SameShape (absDiffs fds) (fds.map (fun row => row.map (fun _ => false))) := by
    simp [SameShape, absDiffs, Function.comp_def]
  have hfuel : (finite (absDiffs fds).flatten).length ≤ fds.flatten.length := by
    refine le_trans (List.length_filterMap_le _ _) ?_
    simp [absDiffs, Function.comp_def, List.length_flatten]
  obtain ⟨h1, h2, _, h4, h5⟩ := iterLoop_spec p sqrt rn2 (absDiffs fds) fds.flatten.length
    (absDiffs fds) _ hsh hfuel (by intro i j; rw [hacc]; simp)
  refine ⟨?_, h2, ?_, h5⟩
  · have : SameShape fds (absDiffs fds) := by simp [SameShape, absDiffs, Function.comp_def]
    exact this.trans h1
  · intro i j h
    rcases h4 i j h with h' | h'
    · rw [hacc] at h'; exact absurd h' Bool.false_ne_true
    · exact h'

/-- C66 (reference level).  With fewer than two differences in use there is no
reference level; with two it is the smaller one; with three their median; with
four or more the median of those below the largest. -/
theorem C66_reference_level [IsStrictOrderedRing α] (l : List (Option α)) (m : α)
    (h : calcMed l = some m) :
    2 ≤ (l.filterMap id).length ∧
    ((l.filterMap id).length = 2 → m ∈ l.filterMap id ∧ ∀ x ∈ l.filterMap id, m ≤ x) ∧
    ((l.filterMap id).length = 3 →
      3 ≤ 2 * (l.filterMap id).countP (fun x => decide (x ≤ m)) ∧
      3 ≤ 2 * (l.filterMap id).countP (fun x => decide (m ≤ x))) ∧
    (4 ≤ (l.filterMap id).length → ∃ mx ∈ l.filterMap id, (∀ x ∈ l.filterMap id, x ≤ mx) ∧
      let rest := (l.filterMap id).filter (fun x => decide (x ≠ mx))
      rest.length ≤ 2 * rest.countP (fun x => decide (x ≤ m)) ∧
      rest.length ≤ 2 * rest.countP (fun x => decide (m ≤ x)) ∧ rest ≠ []) := by
  have hfin : finite l = l.filterMap id := rfl
  have hdef : calcMed l = if (finite l).length < 2 then none
    else if (finite l).length = 2 then nanmin l
    else if (finite l).length ≥ 4 then
      nanmedian (l.map (fun x => if x = nanmax l then none else x))
    else nanmedian l := rfl
  rw [hdef, hfin] at h
  by_cases h2 : (l.filterMap id).length < 2
  · rw [if_pos h2] at h; exact absurd h (by simp)
  rw [if_neg h2] at h
  refine ⟨by omega, ?_, ?_, ?_⟩
  · intro he
    rw [if_pos he] at h
    unfold nanmin at h
    rw [List.min?_eq_some_iff, hfin] at h
    exact h
  · intro he
    rw [if_neg (by omega), if_neg (by omega)] at h
    have := nanmedian_spec l m h
    rw [hfin, he] at this
    exact this
  · intro he
    rw [if_neg (by omega), if_pos he] at h
    obtain ⟨mx, hmx⟩ : ∃ mx, nanmax l = some mx := by
      cases hl : l.filterMap id with
      | nil => rw [hl] at he; simp at he
      | cons x t =>
        apply nanmax_exists l x
        have : x ∈ l.filterMap id := by rw [hl]; simp
        simpa [List.mem_filterMap] using this
    obtain ⟨hm1, hm2⟩ := nanmax_spec l mx hmx
    have hmem : ∀ x, x ∈ l.filterMap id ↔ some x ∈ l := by
      intro x; simp [List.mem_filterMap]
    refine ⟨mx, (hmem mx).mpr hm1, fun x hx => hm2 x ((hmem x).mp hx), ?_⟩
    have hrest : finite (l.map (fun x => if x = nanmax l then none else x)) =
        (l.filterMap id).filter (fun x => decide (x ≠ mx)) := by
      rw [hmx]
      unfold finite
      clear * -
      induction l with
      | nil => rfl
      | cons y l ih =>
        cases y with
        | none => simpa using ih
        | some v =>
          by_cases hv : v = mx
          · subst hv; simpa using ih
          · simpa [hv] using ih
    have hsp := nanmedian_spec _ m h
    rw [hrest] at hsp
    refine ⟨hsp.1, hsp.2, ?_⟩
    intro hnil
    have : nanmedian (l.map (fun x => if x = nanmax l then none else x)) = none := by
      rw [nanmedian_none_iff, hrest]; exact hnil
    rw [this] at h
    exact absurd h (by simp)

/-- Example: two jumps of different size in one integration are both found, one per
pass (identity as square root). -/
example : (iterative exJump (fun x => x) (1 / 8)
    [[some 1, some 90, some 1, some (-40), some 1, none, some 1]]).2 =
    [[false, true, false, true, false, false, false]] := by decide +kernel

/-- Example: two usable differences, below and above the two-difference threshold. -/
example : ((iterative exJump (fun x => x) (1 / 2) [[some 1, some 7]]).2,
    (iterative exJump (fun x => x) (1 / 2) [[some 1, some 16]]).2) =
    ([[false, false]], [[false, true]]) := by decide +kernel

end Verif.Thm
