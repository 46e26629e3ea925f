import Verif.Model.Jump
import Mathlib.Tactic.Ring
import Mathlib.Tactic.Linarith
import Mathlib.Data.List.Sort
import Mathlib.Order.Lattice
import Mathlib.Data.Nat.Bitwise
import Mathlib.Data.List.MinMax

/-! Helper lemmas about the jump model. -/

set_option linter.unusedSectionVars false

namespace Verif.Jump

variable {α : Type} [Field α] [LinearOrder α]

/-! ### bits -/

theorem and_two_pow_eq_iff (w a b : Nat) :
    w &&& (2 ^ a ||| 2 ^ b) = (2 ^ a ||| 2 ^ b) ↔ w.testBit a = true ∧ w.testBit b = true := by
  constructor
  · intro h
    have h1 := congrArg (fun x => x.testBit a) h
    have h2 := congrArg (fun x => x.testBit b) h
    simp only [Nat.testBit_and, Nat.testBit_or, Nat.testBit_two_pow_self, Bool.true_or,
      Bool.or_true, Bool.and_true] at h1 h2
    exact ⟨h1, h2⟩
  · rintro ⟨h1, h2⟩
    apply Nat.eq_of_testBit_eq
    intro i
    simp only [Nat.testBit_and, Nat.testBit_or, Nat.testBit_two_pow]
    by_cases ha : a = i
    · subst ha; simp [h1]
    · by_cases hb : b = i
      · subst hb; simp [h2]
      · simp [ha, hb]

theorem and_two_pow_eq_zero (w a b : Nat) :
    w &&& (2 ^ a ||| 2 ^ b) = 0 ↔ w.testBit a = false ∧ w.testBit b = false := by
  constructor
  · intro h
    have h1 := congrArg (fun x => x.testBit a) h
    have h2 := congrArg (fun x => x.testBit b) h
    simp only [Nat.testBit_and, Nat.testBit_or, Nat.testBit_two_pow_self, Bool.true_or,
      Bool.or_true, Bool.and_true, Nat.zero_testBit] at h1 h2
    exact ⟨h1, h2⟩
  · rintro ⟨h1, h2⟩
    apply Nat.eq_of_testBit_eq
    intro i
    simp only [Nat.testBit_and, Nat.testBit_or, Nat.testBit_two_pow, Nat.zero_testBit]
    by_cases ha : a = i
    · subst ha; simp [h1]
    · by_cases hb : b = i
      · subst hb; simp [h2]
      · simp [ha, hb]

theorem cleanup_testBit (p : Params α) (a b c w : Nat) (hj : p.jump = 2 ^ a) (hd : p.dnu = 2 ^ b)
    (hs : p.sat = 2 ^ c) (hab : a ≠ b) (hac : a ≠ c) (i : Nat) :
    (cleanup p w).testBit i =
      if i = a then w.testBit a && !w.testBit b && !w.testBit c else w.testBit i := by
  have hxor : ∀ (u k : Nat), (u ^^^ 2 ^ a).testBit k =
      (if k = a then !u.testBit k else u.testBit k) := by
    intro u k
    rw [Nat.testBit_xor, Nat.testBit_two_pow]
    by_cases hk : k = a
    · subst hk; simp
    · have : ¬ a = k := fun h => hk h.symm
      simp [hk, this]
  simp only [cleanup, hj, hd, hs, and_two_pow_eq_iff]
  by_cases hw : w.testBit a = true ∧ w.testBit b = true
  · have e : (if w.testBit a = true ∧ w.testBit b = true then w ^^^ 2 ^ a else w) = w ^^^ 2 ^ a :=
      if_pos hw
    have h1 : ¬ ((w ^^^ 2 ^ a).testBit a = true) := by simp [hxor, hw.1]
    rw [e, if_neg (fun h => h1 h.1), hxor]
    by_cases hi : i = a
    · subst hi; simp [hw.1, hw.2]
    · simp [hi]
  · have e : (if w.testBit a = true ∧ w.testBit b = true then w ^^^ 2 ^ a else w) = w := if_neg hw
    rw [e]
    by_cases hwc : w.testBit a = true ∧ w.testBit c = true
    · rw [if_pos hwc, hxor]
      by_cases hi : i = a
      · subst hi; simp [hwc.1, hwc.2]
      · simp [hi]
    · rw [if_neg hwc]
      by_cases hi : i = a
      · subst hi
        cases h1 : w.testBit i <;> cases h2 : w.testBit b <;> cases h3 : w.testBit c <;>
          simp_all
      · simp [hi]

/-! ### propagation -/

theorem foldl_stepA (flag : Nat → Nat → Bool) (m g x : Nat) :
    ((List.range m).foldl (fun f j => stepA j f) flag) g x = true ↔
      ∃ i, i ≤ m ∧ i ≤ g ∧ flag (g - i) x = true := by
  induction m generalizing g with
  | zero =>
    simp only [List.range_zero, List.foldl_nil]
    constructor
    · intro h; exact ⟨0, le_refl _, Nat.zero_le _, by simpa using h⟩
    · rintro ⟨i, h1, _, h3⟩
      have : i = 0 := by omega
      subst this; simpa using h3
  | succ m ih =>
    rw [List.range_succ, List.foldl_append]
    simp only [List.foldl_cons, List.foldl_nil, stepA, Bool.or_eq_true, Bool.and_eq_true,
      decide_eq_true_eq, ih]
    constructor
    · rintro (⟨i, h1, h2, h3⟩ | ⟨h0, i, h1, h2, h3⟩)
      · exact ⟨i, by omega, h2, h3⟩
      · exact ⟨i + 1, by omega, by omega, by rw [show g - (i + 1) = g - 1 - i by omega]; exact h3⟩
    · rintro ⟨i, h1, h2, h3⟩
      rcases Nat.lt_or_ge m i with hlt | hge
      · right
        refine ⟨by omega, m, le_refl _, by omega, ?_⟩
        rw [show g - 1 - m = g - i by omega]; exact h3
      · left; exact ⟨i, hge, h2, h3⟩

theorem propagateFlags_iff (ngroups npix n : Nat) (flag : Nat → Nat → Bool) (g x : Nat)
    (hg : g < ngroups) (h0 : flag 0 x = false) :
    propagateFlags ngroups npix n flag g x = true ↔
      ∃ g0, g0 ≤ g ∧ g ≤ g0 + n ∧ flag g0 x = true := by
  have hA : ∀ m : Nat, ((n ≤ m ∨ ngroups - 2 ≤ m) ∧ m ≤ n) →
      (((List.range m).foldl (fun f j => stepA j f) flag) g x = true ↔
      ∃ g0, g0 ≤ g ∧ g ≤ g0 + n ∧ flag g0 x = true) := by
    intro m hm
    rw [foldl_stepA]
    constructor
    · rintro ⟨i, h1, h2, h3⟩
      exact ⟨g - i, by omega, by omega, h3⟩
    · rintro ⟨g0, h1, h2, h3⟩
      have hg0 : g0 ≠ 0 := by
        intro hc; subst hc; rw [h0] at h3; exact absurd h3 (by simp)
      exact ⟨g - g0, by omega, by omega, by rw [show g - (g - g0) = g0 by omega]; exact h3⟩
  simp only [propagateFlags]
  split
  · apply hA
    omega
  · split
    · rename_i hpos
      simp only [Bool.or_eq_true, List.any_eq_true, List.mem_range, Bool.and_eq_true,
        decide_eq_true_eq]
      constructor
      · rintro (h | ⟨g0, h1, ⟨h2, h3⟩, h4⟩)
        · exact ⟨g, le_refl _, by omega, h⟩
        · exact ⟨g0, h3, by omega, h2⟩
      · rintro ⟨g0, h1, h2, h3⟩
        right
        exact ⟨g0, by omega, ⟨h3, h1⟩, by omega⟩
    · rename_i hneg
      have := hA 0
      simp only [List.range_zero, List.foldl_nil] at this
      apply this
      omega

/-! ### slices -/

/-- Closed form of the reassembled image. -/
theorem reassemble_eq (nrows n yinc : Nat) (res : Nat → PlaneRes) (gdq : Img Nat)
    (hn : 1 ≤ n) (hy : 1 ≤ yinc) (hle : n * yinc ≤ nrows) (r c : Nat) (hr : r < nrows) :
    reassemble nrows n yinc res gdq r c =
      let s := min (r / yinc) (n - 1)
      (res s).gdq (r - s * yinc) c |||
        (if r + 1 = (s + 1) * yinc ∧ s + 1 < n then (res (s + 1)).below c else 0) |||
        (if r = s * yinc ∧ 0 < s then (res (s - 1)).above c else 0) := by
  have key : ∀ k, 1 ≤ k → k ≤ n →
      (((List.range k).foldl (asmStep nrows n yinc res)
        { gdq := gdq, prevAbove := fun _ => 0 }).prevAbove = (res (k - 1)).above) ∧
      ∀ r c, r < (if k = n then nrows else k * yinc) →
        ((List.range k).foldl (asmStep nrows n yinc res)
          { gdq := gdq, prevAbove := fun _ => 0 }).gdq r c =
        let s := min (r / yinc) (n - 1)
        (res s).gdq (r - s * yinc) c |||
          (if r + 1 = (s + 1) * yinc ∧ s + 1 < k then (res (s + 1)).below c else 0) |||
          (if r = s * yinc ∧ 0 < s then (res (s - 1)).above c else 0) := by
    intro k hk
    induction k, hk using Nat.le_induction with
    | base =>
      intro _
      refine ⟨by simp [asmStep], ?_⟩
      intro r c hr
      have hs : min (r / yinc) (n - 1) = 0 := by
        by_cases h1 : n = 1
        · subst h1; simp
        · rw [if_neg (by omega)] at hr
          have : r / yinc = 0 := Nat.div_eq_of_lt (by omega)
          simp [this]
      simp only [hs]
      have hr' : r < (if n = 0 + 1 then nrows else (0 + 1) * yinc) := by
        by_cases h1 : n = 1
        · simp only [h1, if_true] at hr; simpa [h1] using hr
        · have : ¬ (1 = n) := by omega
          simp only [this, if_false] at hr
          simp [h1]; omega
      simp only [List.range_one, List.foldl_cons, List.foldl_nil, asmStep]
      simp only [ne_eq, not_true, if_false]
      rw [if_pos ⟨by omega, hr'⟩]
      simp
    | succ k hk1 ih =>
      intro hkn
      obtain ⟨ihp, ihg⟩ := ih (by omega)
      rw [List.range_succ, List.foldl_append]
      simp only [List.foldl_cons, List.foldl_nil]
      refine ⟨by simp [asmStep], ?_⟩
      intro r c hr
      simp only [asmStep]
      have hk0 : k ≠ 0 := by omega
      have hkn' : k ≠ n := by omega
      simp only [hk0, ne_eq, not_false_eq_true, if_true]
      rw [ihp]
      simp only [hkn', if_false] at ihg
      -- stop
      set stop := if n = k + 1 then nrows else (k + 1) * yinc with hstop
      have hrstop : r < stop := by
        rw [hstop]
        by_cases h1 : n = k + 1
        · rw [if_pos h1]; rw [if_pos h1.symm] at hr; exact hr
        · rw [if_neg h1]; rw [if_neg (fun h => h1 h.symm)] at hr; exact hr
      rcases Nat.lt_or_ge r (k * yinc) with hlt | hge
      · -- row of an earlier slice
        have hnot : ¬ (k * yinc ≤ r ∧ r < stop) := by omega
        have hne : r ≠ k * yinc := by omega
        rw [if_neg hne]
        have hdiv : r / yinc < k := (Nat.div_lt_iff_lt_mul (by omega)).mpr hlt
        have hs : min (r / yinc) (n - 1) = r / yinc := by omega
        have ih := ihg r c hlt
        simp only [hs] at ih ⊢
        have hmod := Nat.div_add_mod r yinc
        have hml := Nat.mod_lt r (show yinc > 0 by omega)
        have hcomm : yinc * (r / yinc) = r / yinc * yinc := Nat.mul_comm _ _
        have hsucc : (r / yinc + 1) * yinc = r / yinc * yinc + yinc := by ring
        by_cases hlast : r = k * yinc - 1
        · rw [if_pos hlast, if_neg hnot, ih]
          have hdk : r / yinc + 1 = k := by
            have hle2 : r / yinc + 1 ≤ k := by omega
            have hge2 : k ≤ r / yinc + 1 := by
              by_contra hc
              have : (r / yinc + 1) * yinc + yinc ≤ k * yinc := by
                have := Nat.mul_le_mul_right yinc (show r / yinc + 1 + 1 ≤ k by omega)
                have e : (r / yinc + 1 + 1) * yinc = (r / yinc + 1) * yinc + yinc := by ring
                omega
              omega
            omega
          have hrk : r + 1 = (r / yinc + 1) * yinc := by rw [hdk]; omega
          rw [if_neg (show ¬ (r + 1 = (r / yinc + 1) * yinc ∧ r / yinc + 1 < k) by omega),
            if_pos (show r + 1 = (r / yinc + 1) * yinc ∧ r / yinc + 1 < k + 1 from
              ⟨hrk, by omega⟩), hdk]
          simp only [Nat.or_zero]
          rw [Nat.or_assoc, Nat.or_assoc, Nat.or_comm ((res k).below c)]
        · rw [if_neg hlast, if_neg hnot, ih]
          congr 2
          by_cases hcond : r + 1 = (r / yinc + 1) * yinc
          · have : r / yinc + 1 < k := by
              rcases Nat.lt_or_ge (r / yinc + 1) k with h | h
              · exact h
              · have : r / yinc + 1 = k := by omega
                rw [this] at hcond; omega
            rw [if_pos ⟨hcond, this⟩, if_pos ⟨hcond, by omega⟩]
          · rw [if_neg (by tauto), if_neg (by tauto)]
      · -- row of slice k
        have hs : min (r / yinc) (n - 1) = k := by
          by_cases h1 : n = k + 1
          · have : k ≤ r / yinc := (Nat.le_div_iff_mul_le (by omega)).mpr hge
            omega
          · have h2 : stop = (k + 1) * yinc := by rw [hstop, if_neg h1]
            have h3 : r / yinc < k + 1 := (Nat.div_lt_iff_lt_mul (by omega)).mpr (by omega)
            have : k ≤ r / yinc := (Nat.le_div_iff_mul_le (by omega)).mpr hge
            omega
        simp only [hs]
        have hky : 1 ≤ k * yinc := Nat.mul_pos (by omega) (by omega)
        have hlast : ¬ (r = k * yinc - 1) := by omega
        have hin : k * yinc ≤ r ∧ r < stop := ⟨hge, hrstop⟩
        have hbel : ¬ (r + 1 = (k + 1) * yinc ∧ k + 1 < k + 1) := by omega
        rw [if_neg hbel, Nat.or_zero]
        by_cases hfirst : r = k * yinc
        · rw [if_pos hfirst, if_neg hlast, if_pos hin,
            if_pos (show r = k * yinc ∧ 0 < k from ⟨hfirst, by omega⟩)]
        · rw [if_neg hfirst, if_neg hlast, if_pos hin,
            if_neg (show ¬ (r = k * yinc ∧ 0 < k) from fun h => hfirst h.1), Nat.or_zero]
  have := (key n hn (le_refl n)).2 r c (by simpa using hr)
  simpa [reassemble] using this

/-! ### medians -/

theorem countP_le_of_sorted (s : List α) (hs : s.Pairwise (· ≤ ·)) (k : Nat) (hk : k < s.length)
    (v : α) (hv : s[k] ≤ v) : k + 1 ≤ s.countP (fun x => decide (x ≤ v)) := by
  have hsub : (s.take (k + 1)).countP (fun x => decide (x ≤ v)) ≤
      s.countP (fun x => decide (x ≤ v)) := List.Sublist.countP_le (List.take_sublist _ _)
  have hall : (s.take (k + 1)).countP (fun x => decide (x ≤ v)) = (s.take (k + 1)).length := by
    rw [List.countP_eq_length]
    intro a ha
    obtain ⟨i, hi, rfl⟩ := List.getElem_of_mem ha
    have hi' : i < k + 1 := by simp at hi; omega
    simp only [List.getElem_take, decide_eq_true_eq]
    rcases Nat.lt_or_ge i k with h | h
    · exact le_trans (List.pairwise_iff_getElem.mp hs i k (by omega) hk h) hv
    · have : i = k := by omega
      subst this; exact hv
  have hlen : (s.take (k + 1)).length = k + 1 := by simp; omega
  omega

theorem countP_ge_of_sorted (s : List α) (hs : s.Pairwise (· ≤ ·)) (k : Nat) (hk : k < s.length)
    (v : α) (hv : v ≤ s[k]) : s.length - k ≤ s.countP (fun x => decide (v ≤ x)) := by
  have hsub : (s.drop k).countP (fun x => decide (v ≤ x)) ≤
      s.countP (fun x => decide (v ≤ x)) := List.Sublist.countP_le (List.drop_sublist _ _)
  have hall : (s.drop k).countP (fun x => decide (v ≤ x)) = (s.drop k).length := by
    rw [List.countP_eq_length]
    intro a ha
    obtain ⟨i, hi, rfl⟩ := List.getElem_of_mem ha
    have hi' : k + i < s.length := by simp at hi; omega
    simp only [List.getElem_drop, decide_eq_true_eq]
    rcases Nat.eq_zero_or_pos i with h | h
    · subst h; simpa using hv
    · exact le_trans hv (List.pairwise_iff_getElem.mp hs k (k + i) hk hi' (by omega))
  have hlen : (s.drop k).length = s.length - k := by simp
  omega

/-- `nanmedian` is a median of the numbers present. -/
theorem nanmedian_spec [IsStrictOrderedRing α] (l : List (Option α)) (m : α)
    (h : nanmedian l = some m) :
    (finite l).length ≤ 2 * (finite l).countP (fun x => decide (x ≤ m)) ∧
      (finite l).length ≤ 2 * (finite l).countP (fun x => decide (m ≤ x)) := by
  simp only [nanmedian] at h
  set s := (finite l).insertionSort (· ≤ ·) with hsdef
  have hperm : s.Perm (finite l) := List.perm_insertionSort _ _
  have hsort : s.Pairwise (· ≤ ·) := List.pairwise_insertionSort _ _
  rw [← hperm.length_eq, ← hperm.countP_eq, ← hperm.countP_eq]
  clear_value s
  unfold medianSorted at h
  split at h
  · simp at h
  · rename_i h0
    split at h
    · rename_i hodd
      have hk : s.length / 2 < s.length := by omega
      rw [List.getElem?_eq_getElem hk] at h
      simp only [Option.some.injEq] at h
      have h1 := countP_le_of_sorted s hsort _ hk m (le_of_eq h)
      have h2 := countP_ge_of_sorted s hsort _ hk m (le_of_eq h.symm)
      omega
    · rename_i heven
      have hk : s.length / 2 < s.length := by omega
      have hk1 : s.length / 2 - 1 < s.length := by omega
      rw [List.getElem?_eq_getElem hk, List.getElem?_eq_getElem hk1] at h
      simp only [Option.some.injEq] at h
      have hle : s[s.length / 2 - 1] ≤ s[s.length / 2] :=
        List.pairwise_iff_getElem.mp hsort _ _ hk1 hk (by omega)
      have h1 := countP_le_of_sorted s hsort _ hk1 m (by rw [← h]; linarith)
      have h2 := countP_ge_of_sorted s hsort _ hk m (by rw [← h]; linarith)
      omega

theorem nanmedian_none_iff (l : List (Option α)) : nanmedian l = none ↔ finite l = [] := by
  simp only [nanmedian]
  have hlen : ((finite l).insertionSort (· ≤ ·)).length = (finite l).length :=
    (List.perm_insertionSort _ _).length_eq
  set s := (finite l).insertionSort (· ≤ ·) with hsdef
  clear_value s
  unfold medianSorted
  constructor
  · intro h
    by_contra hc
    have hpos : 0 < s.length := by rw [hlen]; exact List.length_pos_of_ne_nil hc
    rw [if_neg (by omega)] at h
    split at h
    · rw [List.getElem?_eq_getElem (by omega)] at h; simp at h
    · rw [List.getElem?_eq_getElem (by omega), List.getElem?_eq_getElem (by omega)] at h
      simp at h
  · intro h
    rw [if_pos (by rw [hlen, h]; rfl)]

/-- Dilation inside one slice, completed by the rows exchanged with its two
neighbours, is the dilation of the whole image. -/
theorem dilate_slices (f : Img Bool) (nrows nc n y s r x : Nat) (hy : 1 ≤ y)
    (hny : n * y ≤ nrows) (hr : r < nrows) (hsle : s * y ≤ r) (hsn : s + 1 ≤ n)
    (hslt : s + 1 = n ∨ r < (s + 1) * y) :
    (dilate4 (if n = s + 1 then nrows - s * y else y) nc (fun r' c => f (r' + s * y) c)
        (r - s * y) x = true ∨
      (r + 1 = (s + 1) * y ∧ s + 1 < n) ∧ f ((s + 1) * y) x = true ∨
      (r = s * y ∧ 0 < s) ∧ f (r - 1) x = true) ↔ dilate4 nrows nc f r x = true := by
  have hrs : r - s * y + s * y = r := by omega
  have hsucc : (s + 1) * y = s * y + y := by ring
  have hnext : s + 1 < n → s * y + y + y ≤ nrows := by
    intro h
    have : (s + 2) * y ≤ n * y := Nat.mul_le_mul_right _ (by omega)
    have e2 : (s + 2) * y = s * y + y + y := by ring
    omega
  have hpos : 0 < s → 0 < s * y := fun h => Nat.mul_pos h (by omega)
  have hs0 : s = 0 → s * y = 0 := by rintro rfl; simp
  simp only [dilate4, Bool.or_eq_true, Bool.and_eq_true, decide_eq_true_eq, hrs]
  rw [hsucc] at hslt ⊢
  set t := s * y with ht
  clear_value t
  constructor
  · rintro (((((h | h) | h) | h) | h) | h | h)
    · exact Or.inl (Or.inl (Or.inl (Or.inl h)))
    · have e : r - t - 1 + t = r - 1 := by omega
      rw [e] at h
      exact Or.inl (Or.inl (Or.inl (Or.inr ⟨by omega, h.2⟩)))
    · have e : r - t + 1 + t = r + 1 := by omega
      rw [e] at h
      refine Or.inl (Or.inl (Or.inr ⟨?_, h.2⟩))
      have h1 := h.1
      split at h1
      · omega
      · have := hnext (by omega); omega
    · exact Or.inl (Or.inr h)
    · exact Or.inr h
    · obtain ⟨⟨h1, h2⟩, h3⟩ := h
      refine Or.inl (Or.inl (Or.inr ⟨?_, by rw [h1]; exact h3⟩))
      have := hnext h2; omega
    · obtain ⟨⟨h1, h2⟩, h3⟩ := h
      have := hpos h2
      exact Or.inl (Or.inl (Or.inl (Or.inr ⟨by omega, h3⟩)))
  · rintro ((((h | h) | h) | h) | h)
    · exact Or.inl (Or.inl (Or.inl (Or.inl (Or.inl h))))
    · rcases Nat.lt_or_ge t r with hlt | hge
      · left
        have e : r - t - 1 + t = r - 1 := by omega
        refine Or.inl (Or.inl (Or.inl (Or.inr ⟨by omega, ?_⟩)))
        rw [e]; exact h.2
      · right; right
        refine ⟨⟨by omega, ?_⟩, h.2⟩
        rcases Nat.eq_zero_or_pos s with h0 | h0
        · exfalso; have := hs0 h0; omega
        · exact h0
    · have e : r - t + 1 + t = r + 1 := by omega
      by_cases hin : r - t + 1 < (if n = s + 1 then nrows - t else y)
      · left
        refine Or.inl (Or.inl (Or.inr ⟨hin, ?_⟩))
        rw [e]; exact h.2
      · right; left
        split at hin
        · omega
        · have h1 : t + y = r + 1 := by omega
          refine ⟨⟨h1.symm, by omega⟩, ?_⟩
          rw [h1]; exact h.2
    · exact Or.inl (Or.inl (Or.inr h))
    · exact Or.inl (Or.inr h)

/-- Bits of a word to which JUMP_DET may have been added three times. -/
theorem or_jump_testBit (g a : Nat) (P Q R : Prop) [Decidable P] [Decidable Q] [Decidable R]
    (i : Nat) :
    (((if P then g ||| 2 ^ a else g) ||| (if Q then 2 ^ a else 0) |||
        (if R then 2 ^ a else 0))).testBit i =
      (g.testBit i || (decide (i = a) && decide (P ∨ Q ∨ R))) := by
  by_cases hi : i = a
  · subst hi
    by_cases hP : P <;> by_cases hQ : Q <;> by_cases hR : R <;>
      simp [hP, hQ, hR, Nat.testBit_or]
  · have hk' : ¬ a = i := fun h => hi h.symm
    by_cases hP : P <;> by_cases hQ : Q <;> by_cases hR : R <;>
      simp [hP, hQ, hR, Nat.testBit_or, hi, hk']

theorem or_jump_testBit' (g a : Nat) (P : Prop) [Decidable P] (i : Nat) :
    (if P then g ||| 2 ^ a else g).testBit i =
      (g.testBit i || (decide (i = a) && decide P)) := by
  have := or_jump_testBit g a P False False i
  simpa using this

end Verif.Jump
