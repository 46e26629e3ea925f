import Verif.Model.Likely
import Mathlib.Order.Basic
import Mathlib.Tactic.Linarith
import Mathlib.Tactic.Common

/-!
# Lemmas on the masking loop of the likelihood fit
-/

namespace Verif.Likely

set_option linter.unusedSectionVars false

variable {α : Type} [Field α] [LinearOrder α]

theorem foldl_max_spec (f : Nat → α) (k : Nat) (x : α) :
    x ≤ (List.range k).foldl (fun m i => max m (f (i + 1))) x
    ∧ (∀ i < k, f (i + 1) ≤ (List.range k).foldl (fun m i => max m (f (i + 1))) x)
    ∧ ((List.range k).foldl (fun m i => max m (f (i + 1))) x = x
      ∨ ∃ i < k, (List.range k).foldl (fun m i => max m (f (i + 1))) x = f (i + 1)) := by
  induction k with
  | zero => simp
  | succ k ih =>
    rw [List.range_succ, List.foldl_append]
    obtain ⟨h1, h2, h3⟩ := ih
    refine ⟨le_trans h1 (le_max_left _ _), fun i hi => ?_, ?_⟩
    · rcases Nat.lt_succ_iff_lt_or_eq.1 hi with h | h
      · exact le_trans (h2 i h) (le_max_left _ _)
      · subst h; exact le_max_right _ _
    · show max _ _ = x ∨ _
      rcases max_choice ((List.range k).foldl (fun m i => max m (f (i + 1))) x) (f (k + 1)) with h | h
      · rcases h3 with h3 | ⟨i, hi, h3⟩
        · left; rw [h, h3]
        · right; exact ⟨i, by omega, by simpa [h] using h3⟩
      · right; exact ⟨k, by omega, by simp [h]⟩

theorem le_amax (n : Nat) (f : Nat → α) (i : Nat) (hi : i < n) : f i ≤ amax n f := by
  obtain ⟨h1, h2, -⟩ := foldl_max_spec f (n - 1) (f 0)
  cases i with
  | zero => exact h1
  | succ i => exact h2 i (by omega)

theorem amax_mem (n : Nat) (hn : 1 ≤ n) (f : Nat → α) : ∃ i < n, amax n f = f i := by
  obtain ⟨-, -, h⟩ := foldl_max_spec f (n - 1) (f 0)
  rcases h with h | ⟨i, hi, h⟩
  · exact ⟨0, by omega, h⟩
  · exact ⟨i + 1, by omega, h⟩

variable [IsStrictOrderedRing α]

/-- What is dropped was an improvement above its threshold. -/
theorem drops_sound (n : Nat) (okTwo : Nat → Bool) (t1 t2 : α) (one two : Nat → α) (i : Nat) :
    ((drops n okTwo t1 t2 one two).1 i = true → i < n ∧ t1 < one i ∧ one i ≠ 0)
    ∧ ((drops n okTwo t1 t2 one two).2 i = true → i + 1 < n ∧ t2 < two i ∧ two i ≠ 0) := by
  simp only [drops]
  generalize amax n one = b1
  generalize amax (n - 1) (fun i => if okTwo i = true then two i else 0) = b2
  by_cases ho : b1 - t1 > b2 - t2
  · simp only [ho, decide_true, and_true, Bool.true_eq_false, and_false, if_false, add_zero]
    by_cases hb : b1 > t1
    · rw [if_pos hb]
      split
      · simp
      · rename_i h
        simp only [Bool.and_true, decide_eq_true_eq, Bool.not_true, Bool.and_false, Bool.false_eq_true, false_imp_iff,
          and_true]
        rintro ⟨h1, h2⟩
        exact ⟨h1, h2 ▸ hb, h2 ▸ h⟩
    · rw [if_neg hb]; simp
  · simp only [ho, decide_false, Bool.false_eq_true, and_false, if_false, and_true, zero_add]
    by_cases hb : b2 > t2
    · rw [if_pos hb]
      split
      · simp
      · rename_i h
        simp only [Bool.and_false, Bool.false_eq_true, false_imp_iff, true_and, Bool.not_false, Bool.and_true,
          decide_eq_true_eq]
        rintro ⟨h1, h2⟩
        exact ⟨h1, h2 ▸ hb, h2 ▸ h⟩
    · rw [if_neg hb]; simp

/-- If nothing is dropped, no improvement is above its threshold. -/
theorem drops_complete (n : Nat) (hn : 2 ≤ n) (okTwo : Nat → Bool) (t1 t2 : α) (h1 : 0 ≤ t1) (h2 : 0 ≤ t2)
    (one two : Nat → α) (hd1 : ∀ i < n, (drops n okTwo t1 t2 one two).1 i = false)
    (hd2 : ∀ i < n, (drops n okTwo t1 t2 one two).2 i = false) :
    (∀ i < n, one i ≤ t1) ∧ ∀ i, i + 1 < n → okTwo i = true → two i ≤ t2 := by
  have e1 := fun i hi => le_amax n one i hi
  have e2 := fun i hi => le_amax (n - 1) (fun i => if okTwo i = true then two i else 0) i hi
  have m1 := amax_mem n (by omega) one
  have m2 := amax_mem (n - 1) (by omega) (fun i => if okTwo i = true then two i else 0)
  simp only [drops] at hd1 hd2
  generalize amax n one = b1 at *
  generalize amax (n - 1) (fun i => if okTwo i = true then two i else 0) = b2 at *
  suffices h : b1 ≤ t1 ∧ b2 ≤ t2 by
    refine ⟨fun i hi => (e1 i hi).trans h.1, fun i hi hok => ?_⟩
    have := (e2 i (by omega)).trans h.2
    simpa [hok] using this
  by_cases ho : b1 - t1 > b2 - t2
  · simp only [ho, decide_true, and_true, Bool.true_eq_false, and_false, if_false, add_zero] at hd1 hd2
    by_cases hb : b1 > t1
    · rw [if_pos hb] at hd1
      rw [if_neg (by linarith [h1] : ¬ b1 = 0)] at hd1
      obtain ⟨i, hi, hm⟩ := m1
      have := hd1 i hi
      simp [hi, hm] at this
    · push Not at hb
      exact ⟨hb, by linarith⟩
  · simp only [ho, decide_false, Bool.false_eq_true, and_false, if_false, and_true, zero_add] at hd1 hd2
    by_cases hb : b2 > t2
    · rw [if_pos hb] at hd2
      have hb0 : ¬ b2 = 0 := by linarith [h2]
      rw [if_neg hb0] at hd2
      obtain ⟨i, hi, hm⟩ := m2
      have h3 := hd2 i (by omega)
      have hok : okTwo i = true := by
        by_contra hc
        rw [if_neg hc] at hm
        exact hb0 hm
      rw [if_pos hok] at hm
      simp only [Bool.not_false, Bool.and_true, decide_eq_false_iff_not] at h3
      exact absurd ⟨by omega, hm.symm⟩ h3
    · push Not at hb ho
      exact ⟨by linarith, hb⟩

theorem dropsO_sound (n : Nat) (okTwo : Nat → Bool) (t1 t2 : α) (one two : Nat → Option α) (i : Nat) :
    ((dropsO n okTwo t1 t2 one two).1 i = true → i < n ∧ ∃ g, one i = some g ∧ t1 < g ∧ g ≠ 0)
    ∧ ((dropsO n okTwo t1 t2 one two).2 i = true → i + 1 < n ∧ ∃ g, two i = some g ∧ t2 < g ∧ g ≠ 0) := by
  unfold dropsO
  split
  · rename_i h
    simp only [Bool.and_eq_true, List.all_eq_true, List.mem_range] at h
    obtain ⟨h1, h2⟩ := drops_sound n okTwo t1 t2 (fun i => (one i).getD 0) (fun i => (two i).getD 0) i
    constructor
    · intro hd
      obtain ⟨hi, a, b⟩ := h1 hd
      obtain ⟨g, hg⟩ := Option.isSome_iff_exists.1 (h.1 i hi)
      exact ⟨hi, g, hg, by simpa [hg] using a, by simpa [hg] using b⟩
    · intro hd
      obtain ⟨hi, a, b⟩ := h2 hd
      obtain ⟨g, hg⟩ := Option.isSome_iff_exists.1 (h.2 i (by omega))
      exact ⟨hi, g, hg, by simpa [hg] using a, by simpa [hg] using b⟩
  · simp

theorem dropsO_complete (n : Nat) (hn : 2 ≤ n) (okTwo : Nat → Bool) (t1 t2 : α) (h1 : 0 ≤ t1) (h2 : 0 ≤ t2)
    (one two : Nat → Option α) (hd1 : ∀ i < n, (dropsO n okTwo t1 t2 one two).1 i = false)
    (hd2 : ∀ i < n, (dropsO n okTwo t1 t2 one two).2 i = false) :
    (∃ i < n, one i = none) ∨ (∃ i, i + 1 < n ∧ two i = none)
    ∨ ((∀ i < n, ∀ g, one i = some g → g ≤ t1) ∧ ∀ i, i + 1 < n → okTwo i = true → ∀ g, two i = some g → g ≤ t2) := by
  unfold dropsO at hd1 hd2
  split at hd1
  · rename_i h
    rw [if_pos h] at hd2
    obtain ⟨a, b⟩ := drops_complete n hn okTwo t1 t2 h1 h2 _ _ hd1 hd2
    right; right
    exact ⟨fun i hi g hg => by simpa [hg] using a i hi, fun i hi ho g hg => by simpa [hg] using b i hi ho⟩
  · rename_i h
    simp only [Bool.and_eq_true, List.all_eq_true, List.mem_range, not_and_or, not_forall] at h
    rcases h with ⟨i, hi, h⟩ | ⟨i, hi, h⟩
    · left; exact ⟨i, hi, by simpa using h⟩
    · right; left; exact ⟨i, by omega, by simpa using h⟩

/-! ### The loop -/

/-- Nothing is dropped at the mask `u`. -/
def Quiet (n : Nat) (okTwo : Nat → Bool) (t1 t2 : α) (sr : Search α) (u : Nat → Bool) : Prop :=
  ∀ i < n, (dropsO n okTwo t1 t2 (sr.one u) (sr.two u)).1 i = false
    ∧ (dropsO n okTwo t1 t2 (sr.one u) (sr.two u)).2 i = false

/-- Masked differences offer no improvement. -/
def MaskedZero (sr : Search α) : Prop :=
  (∀ u i g, u i = false → sr.one u i = some g → g = 0)
  ∧ ∀ u i g, u i = false → u (i + 1) = false → sr.two u i = some g → g = 0

theorem count_le (n : Nat) (u : Nat → Bool) : count n u ≤ n := by
  have := List.countP_le_length (p := fun i => u i) (l := List.range n)
  simpa [count] using this

theorem count_lt (n : Nat) (u v : Nat → Bool) (h : ∀ i, v i = true → u i = true)
    (hx : ∃ i < n, u i = true ∧ v i = false) : count n v < count n u := by
  obtain ⟨k, hk, hu, hv⟩ := hx
  unfold count
  induction n with
  | zero => omega
  | succ n ih =>
    rw [List.range_succ, List.countP_append, List.countP_append]
    have mono : ∀ m, (List.range m).countP (fun i => v i) ≤ (List.range m).countP fun i => u i := fun m =>
      List.countP_mono_left fun i _ => h i
    have mono1 : [n].countP (fun i => v i) ≤ [n].countP fun i => u i := List.countP_mono_left fun i _ => h i
    rcases Nat.lt_succ_iff_lt_or_eq.1 hk with h' | h'
    · have := ih h'
      omega
    · subst h'
      have := mono k
      simp [hu, hv]
      omega

/-- The state after `j` passes. -/
def passes (n : Nat) (okTwo : Nat → Bool) (t1 t2 : α) (sr : Search α) (u : Nat → Bool) : Nat → MaskState α
  | 0 => ⟨u, true, sr.rate u⟩
  | j + 1 => maskPass n okTwo t1 t2 sr (passes n okTwo t1 t2 sr u j) j

theorem maskJumps_eq (n : Nat) (okTwo : Nat → Bool) (t1 t2 : α) (sr : Search α) (u : Nat → Bool) :
    maskJumps n okTwo t1 t2 sr u = passes n okTwo t1 t2 sr u n := by
  unfold maskJumps
  generalize hk : n = k
  have : ∀ j, (List.range j).foldl (maskPass k okTwo t1 t2 sr) ⟨u, true, sr.rate u⟩ = passes k okTwo t1 t2 sr u j := by
    intro j
    induction j with
    | zero => rfl
    | succ j ih => rw [List.range_succ, List.foldl_append, ih]; rfl
  exact this k

/-- One pass: the mask shrinks; if the pixel is looked at again, it lost a difference; otherwise it has at most three left
or nothing is dropped any more. -/
theorem pass_spec (n : Nat) (okTwo : Nat → Bool) (t1 t2 : α) (sr : Search α) (hz : MaskedZero sr) (s : MaskState α) (j : Nat) :
    let s' := maskPass n okTwo t1 t2 sr s j
    (∀ i, s'.use i = true → s.use i = true)
    ∧ (s.recheck = true → s'.recheck = true → count n s'.use < count n s.use)
    ∧ (s'.recheck = true → s.recheck = true)
    ∧ (s.recheck = true → s'.recheck = false → count n s'.use ≤ 3 ∨ Quiet n okTwo t1 t2 sr s'.use)
    ∧ (s.recheck = false → s' = s)
    ∧ ∀ i, s.use i = true → s'.use i = false →
        ((∃ g, sr.one s.use i = some g ∧ t1 < g) ∨ (i + 1 < n ∧ ∃ g, sr.two s.use i = some g ∧ t2 < g)
          ∨ ∃ k, i = k + 1 ∧ i < n ∧ ∃ g, sr.two s.use k = some g ∧ t2 < g) := by
  intro s'
  have hs' : s' = maskPass n okTwo t1 t2 sr s j := rfl
  clear_value s'
  subst hs'
  simp only [maskPass]
  cases hr : s.recheck with
  | false =>
    simp [hr]
    intro i h h'
    simp [h] at h'
  | true =>
    simp only [if_true]
    have hsound := fun i => dropsO_sound n okTwo t1 t2 (sr.one s.use) (sr.two s.use) i
    have hq : Quiet n okTwo t1 t2 sr s.use ↔ ∀ i < n, (dropsO n okTwo t1 t2 (sr.one s.use) (sr.two s.use)).1 i = false
      ∧ (dropsO n okTwo t1 t2 (sr.one s.use) (sr.two s.use)).2 i = false := Iff.rfl
    generalize dropsO n okTwo t1 t2 (sr.one s.use) (sr.two s.use) = d at *
    split
    · rename_i hany
      simp only [Bool.or_eq_true, List.any_eq_true, List.mem_range] at hany
      dsimp only
      refine ⟨fun i hi => ?_, fun _ _ => ?_, fun _ => trivial, fun _ h => ?_, fun h => by simp at h, fun i hi hi' => ?_⟩
      · simp only [Bool.and_eq_true] at hi
        exact hi.1.1.1
      · refine count_lt n _ _ (fun i hi => ?_) ?_
        · simp only [Bool.and_eq_true] at hi
          exact hi.1.1.1
        · rcases hany with ⟨i, hi, h⟩ | ⟨i, hi, h⟩
          · obtain ⟨-, g, hg, -, hne⟩ := (hsound i).1 h
            refine ⟨i, hi, ?_, by simp [h]⟩
            by_contra hu
            exact hne (hz.1 s.use i g (by simpa using hu) hg)
          · obtain ⟨hi1, g, hg, -, hne⟩ := (hsound i).2 h
            by_cases hu : s.use i = true
            · exact ⟨i, hi, hu, by simp [h]⟩
            · refine ⟨i + 1, hi1, ?_, by simp [h]⟩
              by_contra hu'
              exact hne (hz.2 s.use i g (by simpa using hu) (by simpa using hu') hg)
      · left
        simpa using h
      · simp only [hi, Bool.true_and, Bool.and_eq_false_iff, Bool.not_eq_false', Bool.and_eq_true, decide_eq_true_eq] at hi'
        rcases hi' with (h | h) | ⟨h0, h⟩
        · obtain ⟨-, g, hg, ht, -⟩ := (hsound i).1 h
          exact Or.inl ⟨g, hg, ht⟩
        · obtain ⟨hi1, g, hg, ht, -⟩ := (hsound i).2 h
          exact Or.inr (Or.inl ⟨hi1, g, hg, ht⟩)
        · obtain ⟨hi1, g, hg, ht, -⟩ := (hsound (i - 1)).2 h
          exact Or.inr (Or.inr ⟨i - 1, by omega, by omega, g, hg, ht⟩)
    · rename_i hany
      simp only [Bool.or_eq_true, List.any_eq_true, List.mem_range, not_or, not_exists, not_and, Bool.not_eq_true] at hany
      dsimp only
      refine ⟨fun i h => h, fun _ h => by simp at h, fun _ => trivial, fun _ _ => ?_, fun h => by simp at h, fun i h h' => ?_⟩
      · right
        rw [hq]
        exact fun i hi => ⟨hany.1 i hi, hany.2 i hi⟩
      · rw [h] at h'; simp at h'

theorem passes_spec (n : Nat) (okTwo : Nat → Bool) (t1 t2 : α) (sr : Search α) (hz : MaskedZero sr) (u : Nat → Bool) (j : Nat) :
    (∀ i, (passes n okTwo t1 t2 sr u j).use i = true → u i = true)
    ∧ ((passes n okTwo t1 t2 sr u j).recheck = true → count n (passes n okTwo t1 t2 sr u j).use + j ≤ n)
    ∧ ((passes n okTwo t1 t2 sr u j).recheck = false → count n (passes n okTwo t1 t2 sr u j).use ≤ 3
        ∨ Quiet n okTwo t1 t2 sr (passes n okTwo t1 t2 sr u j).use)
    ∧ ((passes n okTwo t1 t2 sr u j).recheck = true → 0 < j → 3 < count n (passes n okTwo t1 t2 sr u j).use)
    ∧ ∀ i, u i = true → (passes n okTwo t1 t2 sr u j).use i = false →
        ∃ v : Nat → Bool, (∀ k, v k = true → u k = true) ∧ v i = true
          ∧ ((∃ g, sr.one v i = some g ∧ t1 < g) ∨ (i + 1 < n ∧ ∃ g, sr.two v i = some g ∧ t2 < g)
            ∨ ∃ k, i = k + 1 ∧ i < n ∧ ∃ g, sr.two v k = some g ∧ t2 < g) := by
  induction j with
  | zero =>
    refine ⟨fun i h => h, fun _ => by simpa [passes] using count_le n u, fun h => by simp [passes] at h,
      fun _ h => absurd h (lt_irrefl 0), fun i h h' => ?_⟩
    rw [show (passes n okTwo t1 t2 sr u 0).use i = u i from rfl, h] at h'
    simp at h'
  | succ j ih =>
    obtain ⟨a1, a2, a3, a4, a5⟩ := ih
    obtain ⟨b1, b2, b3, b4, b5, b6⟩ := pass_spec n okTwo t1 t2 sr hz (passes n okTwo t1 t2 sr u j) j
    have e : passes n okTwo t1 t2 sr u (j + 1) = maskPass n okTwo t1 t2 sr (passes n okTwo t1 t2 sr u j) j := rfl
    rw [← e] at b1 b2 b3 b4 b5 b6
    refine ⟨fun i h => a1 i (b1 i h), fun h => ?_, fun h => ?_, fun h _ => ?_, fun i h h' => ?_⟩
    · have := b2 (b3 h) h
      have := a2 (b3 h)
      omega
    · cases hr : (passes n okTwo t1 t2 sr u j).recheck with
      | true => exact b4 hr h
      | false => rw [b5 hr]; exact a3 hr
    · have hr := b3 h
      rw [e] at h ⊢
      simp only [maskPass, hr, if_true] at h ⊢
      split at h
      · rename_i hc
        rw [if_pos hc]
        simpa using h
      · simp at h
    · by_cases hp : (passes n okTwo t1 t2 sr u j).use i = true
      · exact ⟨_, a1, hp, b6 i hp h'⟩
      · exact a5 i h (by simpa using hp)

/-- The passes end by themselves within as many passes as there are differences. -/
theorem passes_done (n : Nat) (okTwo : Nat → Bool) (t1 t2 : α) (sr : Search α) (hz : MaskedZero sr) (u : Nat → Bool)
    (hn : 1 ≤ n) : (passes n okTwo t1 t2 sr u n).recheck = false := by
  obtain ⟨-, a2, -, a4, -⟩ := passes_spec n okTwo t1 t2 sr hz u n
  by_contra h
  have h' : (passes n okTwo t1 t2 sr u n).recheck = true := by simpa using h
  have := a2 h'
  have := a4 h' (by omega)
  omega

theorem search_maskedZero (n : Nat) (cv : Covar α) (q : Noise α) (s : α) (d : Nat → α) : MaskedZero (search n cv q s d) := by
  constructor
  · intro u i g hu hg
    simp only [search, hu] at hg
    by_cases hC : (fitMatrix n cv q s d (num u)).C = 0
    · simp [hC] at hg
    · simp [hC] at hg
      exact hg.symm
  · intro u i g hu hu' hg
    simp only [search, hu, hu', if_true] at hg
    by_cases hC : (fitMatrix n cv q s d (num u)).C = 0
    · simp [hC] at hg
    · simp [hC] at hg
      exact hg.symm

/-- A search whose rates are there whenever the improvements are. -/
def RatesThere (sr : Search α) : Prop :=
  (∀ u i, (sr.one u i).isSome = true → (sr.rateOne u i).isSome = true)
  ∧ ∀ u i, (sr.two u i).isSome = true → (sr.rateTwo u i).isSome = true

theorem search_ratesThere (n : Nat) (cv : Covar α) (q : Noise α) (s : α) (d : Nat → α) : RatesThere (search n cv q s d) := by
  constructor
  · intro u i h
    simp only [search] at h ⊢
    rw [Option.isSome_map]
    split at h
    · rename_i e1 e2
      rw [e2]; rfl
    · simp at h
  · intro u i h
    simp only [search] at h ⊢
    rw [Option.isSome_map]
    split at h
    · rename_i e1 e2
      rw [e2]; rfl
    · simp at h

theorem sumRates_isSome {n : Nat} {r : Nat → Option α} (d : Nat → Bool) (h : ∀ i < n, (r i).isSome = true) :
    (sumRates n r d).isSome = true := by
  unfold sumRates
  rw [if_pos (by simpa using h)]
  rfl

theorem passes_rate (n : Nat) (okTwo : Nat → Bool) (t1 t2 : α) (sr : Search α) (hr : RatesThere sr) (u : Nat → Bool) (j : Nat)
    (h0 : (sr.rate u).isSome = true) : (passes n okTwo t1 t2 sr u j).rate.isSome = true := by
  induction j with
  | zero => exact h0
  | succ j ih =>
    have e : passes n okTwo t1 t2 sr u (j + 1) = maskPass n okTwo t1 t2 sr (passes n okTwo t1 t2 sr u j) j := rfl
    rw [e]
    generalize passes n okTwo t1 t2 sr u j = s at ih
    simp only [maskPass]
    split
    · split
      · rename_i hany
        dsimp only
        have hall : (List.range n).all (fun i => (sr.one s.use i).isSome) = true
            ∧ (List.range (n - 1)).all (fun i => (sr.two s.use i).isSome) = true := by
          by_contra hc
          rw [← Bool.and_eq_true] at hc
          simp [dropsO, hc] at hany
        simp only [List.all_eq_true, List.mem_range] at hall
        split
        · exact sumRates_isSome _ fun i hi => hr.2 _ _ (hall.2 i hi)
        · exact sumRates_isSome _ fun i hi => hr.1 _ _ (hall.1 i hi)
      · exact ih
    · exact ih

end Verif.Likely
