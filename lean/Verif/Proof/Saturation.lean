import Verif.Model.Saturation
import Mathlib.Tactic.Ring
import Mathlib.Tactic.Linarith

set_option linter.unusedSectionVars false

namespace Verif.Saturation

open Verif.Dq

/-! ## Dilation -/

theorem foldl_or {ι : Type*} (step : Img Bool → ι → Img Bool) (g : ι → Img Bool)
    (hstep : ∀ d x r c, step d x r c = (d r c || g x r c)) (xs : List ι) (d : Img Bool) (r c : Nat) :
    xs.foldl step d r c = (d r c || xs.any fun x => g x r c) := by
  induction xs generalizing d with
  | nil => simp
  | cons x xs ih => simp only [List.foldl_cons, ih, hstep, List.any_cons, Bool.or_assoc]

theorem reflectIdx_window {len n p k : Nat} (hp : p < len) (hn : n ≤ len) (hk : k < 2 * n + 1) :
    reflectIdx len ((p : Int) - n + k) < len ∧ reflectIdx len ((p : Int) - n + k) ≤ p + n ∧
      p ≤ reflectIdx len ((p : Int) - n + k) + n := by
  unfold reflectIdx
  split
  · omega
  · split <;> omega

theorem maxFilter_iff {len n p : Nat} (line : Nat → Bool) (hp : p < len) (hn : n ≤ len) :
    maxFilter len n line p = true ↔ ∃ q, q < len ∧ q ≤ p + n ∧ p ≤ q + n ∧ line q = true := by
  unfold maxFilter
  rw [List.any_eq_true]
  constructor
  · rintro ⟨k, hk, hl⟩
    rw [List.mem_range] at hk
    obtain ⟨h1, h2, h3⟩ := reflectIdx_window hp hn hk
    exact ⟨_, h1, h2, h3, hl⟩
  · rintro ⟨q, h1, h2, h3, hl⟩
    refine ⟨q + n - p, by rw [List.mem_range]; omega, ?_⟩
    have : reflectIdx len ((p : Int) - n + ((q + n - p : Nat) : Int)) = q := by
      unfold reflectIdx
      rw [if_neg (by omega), if_pos (by omega)]
      omega
    rw [this]; exact hl

theorem mem_boxPairs {n : Nat} {ij : Nat × Nat} : ij ∈ boxPairs n ↔ ij.1 < 2 * n + 1 ∧ ij.2 < 2 * n + 1 := by
  unfold boxPairs
  simp only [List.mem_flatMap, List.mem_map, List.mem_range]
  constructor
  · rintro ⟨i, hi, j, hj, rfl⟩; exact ⟨hi, hj⟩
  · rintro ⟨h1, h2⟩; exact ⟨ij.1, h1, ij.2, h2, rfl⟩

theorem mem_edgePairs {n : Nat} {ij : Nat × Nat} : ij ∈ edgePairs n ↔ ij.1 < n ∧ ij.2 ≤ ij.1 + n := by
  unfold edgePairs
  simp only [List.mem_flatMap, List.mem_map, List.mem_reverse, List.mem_range]
  constructor
  · rintro ⟨i, hi, j, hj, rfl⟩; exact ⟨hi, by omega⟩
  · rintro ⟨h1, h2⟩; exact ⟨ij.1, h1, ij.2, by omega, rfl⟩

/-- The contribution of one edge step. -/
def edgeG (nrows ncols n : Nat) (only : Img Bool) (ij : Nat × Nat) : Img Bool := fun r c =>
  (decide (r = ij.1) && maxFilter ncols n (fun c' => only ij.2 c') c)
    || (decide (c = ij.1) && maxFilter nrows n (fun r' => only r' ij.2) r)
    || (decide (r + ij.1 + 1 = nrows) && maxFilter ncols n (fun c' => only (nrows - ij.2 - 1) c') c)
    || (decide (c + ij.1 + 1 = ncols) && maxFilter nrows n (fun r' => only r' (ncols - ij.2 - 1)) r)

/-- The contribution of one box step. -/
def boxG (nrows ncols n : Nat) (only : Img Bool) (ij : Nat × Nat) : Img Bool := fun r c =>
  decide (n ≤ r) && decide (r + n < nrows) && decide (n ≤ c) && decide (c + n < ncols) &&
    only (r - n + ij.1) (c - n + ij.2)

theorem dilated_iff {nrows ncols n : Nat} (only : Img Bool) (hr : 2 * n ≤ nrows) (hc : 2 * n ≤ ncols) {r c : Nat}
    (hrr : r < nrows) (hcc : c < ncols) :
    dilated nrows ncols n only r c = true ↔
      ∃ r' c', r' < nrows ∧ c' < ncols ∧ r' ≤ r + n ∧ r ≤ r' + n ∧ c' ≤ c + n ∧ c ≤ c' + n ∧ only r' c' = true := by
  unfold dilated
  rw [foldl_or (edgeStep nrows ncols n only) (edgeG nrows ncols n only)
      (by intro d x r c; simp only [edgeStep, edgeG, Bool.or_assoc]),
    foldl_or (boxStep nrows ncols n only) (boxG nrows ncols n only) (by intro d x r c; rfl)]
  simp only [Bool.or_eq_true, List.any_eq_true, mem_boxPairs, mem_edgePairs]
  constructor
  · rintro ((h | ⟨⟨i, j⟩, ⟨hi, hj⟩, h⟩) | ⟨⟨i, j⟩, ⟨hi, hj⟩, h⟩)
    · exact ⟨r, c, hrr, hcc, by omega, by omega, by omega, by omega, h⟩
    · simp only [boxG, Bool.and_eq_true, decide_eq_true_eq] at h
      obtain ⟨⟨⟨⟨h1, h2⟩, h3⟩, h4⟩, h5⟩ := h
      simp only at hi hj
      exact ⟨_, _, by omega, by omega, by omega, by omega, by omega, by omega, h5⟩
    · simp only at hi hj
      simp only [edgeG, Bool.or_eq_true, Bool.and_eq_true, decide_eq_true_eq] at h
      rcases h with ((⟨h1, h2⟩ | ⟨h1, h2⟩) | ⟨h1, h2⟩) | ⟨h1, h2⟩
      · obtain ⟨q, q1, q2, q3, q4⟩ := (maxFilter_iff _ hcc (by omega)).mp h2
        exact ⟨j, q, by omega, q1, by omega, by omega, q2, q3, q4⟩
      · obtain ⟨q, q1, q2, q3, q4⟩ := (maxFilter_iff _ hrr (by omega)).mp h2
        exact ⟨q, j, q1, by omega, q2, q3, by omega, by omega, q4⟩
      · obtain ⟨q, q1, q2, q3, q4⟩ := (maxFilter_iff _ hcc (by omega)).mp h2
        exact ⟨_, q, by omega, q1, by omega, by omega, q2, q3, q4⟩
      · obtain ⟨q, q1, q2, q3, q4⟩ := (maxFilter_iff _ hrr (by omega)).mp h2
        exact ⟨q, _, q1, by omega, q2, q3, by omega, by omega, q4⟩
  · rintro ⟨r', c', h1, h2, h3, h4, h5, h6, h⟩
    by_cases hint : n ≤ r ∧ r + n < nrows ∧ n ≤ c ∧ c + n < ncols
    · left; right
      refine ⟨(r' + n - r, c' + n - c), ⟨by simp only; omega, by simp only; omega⟩, ?_⟩
      simp only [boxG, Bool.and_eq_true, decide_eq_true_eq]
      refine ⟨⟨⟨⟨hint.1, hint.2.1⟩, hint.2.2.1⟩, hint.2.2.2⟩, ?_⟩
      rw [show r - n + (r' + n - r) = r' by omega, show c - n + (c' + n - c) = c' by omega]; exact h
    · right
      by_cases e1 : r < n
      · refine ⟨(r, r'), ⟨e1, by simp only; omega⟩, ?_⟩
        simp only [edgeG, Bool.or_eq_true, Bool.and_eq_true, decide_eq_true_eq]
        exact Or.inl (Or.inl (Or.inl ⟨by trivial, (maxFilter_iff _ hcc (by omega)).mpr ⟨c', h2, h5, h6, h⟩⟩))
      by_cases e2 : c < n
      · refine ⟨(c, c'), ⟨e2, by simp only; omega⟩, ?_⟩
        simp only [edgeG, Bool.or_eq_true, Bool.and_eq_true, decide_eq_true_eq]
        exact Or.inl (Or.inl (Or.inr ⟨by trivial, (maxFilter_iff _ hrr (by omega)).mpr ⟨r', h1, h3, h4, h⟩⟩))
      by_cases e3 : nrows ≤ r + n
      · refine ⟨(nrows - r - 1, nrows - r' - 1), ⟨by simp only; omega, by simp only; omega⟩, ?_⟩
        simp only [edgeG, Bool.or_eq_true, Bool.and_eq_true, decide_eq_true_eq]
        refine Or.inl (Or.inr ⟨by omega, (maxFilter_iff _ hcc (by omega)).mpr ⟨c', h2, h5, h6, ?_⟩⟩)
        rw [show nrows - (nrows - r' - 1) - 1 = r' by omega]; exact h
      · refine ⟨(ncols - c - 1, ncols - c' - 1), ⟨by simp only; omega, by simp only; omega⟩, ?_⟩
        simp only [edgeG, Bool.or_eq_true, Bool.and_eq_true, decide_eq_true_eq]
        refine Or.inr ⟨by omega, (maxFilter_iff _ hrr (by omega)).mpr ⟨r', h1, h3, h4, ?_⟩⟩
        rw [show ncols - (ncols - c' - 1) - 1 = c' by omega]; exact h

/-- Pixels `(r', c')` of the image within `n` rows and columns of `(r, c)`. -/
def Within (nrows ncols n r c r' c' : Nat) : Prop :=
  r' < nrows ∧ c' < ncols ∧ r' ≤ r + n ∧ r ≤ r' + n ∧ c' ≤ c + n ∧ c ≤ c' + n

theorem within_self {nrows ncols n r c : Nat} (hr : r < nrows) (hc : c < ncols) : Within nrows ncols n r c r c :=
  ⟨hr, hc, by omega, by omega, by omega, by omega⟩

theorem within_zero {nrows ncols r c r' c' : Nat} (h : Within nrows ncols 0 r c r' c') : r' = r ∧ c' = c := by
  unfold Within at h; omega

theorem adjacentPixels_eq {nrows ncols n flag : Nat} (gdq : Img Nat) (hr : 2 * n ≤ nrows) (hc : 2 * n ≤ ncols)
    {r c : Nat} (hrr : r < nrows) (hcc : c < ncols) :
    ((∃ r' c', Within nrows ncols n r c r' c' ∧ Has (gdq r' c') flag) →
      adjacentPixels nrows ncols n flag gdq r c = gdq r c ||| flag) ∧
    ((¬ ∃ r' c', Within nrows ncols n r c r' c' ∧ Has (gdq r' c') flag) →
      adjacentPixels nrows ncols n flag gdq r c = gdq r c) := by
  have key := dilated_iff (fun r c => decide (Has (gdq r c) flag)) hr hc hrr hcc
  have key2 : dilated nrows ncols n (fun r c => decide (Has (gdq r c) flag)) r c = true ↔
      ∃ r' c', Within nrows ncols n r c r' c' ∧ Has (gdq r' c') flag := by
    rw [key]
    simp only [Within, decide_eq_true_eq, and_assoc]
  constructor
  · intro h; unfold adjacentPixels; rw [if_pos (key2.mpr h)]
  · intro h; unfold adjacentPixels; rw [if_neg (fun hh => h (key2.mp hh))]

section
variable {α : Type*} [Field α] [LinearOrder α]

/-- What the growth step does: either nothing or OR with the flag, the latter iff a flagged pixel is near. -/
theorem grow_spec (p : Params α) (flag : Nat) (g : Img Nat) (hg : adjacentRaises p.nrows p.ncols p.nGrow = false) {r c : Nat}
    (hr : r < p.nrows) (hc : c < p.ncols) :
    ((∃ r' c', Within p.nrows p.ncols p.nGrow r c r' c' ∧ Has (g r' c') flag) →
      p.grow flag g r c ||| flag = g r c ||| flag ∧ (flag ≠ 0 → Has (p.grow flag g r c) flag)) ∧
    ((¬ ∃ r' c', Within p.nrows p.ncols p.nGrow r c r' c' ∧ Has (g r' c') flag) → p.grow flag g r c = g r c) := by
  unfold Params.grow
  by_cases hn : p.nGrow > 0
  · have hs : 2 * p.nGrow ≤ p.nrows ∧ 2 * p.nGrow ≤ p.ncols := by
      simp only [adjacentRaises, Bool.and_eq_false_iff, Bool.or_eq_false_iff, decide_eq_false_iff_not] at hg
      omega
    rw [if_pos hn]
    obtain ⟨h1, h2⟩ := adjacentPixels_eq (flag := flag) g hs.1 hs.2 hr hc
    refine ⟨fun h => ?_, h2⟩
    rw [h1 h, Nat.or_assoc, Nat.or_self]
    refine ⟨rfl, fun hf => ?_⟩
    rw [has_or_left]; exact Or.inr (has_self.mpr hf)
  · rw [if_neg hn]
    refine ⟨?_, fun _ => rfl⟩
    rintro ⟨r', c', hw, hh⟩
    have h0 : p.nGrow = 0 := by omega
    rw [h0] at hw
    obtain ⟨rfl, rfl⟩ := within_zero hw
    exact ⟨rfl, fun _ => hh⟩

/-- Growth of `flag` never changes other bits. -/
theorem grow_testBit (p : Params α) (flag : Nat) (g : Img Nat) (r c i : Nat) :
    (p.grow flag g r c).testBit i = true → (g r c).testBit i = true ∨ flag.testBit i = true := by
  unfold Params.grow adjacentPixels
  split
  · dsimp only
    split
    · intro h; simpa [Nat.testBit_or] using h
    · exact Or.inl
  · exact Or.inl

theorem grow_sub (p : Params α) (flag : Nat) (g : Img Nat) (r c : Nat) : Sub (g r c) (p.grow flag g r c) := by
  unfold Params.grow adjacentPixels
  split
  · dsimp only
    split
    · exact sub_or_left _ _
    · exact Sub.refl _
  · exact Sub.refl _

theorem grow_has (p : Params α) (flag : Nat) (g : Img Nat) (hg : adjacentRaises p.nrows p.ncols p.nGrow = false)
    (hf : flag ≠ 0) {r c : Nat} (hr : r < p.nrows) (hc : c < p.ncols) :
    Has (p.grow flag g r c) flag ↔ ∃ r' c', Within p.nrows p.ncols p.nGrow r c r' c' ∧ Has (g r' c') flag := by
  obtain ⟨h1, h2⟩ := grow_spec p flag g hg hr hc
  constructor
  · intro h
    by_contra hn
    rw [h2 hn] at h
    exact hn ⟨r, c, within_self hr hc, h⟩
  · intro h; exact (h1 h).2 hf

theorem grow_has_other (p : Params α) (flag f : Nat) (g : Img Nat) (hd : ¬ Has flag f) (r c : Nat) :
    Has (p.grow flag g r c) f ↔ Has (g r c) f := by
  constructor
  · rw [has_iff, has_iff]
    rintro ⟨i, h1, h2⟩
    rcases grow_testBit p flag g r c i h1 with h | h
    · exact ⟨i, h, h2⟩
    · exact absurd (has_iff.mpr ⟨i, h, h2⟩) hd
  · exact (grow_sub p flag g r c).has

/-! ## Forward pass -/

/-- The flags of a group before growth, as a formula. -/
def preGrow (p : Params α) (data : Nat → Img (Option α)) (gdq : Nat → Img Nat) (g : Nat) : Img Nat := fun r c =>
  (gdq g r c ||| (if (forward p data gdq (g + 1)).1 r c then p.flags.sat else 0)) |||
    (if fle0 (data g r c) then p.flags.adFloor ||| p.flags.dnu else 0)

theorem forward_prev (p : Params α) (data : Nat → Img (Option α)) (gdq : Nat → Img Nat) (k r c : Nat) :
    (forward p data gdq k).1 r c = true ↔ ∃ g, g < k ∧ fge (data g r c) (p.thresh r c) = true := by
  induction k with
  | zero => simp [forward]
  | succ k ih =>
    simp only [forward, forwardStep, Bool.or_eq_true, ih]
    constructor
    · rintro (⟨g, h1, h2⟩ | h)
      · exact ⟨g, by omega, h2⟩
      · exact ⟨k, by omega, h⟩
    · rintro ⟨g, h1, h2⟩
      rcases Nat.lt_succ_iff_lt_or_eq.mp h1 with h | rfl
      · exact Or.inl ⟨g, h, h2⟩
      · exact Or.inr h2

theorem forward_dq (p : Params α) (data : Nat → Img (Option α)) (gdq : Nat → Img Nat) (k g : Nat) :
    (forward p data gdq k).2 g = if g < k then p.grow p.flags.sat (preGrow p data gdq g) else gdq g := by
  induction k with
  | zero => simp [forward]
  | succ k ih =>
    have hk : (forward p data gdq k).2 k = gdq k := by
      have : ∀ j, j ≤ k → (forward p data gdq j).2 k = gdq k := by
        intro j
        induction j with
        | zero => intro _; rfl
        | succ j ihj =>
          intro hj
          simp only [forward, forwardStep, setGroup]
          rw [if_neg (by omega), ihj (by omega)]
      exact this k le_rfl
    by_cases hgk : g = k
    · subst hgk
      rw [if_pos (Nat.lt_succ_self g)]
      simp only [forward, forwardStep, setGroup, if_true, hk]
      rfl
    · have : (forward p data gdq (k + 1)).2 g = (forward p data gdq k).2 g := by
        simp only [forward, forwardStep, setGroup]; rw [if_neg hgk]
      rw [this, ih]
      by_cases hlt : g < k
      · rw [if_pos hlt, if_pos (by omega)]
      · rw [if_neg hlt, if_neg (by omega)]

/-! ## Backward and second-group pass -/

/-- `a` and `b` differ only by bits of `f` added. -/
def AddOnly (f a b : Nat) : Prop := Sub a b ∧ ∀ i, b.testBit i = true → a.testBit i = true ∨ f.testBit i = true

theorem AddOnly.refl (f a : Nat) : AddOnly f a a := ⟨Sub.refl _, fun _ h => Or.inl h⟩
theorem AddOnly.trans {f a b c : Nat} (h : AddOnly f a b) (h' : AddOnly f b c) : AddOnly f a c :=
  ⟨h.1.trans h'.1, fun i hi => (h'.2 i hi).elim (h.2 i) Or.inr⟩
theorem AddOnly.has {f a b g : Nat} (h : AddOnly f a b) (hd : ¬ Has f g) : Has b g ↔ Has a g := by
  constructor
  · rw [has_iff, has_iff]
    rintro ⟨i, h1, h2⟩
    rcases h.2 i h1 with h' | h'
    · exact ⟨i, h', h2⟩
    · exact absurd (has_iff.mpr ⟨i, h', h2⟩) hd
  · exact h.1.has
theorem addOnly_or {f a b : Nat} (h : Sub b f) : AddOnly f a (a ||| b) :=
  ⟨sub_or_left _ _, fun i hi => by
    rw [Nat.testBit_or, Bool.or_eq_true] at hi; exact hi.imp id (h i)⟩

theorem flagarray_sub (p : Params α) (m : Nat → Nat → Bool) (r c : Nat) :
    Sub (p.grow p.flags.dnu (fun r c => if m r c then p.flags.dnu else 0) r c) p.flags.dnu := by
  intro i hi
  rcases grow_testBit p _ _ r c i hi with h | h
  · by_cases hm : m r c
    · simpa [hm] using h
    · simp [hm] at h
  · exact h

theorem backwardStep_addOnly (p : Params α) (rp : List (List α)) (data : Nat → Img (Option α)) (k : Nat)
    (q : Nat → Img Nat) (g r c : Nat) : AddOnly p.flags.dnu (q g r c) (backwardStep p rp data k q g r c) := by
  simp only [backwardStep]
  split
  · exact AddOnly.refl _ _
  · simp only [setGroup]
    split
    · next h => subst h; exact addOnly_or (flagarray_sub p _ r c)
    · exact AddOnly.refl _ _

theorem backwardStep_ne (p : Params α) (rp : List (List α)) (data : Nat → Img (Option α)) (k : Nat)
    (q : Nat → Img Nat) (g : Nat) (hg : g ≠ k) : backwardStep p rp data k q g = q g := by
  simp only [backwardStep]
  split
  · rfl
  · simp only [setGroup]; rw [if_neg hg]

theorem backward_addOnly (p : Params α) (rp : List (List α)) (data : Nat → Img (Option α)) (k : Nat)
    (q : Nat → Img Nat) (g r c : Nat) : AddOnly p.flags.dnu (q g r c) (backward p rp data k q g r c) := by
  induction k generalizing q with
  | zero => exact AddOnly.refl _ _
  | succ k ih => exact (backwardStep_addOnly p rp data k q g r c).trans (ih _)

theorem backward_ge (p : Params α) (rp : List (List α)) (data : Nat → Img (Option α)) (k : Nat)
    (q : Nat → Img Nat) (g : Nat) (hg : k ≤ g) : backward p rp data k q g = q g := by
  induction k generalizing q with
  | zero => rfl
  | succ k ih =>
    rw [backward, ih _ (by omega), backwardStep_ne _ _ _ _ _ _ (by omega)]

theorem group2_addOnly (p : Params α) (rp : List (List α)) (data : Nat → Img (Option α))
    (q : Nat → Img Nat) (g r c : Nat) : AddOnly p.flags.dnu (q g r c) (group2 p rp data q g r c) := by
  simp only [group2]
  split
  · simp only [setGroup]
    split
    · next h =>
        subst h
        apply addOnly_or
        split
        · exact Sub.refl _
        · intro i hi; simp at hi
    · exact AddOnly.refl _ _
  · exact AddOnly.refl _ _

theorem flagIntegration_addOnly (p : Params α) (data : Nat → Img (Option α)) (gdq : Nat → Img Nat) (g r c : Nat) :
    AddOnly p.flags.dnu ((forward p data gdq p.ngroups).2 g r c) (flagIntegration p data gdq g r c) := by
  unfold flagIntegration
  cases p.readPattern with
  | none => exact AddOnly.refl _ _
  | some rp => exact (backward_addOnly p rp data _ _ g r c).trans (group2_addOnly p rp data _ g r c)

theorem flagAll_eq (p : Params α) (data : Nat → Nat → Img (Option α)) (gdq : Nat → Nat → Img Nat) (n i : Nat) :
    flagAll p data gdq n i = if i < n then flagIntegration p (data i) (gdq i) else gdq i := by
  induction n with
  | zero => simp [flagAll]
  | succ n ih =>
    simp only [flagAll]
    by_cases h : i = n
    · subst h
      have : flagAll p data gdq i i = gdq i := by rw [ih]; simp
      simp [this]
    · rw [if_neg h, ih]
      by_cases hlt : i < n
      · rw [if_pos hlt, if_pos (by omega)]
      · rw [if_neg hlt, if_neg (by omega)]

/-- How a group gets `DO_NOT_USE` in the backward pass. -/
theorem backward_dnu (p : Params α) (rp : List (List α)) (data : Nat → Img (Option α)) (k : Nat)
    (q : Nat → Img Nat) (g r c : Nat) (hg : adjacentRaises p.nrows p.ncols p.nGrow = false) (hf : p.flags.dnu ≠ 0)
    (hds : ¬ Has p.flags.dnu p.flags.sat) (hr : r < p.nrows) (hc : c < p.ncols) :
    Has (backward p rp data k q g r c) p.flags.dnu ↔
      Has (q g r c) p.flags.dnu ∨ (g < k ∧ dilution rp g ≠ 1 ∧ ∃ r' c', Within p.nrows p.ncols p.nGrow r c r' c' ∧
        partialSat p (dilution rp g) (data g) (q g) (q (g + 1)) r' c' = true) := by
  induction k generalizing q with
  | zero => simp [backward]
  | succ k ih =>
    rw [backward, ih]
    by_cases hgk : g = k
    · subst hgk
      simp only [Nat.lt_irrefl, false_and, or_false, Nat.lt_succ_self, true_and]
      simp only [backwardStep]
      by_cases hd : dilution rp g = 1
      · simp [hd]
      · rw [if_neg hd]
        simp only [setGroup, if_true, has_or_left, grow_has p _ _ hg hf hr hc, ne_eq, hd, not_false_eq_true, true_and]
        have : ∀ b : Bool, Has (if b = true then p.flags.dnu else 0) p.flags.dnu ↔ b = true := by
          intro b; cases b <;> simp [hf]
        simp only [this]
    · have h1 : backwardStep p rp data k q g = q g := backwardStep_ne _ _ _ _ _ _ hgk
      rw [h1]
      have h2 : ∀ r c, Has (backwardStep p rp data k q (g + 1) r c) p.flags.sat ↔ Has (q (g + 1) r c) p.flags.sat :=
        fun r c => (backwardStep_addOnly p rp data k q (g + 1) r c).has hds
      have h3 : ∀ dil r c, partialSat p dil (data g) (q g) (backwardStep p rp data k q (g + 1)) r c =
          partialSat p dil (data g) (q g) (q (g + 1)) r c := by
        intro dil r c; simp only [partialSat, h2]
      simp only [h3]
      have : g < k ↔ g < k + 1 := by omega
      rw [this]

end
end Verif.Saturation
