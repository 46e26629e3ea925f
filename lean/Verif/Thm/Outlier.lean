import Verif.Model.Outlier
import Verif.Proof.Jump
import Mathlib.Algebra.Order.Ring.Rat
import Mathlib.Algebra.Field.Rat
import Mathlib.Algebra.Order.Ring.Abs
import Mathlib.Order.Bounds.Basic
import Mathlib.Tactic.Ring
import Mathlib.Tactic.Linarith
import Mathlib.Tactic.NormNum

/-!
# C48, C49, C79: outlier masks, derivative image, median filter
-/

namespace Verif.Thm

open Verif.Outlier

set_option linter.unusedSectionVars false

variable {α : Type} [Field α] [LinearOrder α] [IsStrictOrderedRing α]

/-! ### C49 -/

/-- Pixel `(r', c')` of an `h` by `w` image is a left, right, upper or lower neighbour of `(r, c)`. -/
def OlNeighbour (h w r c r' c' : Nat) : Prop :=
  r' < h ∧ c' < w ∧ ((r' = r ∧ (c' = c + 1 ∨ c = c' + 1)) ∨ (c' = c ∧ (r' = r + 1 ∨ r = r' + 1)))

/-- The absolute differences of pixel `(r, c)`, of value `v`, with its finite neighbours, and zero. -/
def olDiffs (h w : Nat) (a : Arr2 α) (r c : Nat) (v : α) : Set α :=
  {x | x = 0 ∨ ∃ r' c' u, OlNeighbour h w r c r' c' ∧ a r' c' = some u ∧ x = |v - u|}

/-- `D` is the derivative image of `a`. -/
def OlDeriv (h w : Nat) (a D : Arr2 α) : Prop :=
  ∀ r < h, ∀ c < w, (a r c = none → D r c = none) ∧ ∀ v, a r c = some v → ∃ d, D r c = some d ∧ IsGreatest (olDiffs h w a r c v) d

/-- Maximum with an optional value. -/
def olMax (x : α) (d : Option α) : α :=
  match d with
  | none => x
  | some y => max x y

theorem ol_gt (d : Option α) (x : α) : (if gt d (some x) then d else some x) = some (olMax x d) := by
  cases d with
  | none => simp [gt, olMax]
  | some y =>
    by_cases h : y > x
    · simp [gt, olMax, h, max_eq_right h.le]
    · simp [gt, olMax, h, max_eq_left (not_lt.mp h)]

theorem ol_gt_none (d : Option α) : (if gt d (none : Option α) then d else none) = none := by
  cases d <;> simp [gt]

theorem ol_absDiff_none_left (b : Option α) : absDiff none b = none := by cases b <;> rfl
theorem ol_absDiff_none_right (b : Option α) : absDiff b none = none := by cases b <;> rfl

/-- Optional difference in each direction. -/
def olUp (a : Arr2 α) (r c : Nat) : Option α := if 1 ≤ r then absDiff (a r c) (a (r - 1) c) else none
def olDown (h : Nat) (a : Arr2 α) (r c : Nat) : Option α := if r + 1 < h then absDiff (a (r + 1) c) (a r c) else none
def olLeft (a : Arr2 α) (r c : Nat) : Option α := if 1 ≤ c then absDiff (a r c) (a r (c - 1)) else none
def olRight (w : Nat) (a : Arr2 α) (r c : Nat) : Option α := if c + 1 < w then absDiff (a r (c + 1)) (a r c) else none

theorem ol_deriv_some (h w : Nat) (a : Arr2 α) (r c : Nat) (v : α) (hv : a r c = some v) :
    absDeriv h w a r c =
      some (olMax (olMax (olMax (olMax 0 (olUp a r c)) (olDown h a r c)) (olLeft a r c)) (olRight w a r c)) := by
  have h1 : deriv1 a r c = some (olMax 0 (olUp a r c)) := by
    simp only [deriv1, hv, olUp]
    split
    · cases hu : a (r - 1) c with
      | none => simp [absDiff, olMax]
      | some u => simp [absDiff, olMax]
    · rfl
  have h2 : deriv2 h a (deriv1 a) r c = some (olMax (olMax 0 (olUp a r c)) (olDown h a r c)) := by
    simp only [deriv2, h1, olDown]
    split
    · exact ol_gt _ _
    · rfl
  have h3 : deriv3 a (deriv2 h a (deriv1 a)) r c =
      some (olMax (olMax (olMax 0 (olUp a r c)) (olDown h a r c)) (olLeft a r c)) := by
    simp only [deriv3, h2, olLeft]
    split
    · exact ol_gt _ _
    · rfl
  simp only [absDeriv, deriv4, h3, olRight]
  split
  · exact ol_gt _ _
  · rfl

theorem ol_deriv_none (h w : Nat) (a : Arr2 α) (r c : Nat) (hv : a r c = none) : absDeriv h w a r c = none := by
  have h1 : deriv1 a r c = none := by
    simp [deriv1, hv, ol_absDiff_none_left]
  have h2 : deriv2 h a (deriv1 a) r c = none := by
    simp only [deriv2, h1, hv, ol_absDiff_none_right, gt]
    simp
  have h3 : deriv3 a (deriv2 h a (deriv1 a)) r c = none := by
    simp only [deriv3, h2, hv, ol_absDiff_none_left, gt]
    simp
  simp only [absDeriv, deriv4, h3, hv, ol_absDiff_none_right, gt]
  simp

theorem ol_max_greatest (S : Set α) (x : α) (d : Option α) (hS : IsGreatest S x) :
    IsGreatest (S ∪ {y | d = some y}) (olMax x d) := by
  cases d with
  | none => simpa [olMax] using hS
  | some y =>
    simp only [olMax]
    refine ⟨?_, ?_⟩
    · rcases max_choice x y with h | h
      · rw [h]; exact Or.inl hS.1
      · rw [h]; exact Or.inr rfl
    · rintro z (hz | hz)
      · exact (hS.2 hz).trans (le_max_left _ _)
      · simp only [Set.mem_ofPred_eq, Option.some.injEq] at hz
        rw [← hz]
        exact le_max_right _ _

theorem ol_absDiff_some (a : Option α) (v x : α) : absDiff (some v) a = some x ↔ ∃ u, a = some u ∧ x = |v - u| := by
  cases a with
  | none => simp [absDiff]
  | some u => simp [absDiff, eq_comm]

theorem ol_absDiff_some' (a : Option α) (v x : α) : absDiff a (some v) = some x ↔ ∃ u, a = some u ∧ x = |v - u| := by
  cases a with
  | none => simp [absDiff]
  | some u => simp [absDiff, eq_comm, abs_sub_comm]

/-- **C49.** The derivative image of every array: NaN where the input is NaN, otherwise the largest absolute difference with
the finite left, right, upper and lower neighbours inside the image, zero if there is none. -/
theorem C49_derivative (h w : Nat) (a : Arr2 α) : OlDeriv h w a (absDeriv h w a) := by
  intro r hr c hc
  refine ⟨ol_deriv_none h w a r c, fun v hv => ⟨_, ol_deriv_some h w a r c v hv, ?_⟩⟩
  have h0 : IsGreatest ({0} : Set α) 0 := isGreatest_singleton
  have h4 := ol_max_greatest _ _ (olRight w a r c) (ol_max_greatest _ _ (olLeft a r c)
    (ol_max_greatest _ _ (olDown h a r c) (ol_max_greatest _ _ (olUp a r c) h0)))
  convert h4 using 1
  ext x
  simp only [olDiffs, Set.mem_ofPred_eq, Set.mem_union, Set.mem_singleton_iff]
  have hu : olUp a r c = some x ↔ 1 ≤ r ∧ ∃ u, a (r - 1) c = some u ∧ x = |v - u| := by
    unfold olUp
    split
    · rename_i h; rw [hv, ol_absDiff_some]; simp [h]
    · rename_i h; simp [h]
  have hd : olDown h a r c = some x ↔ r + 1 < h ∧ ∃ u, a (r + 1) c = some u ∧ x = |v - u| := by
    unfold olDown
    split
    · rename_i h; rw [hv, ol_absDiff_some']; simp [h]
    · rename_i h; simp [h]
  have hl : olLeft a r c = some x ↔ 1 ≤ c ∧ ∃ u, a r (c - 1) = some u ∧ x = |v - u| := by
    unfold olLeft
    split
    · rename_i h; rw [hv, ol_absDiff_some]; simp [h]
    · rename_i h; simp [h]
  have hrt : olRight w a r c = some x ↔ c + 1 < w ∧ ∃ u, a r (c + 1) = some u ∧ x = |v - u| := by
    unfold olRight
    split
    · rename_i h; rw [hv, ol_absDiff_some']; simp [h]
    · rename_i h; simp [h]
  rw [hu, hd, hl, hrt]
  constructor
  · rintro (h1 | ⟨r', c', u, ⟨hr', hc', ⟨rfl, rfl | rfl⟩ | ⟨rfl, rfl | rfl⟩⟩, hu', rfl⟩)
    · simp [h1]
    · exact Or.inr ⟨hc', u, hu', rfl⟩
    · exact Or.inl (Or.inr ⟨by omega, u, by simpa using hu', rfl⟩)
    · exact Or.inl (Or.inl (Or.inr ⟨hr', u, hu', rfl⟩))
    · exact Or.inl (Or.inl (Or.inl (Or.inr ⟨by omega, u, by simpa using hu', rfl⟩)))
  · rintro ((((h1 | ⟨h1, u, hu', rfl⟩) | ⟨h1, u, hu', rfl⟩) | ⟨h1, u, hu', rfl⟩) | ⟨h1, u, hu', rfl⟩)
    · exact Or.inl h1
    · exact Or.inr ⟨r - 1, c, u, ⟨by omega, hc, Or.inr ⟨rfl, Or.inr (by omega)⟩⟩, hu', rfl⟩
    · exact Or.inr ⟨r + 1, c, u, ⟨h1, hc, Or.inr ⟨rfl, Or.inl rfl⟩⟩, hu', rfl⟩
    · exact Or.inr ⟨r, c - 1, u, ⟨hr, by omega, Or.inl ⟨rfl, Or.inr (by omega)⟩⟩, hu', rfl⟩
    · exact Or.inr ⟨r, c + 1, u, ⟨hr, h1, Or.inl ⟨rfl, Or.inl rfl⟩⟩, hu', rfl⟩

/-- The derivative image is determined by the specification. -/
theorem ol_deriv_unique (h w : Nat) (a D E : Arr2 α) (hD : OlDeriv h w a D) (hE : OlDeriv h w a E) (r c : Nat)
    (hr : r < h) (hc : c < w) : D r c = E r c := by
  cases hv : a r c with
  | none => rw [(hD r hr c hc).1 hv, (hE r hr c hc).1 hv]
  | some v =>
    obtain ⟨d, hd, hg⟩ := (hD r hr c hc).2 v hv
    obtain ⟨e, he, hg'⟩ := (hE r hr c hc).2 v hv
    rw [hd, he, hg.unique hg']

/-! ### C48 -/

/-- The difference of a pixel exceeds `scale * derivative + snr * error`: both values must be numbers; a missing error
counts as zero. -/
def OlExceeds (sci err blot D : Arr2 α) (scale snr backg : α) (r c : Nat) : Prop :=
  ∃ s b d, sci r c = some s ∧ blot r c = some b ∧ D r c = some d ∧ |s - b - backg| > scale * d + snr * ((err r c).getD 0)

theorem ol_mask (sci err blot D : Arr2 α) (scale snr backg : α) (r c : Nat) :
    gt (diffNoise sci blot backg r c) (threshold scale snr D err r c) = true ↔ OlExceeds sci err blot D scale snr backg r c := by
  unfold diffNoise threshold OlExceeds
  cases hs : sci r c with
  | none => simp [gt]
  | some s =>
    cases hb : blot r c with
    | none => simp [gt]
    | some b =>
      cases hd : D r c with
      | none => simp [gt]
      | some d => simp [gt, nanToNum]

theorem ol_clamp (n : Nat) (i : Nat) (hi : i < n) (d : Int) (hd : d = -1 ∨ d = 0 ∨ d = 1) :
    clampIdx n ((i : Int) - d) < n ∧ clampIdx n ((i : Int) - d) ≤ i + 1 ∧ i ≤ clampIdx n ((i : Int) - d) + 1 := by
  unfold clampIdx
  omega

theorem ol_clamp_surj (n : Nat) (i j : Nat) (hj : j < n) (h1 : j ≤ i + 1) (h2 : i ≤ j + 1) :
    ∃ d : Int, (d = -1 ∨ d = 0 ∨ d = 1) ∧ clampIdx n ((i : Int) - d) = j := by
  refine ⟨(i : Int) - j, by omega, ?_⟩
  unfold clampIdx
  omega

theorem ol_dilate (h w : Nat) (m : Nat → Nat → Bool) (r c : Nat) (hr : r < h) (hc : c < w) :
    dilate3 h w m r c = true ↔
      ∃ r' c', r' < h ∧ c' < w ∧ r' ≤ r + 1 ∧ r ≤ r' + 1 ∧ c' ≤ c + 1 ∧ c ≤ c' + 1 ∧ m r' c' = true := by
  simp only [dilate3, List.any_eq_true, List.mem_cons, List.not_mem_nil, or_false]
  constructor
  · rintro ⟨dr, hdr, dc, hdc, hm⟩
    obtain ⟨a1, a2, a3⟩ := ol_clamp h r hr dr hdr
    obtain ⟨b1, b2, b3⟩ := ol_clamp w c hc dc hdc
    exact ⟨_, _, a1, b1, a2, a3, b2, b3, hm⟩
  · rintro ⟨r', c', hr', hc', h1, h2, h3, h4, hm⟩
    obtain ⟨dr, hdr, er⟩ := ol_clamp_surj h r r' hr' h1 h2
    obtain ⟨dc, hdc, ec⟩ := ol_clamp_surj w c c' hc' h3 h4
    exact ⟨dr, hdr, dc, hdc, by rw [er, ec]; exact hm⟩

/-- **C48.** With `D` the derivative of the reference image: a pixel is flagged exactly when its own difference exceeds the
second threshold and that of some pixel of the image in its 3x3 neighbourhood exceeds the first one. -/
theorem C48_resampled (h w : Nat) (sci err blot D : Arr2 α) (snr1 snr2 scale1 scale2 backg : α)
    (hD : OlDeriv h w blot D) (r c : Nat) (hr : r < h) (hc : c < w) :
    flagResampled h w sci err blot snr1 snr2 scale1 scale2 backg r c = true ↔
      OlExceeds sci err blot D scale2 snr2 backg r c ∧
      ∃ r' c', r' < h ∧ c' < w ∧ r' ≤ r + 1 ∧ r ≤ r' + 1 ∧ c' ≤ c + 1 ∧ c ≤ c' + 1 ∧
        OlExceeds sci err blot D scale1 snr1 backg r' c' := by
  have hex : ∀ scale snr r c, r < h → c < w → (OlExceeds sci err blot (absDeriv h w blot) scale snr backg r c ↔
      OlExceeds sci err blot D scale snr backg r c) := by
    intro scale snr r c hr hc
    unfold OlExceeds
    rw [ol_deriv_unique h w blot _ D (C49_derivative h w blot) hD r c hr hc]
  simp only [flagResampled, Bool.and_eq_true]
  rw [ol_dilate h w _ r c hr hc, ol_mask, hex _ _ r c hr hc, and_comm]
  constructor
  · rintro ⟨h1, r', c', hr', hc', a1, a2, a3, a4, hm⟩
    rw [ol_mask, hex _ _ r' c' hr' hc'] at hm
    exact ⟨h1, r', c', hr', hc', a1, a2, a3, a4, hm⟩
  · rintro ⟨h1, r', c', hr', hc', a1, a2, a3, a4, hm⟩
    refine ⟨h1, r', c', hr', hc', a1, a2, a3, a4, ?_⟩
    rw [ol_mask, hex _ _ r' c' hr' hc']
    exact hm

/-- **C48.** A pixel without a science or reference value is never flagged. -/
theorem C48_nan_not_flagged (h w : Nat) (sci err blot : Arr2 α) (snr snr1 snr2 scale1 scale2 backg : α) (r c : Nat)
    (hr : r < h) (hc : c < w) (hn : sci r c = none ∨ blot r c = none) :
    flagResampled h w sci err blot snr1 snr2 scale1 scale2 backg r c = false ∧ flagCrs sci err blot snr r c = false := by
  constructor
  · rw [Bool.eq_false_iff]
    intro hf
    obtain ⟨⟨s, b, d, h1, h2, -⟩, -⟩ :=
      (C48_resampled h w sci err blot _ snr1 snr2 scale1 scale2 backg (C49_derivative h w blot) r c hr hc).mp hf
    rcases hn with hn | hn
    · rw [hn] at h1; simp at h1
    · rw [hn] at h2; simp at h2
  · unfold flagCrs
    rcases hn with hn | hn
    · rw [hn, ol_absDiff_none_left]; rfl
    · rw [hn, ol_absDiff_none_right]; rfl

/-- **C48.** The simple test: a pixel is flagged exactly when both values are numbers and their difference exceeds the
given multiple of the error, a missing error counting as zero. -/
theorem C48_simple (sci err blot : Arr2 α) (snr : α) (r c : Nat) :
    flagCrs sci err blot snr r c = true ↔
      ∃ s b, sci r c = some s ∧ blot r c = some b ∧ |s - b| > snr * ((err r c).getD 0) := by
  unfold flagCrs
  cases hs : sci r c with
  | none => simp [ol_absDiff_none_left, gt]
  | some s =>
    cases hb : blot r c with
    | none => simp [ol_absDiff_none_right, gt]
    | some b => simp [absDiff, gt, nanToNum]

/-- **C48.** Larger thresholds flag no more pixels, for a nonnegative error and scales. -/
theorem C48_monotone (h w : Nat) (sci err blot : Arr2 α) (snr1 snr2 scale1 scale2 snr1' snr2' scale1' scale2' backg : α)
    (h1 : snr1 ≤ snr1') (h2 : snr2 ≤ snr2') (h3 : scale1 ≤ scale1') (h4 : scale2 ≤ scale2')
    (herr : ∀ r c e, err r c = some e → 0 ≤ e) (r c : Nat) (hr : r < h) (hc : c < w)
    (hf : flagResampled h w sci err blot snr1' snr2' scale1' scale2' backg r c = true) :
    flagResampled h w sci err blot snr1 snr2 scale1 scale2 backg r c = true := by
  have hD := C49_derivative h w blot
  have he : ∀ r c, 0 ≤ (err r c).getD 0 := by
    intro r c
    cases hh : err r c with
    | none => simp
    | some e => simpa using herr r c e hh
  have mono : ∀ s t s' t' r c, r < h → c < w → s ≤ s' → t ≤ t' →
      OlExceeds sci err blot (absDeriv h w blot) s' t' backg r c → OlExceeds sci err blot (absDeriv h w blot) s t backg r c := by
    rintro s t s' t' r c hr hc hs ht ⟨x, b, d, hx, hb, hd, hgt⟩
    refine ⟨x, b, d, hx, hb, hd, lt_of_le_of_lt ?_ hgt⟩
    obtain ⟨d', hd', hg⟩ := (hD r hr c hc).2 b hb
    rw [hd] at hd'
    simp only [Option.some.injEq] at hd'
    subst hd'
    have hd0 : 0 ≤ d := hg.2 (Or.inl rfl)
    exact add_le_add (mul_le_mul_of_nonneg_right hs hd0) (mul_le_mul_of_nonneg_right ht (he r c))
  rw [C48_resampled h w sci err blot _ _ _ _ _ backg hD r c hr hc] at hf ⊢
  obtain ⟨k1, r', c', hr', hc', a1, a2, a3, a4, k2⟩ := hf
  exact ⟨mono _ _ _ _ r c hr hc h4 h2 k1, r', c', hr', hc', a1, a2, a3, a4, mono _ _ _ _ r' c' hr' hc' h3 h1 k2⟩

/-! ### C79 -/

/-- The value at a signed position of the image, zero outside. -/
def olAt (h w : Nat) (a : Arr2 α) (r c : Int) : Option α :=
  if 0 ≤ r ∧ r < h ∧ 0 ≤ c ∧ c < w then a r.toNat c.toNat else some 0

/-- **C79**, for odd kernel sizes `2 * p + 1` and `2 * q + 1`: the filtered image has the shape of the input, and each value
is the median of the finite values in the window centred on the pixel, zeros being taken outside the image.  Missing:
even sizes, where the result is one pixel larger (`C79_even_kernel_grows`). -/
theorem C79_median_filter_partial (h w p q : Nat) (a : Arr2 α) :
    (medfilt h w (2 * p + 1) (2 * q + 1) a).1 = (h, w) ∧
    ∀ r c, (medfilt h w (2 * p + 1) (2 * q + 1) a).2 r c =
      Verif.Jump.nanmedian ((List.range (2 * p + 1)).flatMap fun (i : Nat) => (List.range (2 * q + 1)).map fun (j : Nat) =>
        olAt h w a ((r : Int) - p + (i : Int)) ((c : Int) - q + (j : Int))) := by
  have hp : (2 * p + 1) / 2 = p := by omega
  have hq : (2 * q + 1) / 2 = q := by omega
  constructor
  · simp only [medfilt, hp, hq, Prod.mk.injEq]
    omega
  · intro r c
    simp only [medfilt]
    congr 2
    funext i
    congr 1
    funext j
    simp only [padZero, olAt, hp, hq]
    by_cases hc : p ≤ r + i ∧ r + i < h + p ∧ q ≤ c + j ∧ c + j < w + q
    · rw [if_pos hc, if_pos (by omega)]
      congr 1 <;> omega
    · rw [if_neg hc, if_neg (by omega)]

/-- The value is a median: at least half of the finite values in the window are not larger, at least half are not
smaller; it is NaN exactly when the window holds no finite value. -/
theorem C79_is_median (h w p q : Nat) (a : Arr2 α) (r c : Nat) :
    let win := (List.range (2 * p + 1)).flatMap fun (i : Nat) => (List.range (2 * q + 1)).map fun (j : Nat) =>
        olAt h w a ((r : Int) - p + (i : Int)) ((c : Int) - q + (j : Int))
    let fin := win.filterMap id
    (∀ m, (medfilt h w (2 * p + 1) (2 * q + 1) a).2 r c = some m →
      fin.length ≤ 2 * fin.countP (fun x => decide (x ≤ m)) ∧ fin.length ≤ 2 * fin.countP (fun x => decide (m ≤ x))) ∧
    ((medfilt h w (2 * p + 1) (2 * q + 1) a).2 r c = none ↔ fin = []) := by
  intro win fin
  have hfin : Verif.Jump.finite win = fin := rfl
  rw [(C79_median_filter_partial h w p q a).2 r c]
  refine ⟨fun m hm => ?_, ?_⟩
  · have := Verif.Jump.nanmedian_spec _ m hm
    rw [← hfin]
    exact this
  · rw [← hfin]
    exact Verif.Jump.nanmedian_none_iff _

/-- With an even kernel the result is larger than the input by one row and one column. -/
theorem C79_even_kernel_grows (h w p q : Nat) (a : Arr2 α) :
    (medfilt h w (2 * p) (2 * q) a).1 = (h + 1, w + 1) := by
  simp only [medfilt, Prod.mk.injEq]
  omega

/-! ### Examples -/

/-- A 3 by 3 image with a NaN in the middle of the left column. -/
def olImg : Arr2 ℚ := fun r c => if r = 1 ∧ c = 0 then none else some ([[1, 4, 2], [0, 9, 3], [5, 5, 5]].getD r [] |>.getD c 0)

example : (List.range 3).map (fun r => (List.range 3).map fun c => absDeriv 3 3 olImg r c) =
    [[some 3, some 5, some 2], [none, some 6, some 6], [some 0, some 4, some 2]] := by decide +kernel

/-- A reference of zeros, and a single outlier with a moderately deviating neighbour. -/
def olSci : Arr2 ℚ := fun r c => if r = 1 ∧ c = 1 then some 10 else if r = 0 ∧ c = 0 then some 3 else if r = 3 ∧ c = 3 then some 3
  else if r = 0 ∧ c = 1 then none else some 0

example : (List.range 4).map (fun r => (List.range 4).map fun c =>
    flagResampled 4 4 olSci (fun _ _ => some 1) (fun _ _ => some 0) 5 2 1 1 0 r c) =
    [[true, false, false, false], [false, true, false, false], [false, false, false, false], [false, false, false, false]] := by
  decide +kernel

example : flagCrs olSci (fun _ _ => none) (fun _ _ => some 0) 5 1 1 = true ∧
    flagCrs olSci (fun _ _ => some 2) (fun _ _ => some 0) 5 1 1 = false := by decide +kernel

example : ((medfilt 3 3 3 3 olImg).1, (medfilt 3 3 3 3 olImg).2 1 1, (medfilt 3 3 3 3 olImg).2 0 0) =
    ((3, 3), some (9 / 2), some 0) := by decide +kernel

end Verif.Thm
