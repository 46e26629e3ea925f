import Verif.Model.WeightThreshold
import Verif.Proof.Jump
import Verif.Thm.MedianComputer
import Mathlib.Algebra.Order.Ring.Rat
import Mathlib.Algebra.Field.Rat
import Mathlib.Algebra.BigOperators.Group.List.Basic
import Mathlib.Algebra.Order.BigOperators.Group.List
import Mathlib.Data.List.Perm.Basic
import Mathlib.Tactic.Ring
import Mathlib.Tactic.Linarith
import Mathlib.Tactic.FieldSimp
import Mathlib.Tactic.Positivity

/-!
# C146: the weight threshold of outlier detection
-/

namespace Verif.Thm

open Verif.Outlier

set_option linter.unusedSectionVars false

variable {α : Type} [Field α] [LinearOrder α] [IsStrictOrderedRing α]

/-! ### Helper lemmas -/

omit [IsStrictOrderedRing α] in
theorem wt_finite (l : List α) : Verif.Jump.finite (l.map some) = l := by
  simp [Verif.Jump.finite, List.filterMap_map]

theorem wt_sum_count (l : List α) (f : α → α) (p : α → Bool) (D : α) (h0 : ∀ x ∈ l, 0 ≤ f x)
    (hp : ∀ x ∈ l, p x = true → D < f x) :
    (l.countP p : α) * D ≤ (l.map f).sum ∧ (0 < l.countP p → (l.countP p : α) * D < (l.map f).sum) := by
  induction l with
  | nil => simp
  | cons a t ih =>
    obtain ⟨h1, h2⟩ := ih (fun x hx => h0 x (by simp [hx])) fun x hx => hp x (by simp [hx])
    have ha := h0 a (by simp)
    simp only [List.countP_cons, List.map_cons, List.sum_cons]
    by_cases hpa : p a = true
    · have hD := hp a (by simp) hpa
      simp only [hpa, if_true]
      push_cast
      constructor
      · linarith
      · intro _
        linarith
    · simp only [hpa, Bool.false_eq_true, if_false, Nat.add_zero]
      constructor
      · linarith
      · intro h
        have := h2 h
        linarith

theorem wt_var_nonneg (l : List α) : 0 ≤ varOf l := by
  unfold varOf
  apply div_nonneg
  · apply List.sum_nonneg
    intro x hx
    obtain ⟨y, -, rfl⟩ := List.mem_map.mp hx
    positivity
  · positivity

/-- The clipping never removes everything. -/
theorem wt_round_ne_nil (l : List α) (hl : l ≠ []) : clipRound l ≠ [] := by
  unfold clipRound
  cases hm : Verif.Jump.nanmedian (l.map some) with
  | none => rw [Verif.Jump.nanmedian_none_iff, wt_finite] at hm; exact absurd hm hl
  | some m =>
    simp only
    intro hnil
    have hall : ∀ x ∈ l, 9 * varOf l < (x - m) ^ 2 := by
      intro x hx
      have := List.filter_eq_nil_iff.mp hnil x hx
      simpa using this
    obtain ⟨hlo, hhi⟩ := Verif.Jump.nanmedian_spec _ m hm
    rw [wt_finite] at hlo hhi
    have hpos : 0 < l.length := List.length_pos_of_ne_nil hl
    have hposα : (0 : α) < l.length := by exact_mod_cast hpos
    have hvar := wt_var_nonneg l
    have hsum : (l.map fun x => (x - meanOf l) ^ 2).sum = varOf l * l.length := by
      unfold varOf
      field_simp
    have key : ∀ p : α → Bool, l.length ≤ 2 * l.countP p →
        (∀ x, p x = true → (x - m) ^ 2 ≤ (x - meanOf l) ^ 2) → False := by
      intro p hc hp
      obtain ⟨-, h2⟩ := wt_sum_count l (fun x => (x - meanOf l) ^ 2) p (9 * varOf l) (fun x _ => by positivity)
        fun x hx hpx => lt_of_lt_of_le (hall x hx) (hp x hpx)
      have h3 := h2 (by omega)
      rw [hsum] at h3
      have hcα : (l.length : α) ≤ 2 * l.countP p := by exact_mod_cast hc
      have : varOf l * l.length ≤ varOf l * (2 * l.countP p) := mul_le_mul_of_nonneg_left hcα hvar
      have hcp : (0 : α) ≤ (l.countP p : α) * varOf l := by positivity
      nlinarith
    rcases le_total (meanOf l) m with h | h
    · refine key (fun x => decide (m ≤ x)) hhi ?_
      intro x hx
      have hx' : m ≤ x := by simpa using hx
      apply pow_le_pow_left₀ <;> linarith
    · refine key (fun x => decide (x ≤ m)) hlo ?_
      intro x hx
      have hx' : x ≤ m := by simpa using hx
      have : (m - x) ^ 2 ≤ (meanOf l - x) ^ 2 := by apply pow_le_pow_left₀ <;> linarith
      nlinarith

omit [IsStrictOrderedRing α] in
theorem wt_round_subset (l : List α) : ∀ x ∈ clipRound l, x ∈ l := by
  intro x hx
  unfold clipRound at hx
  split at hx
  · simp at hx
  · exact (List.mem_filter.mp hx).1

omit [IsStrictOrderedRing α] in
theorem wt_clip_subset (k : Nat) (l : List α) : ∀ x ∈ sigmaClip k l, x ∈ l := by
  induction k generalizing l with
  | zero => intro x hx; exact hx
  | succ k ih =>
    intro x hx
    simp only [sigmaClip] at hx
    split at hx
    · exact wt_round_subset l x hx
    · exact wt_round_subset l x (ih _ x hx)

theorem wt_clip_ne_nil (k : Nat) (l : List α) (hl : l ≠ []) : sigmaClip k l ≠ [] := by
  induction k generalizing l with
  | zero => exact hl
  | succ k ih =>
    simp only [sigmaClip]
    split
    · exact wt_round_ne_nil l hl
    · exact ih _ (wt_round_ne_nil l hl)

omit [IsStrictOrderedRing α] in
theorem wt_mean_perm (a b : List α) (h : a.Perm b) : meanOf a = meanOf b := by
  unfold meanOf
  rw [h.sum_eq, h.length_eq]

omit [IsStrictOrderedRing α] in
theorem wt_var_perm (a b : List α) (h : a.Perm b) : varOf a = varOf b := by
  unfold varOf
  rw [wt_mean_perm a b h, (h.map fun x => (x - meanOf b) ^ 2).sum_eq, h.length_eq]

theorem wt_round_perm (a b : List α) (h : a.Perm b) : (clipRound a).Perm (clipRound b) := by
  unfold clipRound
  rw [mc_nanmedian_symmetric _ _ (h.map some), wt_var_perm a b h]
  split
  · exact List.Perm.refl _
  · exact h.filter _

theorem wt_clip_perm (k : Nat) (a b : List α) (h : a.Perm b) : (sigmaClip k a).Perm (sigmaClip k b) := by
  induction k generalizing a b with
  | zero => exact h
  | succ k ih =>
    have hr := wt_round_perm a b h
    simp only [sigmaClip, hr.length_eq, h.length_eq]
    split
    · exact hr
    · exact ih _ _ hr

/-- Order of two values after multiplication by a positive number. -/
theorem wt_sort_scale (c : α) (hc : 0 < c) (l : List α) :
    (l.map (c * ·)).insertionSort (· ≤ ·) = (l.insertionSort (· ≤ ·)).map (c * ·) := by
  refine List.Perm.eq_of_pairwise' (r := (· ≤ ·)) (List.pairwise_insertionSort _ _) ?_ ?_
  · rw [List.pairwise_map]
    exact (List.pairwise_insertionSort (· ≤ ·) l).imp fun h => mul_le_mul_of_nonneg_left h hc.le
  · exact (List.perm_insertionSort _ _).trans ((List.perm_insertionSort (· ≤ ·) l).symm.map _)

theorem wt_median_scale (c : α) (hc : 0 < c) (l : List α) :
    Verif.Jump.nanmedian ((l.map (c * ·)).map some) = (Verif.Jump.nanmedian (l.map some)).map (c * ·) := by
  simp only [Verif.Jump.nanmedian, wt_finite, wt_sort_scale c hc]
  generalize l.insertionSort (· ≤ ·) = s
  simp only [Verif.Jump.medianSorted, List.length_map, List.getElem?_map]
  split
  · rfl
  · split
    · rfl
    · cases s[s.length / 2 - 1]? <;> cases s[s.length / 2]? <;> simp
      ring

omit [LinearOrder α] [IsStrictOrderedRing α] in
theorem wt_sum_scale (c : α) (l : List α) : (l.map (c * ·)).sum = c * l.sum := by
  induction l with
  | nil => simp
  | cons a t ih => simp [ih, mul_add]

omit [IsStrictOrderedRing α] in
theorem wt_mean_scale (c : α) (l : List α) : meanOf (l.map (c * ·)) = c * meanOf l := by
  unfold meanOf
  rw [wt_sum_scale, List.length_map, mul_div_assoc]

omit [IsStrictOrderedRing α] in
theorem wt_var_scale (c : α) (l : List α) : varOf (l.map (c * ·)) = c ^ 2 * varOf l := by
  unfold varOf
  rw [wt_mean_scale, List.map_map, List.length_map, ← mul_div_assoc, ← wt_sum_scale, List.map_map]
  congr 2
  apply List.map_congr_left
  intro x _
  simp only [Function.comp]
  ring

theorem wt_round_scale (c : α) (hc : 0 < c) (l : List α) : clipRound (l.map (c * ·)) = (clipRound l).map (c * ·) := by
  unfold clipRound
  rw [wt_median_scale c hc]
  cases Verif.Jump.nanmedian (l.map some) with
  | none => rfl
  | some m =>
    simp only [Option.map_some]
    rw [List.filter_map]
    congr 1
    apply List.filter_congr
    intro x _
    simp only [Function.comp, wt_var_scale, decide_eq_decide]
    rw [show (c * x - c * m) ^ 2 = c ^ 2 * (x - m) ^ 2 by ring, show 9 * (c ^ 2 * varOf l) = c ^ 2 * (9 * varOf l) by ring]
    exact mul_le_mul_iff_of_pos_left (by positivity)

theorem wt_clip_scale (k : Nat) (c : α) (hc : 0 < c) (l : List α) :
    sigmaClip k (l.map (c * ·)) = (sigmaClip k l).map (c * ·) := by
  induction k generalizing l with
  | zero => rfl
  | succ k ih =>
    simp only [sigmaClip, wt_round_scale c hc, List.length_map]
    split
    · rfl
    · exact ih _

/-! ### C146 -/

/-- The weights that count: finite and not zero. -/
def WtUsable (w : List (Option α)) (x : α) : Prop := some x ∈ w ∧ x ≠ 0

omit [IsStrictOrderedRing α] in
theorem wt_usable (w : List (Option α)) (x : α) : x ∈ usableWeights w ↔ WtUsable w x := by
  simp [usableWeights, WtUsable]

/-- **C146.** The threshold is NaN exactly when no weight is finite and different from zero: the clipping never removes
all weights. -/
theorem C146_defined (w : List (Option α)) (maskpt : α) :
    weightThreshold w maskpt = none ↔ ∀ x, ¬ WtUsable w x := by
  simp only [weightThreshold]
  constructor
  · intro h x hx
    split at h
    · rename_i hnil
      exact wt_clip_ne_nil 5 (usableWeights w) (List.ne_nil_of_mem ((wt_usable w x).mpr hx)) hnil
    · simp at h
  · intro h
    have : usableWeights w = [] := by
      rw [List.eq_nil_iff_forall_not_mem]
      exact fun x hx => h x ((wt_usable w x).mp hx)
    rw [if_pos]
    rw [List.eq_nil_iff_forall_not_mem]
    intro x hx
    have := wt_clip_subset 5 _ x hx
    simp_all

theorem wt_mean_bounds (l : List α) (hl : l ≠ []) (lo hi : α) (h : ∀ x ∈ l, lo ≤ x ∧ x ≤ hi) :
    lo ≤ meanOf l ∧ meanOf l ≤ hi := by
  have hpos : (0 : α) < l.length := by exact_mod_cast List.length_pos_of_ne_nil hl
  have : (l.length : α) * lo ≤ l.sum ∧ l.sum ≤ l.length * hi := by
    clear hl hpos
    induction l with
    | nil => simp
    | cons a t ih =>
      obtain ⟨h1, h2⟩ := ih fun x hx => h x (by simp [hx])
      have := h a (by simp)
      simp only [List.length_cons, List.sum_cons]
      push_cast
      constructor <;> linarith
  unfold meanOf
  rw [le_div_iff₀ hpos, div_le_iff₀ hpos]
  constructor <;> linarith [mul_comm (l.length : α) lo, mul_comm (l.length : α) hi]

/-- **C146**, range.  With a fraction that is not negative the threshold lies between that fraction of the smallest and
of the largest usable weight. -/
theorem C146_range (w : List (Option α)) (maskpt t lo hi : α) (hm : 0 ≤ maskpt)
    (ht : weightThreshold w maskpt = some t) (hw : ∀ x, WtUsable w x → lo ≤ x ∧ x ≤ hi) :
    lo * maskpt ≤ t ∧ t ≤ hi * maskpt := by
  simp only [weightThreshold] at ht
  split at ht
  · simp at ht
  · rename_i hne
    simp only [Option.some.injEq] at ht
    subst ht
    obtain ⟨h1, h2⟩ := wt_mean_bounds _ hne lo hi fun x hx => hw x ((wt_usable w x).mp (wt_clip_subset 5 _ x hx))
    exact ⟨mul_le_mul_of_nonneg_right h1 hm, mul_le_mul_of_nonneg_right h2 hm⟩

/-- **C146**, use.  With weights that are not negative and a fraction of at most one, some pixel has a weight that reaches
the threshold: masking the pixels below it never masks the whole image. -/
theorem C146_some_pixel_left (w : List (Option α)) (maskpt t : α) (hm : 0 ≤ maskpt) (hm1 : maskpt ≤ 1)
    (ht : weightThreshold w maskpt = some t) (hw : ∀ x, some x ∈ w → 0 ≤ x) : ∃ x, WtUsable w x ∧ t ≤ x := by
  by_contra hcon
  push Not at hcon
  simp only [weightThreshold] at ht
  split at ht
  · simp at ht
  · rename_i hne
    simp only [Option.some.injEq] at ht
    set l := sigmaClip 5 (usableWeights w) with hl
    have husable : ∀ x ∈ l, WtUsable w x := fun x hx => (wt_usable w x).mp (wt_clip_subset 5 _ x hx)
    obtain ⟨x, hx⟩ := List.exists_mem_of_ne_nil l hne
    have hmax : ∃ y ∈ l, ∀ z ∈ l, z ≤ y := by
      clear_value l
      clear hl ht husable hx x
      induction l with
      | nil => exact absurd rfl hne
      | cons a t ih =>
        rcases t with _ | ⟨b, t⟩
        · exact ⟨a, by simp, by simp⟩
        · obtain ⟨y, hy, hyz⟩ := ih (by simp)
          rcases le_total a y with h | h
          · refine ⟨y, by simp only [List.mem_cons] at hy ⊢; tauto, ?_⟩
            intro z hz
            rcases List.mem_cons.mp hz with rfl | hz
            · exact h
            · exact hyz z hz
          · refine ⟨a, by simp, ?_⟩
            intro z hz
            rcases List.mem_cons.mp hz with rfl | hz
            · exact le_refl _
            · exact le_trans (hyz z hz) h
    obtain ⟨y, hy, hyz⟩ := hmax
    obtain ⟨-, h2⟩ := wt_mean_bounds l hne 0 y fun z hz => ⟨hw z (husable z hz).1, hyz z hz⟩
    have h3 := hcon y (husable y hy)
    have h0 := hw y (husable y hy).1
    have : meanOf l * maskpt ≤ y * 1 := mul_le_mul h2 hm1 hm h0
    linarith

omit [IsStrictOrderedRing α] in
theorem wt_usable_perm (a b : List (Option α)) (h : a.Perm b) : (usableWeights a).Perm (usableWeights b) :=
  (h.filterMap _).filter _

/-- **C146**, arrangement.  The threshold does not depend on the arrangement of the pixels, nor on pixels with a weight
that is zero or not finite. -/
theorem C146_arrangement (a b : List (Option α)) (maskpt : α)
    (h : (a.filter fun x => decide (x ≠ none) && decide (x ≠ some 0)).Perm
      (b.filter fun x => decide (x ≠ none) && decide (x ≠ some 0))) :
    weightThreshold a maskpt = weightThreshold b maskpt := by
  have hu : ∀ w : List (Option α),
      usableWeights (w.filter fun x => decide (x ≠ none) && decide (x ≠ some 0)) = usableWeights w := by
    intro w
    induction w with
    | nil => rfl
    | cons x t ih =>
      rcases x with _ | x
      · simpa [usableWeights] using ih
      · by_cases hx : x = 0
        · simpa [usableWeights, hx] using ih
        · simp only [usableWeights] at ih ⊢
          rw [List.filter_cons_of_pos (by simpa using hx), List.filterMap_cons_some (f := id) (b := x) rfl,
            List.filterMap_cons_some (f := id) (b := x) rfl, List.filter_cons_of_pos (by simpa using hx),
            List.filter_cons_of_pos (by simpa using hx), ih]
  have hp := wt_clip_perm 5 _ _ (wt_usable_perm _ _ h)
  rw [hu, hu] at hp
  simp only [weightThreshold]
  by_cases hnil : sigmaClip 5 (usableWeights a) = []
  · rw [if_pos hnil, if_pos (by rw [hnil] at hp; exact hp.nil_eq.symm)]
  · rw [if_neg hnil, if_neg (by intro h0; rw [h0] at hp; exact hnil hp.eq_nil), wt_mean_perm _ _ hp]

/-- **C146**, units.  Weights multiplied by a positive number give a threshold multiplied by that number. -/
theorem C146_scale (w : List (Option α)) (maskpt c : α) (hc : 0 < c) :
    weightThreshold (w.map (Option.map (c * ·))) maskpt = (weightThreshold w maskpt).map (c * ·) := by
  have hu : usableWeights (w.map (Option.map (c * ·))) = (usableWeights w).map (c * ·) := by
    simp only [usableWeights]
    induction w with
    | nil => rfl
    | cons x t ih =>
      rcases x with _ | x
      · simpa using ih
      · by_cases hx : x = 0
        · subst hx
          simpa using ih
        · have hcx : c * x ≠ 0 := mul_ne_zero hc.ne' hx
          rw [List.map_cons, Option.map_some, List.filterMap_cons_some (f := id) (b := c * x) rfl, List.filterMap_cons_some (f := id) (b := x) rfl, List.filter_cons_of_pos (by simpa using hcx),
            List.filter_cons_of_pos (by simpa using hx), ih, List.map_cons]
  simp only [weightThreshold, hu, wt_clip_scale 5 c hc, List.map_eq_nil_iff, wt_mean_scale]
  split
  · rfl
  · simp [mul_assoc]

/-! #### Two values -/

theorem wt_median_majority (l : List α) (v : α) (h : l.length < 2 * l.count v) :
    Verif.Jump.nanmedian (l.map some) = some v := by
  cases hm : Verif.Jump.nanmedian (l.map some) with
  | none =>
    rw [Verif.Jump.nanmedian_none_iff, wt_finite] at hm
    subst hm
    simp at h
  | some m =>
    obtain ⟨hlo, hhi⟩ := Verif.Jump.nanmedian_spec _ m hm
    rw [wt_finite] at hlo hhi
    have hcount : l.count v = l.countP fun x => decide (x = v) := by
      rw [List.count]
      congr 1
    have hsplit : ∀ p : α → Bool, p v = false → l.countP p + l.count v ≤ l.length := by
      intro p hp
      rw [hcount]
      clear hcount hlo hhi hm h
      induction l with
      | nil => simp
      | cons a t ih =>
        simp only [List.countP_cons, List.length_cons]
        by_cases ha : a = v
        · subst ha
          simp [hp]
          omega
        · simp only [ha, decide_false, Bool.false_eq_true, if_false]
          split <;> omega
    rcases lt_trichotomy m v with h1 | h1 | h1
    · have := hsplit (fun x => decide (x ≤ m)) (by simpa using h1)
      omega
    · rw [h1]
    · have := hsplit (fun x => decide (m ≤ x)) (by simpa using h1)
      omega

/-- `N` weights `v` and `a` weights `u`. -/
def wtTwo (N a : Nat) (v u : α) : List α := List.replicate N v ++ List.replicate a u

omit [LinearOrder α] [IsStrictOrderedRing α] in
theorem wt_two_mean [LinearOrder α] (N a : Nat) (v u : α) : meanOf (wtTwo N a v u) = (N * v + a * u) / ((N : α) + a) := by
  simp [meanOf, wtTwo]

theorem wt_two_var (N a : Nat) (v u : α) (hN : 0 < N) :
    varOf (wtTwo N a v u) = N * a * (u - v) ^ 2 / ((N : α) + a) ^ 2 := by
  have hpos : (0 : α) < (N : α) + a := by
    have : (0 : α) < N := by exact_mod_cast hN
    positivity
  unfold varOf
  rw [wt_two_mean]
  simp only [wtTwo, List.map_append, List.map_replicate, List.sum_append, List.sum_replicate, List.length_append,
    List.length_replicate, nsmul_eq_mul]
  push_cast
  field_simp
  ring

/-- **C146**, outliers.  Of `N` equal weights and `a < N` weights with another value, the others are removed exactly if
`9 a N < (N + a)²` (one deviating weight among at least seven equal ones), and then the threshold is exactly the fraction of
the common weight; otherwise nothing is removed. -/
theorem C146_two_values (w : List (Option α)) (N a : Nat) (v u maskpt : α) (hv : v ≠ 0) (hu : u ≠ 0) (huv : u ≠ v)
    (ha : 1 ≤ a) (haN : a < N) (hw : w.Perm ((wtTwo N a v u).map some)) :
    weightThreshold w maskpt =
      some ((if 9 * a * N < (N + a) ^ 2 then v else (N * v + a * u) / ((N : α) + a)) * maskpt) := by
  have hN0 : 0 < N := by omega
  have hNα : (0 : α) < N := by exact_mod_cast hN0
  have haα : (0 : α) < a := by exact_mod_cast ha
  have hpos : (0 : α) < (N : α) + a := by positivity
  have hus : usableWeights ((wtTwo N a v u).map some) = wtTwo N a v u := by
    simp only [usableWeights, List.filterMap_map]
    rw [show (id ∘ some : α → Option α) = some from rfl, List.filterMap_some, List.filter_eq_self]
    intro x hx
    simp only [wtTwo, List.mem_append, List.mem_replicate] at hx
    rcases hx with ⟨-, rfl⟩ | ⟨-, rfl⟩
    · simpa using hv
    · simpa using hu
  have hperm : weightThreshold w maskpt = weightThreshold ((wtTwo N a v u).map some) maskpt :=
    C146_arrangement _ _ maskpt (hw.filter _)
  rw [hperm]
  have hcount : (wtTwo N a v u).count v = N := by
    simp [wtTwo, List.count_replicate, huv]
  have hmed : Verif.Jump.nanmedian ((wtTwo N a v u).map some) = some v := by
    apply wt_median_majority
    rw [hcount]
    simp [wtTwo]
    omega
  have hkeepv : (v - v) ^ 2 ≤ 9 * varOf (wtTwo N a v u) := by
    have := wt_var_nonneg (wtTwo N a v u)
    rw [sub_self]
    simp only [ne_eq, OfNat.ofNat_ne_zero, not_false_eq_true, zero_pow]
    linarith
  have hsq : 0 < (u - v) ^ 2 := by
    have : u - v ≠ 0 := sub_ne_zero.mpr huv
    positivity
  have hcond : (u - v) ^ 2 ≤ 9 * varOf (wtTwo N a v u) ↔ (N + a) ^ 2 ≤ 9 * a * N := by
    rw [wt_two_var N a v u hN0, ← mul_div_assoc, le_div_iff₀ (by positivity),
      show 9 * ((N : α) * a * (u - v) ^ 2) = (u - v) ^ 2 * (9 * a * N) by ring, mul_le_mul_iff_of_pos_left hsq]
    exact_mod_cast Iff.rfl
  have hround : clipRound (wtTwo N a v u) =
      if 9 * a * N < (N + a) ^ 2 then List.replicate N v else wtTwo N a v u := by
    unfold clipRound
    rw [hmed]
    simp only
    split
    · rename_i hlt
      conv_lhs => rw [wtTwo.eq_def]
      rw [List.filter_append, List.filter_replicate, List.filter_replicate]
      rw [show varOf (List.replicate N v ++ List.replicate a u) = varOf (wtTwo N a v u) from rfl]
      rw [if_pos (by simpa using hkeepv), if_neg (by
        simp only [decide_eq_true_eq, hcond]
        omega), List.append_nil]
    · rename_i hnlt
      rw [List.filter_eq_self]
      intro x hx
      simp only [wtTwo, List.mem_append, List.mem_replicate] at hx
      rcases hx with ⟨-, rfl⟩ | ⟨-, rfl⟩
      · simpa using hkeepv
      · simp only [decide_eq_true_eq, hcond]
        omega
  have hconst : clipRound (List.replicate N v) = List.replicate N v := by
    have hm1 : Verif.Jump.nanmedian ((List.replicate N v).map some) = some v := by
      apply wt_median_majority
      simp
      omega
    unfold clipRound
    rw [hm1]
    simp only
    rw [List.filter_eq_self]
    intro x hx
    obtain ⟨-, rfl⟩ := List.mem_replicate.mp hx
    have := wt_var_nonneg (List.replicate N x)
    simp only [sub_self, ne_eq, OfNat.ofNat_ne_zero, not_false_eq_true, zero_pow, decide_eq_true_eq]
    linarith
  have hclip : sigmaClip 5 (wtTwo N a v u) =
      if 9 * a * N < (N + a) ^ 2 then List.replicate N v else wtTwo N a v u := by
    by_cases hlt : 9 * a * N < (N + a) ^ 2
    · rw [if_pos hlt] at hround ⊢
      rw [show (5 : Nat) = 4 + 1 from rfl, sigmaClip, hround, if_neg (by simp [wtTwo]; omega),
        show (4 : Nat) = 3 + 1 from rfl, sigmaClip, hconst, if_pos rfl]
    · rw [if_neg hlt] at hround ⊢
      rw [show (5 : Nat) = 4 + 1 from rfl, sigmaClip, hround, if_pos rfl]
  simp only [weightThreshold, hus, hclip]
  split
  · rw [if_neg (by simp; omega)]
    simp [meanOf, hNα.ne']
  · rw [if_neg (by simp [wtTwo]; omega), wt_two_mean]

/-- **C146**, equal weights.  If all usable weights are equal the threshold is exactly the fraction of that weight. -/
theorem C146_equal (w : List (Option α)) (v maskpt : α) (hex : WtUsable w v) (h : ∀ x, WtUsable w x → x = v) :
    weightThreshold w maskpt = some (v * maskpt) := by
  cases ht : weightThreshold w maskpt with
  | none => exact absurd hex ((C146_defined w maskpt).mp ht v)
  | some t =>
    simp only [weightThreshold] at ht
    split at ht
    · simp at ht
    · rename_i hne
      simp only [Option.some.injEq] at ht
      obtain ⟨h1, h2⟩ := wt_mean_bounds _ hne v v fun x hx => by
        have := h x ((wt_usable w x).mp (wt_clip_subset 5 _ x hx))
        exact ⟨this.ge, this.le⟩
      rw [← ht, le_antisymm h2 h1]

/-! ### Examples -/

/-- Seven weights 2, one weight 100, a zero and a NaN: the 100 is removed. -/
example : weightThreshold ([2, 2, 2, 100, 2, 2, 2, 2].map some ++ [some 0, none]) (1 / 2 : ℚ) = some 1 := by
  decide +kernel

/-- With six of them it is kept. -/
example : weightThreshold ([2, 2, 2, 100, 2, 2, 2].map some ++ [some 0, none]) (1 / 2 : ℚ) = some 8 := by
  decide +kernel

/-- Values that need two rounds: the 1000 hides the 40 in the first one. -/
example : sigmaClip 5 ((List.replicate 12 (2 : ℚ)) ++ [40, 1000]) = List.replicate 12 2 ∧
    clipRound ((List.replicate 12 (2 : ℚ)) ++ [40, 1000]) = List.replicate 12 2 ++ [40] := by decide +kernel

example : ([2, 2, 2, 100, 2, 2, 2, 2].map some : List (Option ℚ)).Perm ((wtTwo 7 1 2 100).map some) ∧ 9 * 1 * 7 < (7 + 1) ^ 2 := by
  decide +kernel

end Verif.Thm
