import Verif.Thm.Drizzle
import Verif.Thm.ResampleVar
import Verif.Thm.OutlierWhole

/-! # Giving every image several times (C177) -/

set_option linter.unusedSectionVars false

namespace Verif.Thm
open Verif Verif.Resample Verif.Drizzle
open Verif.Jump (nanmedian finite medianSorted)

variable {α : Type} [Field α] [LinearOrder α] [IsStrictOrderedRing α] {ν : Type}

/-- Specification: `l'` consists of `k` copies of every element of `l`, in any order. -/
def RpCopies {β : Type} (k : Nat) (l l' : List β) : Prop := l'.Perm (List.replicate k l).flatten

theorem rp_sum {β : Type} (k : Nat) (l : List β) (f : β → α) : (((List.replicate k l).flatten).map f).sum = k * (l.map f).sum := by
  induction k with
  | zero => simp
  | succ k ih =>
    rw [List.replicate_succ, List.flatten_cons, List.map_append, List.sum_append, ih]
    push_cast
    ring

theorem rp_filterMap {β γ : Type} (k : Nat) (l : List β) (f : β → Option γ) :
    ((List.replicate k l).flatten).filterMap f = (List.replicate k (l.filterMap f)).flatten := by
  induction k with
  | zero => simp
  | succ k ih => simp only [List.replicate_succ, List.flatten_cons, List.filterMap_append, ih]

theorem rp_copies_filterMap {β γ : Type} {k : Nat} {l l' : List β} (h : RpCopies k l l') (f : β → Option γ) :
    RpCopies k (l.filterMap f) (l'.filterMap f) := by
  unfold RpCopies
  rw [← rp_filterMap]
  exact h.filterMap f

theorem rp_copies_map {β γ : Type} {k : Nat} {l l' : List β} (h : RpCopies k l l') (f : β → γ) : RpCopies k (l.map f) (l'.map f) := by
  have := rp_copies_filterMap h fun x => some (f x)
  simpa using this

theorem rp_copies_sum {β : Type} {k : Nat} {l l' : List β} (h : RpCopies k l l') (f : β → α) : (l'.map f).sum = k * (l.map f).sum := by
  rw [← rp_sum]
  exact (h.map f).sum_eq

theorem rp_mem {β : Type} {k : Nat} (hk : 0 < k) {l l' : List β} (h : RpCopies k l l') (x : β) : x ∈ l' ↔ x ∈ l := by
  rw [h.mem_iff, List.mem_flatten]
  constructor
  · rintro ⟨m, hm, hx⟩
    rw [(List.mem_replicate.1 hm).2] at hx
    exact hx
  · intro hx
    exact ⟨l, List.mem_replicate.2 ⟨by omega, rfl⟩, hx⟩

theorem rp_nil {β : Type} {k : Nat} (hk : 0 < k) {l l' : List β} (h : RpCopies k l l') : l' = [] ↔ l = [] := by
  simp only [List.eq_nil_iff_forall_not_mem, rp_mem hk h]

/-! ### The median -/

/-- The sorted copies: every element of the sorted list `k` times. -/
theorem rp_sorted (k : Nat) (s : List α) (hs : s.Pairwise (· ≤ ·)) : (s.flatMap (List.replicate k)).Pairwise (· ≤ ·) := by
  induction s with
  | nil => simp
  | cons a t ih =>
    rw [List.pairwise_cons] at hs
    rw [List.flatMap_cons, List.pairwise_append]
    refine ⟨?_, ih hs.2, ?_⟩
    · rw [List.pairwise_replicate]
      exact Or.inr le_rfl
    · intro x hx y hy
      rw [(List.mem_replicate.1 hx).2]
      obtain ⟨b, hb, hy⟩ := List.mem_flatMap.1 hy
      rw [(List.mem_replicate.1 hy).2]
      exact hs.1 b hb

theorem rp_perm {β : Type} (k : Nat) (s : List β) : (s.flatMap (List.replicate k)).Perm (List.replicate k s).flatten := by
  induction k with
  | zero => simp [List.flatMap]
  | succ k ih =>
    rw [List.replicate_succ, List.flatten_cons]
    refine List.Perm.trans ?_ (ih.append_left s)
    clear ih
    induction s with
    | nil => simp
    | cons a t iht =>
      simp only [List.flatMap_cons, List.replicate_succ, List.cons_append]
      refine List.Perm.cons _ ?_
      refine (iht.append_left (List.replicate k a)).trans ?_
      rw [← List.append_assoc, ← List.append_assoc]
      exact List.perm_append_comm.append_right _

theorem rp_get {β : Type} (k : Nat) (hk : 0 < k) (s : List β) (i : Nat) : (s.flatMap (List.replicate k))[i]? = s[i / k]? := by
  induction s generalizing i with
  | nil => simp
  | cons a t ih =>
    rw [List.flatMap_cons]
    by_cases h : i < k
    · rw [List.getElem?_append_left (by simpa using h), Nat.div_eq_of_lt h]
      simp [h]
    · push Not at h
      rw [List.getElem?_append_right (by simpa using h), List.length_replicate, ih]
      obtain ⟨j, rfl⟩ := Nat.exists_eq_add_of_le h
      rw [Nat.add_sub_cancel_left, Nat.add_div_left _ hk]
      rfl

theorem rp_length {β : Type} (k : Nat) (s : List β) : (s.flatMap (List.replicate k)).length = s.length * k := by
  induction s with
  | nil => simp
  | cons a t ih =>
    rw [List.flatMap_cons, List.length_append, ih, List.length_replicate, List.length_cons]
    ring

theorem rp_medianSorted (k : Nat) (hk : 0 < k) (s : List α) : medianSorted (s.flatMap (List.replicate k)) = medianSorted s := by
  simp only [medianSorted, rp_length, rp_get k hk]
  by_cases h0 : s.length = 0
  · simp [h0]
  rw [if_neg h0, if_neg (Nat.mul_ne_zero h0 (by omega))]
  generalize hn : s.length = n at *
  rcases Nat.even_or_odd' n with ⟨m, rfl | rfl⟩
  · -- even number of elements
    have e1 : 2 * m * k = 2 * (m * k) := by ring
    rw [if_neg (by omega), if_neg (by omega), e1]
    have e2 : 2 * (m * k) / 2 = m * k := by omega
    have e3 : 2 * m / 2 = m := by omega
    have e4 : (m * k - 1) / k = m - 1 := by
      obtain ⟨m', rfl⟩ : ∃ m', m = m' + 1 := ⟨m - 1, by omega⟩
      rw [Nat.div_eq_iff hk]
      constructor
      · rw [Nat.add_sub_cancel, add_mul]
        omega
      · rw [Nat.add_sub_cancel, add_mul]
        omega
    rw [e2, e3, e4, Nat.mul_div_cancel _ hk]
  · have e0 : (2 * m + 1) / 2 = m := by omega
    rw [if_pos (show (2 * m + 1) % 2 = 1 by omega), e0]
    obtain ⟨x, hx⟩ : ∃ x, s[m]? = some x := ⟨s[m], List.getElem?_eq_getElem (by omega)⟩
    rcases Nat.even_or_odd' k with ⟨j, rfl | rfl⟩
    · have e1 : (2 * m + 1) * (2 * j) = 2 * (m * (2 * j) + j) := by ring
      rw [e1, if_neg (by omega), show 2 * (m * (2 * j) + j) / 2 = m * (2 * j) + j by omega]
      have e2 : (m * (2 * j) + j - 1) / (2 * j) = m := by
        rw [Nat.div_eq_iff hk]
        omega
      have e3 : (m * (2 * j) + j) / (2 * j) = m := by
        rw [Nat.div_eq_iff hk]
        omega
      rw [e2, e3, hx]
      simp
    · have e1 : (2 * m + 1) * (2 * j + 1) = 2 * (m * (2 * j + 1) + j) + 1 := by ring
      rw [e1, if_pos (by omega), show (2 * (m * (2 * j + 1) + j) + 1) / 2 = m * (2 * j + 1) + j by omega]
      congr 1
      rw [Nat.div_eq_iff hk]
      omega

theorem rp_sort {k : Nat} {l l' : List α} (h : RpCopies k l l') :
    l'.insertionSort (· ≤ ·) = (l.insertionSort (· ≤ ·)).flatMap (List.replicate k) := by
  refine List.Perm.eq_of_pairwise (le := (· ≤ ·)) (fun a b _ _ h1 h2 => le_antisymm h1 h2) (List.pairwise_insertionSort (· ≤ ·) _)
    (rp_sorted k _ (List.pairwise_insertionSort (· ≤ ·) _)) ?_
  refine (List.perm_insertionSort _ _).trans (h.trans ?_)
  refine List.Perm.trans ?_ (List.perm_insertionSort (· ≤ ·) l |>.symm.flatMap_right _)
  exact (rp_perm k l).symm

theorem rp_nanmedian {k : Nat} (hk : 0 < k) {l l' : List (Option α)} (h : RpCopies k l l') : nanmedian l' = nanmedian l := by
  have hf : RpCopies k (finite l) (finite l') := rp_copies_filterMap h _
  rw [nanmedian, rp_sort hf, rp_medianSorted k hk, nanmedian]

/-- C177, outlier detection.  The median image of `k` copies of every image, in any order, is the median image. -/
theorem C177_median (k : Nat) (hk : 0 < k) (imgs imgs' : List (Outlier.Img (Option α))) (h : RpCopies k imgs imgs') (r c : Nat) :
    Outlier.memMedian nanmedian imgs' r c = Outlier.memMedian nanmedian imgs r c :=
  rp_nanmedian hk (rp_copies_filterMap h _)

/-! ### Resampling -/

section
variable [FloorRing α]

/-- C177, resampling.  With `k` copies of every image the output image is the same, the weights are `k` times as large and the
variances a `k`-th. -/
theorem C177_resampled [DecidableEq ν] (sqrt : α → α) (rn : ν) (names : List ν) (hrn : rn ∈ names) (t : DrizType) (good : Option Nat)
    (scaling : α) (k : Nat) (hk : 0 < k) (ms ms' : List (α × Input ν α)) (hc : RpCopies k ms ms') (fill : Option α)
    (h : DzNonneg rn t good ms) (hv : varType t = .ivm → ∀ q ∈ ms, (q.2.vars rn).isSome) :
    (science rn t good ms').out fill = (science rn t good ms).out fill ∧
    (science rn t good ms').wht = k * (science rn t good ms).wht ∧
    ∀ n ∈ names, ∃ v, variance sqrt names rn t good scaling ms n = some v ∧
      variance sqrt names rn t good scaling ms' n = some (v.map fun x => x / (k : α)) := by
  have hk' : (k : α) ≠ 0 := Nat.cast_ne_zero.2 (by omega)
  have h' : DzNonneg rn t good ms' := fun q hq => h q ((rp_mem hk hc q).1 hq)
  have hW : dzW rn t good ms' = k * dzW rn t good ms := rp_copies_sum hc _
  have hS : dzS rn t good ms' = k * dzS rn t good ms := rp_copies_sum hc _
  refine ⟨?_, ?_, ?_⟩
  · by_cases hnum : ∀ q ∈ ms, ∀ r c, DzIn q.2 r c → dzDow rn t good q.2 r c ≠ 0 → (q.2.data r c).isSome
    · obtain ⟨-, b⟩ := C168_mean rn t good ms fill h hnum
      obtain ⟨-, b'⟩ := C168_mean rn t good ms' fill h' fun q hq => hnum q ((rp_mem hk hc q).1 hq)
      rw [b, b', hW, hS]
      by_cases h0 : dzW rn t good ms = 0
      · simp [h0]
      · rw [if_neg h0, if_neg (mul_ne_zero hk' h0), mul_div_mul_left _ _ hk']
    · simp only [not_forall] at hnum
      obtain ⟨q, hq, r, c, hi, hd, hv⟩ := hnum
      have hv : q.2.data r c = none := by simpa using hv
      rw [C168_nan rn t good ms fill h ⟨q, hq, r, c, hi, hd, hv⟩,
        C168_nan rn t good ms' fill h' ⟨q, (rp_mem hk hc q).2 hq, r, c, hi, hd, hv⟩]
  · obtain ⟨a, -, -⟩ := dz_images rn t good (fun q => q.2.science) ms h
    obtain ⟨a', -, -⟩ := dz_images rn t good (fun q => q.2.science) ms' h'
    exact a'.trans (hW.trans (by rw [← a]; rfl))
  · intro n hn
    set P : α × Input ν α → PixModel ν α := fun q => ⟨oneVariance sqrt rn t good q, q.2.time⟩ with hP
    have hm : varType t = .ivm → ∀ m ∈ ms.map P, (m.var rn).isSome := by
      intro ht m hm
      obtain ⟨q, hq, rfl⟩ := List.mem_map.1 hm
      simpa [hP, oneVariance] using hv ht q hq
    have hcP : RpCopies k (ms.map P) (ms'.map P) := rp_copies_map hc P
    obtain ⟨i, hi, e⟩ := C52_combination names rn (varType t) (ms.map P) scaling hrn hm
    obtain ⟨i', hi', e'⟩ := C52_combination names rn (varType t) (ms'.map P) scaling hrn
      (fun ht m hmem => hm ht m ((rp_mem hk hcP m).1 hmem))
    refine ⟨finalVar scaling (i n), ?_, ?_⟩
    · rw [variance, hi]
      rfl
    · rw [variance, hi', Option.map_some, e n hn, e' n hn]
      have hcc : RpCopies k (rvContrib rn (varType t) n (ms.map P)) (rvContrib rn (varType t) n (ms'.map P)) :=
        rp_copies_filterMap hcP _
      unfold rvVariance
      by_cases h0 : rvContrib rn (varType t) n (ms.map P) = []
      · rw [if_pos h0, if_pos ((rp_nil hk hcc).2 h0)]
        rfl
      · rw [if_neg h0, if_neg (fun h1 => h0 ((rp_nil hk hcc).1 h1)), rp_copies_sum hcc, Option.map_some]
        have hsn : ((rvContrib rn (varType t) n (ms'.map P)).map Prod.snd).sum
            = k * ((rvContrib rn (varType t) n (ms.map P)).map Prod.snd).sum := rp_copies_sum hcc Prod.snd
        rw [hsn]
        congr 2
        generalize ((rvContrib rn (varType t) n (ms.map P)).map Prod.snd).sum = w
        generalize ((rvContrib rn (varType t) n (ms.map P)).map fun p : α × α => p.2 ^ 2 * p.1).sum = u
        by_cases hw : w = 0
        · simp [hw]
        · field_simp

end

-- C177_resampled: three copies of two images, mixed up
example : ∃ ms ms' : List (ℚ × Input Unit ℚ), RpCopies 3 ms ms' ∧ ms'.length = 6 ∧ DzNonneg () .exptime (some 4) ms ∧
    (varType .exptime = .ivm → ∀ q ∈ ms, (q.2.vars ()).isSome) ∧ (science () .exptime (some 4) ms).out none = some 3 ∧
    (science () .exptime (some 4) ms').out none = some 3 := by
  let a : ℚ × Input Unit ℚ := (1, dzImage (some 3) none (some 3) 2 none)
  let b : ℚ × Input Unit ℚ := (1, dzImage (some 5) (some 9) (some 5) 1 (some 2))
  refine ⟨[a, b], [a, a, b, a, b, b], ?_, rfl, ?_, ?_, by decide +kernel, by decide +kernel⟩
  · change [a, a, b, a, b, b].Perm [a, b, a, b, a, b]
    refine List.Perm.cons _ ?_
    refine (List.Perm.swap b a _).trans (List.Perm.cons _ (List.Perm.cons _ ?_))
    exact List.Perm.swap b a _
  · intro q hq r c _
    simp only [List.mem_cons, List.not_mem_nil, or_false] at hq
    rcases hq with rfl | rfl
    · exact dz_image_nonneg _ _ _ _ _ (by norm_num) _ _
    · exact dz_image_nonneg _ _ _ _ _ (by norm_num) _ _
  · intro h
    cases h

-- C177_median: a pixel seen four times, two of the images given twice
example : ∃ imgs imgs' : List (Outlier.Img (Option ℚ)), RpCopies 2 imgs imgs' ∧ imgs.length = 2 ∧
    Outlier.memMedian nanmedian imgs' 0 0 = some 3 :=
  ⟨[[[some 1]], [[some 5]]], [[[some 1]], [[some 5]], [[some 1]], [[some 5]]], List.Perm.refl _, rfl, by decide +kernel⟩

end Verif.Thm
