import Verif.Thm.DrizzleVar

/-! # The variances of `Resample` where the pixels of an image are spread over several output pixels (C181) -/

set_option linter.unusedSectionVars false

namespace Verif.Thm
open Verif.Resample Verif.Drizzle

variable {α : Type} [Field α] [LinearOrder α] [IsStrictOrderedRing α] [FloorRing α] {ν : Type}

/-! ## Specification -/

open Classical in
/-- Specification: how much of the output pixel the usable pixels of an image cover. -/
noncomputable def nbA (good : Option Nat) (m : Input ν α) : α :=
  dzSum m fun r c => if DzGood good (m.dq r c) then m.overlap r c else 0

/-- Specification: an image with times and overlaps that make sense and with variances that are numbers where it is usable. -/
structure NbImage (names : List ν) (good : Option Nat) (m : Input ν α) : Prop where
  time : 0 < m.time
  has : ∀ n ∈ names, (m.vars n).isSome
  overlap : ∀ r c, DzIn m r c → 0 ≤ m.overlap r c
  vars : ∀ r c, DzIn m r c → DzGood good (m.dq r c) → ∀ n ∈ names, ∃ x, 0 ≤ x ∧ (m.vars n).map (fun v => v r c) = some (.num x)

/-- Specification: the variance of the value of the output pixel, if the input pixels are independent: that value is the sum of the data times
`iscale * dow / W` (`C168_mean`). -/
noncomputable def nbTrue (rn : ν) (t : DrizType) (good : Option Nat) (ms : List (α × Input ν α)) (n : ν) : α :=
  (ms.map fun q => dzSum q.2 fun r c => (q.1 * dzDow rn t good q.2 r c / dzW rn t good ms) ^ 2 * dvVar q.2 n (r, c)).sum

open Classical in
/-- Specification: the mean error of the usable pixels of an image, weighted by overlap. -/
noncomputable def nbMean (sqrt : α → α) (good : Option Nat) (m : Input ν α) (n : ν) : α :=
  dzSum m (fun r c => (if DzGood good (m.dq r c) then m.overlap r c else 0) * sqrt (dvVar m n (r, c))) / nbA good m

/-! ## Lemmas -/

theorem nb_sum_congr (m : Input ν α) (f g : Nat → Nat → α) (h : ∀ r c, DzIn m r c → f r c = g r c) : dzSum m f = dzSum m g := by
  simp only [dzSum]
  refine Finset.sum_congr rfl fun r _ => Finset.sum_congr rfl fun c _ => ?_
  split
  · rename_i hi
    exact h r c hi
  · rfl

theorem nb_sum_mul (m : Input ν α) (f : Nat → Nat → α) (k : α) : dzSum m (fun r c => k * f r c) = k * dzSum m f := by
  simp only [dzSum, Finset.mul_sum]
  refine Finset.sum_congr rfl fun r _ => Finset.sum_congr rfl fun c _ => ?_
  split
  · rfl
  · rw [mul_zero]

theorem nb_sum_nonneg (m : Input ν α) (f : Nat → Nat → α) (h : ∀ r c, DzIn m r c → 0 ≤ f r c) : 0 ≤ dzSum m f := by
  simp only [dzSum]
  refine Finset.sum_nonneg fun r _ => Finset.sum_nonneg fun c _ => ?_
  split
  · rename_i hi
    exact h r c hi
  · exact le_refl _

theorem nb_list_sq {β : Type} (l : List β) (f : β → α) (h : ∀ x ∈ l, 0 ≤ f x) :
    (l.map fun x => f x ^ 2).sum ≤ (l.map f).sum ^ 2 := by
  induction l with
  | nil => simp
  | cons x l ih =>
    have ih := ih fun y hy => h y (by simp [hy])
    have hx := h x (by simp)
    have hl : 0 ≤ (l.map f).sum := List.sum_nonneg (by
      intro a ha
      obtain ⟨b, hb, rfl⟩ := List.mem_map.1 ha
      exact h b (by simp [hb]))
    simp only [List.map_cons, List.sum_cons]
    nlinarith [mul_nonneg hx hl]

theorem nb_sum_sq (m : Input ν α) (f : Nat → Nat → α) (h : ∀ r c, DzIn m r c → 0 ≤ f r c) :
    dzSum m (fun r c => f r c ^ 2) ≤ dzSum m f ^ 2 := by
  rw [← dz_pixels_sum, ← dz_pixels_sum]
  exact nb_list_sq m.pixels (fun p => f p.1 p.2) fun p hp => h _ _ ((dz_mem_pixels m p).1 hp)

theorem nb_dow_bad (rn : ν) (t : DrizType) (good : Option Nat) (m : Input ν α) (r c : Nat) (h : ¬ DzGood good (m.dq r c)) :
    dzDow rn t good m r c = 0 := by
  simp only [dzDow, dzWt, if_neg h, mul_zero]

open Classical in
theorem nb_dow_time (rn : ν) (good : Option Nat) (m : Input ν α) (r c : Nat) :
    dzDow rn .exptime good m r c = m.time * (if DzGood good (m.dq r c) then m.overlap r c else 0) := by
  simp only [dzDow, dzWt]
  split
  · rw [mul_comm]
  · rw [mul_zero, mul_zero]

theorem nb_W_time (rn : ν) (good : Option Nat) (m : Input ν α) : dzSum m (dzDow rn .exptime good m) = m.time * nbA good m := by
  rw [nbA, ← nb_sum_mul]
  exact nb_sum_congr m _ _ fun r c _ => nb_dow_time rn good m r c

theorem nb_A_nonneg (names : List ν) (good : Option Nat) (m : Input ν α) (h : NbImage names good m) : 0 ≤ nbA good m :=
  nb_sum_nonneg m _ fun r c hi => by
    split
    · exact h.overlap r c hi
    · exact le_refl _

/-- The resampled variance of one image. -/
theorem nb_one (sqrt : α → α) (rn : ν) (names : List ν) (t : DrizType) (good : Option Nat) (s : α) (m : Input ν α)
    (h : NbImage names good m) (hd : ∀ r c, DzIn m r c → 0 ≤ dzDow rn t good m r c) (n : ν) (hn : n ∈ names) :
    oneVariance sqrt rn t good (s, m) n =
      some (if dzSum m (dzDow rn t good m) = 0 then none
        else some ((s * (dzSum m (fun r c => dzDow rn t good m r c * sqrt (dvVar m n (r, c))) / dzSum m (dzDow rn t good m))) ^ 2)) := by
  obtain ⟨v, hv⟩ := Option.isSome_iff_exists.1 (h.has n hn)
  obtain ⟨h1, h2, -⟩ := dz_images rn t good (fun _ r c => root sqrt (v r c)) [(s, m)] (by
    intro q hq r c hi
    rw [List.mem_singleton.1 hq] at hi ⊢
    exact hd r c hi)
  have hroot : ∀ r c, DzIn m r c → DzGood good (m.dq r c) → root sqrt (v r c) = some (sqrt (dvVar m n (r, c))) := by
    intro r c hi hg
    obtain ⟨x, hx, hvx⟩ := h.vars r c hi hg n hn
    have hvx' : v r c = .num x := by
      rw [hv] at hvx
      simpa using hvx
    simp only [hvx', root, not_lt.2 hx, if_false, dvVar, hvx]
  simp only [List.foldl_cons, List.foldl_nil] at h1 h2
  have hW : dzW rn t good [(s, m)] = dzSum m (dzDow rn t good m) := by simp [dzW]
  rw [hW] at h1 h2
  simp only [oneVariance, hv, Option.map_some, Cell.out, h1, Option.some.injEq]
  by_cases hw : dzSum m (dzDow rn t good m) = 0
  · simp [hw]
  rw [if_neg hw, if_neg hw, h2 ?_ (by rw [h1]; exact hw)]
  · simp only [Option.map_some, Option.some.injEq, List.map_cons, List.map_nil, List.sum_cons, List.sum_nil, add_zero]
    congr 1
    rw [← mul_div_assoc, ← nb_sum_mul]
    congr 1
    refine nb_sum_congr m _ _ fun r c hi => ?_
    by_cases hg : DzGood good (m.dq r c)
    · rw [hroot r c hi hg, Option.getD_some]
      ring
    · rw [nb_dow_bad rn t good m r c hg]
      ring
  · intro q hq r c hi hd'
    rw [List.mem_singleton.1 hq] at hi hd'
    by_cases hg : DzGood good (m.dq r c)
    · rw [hroot r c hi hg]
      rfl
    · exact absurd (nb_dow_bad rn t good m r c hg) hd'

/-- One image more in front. -/
theorem nb_contrib_cons (rn : ν) (wt : WeightType) (n : ν) (a : PixModel ν α) (l : List (PixModel ν α)) :
    rvContrib rn wt n (a :: l) = rvContrib rn wt n [a] ++ rvContrib rn wt n l := by
  rw [← List.singleton_append]
  simp only [rvContrib, List.filterMap_append]

/-- The contributions to a variance when the weights in it are those given by `w`. -/
theorem nb_contrib [DecidableEq ν] (sqrt : α → α) (rn : ν) (names : List ν) (t : DrizType) (good : Option Nat) (w : α × Input ν α → α)
    (ms : List (α × Input ν α)) (h : ∀ q ∈ ms, NbImage names good q.2) (hd : DzNonneg rn t good ms) (n : ν) (hn : n ∈ names)
    (hw : ∀ q ∈ ms, dzSum q.2 (dzDow rn t good q.2) ≠ 0 →
      0 < w q ∧ rvWeight rn (varType t) (⟨oneVariance sqrt rn t good q, q.2.time⟩ : PixModel ν α) = w q) :
    rvContrib rn (varType t) n (ms.map fun q => (⟨oneVariance sqrt rn t good q, q.2.time⟩ : PixModel ν α)) =
      (ms.filter fun q => !decide (dzSum q.2 (dzDow rn t good q.2) = 0)).map fun q =>
        ((q.1 * (dzSum q.2 (fun r c => dzDow rn t good q.2 r c * sqrt (dvVar q.2 n (r, c))) / dzSum q.2 (dzDow rn t good q.2))) ^ 2, w q) := by
  induction ms with
  | nil => rfl
  | cons q ms ih =>
    have ih := ih (fun x hx => h x (by simp [hx])) (fun x hx => hd x (by simp [hx])) fun x hx => hw x (by simp [hx])
    rw [List.map_cons, nb_contrib_cons, ih]
    have h1 := nb_one sqrt rn names t good q.1 q.2 (h q (by simp)) (hd q (by simp)) n hn
    by_cases h0 : dzSum q.2 (dzDow rn t good q.2) = 0
    · rw [if_pos h0] at h1
      rw [List.filter_cons_of_neg (by simp [h0])]
      have : rvContrib rn (varType t) n [(⟨oneVariance sqrt rn t good q, q.2.time⟩ : PixModel ν α)] = [] := by
        simp only [rvContrib, List.filterMap_cons, List.filterMap_nil]
        rw [show oneVariance sqrt rn t good q n = some none from h1]
      rw [this, List.nil_append]
    · rw [if_neg h0] at h1
      obtain ⟨hpos, hwt⟩ := hw q (by simp) h0
      rw [List.filter_cons_of_pos (by simp [h0]), List.map_cons]
      have : rvContrib rn (varType t) n [(⟨oneVariance sqrt rn t good q, q.2.time⟩ : PixModel ν α)] =
          [((q.1 * (dzSum q.2 (fun r c => dzDow rn t good q.2 r c * sqrt (dvVar q.2 n (r, c))) /
            dzSum q.2 (dzDow rn t good q.2))) ^ 2, w q)] := by
        simp only [rvContrib, List.filterMap_cons, List.filterMap_nil, hwt, hpos, and_true]
        rw [show oneVariance sqrt rn t good q n = _ from h1]
        simp only [sq_nonneg, if_true]
      rw [this, List.singleton_append]

/-- The variance in the output when the weights in it are those given by `w`. -/
theorem nb_variance [DecidableEq ν] (sqrt : α → α) (rn : ν) (names : List ν) (hrn : rn ∈ names) (t : DrizType) (good : Option Nat)
    (scaling : α) (w : α × Input ν α → α) (ms : List (α × Input ν α)) (h : ∀ q ∈ ms, NbImage names good q.2)
    (hd : DzNonneg rn t good ms) (n : ν) (hn : n ∈ names)
    (hw : ∀ q ∈ ms, dzSum q.2 (dzDow rn t good q.2) ≠ 0 →
      0 < w q ∧ rvWeight rn (varType t) (⟨oneVariance sqrt rn t good q, q.2.time⟩ : PixModel ν α) = w q) :
    variance sqrt names rn t good scaling ms n =
      some (rvVariance scaling ((ms.filter fun q => !decide (dzSum q.2 (dzDow rn t good q.2) = 0)).map fun q =>
        ((q.1 * (dzSum q.2 (fun r c => dzDow rn t good q.2 r c * sqrt (dvVar q.2 n (r, c))) / dzSum q.2 (dzDow rn t good q.2))) ^ 2, w q))) := by
  obtain ⟨info, hi, hinfo⟩ := C52_combination names rn (varType t) (ms.map fun q =>
    (⟨oneVariance sqrt rn t good q, q.2.time⟩ : PixModel ν α)) scaling hrn (by
      intro _ m hm
      obtain ⟨q, hq, rfl⟩ := List.mem_map.1 hm
      have := (h q hq).has rn hrn
      simpa [oneVariance] using this)
  rw [← nb_contrib sqrt rn names t good w ms h hd n hn hw, ← hinfo n hn]
  simp only [variance, hi, Option.map_some]

/-- If the images have in the variances the weight that they have in the image, up to a factor, then the variance is not less than that of the
image. -/
theorem nb_bound [DecidableEq ν] (sqrt : α → α) (hsq : ∀ x, 0 ≤ x → 0 ≤ sqrt x ∧ sqrt x ^ 2 = x) (rn : ν) (names : List ν) (hrn : rn ∈ names)
    (t : DrizType) (good : Option Nat) (scaling : α) (hsc : 0 ≤ scaling) (k : α) (hk : 0 < k) (ms : List (α × Input ν α))
    (h : ∀ q ∈ ms, NbImage names good q.2) (hd : DzNonneg rn t good ms) (n : ν) (hn : n ∈ names)
    (hw : ∀ q ∈ ms, dzSum q.2 (dzDow rn t good q.2) ≠ 0 →
      rvWeight rn (varType t) (⟨oneVariance sqrt rn t good q, q.2.time⟩ : PixModel ν α) = k * dzSum q.2 (dzDow rn t good q.2))
    (hne : dzW rn t good ms ≠ 0) :
    ∃ v, variance sqrt names rn t good scaling ms n = some (some v) ∧ scaling * nbTrue rn t good ms n ≤ v := by
  have hB : ∀ q ∈ ms, 0 ≤ dzSum q.2 (dzDow rn t good q.2) := fun q hq => nb_sum_nonneg _ _ (hd q hq)
  rw [nb_variance sqrt rn names hrn t good scaling (fun q => k * dzSum q.2 (dzDow rn t good q.2)) ms h hd n hn
    fun q hq h0 => ⟨mul_pos hk (lt_of_le_of_ne (hB q hq) (Ne.symm h0)), hw q hq h0⟩]
  have hnil : ((ms.filter fun q => !decide (dzSum q.2 (dzDow rn t good q.2) = 0)).map fun q =>
      ((q.1 * (dzSum q.2 (fun r c => dzDow rn t good q.2 r c * sqrt (dvVar q.2 n (r, c))) / dzSum q.2 (dzDow rn t good q.2))) ^ 2,
        k * dzSum q.2 (dzDow rn t good q.2))) ≠ [] := by
    intro hnil
    apply hne
    have hf := List.map_eq_nil_iff.1 hnil
    rw [List.filter_eq_nil_iff] at hf
    refine List.sum_eq_zero fun x hx => ?_
    obtain ⟨q, hq, rfl⟩ := List.mem_map.1 hx
    simpa using hf q hq
  simp only [rvVariance, if_neg hnil, List.map_map]
  refine ⟨_, rfl, ?_⟩
  have e1 : ((ms.filter fun q => !decide (dzSum q.2 (dzDow rn t good q.2) = 0)).map
      ((fun p : α × α => p.2 ^ 2 * p.1) ∘ fun q => ((q.1 * (dzSum q.2 (fun r c => dzDow rn t good q.2 r c * sqrt (dvVar q.2 n (r, c))) /
        dzSum q.2 (dzDow rn t good q.2))) ^ 2, k * dzSum q.2 (dzDow rn t good q.2)))).sum =
      k ^ 2 * (ms.map fun q => if dzSum q.2 (dzDow rn t good q.2) = 0 then 0 else
        (q.1 * dzSum q.2 (fun r c => dzDow rn t good q.2 r c * sqrt (dvVar q.2 n (r, c)))) ^ 2).sum := by
    rw [← dv_filter_sum ms (fun q => dzSum q.2 (dzDow rn t good q.2)) _ (fun q _ h0 => by simp only [h0, if_true]),
      ← List.sum_map_mul_left]
    refine congrArg _ (List.map_congr_left fun q hq => ?_)
    have h0 : dzSum q.2 (dzDow rn t good q.2) ≠ 0 := by simpa using (List.mem_filter.1 hq).2
    simp only [Function.comp, if_neg h0]
    field_simp
  have e2 : ((ms.filter fun q => !decide (dzSum q.2 (dzDow rn t good q.2) = 0)).map
      (Prod.snd ∘ fun q => ((q.1 * (dzSum q.2 (fun r c => dzDow rn t good q.2 r c * sqrt (dvVar q.2 n (r, c))) /
        dzSum q.2 (dzDow rn t good q.2))) ^ 2, k * dzSum q.2 (dzDow rn t good q.2)))).sum = k * dzW rn t good ms := by
    rw [dzW, ← List.sum_map_mul_left, ← dv_filter_sum ms (fun q => dzSum q.2 (dzDow rn t good q.2)) _ (fun q _ h0 => by rw [h0, mul_zero])]
    rfl
  rw [e1, e2, mul_pow, mul_div_assoc, mul_div_mul_left _ _ (by positivity)]
  refine mul_le_mul_of_nonneg_left ?_ hsc
  rw [div_eq_mul_inv, ← List.sum_map_mul_right, nbTrue]
  refine List.sum_le_sum fun q hq => ?_
  generalize dzW rn t good ms = W at hne ⊢
  have hf : ∀ r c, DzIn q.2 r c → 0 ≤ dzDow rn t good q.2 r c * sqrt (dvVar q.2 n (r, c)) ∧
      (q.1 * dzDow rn t good q.2 r c / W) ^ 2 * dvVar q.2 n (r, c) =
        (q.1 ^ 2 * (W ^ 2)⁻¹) * (dzDow rn t good q.2 r c * sqrt (dvVar q.2 n (r, c))) ^ 2 := by
    intro r c hi
    by_cases hg : DzGood good (q.2.dq r c)
    · obtain ⟨x, hx, hvx⟩ := (h q hq).vars r c hi hg n hn
      have hx' : dvVar q.2 n (r, c) = x := by simp only [dvVar, hvx]
      obtain ⟨s1, s2⟩ := hsq x hx
      rw [hx']
      refine ⟨mul_nonneg (hd q hq r c hi) s1, ?_⟩
      rw [mul_pow _ (sqrt x), s2]
      field_simp
    · rw [nb_dow_bad rn t good q.2 r c hg]
      simp
  rw [nb_sum_congr _ _ _ fun r c hi => (hf r c hi).2, nb_sum_mul]
  by_cases h0 : dzSum q.2 (dzDow rn t good q.2) = 0
  · have hz : ∀ r c, DzIn q.2 r c → dzDow rn t good q.2 r c = 0 := by
      intro r c hi
      have hs : (q.2.pixels.map fun p => dzDow rn t good q.2 p.1 p.2).sum = 0 := by rw [dz_pixels_sum]; exact h0
      have hnn : ∀ x ∈ q.2.pixels.map fun p => dzDow rn t good q.2 p.1 p.2, 0 ≤ x := by
        intro x hx
        obtain ⟨p, hp, rfl⟩ := List.mem_map.1 hx
        exact hd q hq _ _ ((dz_mem_pixels _ _).1 hp)
      have := List.single_le_sum hnn _ (List.mem_map.2 ⟨(r, c), (dz_mem_pixels _ _).2 hi, rfl⟩)
      rw [hs] at this
      exact le_antisymm this (hd q hq r c hi)
    rw [if_pos h0, zero_mul, nb_sum_congr q.2 _ (fun _ _ => 0) fun r c hi => by rw [hz r c hi]; ring]
    have : dzSum q.2 (fun _ _ => (0 : α)) = 0 := by
      have := nb_sum_mul q.2 (fun _ _ => (0 : α)) 0
      simpa using this
    rw [this, mul_zero]
  · rw [if_neg h0]
    have hle := mul_le_mul_of_nonneg_left (nb_sum_sq q.2 _ fun r c hi => (hf r c hi).1) (show 0 ≤ q.1 ^ 2 * (W ^ 2)⁻¹ by positivity)
    exact le_of_le_of_eq hle (by ring)

/-! ## Properties -/

/-- **C181**: with weights by time, each variance in the output is the variance of the mean weighted by the times, of the squares of the mean
errors of the images.  How much of the output pixel an image covers does not matter, as long as it is not nothing. -/
theorem C181_by_time [DecidableEq ν] (sqrt : α → α) (rn : ν) (names : List ν) (hrn : rn ∈ names) (good : Option Nat) (scaling : α)
    (ms : List (α × Input ν α)) (h : ∀ q ∈ ms, NbImage names good q.2) (hA : ∀ q ∈ ms, nbA good q.2 ≠ 0) (hne : ms ≠ [])
    (n : ν) (hn : n ∈ names) :
    variance sqrt names rn .exptime good scaling ms n =
      some (some (scaling * (ms.map fun q => q.2.time ^ 2 * (q.1 * nbMean sqrt good q.2 n) ^ 2).sum /
        (ms.map fun q => q.2.time).sum ^ 2)) := by
  have hd : DzNonneg rn .exptime good ms := by
    intro q hq r c hi
    rw [nb_dow_time]
    refine mul_nonneg (h q hq).time.le ?_
    split
    · exact (h q hq).overlap r c hi
    · exact le_refl _
  have hB : ∀ q ∈ ms, dzSum q.2 (dzDow rn .exptime good q.2) ≠ 0 := fun q hq => by
    rw [nb_W_time]
    exact mul_ne_zero (h q hq).time.ne' (hA q hq)
  rw [nb_variance sqrt rn names hrn .exptime good scaling (fun q => q.2.time) ms h hd n hn fun q hq _ => ⟨(h q hq).time, by
    simp [rvWeight, varType]⟩]
  have hf : (ms.filter fun q => !decide (dzSum q.2 (dzDow rn .exptime good q.2) = 0)) = ms := by
    rw [List.filter_eq_self]
    intro q hq
    simp [hB q hq]
  rw [hf]
  simp only [rvVariance, List.map_eq_nil_iff, if_neg hne, List.map_map]
  congr 4
  · refine congrArg _ (List.map_congr_left fun q hq => ?_)
    simp only [Function.comp]
    congr 3
    rw [nbMean, nb_W_time, ← mul_div_mul_left _ (nbA good q.2) (h q hq).time.ne', ← nb_sum_mul]
    congr 1
    refine nb_sum_congr _ _ _ fun r c _ => ?_
    rw [nb_dow_time, mul_assoc]

/-- **C181**: with weights by time, and images that cover the output pixel alike (or not at all), no variance is less than the variance of the value of
the output pixel. -/
theorem C181_not_understated [DecidableEq ν] (sqrt : α → α) (hsq : ∀ x, 0 ≤ x → 0 ≤ sqrt x ∧ sqrt x ^ 2 = x) (rn : ν) (names : List ν)
    (hrn : rn ∈ names) (good : Option Nat) (scaling : α) (hsc : 0 ≤ scaling) (ms : List (α × Input ν α))
    (h : ∀ q ∈ ms, NbImage names good q.2) (A : α) (hA : ∀ q ∈ ms, nbA good q.2 = 0 ∨ nbA good q.2 = A)
    (hne : dzW rn .exptime good ms ≠ 0) (n : ν) (hn : n ∈ names) :
    ∃ v, variance sqrt names rn .exptime good scaling ms n = some (some v) ∧ scaling * nbTrue rn .exptime good ms n ≤ v := by
  have hd : DzNonneg rn .exptime good ms := by
    intro q hq r c hi
    rw [nb_dow_time]
    refine mul_nonneg (h q hq).time.le ?_
    split
    · exact (h q hq).overlap r c hi
    · exact le_refl _
  have hApos : 0 < A := by
    by_contra hle
    apply hne
    refine List.sum_eq_zero fun x hx => ?_
    obtain ⟨q, hq, rfl⟩ := List.mem_map.1 hx
    have h0 := nb_A_nonneg names good q.2 (h q hq)
    rw [nb_W_time]
    rcases hA q hq with e | e
    · rw [e, mul_zero]
    · rw [e] at h0 ⊢
      rw [le_antisymm (not_lt.1 hle) h0, mul_zero]
  refine nb_bound sqrt hsq rn names hrn .exptime good scaling hsc A⁻¹ (by positivity) ms h hd n hn (fun q hq h0 => ?_) hne
  rw [nb_W_time] at h0 ⊢
  rcases hA q hq with e | e
  · rw [e, mul_zero] at h0
    exact absurd rfl h0
  · rw [e]
    simp only [rvWeight, varType, if_true]
    field_simp

/-- **C181**: the same with weights by read noise, if that is the same in all pixels of an image, and one intensity scale. -/
theorem C181_not_understated_ivm [DecidableEq ν] (sqrt : α → α) (hsq : ∀ x, 0 ≤ x → 0 ≤ sqrt x ∧ sqrt x ^ 2 = x) (rn : ν) (names : List ν)
    (hrn : rn ∈ names) (good : Option Nat) (scaling : α) (hsc : 0 ≤ scaling) (s : α) (hs : s ≠ 0) (ms : List (Input ν α))
    (h : ∀ m ∈ ms, NbImage names good m) (noise : Input ν α → α)
    (hv : ∀ m ∈ ms, 0 < noise m ∧ ∀ r c, DzIn m r c → DzGood good (m.dq r c) → dvVar m rn (r, c) = noise m)
    (A : α) (hA : ∀ m ∈ ms, nbA good m = 0 ∨ nbA good m = A)
    (hne : dzW rn .ivm good (ms.map fun m => (s, m)) ≠ 0) (n : ν) (hn : n ∈ names) :
    ∃ v, variance sqrt names rn .ivm good scaling (ms.map fun m => (s, m)) n = some (some v) ∧
      scaling * nbTrue rn .ivm good (ms.map fun m => (s, m)) n ≤ v := by
  classical
  have hdow : ∀ m ∈ ms, ∀ r c, DzIn m r c →
      dzDow rn .ivm good m r c = (noise m)⁻¹ * (if DzGood good (m.dq r c) then m.overlap r c else 0) := by
    intro m hm r c hi
    obtain ⟨hp, he⟩ := hv m hm
    by_cases hg : DzGood good (m.dq r c)
    · obtain ⟨x, hx, hvx⟩ := (h m hm).vars r c hi hg rn hrn
      have hx' : x = noise m := by
        rw [← he r c hi hg]
        simp only [dvVar, hvx]
      simp only [dzDow, dzWt, if_pos hg, hvx, dzInv, hx', hp.ne', if_false]
      ring
    · rw [nb_dow_bad rn .ivm good m r c hg, if_neg hg, mul_zero]
  have hB : ∀ m ∈ ms, dzSum m (dzDow rn .ivm good m) = (noise m)⁻¹ * nbA good m := by
    intro m hm
    rw [nbA, ← nb_sum_mul]
    exact nb_sum_congr m _ _ (hdow m hm)
  have hnn : ∀ m ∈ ms, ∀ r c, DzIn m r c → 0 ≤ dzDow rn .ivm good m r c := by
    intro m hm r c hi
    rw [hdow m hm r c hi]
    refine mul_nonneg (inv_nonneg.2 (hv m hm).1.le) ?_
    split
    · exact (h m hm).overlap r c hi
    · exact le_refl _
  have hd : DzNonneg rn .ivm good (ms.map fun m => (s, m)) := by
    intro q hq r c hi
    obtain ⟨m, hm, rfl⟩ := List.mem_map.1 hq
    exact hnn m hm r c hi
  have hApos : 0 < A := by
    by_contra hle
    apply hne
    refine List.sum_eq_zero fun x hx => ?_
    obtain ⟨q, hq, rfl⟩ := List.mem_map.1 hx
    obtain ⟨m, hm, rfl⟩ := List.mem_map.1 hq
    have h0 := nb_A_nonneg names good m (h m hm)
    rw [hB m hm]
    rcases hA m hm with e | e
    · rw [e, mul_zero]
    · rw [e] at h0 ⊢
      rw [le_antisymm (not_lt.1 hle) h0, mul_zero]
  refine nb_bound sqrt hsq rn names hrn .ivm good scaling hsc (s ^ 2 * A)⁻¹ (by positivity) _ (fun q hq => ?_) hd n hn (fun q hq h0 => ?_) hne
  · obtain ⟨m, hm, rfl⟩ := List.mem_map.1 hq
    exact h m hm
  · obtain ⟨m, hm, rfl⟩ := List.mem_map.1 hq
    obtain ⟨hp, he⟩ := hv m hm
    have h1 := nb_one sqrt rn names .ivm good s m (h m hm) (hnn m hm) rn hrn
    rw [if_neg h0] at h1
    have hmean : dzSum m (fun r c => dzDow rn .ivm good m r c * sqrt (dvVar m rn (r, c))) =
        sqrt (noise m) * dzSum m (dzDow rn .ivm good m) := by
      rw [← nb_sum_mul]
      refine nb_sum_congr _ _ _ fun r c hi => ?_
      by_cases hg : DzGood good (m.dq r c)
      · rw [he r c hi hg, mul_comm]
      · rw [nb_dow_bad rn .ivm good m r c hg, zero_mul, mul_zero]
    rw [hmean, mul_div_assoc, div_self h0, mul_one, mul_pow, (hsq _ hp.le).2] at h1
    have hpos : 0 < s ^ 2 * noise m := by positivity
    simp only [rvWeight, varType, reduceCtorEq, if_false]
    rw [h1]
    simp only [if_pos hpos]
    rw [hB m hm] at h0 ⊢
    rcases hA m hm with e | e
    · rw [e, mul_zero] at h0
      exact absurd rfl h0
    · rw [e]
      field_simp

/-! ## Images that cover the output pixel differently -/

/-- An image of two pixels with the same variance `v` and overlaps `a` and `b`. -/
def nbPair {α : Type} [Field α] (v time a b : α) : Input Unit α :=
  { ny := 1, nx := 2, data := fun _ _ => some 0, dq := fun _ _ => 0, vars := fun _ => some fun _ _ => .num v, sky := none, time := time, level := none,
    subtracted := true, box := none, overlap := fun _ c => if c = 0 then a else b }

theorem nb_pair_in (v t a b : α) (r c : Nat) : DzIn (nbPair v t a b) r c ↔ r = 0 ∧ c < 2 := by
  simp only [DzIn, nbPair, resampleRange, range1, Option.map_none]
  omega

theorem nb_pair_good (v t a b : α) (r c : Nat) : DzGood none ((nbPair v t a b).dq r c) := by
  intro g hg
  cases hg

theorem nb_pair_sum (v t a b : α) (f : Nat → Nat → α) : dzSum (nbPair v t a b) f = f 0 0 + f 0 1 := by
  simp only [dzSum, nb_pair_in]
  simp [nbPair, Finset.sum_range_succ]

theorem nb_pair_A (v t a b : α) : nbA none (nbPair v t a b) = a + b := by
  rw [nbA, nb_pair_sum, if_pos (nb_pair_good v t a b 0 0), if_pos (nb_pair_good v t a b 0 1)]
  simp [nbPair]

theorem nb_pair_image (v t a b : α) (hv : 0 ≤ v) (ht : 0 < t) (ha : 0 ≤ a) (hb : 0 ≤ b) : NbImage [()] none (nbPair v t a b) where
  time := ht
  has := by simp [nbPair]
  overlap := by
    intro r c _
    simp only [nbPair]
    split
    · exact ha
    · exact hb
  vars := fun r c _ _ n _ => ⟨v, hv, rfl⟩

/-- Two images, each with two pixels on the output pixel, 1/4 and 3/4, and 1/2 and 1/2: images that meet the conditions; the variances 4 and
1 of the pixels and the times 1 and 2 give the value the variance 1/2. -/
example : (∀ q ∈ [((1 : ℝ), nbPair (4 : ℝ) 1 (1 / 4) (3 / 4)), (1, nbPair 1 2 (1 / 2) (1 / 2))], NbImage [()] none q.2) ∧
    (∀ q ∈ [((1 : ℝ), nbPair (4 : ℝ) 1 (1 / 4) (3 / 4)), (1, nbPair 1 2 (1 / 2) (1 / 2))], nbA none q.2 = 0 ∨ nbA none q.2 = 1) ∧
    nbTrue () .exptime none [((1 : ℝ), nbPair (4 : ℝ) 1 (1 / 4) (3 / 4)), (1, nbPair 1 2 (1 / 2) (1 / 2))] () = 1 / 2 := by
  refine ⟨?_, ?_, ?_⟩
  · intro q hq
    simp only [List.mem_cons, List.not_mem_nil, or_false] at hq
    rcases hq with rfl | rfl <;> exact nb_pair_image _ _ _ _ (by norm_num) (by norm_num) (by norm_num) (by norm_num)
  · intro q hq
    simp only [List.mem_cons, List.not_mem_nil, or_false] at hq
    rcases hq with rfl | rfl <;> exact Or.inr (by rw [nb_pair_A]; norm_num)
  · simp only [nbTrue, dzW, List.map_cons, List.map_nil, List.sum_cons, List.sum_nil, nb_W_time, nb_pair_A, nb_pair_sum, nb_dow_time,
      if_pos (nb_pair_good _ _ _ _ _ _)]
    norm_num [nbPair, dvVar]

/-- The same images for weights by read noise: this is 4 in the first and 1 in the second, and the weight is not zero. -/
example : (∀ m ∈ [nbPair (4 : ℝ) 1 (1 / 4) (3 / 4), nbPair 1 2 (1 / 2) (1 / 2)], 0 < dvVar m () (0, 0) ∧
      ∀ r c, DzIn m r c → DzGood none (m.dq r c) → dvVar m () (r, c) = dvVar m () (0, 0)) ∧
    dzW () .exptime none ([nbPair (4 : ℝ) 1 (1 / 4) (3 / 4), nbPair 1 2 (1 / 2) (1 / 2)].map fun m => (1, m)) = 3 ∧
    dzW () .ivm none ([nbPair (4 : ℝ) 1 (1 / 4) (3 / 4), nbPair 1 2 (1 / 2) (1 / 2)].map fun m => (1, m)) = 5 / 4 := by
  refine ⟨?_, ?_, ?_⟩
  · intro q hq
    simp only [List.mem_cons, List.not_mem_nil, or_false] at hq
    rcases hq with rfl | rfl
    · exact ⟨by norm_num [nbPair, dvVar], fun _ _ _ _ => rfl⟩
    · exact ⟨by norm_num [nbPair, dvVar], fun _ _ _ _ => rfl⟩
  · simp only [dzW, List.map_cons, List.map_nil, List.sum_cons, List.sum_nil, nb_W_time, nb_pair_A]
    norm_num [nbPair]
  · simp only [dzW, List.map_cons, List.map_nil, List.sum_cons, List.sum_nil, nb_pair_sum, dzDow, dzWt, if_pos (nb_pair_good _ _ _ _ _ _)]
    norm_num [nbPair, dzInv]

/-- **Finding**: where the images do not cover the output pixel alike, as at their edges and beside flagged pixels, the variances can be too small by
any factor: the image is made almost of one image alone, and the variance is that of the mean of all.  One image that covers the output
pixel and `k` that cover `1 / k ^ 2` of it, all variances and times one: the variance of the value is at least 1/4, in the output it is
`1 / (k + 1)`. -/
theorem C181_understated (k : Nat) (hk : 0 < k) : ∃ ms : List (ℝ × Input Unit ℝ), (∀ q ∈ ms, NbImage [()] none q.2 ∧ q.1 = 1 ∧ q.2.time = 1 ∧
      ∀ r c, dvVar q.2 () (r, c) = 1) ∧
    1 / 4 ≤ nbTrue () .exptime none ms () ∧
    variance Real.sqrt [()] () .exptime none 1 ms () = some (some (1 / ((k : ℝ) + 1))) := by
  have hk' : (0 : ℝ) < k := by exact_mod_cast hk
  have hk1 : (1 : ℝ) ≤ k := by exact_mod_cast hk
  refine ⟨(1, nbPair 1 1 1 0) :: List.replicate k (1, nbPair 1 1 (1 / (k : ℝ) ^ 2) 0), ?_, ?_, ?_⟩
  · intro q hq
    rcases List.mem_cons.1 hq with rfl | hq
    · exact ⟨nb_pair_image _ _ _ _ (by norm_num) (by norm_num) (by norm_num) (by norm_num), rfl, rfl, fun _ _ => rfl⟩
    · rw [List.eq_of_mem_replicate hq]
      exact ⟨nb_pair_image _ _ _ _ (by norm_num) (by norm_num) (by positivity) (by norm_num), rfl, rfl, fun _ _ => rfl⟩
  · have hW : dzW () .exptime none ((1, nbPair (1 : ℝ) 1 1 0) :: List.replicate k (1, nbPair 1 1 (1 / (k : ℝ) ^ 2) 0)) = 1 + 1 / k := by
      simp only [dzW, List.map_cons, List.sum_cons, List.map_replicate, List.sum_replicate, nb_W_time, nb_pair_A]
      simp only [nbPair, nsmul_eq_mul]
      field_simp
      ring
    simp only [nbTrue, hW, List.map_cons, List.sum_cons, List.map_replicate, List.sum_replicate]
    have h0 : (0 : ℝ) ≤ k • dzSum (nbPair (1 : ℝ) 1 (1 / (k : ℝ) ^ 2) 0) fun r c =>
        (1 * dzDow () .exptime none (nbPair 1 1 (1 / (k : ℝ) ^ 2) 0) r c / (1 + 1 / k)) ^ 2 * dvVar (nbPair 1 1 (1 / (k : ℝ) ^ 2) 0) () (r, c) := by
      refine nsmul_nonneg (nb_sum_nonneg _ _ fun r c _ => mul_nonneg (sq_nonneg _) ?_) k
      simp [nbPair, dvVar]
    refine le_trans ?_ (le_add_of_nonneg_right h0)
    rw [nb_pair_sum, nb_dow_time, nb_dow_time, if_pos (nb_pair_good _ _ _ _ _ _), if_pos (nb_pair_good _ _ _ _ _ _)]
    have e : (1 : ℝ) / k ≤ 1 := by rw [div_le_one hk']; exact hk1
    have e0 : (0 : ℝ) ≤ 1 / k := by positivity
    generalize (1 : ℝ) / k = x at e e0
    have : (1 * (nbPair (1 : ℝ) 1 1 0).time * (nbPair (1 : ℝ) 1 1 0).overlap 0 0) = 1 := by simp [nbPair]
    simp only [nbPair, dvVar, Option.map_some, if_true, one_ne_zero, if_false, mul_one, mul_zero, zero_div]
    rw [div_pow, one_pow]
    have : (1 : ℝ) / 4 ≤ 1 / (1 + x) ^ 2 := by
      apply one_div_le_one_div_of_le
      · positivity
      · nlinarith
    linarith
  · have hmem : ∀ q ∈ ((1 : ℝ), nbPair (1 : ℝ) 1 1 0) :: List.replicate k (1, nbPair 1 1 (1 / (k : ℝ) ^ 2) 0),
        NbImage [()] none q.2 ∧ nbA none q.2 ≠ 0 := by
      intro q hq
      rcases List.mem_cons.1 hq with rfl | hq
      · exact ⟨nb_pair_image _ _ _ _ (by norm_num) (by norm_num) (by norm_num) (by norm_num), by rw [nb_pair_A]; norm_num⟩
      · rw [List.eq_of_mem_replicate hq]
        exact ⟨nb_pair_image _ _ _ _ (by norm_num) (by norm_num) (by positivity) (by norm_num), by rw [nb_pair_A]; positivity⟩
    rw [C181_by_time Real.sqrt () [()] (by simp) none 1 _ (fun q hq => (hmem q hq).1) (fun q hq => (hmem q hq).2) (by simp) () (by simp)]
    have hmean : ∀ a : ℝ, a ≠ 0 → nbMean Real.sqrt none (nbPair (1 : ℝ) 1 a 0) () = 1 := by
      intro a ha
      rw [nbMean, nb_pair_A, nb_pair_sum, if_pos (nb_pair_good _ _ _ _ _ _), if_pos (nb_pair_good _ _ _ _ _ _)]
      simp [nbPair, dvVar, ha]
    simp only [List.map_cons, List.sum_cons, List.map_replicate, List.sum_replicate]
    rw [hmean 1 one_ne_zero, hmean _ (by positivity)]
    simp only [nbPair, nsmul_eq_mul, Option.some.injEq]
    field_simp
    ring

end Verif.Thm
