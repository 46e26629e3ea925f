import Verif.Thm.LikelyDriver

/-!
# The rate product of the likelihood fit: property C119
-/

namespace Verif.Thm

open Verif Verif.Likely Verif.LikelyDriver

set_option linter.unusedSectionVars false

variable {α : Type} [Field α] [LinearOrder α] [IsStrictOrderedRing α]

/-- Slope and variances of an integration. -/
structure LiFit (α : Type) where
  d : α
  p : α
  r : α

/-- The integrations that have a slope. -/
def liUsed (l : List (IntOut α)) : List (LiFit α) := l.filterMap fun o => o.fit.map fun f => ⟨f.countrate, f.varP, f.varR⟩

/-- The variance of an integration if the true rate is `s`: the Poisson part is proportional to the rate. -/
def liVar (s : α) (f : LiFit α) : α := max 0 (s / f.d) * f.p + f.r

/-- The mean weighted with the inverse variances. -/
def liMean (s : α) (l : List (LiFit α)) : α := (l.map fun f => f.d / liVar s f).sum / (l.map fun f => 1 / liVar s f).sum

theorem li_scale (s d : α) : rateScale (some s) (some d) = max 0 (s / d) := by
  simp only [rateScale]
  split_ifs with h1 h2
  · simp [h1]
  · rw [max_eq_left h2.le]
  · rw [max_eq_right (not_lt.mp h2)]

theorem li_nansum (l : List (IntOut α)) (f : IntOut α → Option α) (g : LiFit α → α) (h1 : ∀ o ∈ l, o.fit = none → f o = none)
    (h2 : ∀ o ∈ l, ∀ r, o.fit = some r → f o = some (g ⟨r.countrate, r.varP, r.varR⟩)) :
    nansum (l.map f) = ((liUsed l).map g).sum := by
  induction l with
  | nil => rfl
  | cons o l ih =>
    have ih' := ih (fun i hi => h1 i (List.mem_cons_of_mem _ hi)) fun i hi => h2 i (List.mem_cons_of_mem _ hi)
    cases ho : o.fit with
    | none =>
      have := h1 o (by simp) ho
      simp only [nansum, liUsed, List.map_cons, this, List.filterMap_cons, ho, id, Option.map_none] at ih' ⊢
      exact ih'
    | some r =>
      have := h2 o (by simp) r ho
      simp only [nansum, liUsed, List.map_cons, this, List.filterMap_cons, ho, id, Option.map_some, List.sum_cons] at ih' ⊢
      rw [ih']

theorem li_sumOrNan (l : List (IntOut α)) (f : IntOut α → Option α) (g : LiFit α → α) (hne : liUsed l ≠ [])
    (h1 : ∀ o ∈ l, o.fit = none → f o = none)
    (h2 : ∀ o ∈ l, ∀ r, o.fit = some r → f o = some (g ⟨r.countrate, r.varP, r.varR⟩)) :
    sumOrNan (l.map f) = some ((liUsed l).map g).sum := by
  unfold sumOrNan
  rw [li_nansum l f g h1 h2, if_neg]
  intro hall
  refine hne ?_
  rw [liUsed, List.filterMap_eq_nil_iff]
  intro o ho
  cases hf : o.fit with
  | none => rfl
  | some r =>
    have h := h2 o ho r hf
    simp only [List.all_map, List.all_eq_true, Function.comp] at hall
    have := hall o ho
    simp [h] at this

theorem li_raw (s : α) (o : IntOut α) :
    rawWeight (some s) (toInt1 o) = o.fit.map fun r => 1 / liVar s ⟨r.countrate, r.varP, r.varR⟩ := by
  cases ho : o.fit with
  | none => simp [rawWeight, toInt1, ho]
  | some r =>
    simp only [rawWeight, toInt1, ho, Option.map_some, li_scale, liVar]
    rw [mul_comm]

theorem li_norm (s : α) (l : List (IntOut α)) (o : IntOut α) :
    normWeight (some s) (l.map toInt1) (toInt1 o) =
      o.fit.map fun r => 1 / liVar s ⟨r.countrate, r.varP, r.varR⟩ / ((liUsed l).map fun f => 1 / liVar s f).sum := by
  have hs : nansum ((l.map toInt1).map (rawWeight (some s))) = ((liUsed l).map fun f => 1 / liVar s f).sum := by
    rw [List.map_map]
    refine li_nansum l _ _ (fun o _ h => ?_) fun o _ r h => ?_
    · simp [Function.comp, li_raw, h]
    · simp [Function.comp, li_raw, h]
  simp only [normWeight, li_raw, hs, Option.map_map]
  rfl

theorem li_round (s : α) (l : List (IntOut α)) (hne : liUsed l ≠ []) :
    combineRound (l.map toInt1) (some s) = some (liMean s (liUsed l)) := by
  unfold combineRound
  rw [List.map_map, li_sumOrNan l _ (fun f => f.d / liVar s f / ((liUsed l).map fun f => 1 / liVar s f).sum) hne]
  · congr 1
    rw [lkSum_div]
    rfl
  · intro o _ h
    simp [Function.comp, omul, toInt1, h]
  · intro o _ r h
    simp only [Function.comp, li_norm, h, Option.map_some]
    simp only [omul, toInt1, h, Option.map_some]
    congr 1
    ring

/-- Both rounds of the combination, with the variances of the mean. -/
theorem li_combine (l : List (IntOut α)) (h2 : 2 ≤ l.length) (hne : liUsed l ≠ []) (m : α)
    (hm : Verif.Jump.nanmedian (l.map fun o => o.fit.map (·.countrate)) = some m) :
    let s := liMean m (liUsed l)
    let S := ((liUsed l).map fun f => 1 / liVar s f).sum
    combine (l.map toInt1) = ⟨some (liMean s (liUsed l)),
      some ((liUsed l).map fun f => max 0 (s / f.d) * f.p * (1 / liVar s f / S * (1 / liVar s f / S))).sum,
      some ((liUsed l).map fun f => f.r * (1 / liVar s f / S * (1 / liVar s f / S))).sum⟩ := by
  intro s S
  have e : ∀ k : List (Int1 α), 2 ≤ k.length → combine k =
      { data := combineRound k (combineRound k (Verif.Jump.nanmedian (k.map fun i => i.data)))
        varP := sumOrNan (k.map fun i => omul (omul i.varP
          (some (rateScale (combineRound k (Verif.Jump.nanmedian (k.map fun i => i.data))) i.data)))
          (omul (normWeight (combineRound k (Verif.Jump.nanmedian (k.map fun i => i.data))) k i)
            (normWeight (combineRound k (Verif.Jump.nanmedian (k.map fun i => i.data))) k i)))
        varR := sumOrNan (k.map fun i => omul i.varR
          (omul (normWeight (combineRound k (Verif.Jump.nanmedian (k.map fun i => i.data))) k i)
            (normWeight (combineRound k (Verif.Jump.nanmedian (k.map fun i => i.data))) k i))) } := by
    intro k hk
    unfold combine
    match k, hk with
    | [], hk => simp at hk
    | [_], hk => simp at hk
    | _ :: _ :: _, _ => rfl
  rw [e _ (by simpa using h2)]
  have hm' : Verif.Jump.nanmedian ((l.map toInt1).map fun i => i.data) = some m := by
    rw [List.map_map]
    exact hm
  rw [hm', li_round m l hne, li_round _ l hne]
  simp only [Int1.mk.injEq]
  refine ⟨rfl, ?_, ?_⟩
  · rw [List.map_map]
    refine li_sumOrNan l _ _ hne (fun o _ h => ?_) fun o _ r h => ?_
    · simp [Function.comp, omul, toInt1, h]
    · simp only [Function.comp, li_norm, h, Option.map_some]
      simp only [omul, toInt1, h, Option.map_some, li_scale]
      congr 1
      ring
  · rw [List.map_map]
    refine li_sumOrNan l _ _ hne (fun o _ h => ?_) fun o _ r h => ?_
    · simp [Function.comp, omul, toInt1, h]
    · simp only [Function.comp, li_norm, h, Option.map_some]
      simp only [omul, toInt1, h, Option.map_some]
      rfl

/-- C119.  Several integrations: the rate is the inverse-variance mean of the slopes that are numbers, with the Poisson variances
scaled to the mean of a first round, which starts from the median; the error is the one of that mean. -/
theorem C119_rate_and_error (fl : LikelyDriver.Flags) (l : List (IntOut α)) (h2 : 2 ≤ l.length)
    (hv : ∀ f ∈ liUsed l, 0 ≤ f.p ∧ 0 < f.r) (m : α)
    (hm : Verif.Jump.nanmedian (l.map fun o => o.fit.map (·.countrate)) = some m) (hne : ∃ o ∈ l, o.fit ≠ none) :
    let s := liMean m (liUsed l)
    (imageInfo fl l).comb.data = some (liMean s (liUsed l)) ∧
      (imageInfo fl l).err2 = some (1 / ((liUsed l).map fun f => 1 / liVar s f).sum) := by
  intro s
  have hne' : liUsed l ≠ [] := by
    obtain ⟨o, ho, hf⟩ := hne
    intro h
    rw [liUsed, List.filterMap_eq_nil_iff] at h
    have := h o ho
    cases hfo : o.fit with
    | none => exact hf hfo
    | some r => rw [hfo] at this; simp at this
  have hc := li_combine l h2 hne' m hm
  simp only at hc
  have hi : imageInfo fl l = ⟨combine (l.map toInt1), match (combine (l.map toInt1)).varP, (combine (l.map toInt1)).varR with
      | some p, some r => some (p + r)
      | _, _ => none, osum (l.map fun o => o.fit.map (·.chisq)), RampDq.compressFinal fl.dnu (l.map (·.dq))⟩ := by
    match l, h2 with
    | [], h2 => simp at h2
    | [_], h2 => simp at h2
    | _ :: _ :: _, _ => rfl
  rw [hi, hc]
  refine ⟨rfl, ?_⟩
  simp only
  congr 1
  have hV : ∀ f ∈ liUsed l, 0 < liVar s f := by
    intro f hf
    have := hv f hf
    have h1 : 0 ≤ max 0 (s / f.d) * f.p := mul_nonneg (le_max_left _ _) this.1
    rw [liVar]
    linarith [this.2]
  have hS : 0 < ((liUsed l).map fun f => 1 / liVar s f).sum :=
    Ols.sum_pos_of_mem (liUsed l) _ (fun f hf => by have := hV f hf; positivity) hne'
  show ((liUsed l).map fun f => max 0 (s / f.d) * f.p * (1 / liVar s f / ((liUsed l).map fun f => 1 / liVar s f).sum *
      (1 / liVar s f / ((liUsed l).map fun f => 1 / liVar s f).sum))).sum +
    ((liUsed l).map fun f => f.r * (1 / liVar s f / ((liUsed l).map fun f => 1 / liVar s f).sum *
      (1 / liVar s f / ((liUsed l).map fun f => 1 / liVar s f).sum))).sum = _
  generalize hSe : ((liUsed l).map fun f => 1 / liVar s f).sum = S at hS
  rw [← List.sum_map_add]
  have e2 : ((liUsed l).map fun f => max 0 (s / f.d) * f.p * (1 / liVar s f / S * (1 / liVar s f / S)) +
      f.r * (1 / liVar s f / S * (1 / liVar s f / S))) = (liUsed l).map fun f => (1 / liVar s f) / (S * S) := by
    refine List.map_congr_left fun f hf => ?_
    have h1 := hV f hf
    have h3 : max 0 (s / f.d) * f.p + f.r = liVar s f := rfl
    rw [← add_mul, h3]
    field_simp
  rw [e2, lkSum_div, hSe]
  field_simp

/-- C119.  One integration: slope, error, chi-square and DQ are the ones of the integration. -/
theorem C119_one_integration (fl : LikelyDriver.Flags) (o : IntOut α) :
    (imageInfo fl [o]).comb.data = o.fit.map (·.countrate) ∧ (imageInfo fl [o]).err2 = o.fit.map (·.uncert2) ∧
      (imageInfo fl [o]).chisq = o.fit.map (·.chisq) ∧ (imageInfo fl [o]).dq = some o.dq := ⟨rfl, rfl, rfl, rfl⟩

/-- C119.  The DQ of the exposure: DO_NOT_USE if every integration has it, every other flag if some integration has it. -/
theorem C119_dq (fl : LikelyDriver.Flags) (l : List (IntOut α)) (h2 : 2 ≤ l.length) :
    ∃ v, (imageInfo fl l).dq = some v ∧ ∀ i, (v.testBit i = true ↔
      if fl.dnu.testBit i = true then ∀ o ∈ l, Dq.Has o.dq fl.dnu else ∃ o ∈ l, o.dq.testBit i = true) := by
  have hi : (imageInfo fl l).dq = RampDq.compressFinal fl.dnu (l.map (·.dq)) := by
    match l, h2 with
    | [], h2 => simp at h2
    | [_], h2 => simp at h2
    | _ :: _ :: _, _ => rfl
  obtain ⟨v, e, h⟩ := C32_compress_final fl.dnu (l.map (·.dq)) (by
    intro h
    rw [List.map_eq_nil_iff] at h
    subst h
    simp at h2)
  refine ⟨v, by rw [hi, e], fun i => ?_⟩
  rw [h i]
  simp [List.mem_map]

/-- C119.  The chi-square of several integrations is their sum; it is NaN as soon as one integration has no fit, even if the
rate is a number (finding). -/
theorem C119_chisq (fl : LikelyDriver.Flags) (l : List (IntOut α)) (h2 : 2 ≤ l.length) :
    ((∀ o ∈ l, o.fit ≠ none) → (imageInfo fl l).chisq = some (l.map fun o => (o.fit.map (·.chisq)).getD 0).sum) ∧
    ((∃ o ∈ l, o.fit = none) → (imageInfo fl l).chisq = none) := by
  have hi : (imageInfo fl l).chisq = osum (l.map fun o => o.fit.map (·.chisq)) := by
    match l, h2 with
    | [], h2 => simp at h2
    | [_], h2 => simp at h2
    | _ :: _ :: _, _ => rfl
  rw [hi, osum]
  clear hi h2
  have hn : ∀ (l : List (Option α)), l.foldl (fun s x => match s, x with
      | some a, some b => some (a + b)
      | _, _ => none) none = none := by
    intro l
    induction l with
    | nil => rfl
    | cons x l ih => exact ih
  have hs : ∀ (l : List (IntOut α)) (a : α), ((∀ o ∈ l, o.fit ≠ none) → (l.map fun o => o.fit.map (·.chisq)).foldl (fun s x => match s, x with
      | some a, some b => some (a + b)
      | _, _ => none) (some a) = some (a + (l.map fun o => (o.fit.map (·.chisq)).getD 0).sum)) ∧
      ((∃ o ∈ l, o.fit = none) → (l.map fun o => o.fit.map (·.chisq)).foldl (fun s x => match s, x with
      | some a, some b => some (a + b)
      | _, _ => none) (some a) = none) := by
    intro l
    induction l with
    | nil => intro a; simp
    | cons o l ih =>
      intro a
      cases ho : o.fit with
      | none =>
        refine ⟨fun h => absurd ho (h o (by simp)), fun _ => ?_⟩
        simp only [List.map_cons, ho, Option.map_none, List.foldl_cons]
        exact hn _
      | some r =>
        simp only [List.map_cons, ho, Option.map_some, List.foldl_cons, Option.getD_some, List.sum_cons]
        obtain ⟨i1, i2⟩ := ih (a + r.chisq)
        refine ⟨fun h => ?_, fun ⟨o', h1, h2⟩ => ?_⟩
        · rw [i1 fun o' h' => h o' (List.mem_cons_of_mem _ h'), add_assoc]
        · rcases List.mem_cons.mp h1 with rfl | h1
          · rw [ho] at h2; cases h2
          · exact i2 ⟨o', h1, h2⟩
  obtain ⟨a, b⟩ := hs l 0
  refine ⟨fun h => (a h).trans ?_, b⟩
  rw [zero_add]

/-- C119.  A ramp with fewer than four groups is refused; any other one is not. -/
theorem C119_four_groups (root : α → Nat → α) (fl : LikelyDriver.Flags) (ng nframes : Nat) (pattern : Option (List (List α)))
    (default : List (List α)) (hasZero : Bool) (c : Cfg α) (grow : Nat → Option ((Nat → Nat) → Nat → Nat)) (pixeldq : Nat)
    (ints : List (IntIn α)) :
    likelyPixel root fl ng nframes pattern default hasZero c grow pixeldq ints = none ↔ ng < 4 := by
  unfold likelyPixel
  split_ifs with h
  · simp [h]
  · simp [h]

/-- Three integrations, one without fit: rate 3 is the mean of 2 and 4 (first round from the median 3, second round from 3). -/
example :
    let o := fun (d p r x : ℚ) (q : Nat) => (⟨some ⟨d, x, p + r, fun _ => 0, p, r⟩, q, fun _ => 0⟩ : IntOut ℚ)
    let l := [o 2 2 1 1 3, ⟨none, 1, fun _ => 0⟩, o 4 4 1 5 4]
    (imageInfo ⟨1, 2, 4⟩ l).comb.data = some 3 ∧ (imageInfo ⟨1, 2, 4⟩ l).err2 = some 2 ∧
      (imageInfo ⟨1, 2, 4⟩ l).chisq = none ∧ (imageInfo ⟨1, 2, 4⟩ l).dq = some 6 ∧ (∀ f ∈ liUsed l, 0 ≤ f.p ∧ 0 < f.r) := by
  decide +kernel

end Verif.Thm
