import Verif.Thm.Drizzle

/-! # The mosaic of a combination of scenes (C192) -/

namespace Verif.Thm

open Verif.Resample Verif.Drizzle

set_option linter.unusedSectionVars false

variable {α : Type} [Field α] [LinearOrder α] [IsStrictOrderedRing α] [FloorRing α] {ν : Type}

/-- Specification: `x a + y b`, NaN if one of them is. -/
def cxMix (x y : α) : Option α → Option α → Option α
  | some a, some b => some (x * a + y * b)
  | _, _ => none

/-- An exposure (intensity scale, input model) with the data and sky levels of two scenes seen in it. -/
structure CxExp (ν α : Type) where
  scale : α
  model : Input ν α
  d : Nat → Nat → Option α
  dSky : α
  e : Nat → Nat → Option α
  eSky : α

/-- The exposure of the first scene. -/
def CxExp.first (p : CxExp ν α) : α × Input ν α := (p.scale, { p.model with data := p.d, level := some p.dSky })

/-- The exposure of the second scene. -/
def CxExp.second (p : CxExp ν α) : α × Input ν α := (p.scale, { p.model with data := p.e, level := some p.eSky })

/-- The exposure of the combination of the scenes. -/
def CxExp.both (x y : α) (p : CxExp ν α) : α × Input ν α :=
  (p.scale, { p.model with data := fun r c => cxMix x y (p.d r c) (p.e r c), level := some (x * p.dSky + y * p.eSky) })

theorem cx_sum_add (m : Input ν α) (f g : Nat → Nat → α) (x y : α) :
    dzSum m (fun r c => x * f r c + y * g r c) = x * dzSum m f + y * dzSum m g := by
  classical
  simp only [dzSum, Finset.mul_sum, ← Finset.sum_add_distrib]
  refine Finset.sum_congr rfl fun r _ => Finset.sum_congr rfl fun c _ => ?_
  split <;> simp

theorem cx_sum_congr (m : Input ν α) (f g : Nat → Nat → α) (h : ∀ r c, DzIn m r c → f r c = g r c) : dzSum m f = dzSum m g := by
  classical
  simp only [dzSum]
  refine Finset.sum_congr rfl fun r _ => Finset.sum_congr rfl fun c _ => ?_
  split
  · next hi => exact h r c hi
  · rfl

/-- **C192**: the resampled image of a combination of two scenes, seen in the same exposures, is the same combination of the two resampled
images, at every output pixel with weight: NaN where one of them is NaN.  The weight is the same for all three. -/
theorem C192_mosaic (rn : ν) (t : DrizType) (good : Option Nat) (l : List (CxExp ν α)) (x y : α) (f1 f2 f3 : Option α)
    (h : DzNonneg rn t good (l.map CxExp.first)) :
    let a := science rn t good (l.map CxExp.first)
    let b := science rn t good (l.map CxExp.second)
    let m := science rn t good (l.map (CxExp.both x y))
    b.wht = a.wht ∧ m.wht = a.wht ∧ (a.wht ≠ 0 → m.out f3 = cxMix x y (a.out f1) (b.out f2)) ∧
      (a.wht = 0 → a.out f1 = f1 ∧ b.out f2 = f2 ∧ m.out f3 = f3) := by
  have hb : DzNonneg rn t good (l.map CxExp.second) := by
    intro q hq
    obtain ⟨p, hp, rfl⟩ := List.mem_map.1 hq
    exact h p.first (List.mem_map_of_mem hp)
  have hm : DzNonneg rn t good (l.map (CxExp.both x y)) := by
    intro q hq
    obtain ⟨p, hp, rfl⟩ := List.mem_map.1 hq
    exact h p.first (List.mem_map_of_mem hp)
  have wa := (dz_images rn t good (fun q => q.2.science) _ h).1
  have wb := (dz_images rn t good (fun q => q.2.science) _ hb).1
  have wm := (dz_images rn t good (fun q => q.2.science) _ hm).1
  have eb : dzW rn t good (l.map CxExp.second) = dzW rn t good (l.map CxExp.first) := by
    simp only [dzW, List.map_map]; rfl
  have em : dzW rn t good (l.map (CxExp.both x y)) = dzW rn t good (l.map CxExp.first) := by
    simp only [dzW, List.map_map]; rfl
  rw [eb] at wb
  rw [em] at wm
  have wa' : (science rn t good (l.map CxExp.first)).wht = dzW rn t good (l.map CxExp.first) := wa
  have wb' : (science rn t good (l.map CxExp.second)).wht = dzW rn t good (l.map CxExp.first) := wb
  have wm' : (science rn t good (l.map (CxExp.both x y))).wht = dzW rn t good (l.map CxExp.first) := wm
  refine ⟨wb'.trans wa'.symm, wm'.trans wa'.symm, fun hw => ?_, fun hw => ?_⟩
  swap
  · rw [wa'] at hw
    simp only [Cell.out, wa', wb', wm', hw, if_pos]
    exact ⟨trivial, trivial, trivial⟩
  rw [wa'] at hw
  by_cases hna : ∀ q ∈ l.map CxExp.first, ∀ r c, DzIn q.2 r c → dzDow rn t good q.2 r c ≠ 0 → (q.2.data r c).isSome
  swap
  · push Not at hna
    obtain ⟨q, hq, r, c, hi, hd, hv⟩ := hna
    obtain ⟨p, hp, rfl⟩ := List.mem_map.1 hq
    have hv' : p.d r c = none := by simpa [CxExp.first] using hv
    rw [C168_nan rn t good _ f1 h ⟨_, hq, r, c, hi, hd, hv'⟩,
      C168_nan rn t good _ f3 hm ⟨_, List.mem_map_of_mem hp, r, c, hi, hd, by simp [CxExp.both, hv', cxMix]⟩]
    rfl
  by_cases hnb : ∀ q ∈ l.map CxExp.second, ∀ r c, DzIn q.2 r c → dzDow rn t good q.2 r c ≠ 0 → (q.2.data r c).isSome
  swap
  · push Not at hnb
    obtain ⟨q, hq, r, c, hi, hd, hv⟩ := hnb
    obtain ⟨p, hp, rfl⟩ := List.mem_map.1 hq
    have hv' : p.e r c = none := by simpa [CxExp.second] using hv
    rw [C168_nan rn t good _ f2 hb ⟨_, hq, r, c, hi, hd, hv'⟩,
      C168_nan rn t good _ f3 hm ⟨_, List.mem_map_of_mem hp, r, c, hi, hd, by
        simp only [CxExp.both, hv']; cases p.d r c <;> rfl⟩]
    cases (science rn t good (l.map CxExp.first)).out f1 <;> rfl
  have hnm : ∀ q ∈ l.map (CxExp.both x y), ∀ r c, DzIn q.2 r c → dzDow rn t good q.2 r c ≠ 0 → (q.2.data r c).isSome := by
    intro q hq r c hi hd
    obtain ⟨p, hp, rfl⟩ := List.mem_map.1 hq
    have h1 : (p.d r c).isSome := hna p.first (List.mem_map_of_mem hp) r c hi hd
    have h2 : (p.e r c).isSome := hnb p.second (List.mem_map_of_mem hp) r c hi hd
    obtain ⟨u, hu⟩ := Option.isSome_iff_exists.1 h1
    obtain ⟨v, hv⟩ := Option.isSome_iff_exists.1 h2
    simp [CxExp.both, hu, hv, cxMix]
  rw [(C168_mean rn t good _ f1 h hna).2, (C168_mean rn t good _ f2 hb hnb).2, (C168_mean rn t good _ f3 hm hnm).2, eb, em,
    if_neg hw, if_neg hw, if_neg hw]
  have hS : dzS rn t good (l.map (CxExp.both x y)) = x * dzS rn t good (l.map CxExp.first) + y * dzS rn t good (l.map CxExp.second) := by
    clear wa wb wm wa' wb' wm' eb em hw h hb hm
    induction l with
    | nil => simp [dzS]
    | cons p l ih =>
      have ih := ih (fun q hq => hna q (by simp [List.mem_map] at hq ⊢; exact Or.inr hq)) (fun q hq => hnb q (by simp [List.mem_map] at hq ⊢; exact Or.inr hq))
        (fun q hq => hnm q (by simp [List.mem_map] at hq ⊢; exact Or.inr hq))
      simp only [dzS, List.map_cons, List.sum_cons] at ih ⊢
      rw [ih]
      have : dzSum (CxExp.both x y p).2 (fun r c => dzDow rn t good (CxExp.both x y p).2 r c * dzSky (CxExp.both x y p) r c) =
          x * dzSum p.first.2 (fun r c => dzDow rn t good p.first.2 r c * dzSky p.first r c) +
          y * dzSum p.second.2 (fun r c => dzDow rn t good p.second.2 r c * dzSky p.second r c) := by
        have e1 : dzSum p.second.2 (fun r c => dzDow rn t good p.second.2 r c * dzSky p.second r c) =
          dzSum p.first.2 (fun r c => dzDow rn t good p.first.2 r c * dzSky p.second r c) := rfl
        rw [e1, ← cx_sum_add]
        refine cx_sum_congr _ _ _ fun r c hi => ?_
        have e2 : dzDow rn t good (CxExp.both x y p).2 r c = dzDow rn t good p.first.2 r c := rfl
        rw [e2]
        by_cases hd : dzDow rn t good p.first.2 r c = 0
        · rw [hd]; ring
        · have h1 : (p.d r c).isSome := hna p.first (by simp) r c hi hd
          have h2 : (p.e r c).isSome := hnb p.second (by simp) r c hi hd
          obtain ⟨u, hu⟩ := Option.isSome_iff_exists.1 h1
          obtain ⟨v, hv⟩ := Option.isSome_iff_exists.1 h2
          generalize dzDow rn t good p.first.2 r c = w
          simp only [dzSky, CxExp.both, CxExp.first, CxExp.second, hu, hv, cxMix, Option.getD_some]
          by_cases hs : p.model.subtracted = true
          · simp only [hs, if_true]; ring
          · simp only [hs, if_false, Bool.false_eq_true]; ring
      rw [this]
      ring
  rw [hS]
  simp only [cxMix]
  congr 1
  ring

/-- **C192**, variances: they do not depend on the scene, only on the exposures. -/
theorem C192_variance [DecidableEq ν] (sqrt : α → α) (names : List ν) (rn : ν) (t : DrizType) (good : Option Nat) (scaling x y : α)
    (l : List (CxExp ν α)) (n : ν) :
    variance sqrt names rn t good scaling (l.map (CxExp.both x y)) n = variance sqrt names rn t good scaling (l.map CxExp.first) n := by
  simp only [variance, List.map_map]
  rfl

/-- **C192**, order: a scene that is nowhere brighter, once the sky is off, gives a mosaic that is nowhere brighter. -/
theorem C192_brighter (rn : ν) (t : DrizType) (good : Option Nat) (l : List (CxExp ν α)) (f1 f2 : Option α) (u v : α)
    (h : DzNonneg rn t good (l.map CxExp.first)) (hs : ∀ p ∈ l, 0 ≤ p.scale)
    (hle : ∀ p ∈ l, ∀ r c, ∀ a b, p.d r c = some a → p.e r c = some b →
      a - (if p.model.subtracted then 0 else p.dSky) ≤ b - (if p.model.subtracted then 0 else p.eSky))
    (hw : (science rn t good (l.map CxExp.first)).wht ≠ 0)
    (hu : (science rn t good (l.map CxExp.first)).out f1 = some u) (hv : (science rn t good (l.map CxExp.second)).out f2 = some v) :
    u ≤ v := by
  have hb : DzNonneg rn t good (l.map CxExp.second) := by
    intro q hq
    obtain ⟨p, hp, rfl⟩ := List.mem_map.1 hq
    exact h p.first (List.mem_map_of_mem hp)
  have hna : ∀ q ∈ l.map CxExp.first, ∀ r c, DzIn q.2 r c → dzDow rn t good q.2 r c ≠ 0 → (q.2.data r c).isSome := by
    by_contra hn
    push Not at hn
    obtain ⟨q, hq, r, c, hi, hd, hn⟩ := hn
    rw [C168_nan rn t good _ f1 h ⟨q, hq, r, c, hi, hd, by simpa using hn⟩] at hu
    exact absurd hu (by simp)
  have hw2 : (science rn t good (l.map CxExp.second)).wht ≠ 0 := by
    rw [(C192_mosaic rn t good l 1 1 f1 f2 none h).1]
    exact hw
  have hnb : ∀ q ∈ l.map CxExp.second, ∀ r c, DzIn q.2 r c → dzDow rn t good q.2 r c ≠ 0 → (q.2.data r c).isSome := by
    by_contra hn
    push Not at hn
    obtain ⟨q, hq, r, c, hi, hd, hn⟩ := hn
    rw [C168_nan rn t good _ f2 hb ⟨q, hq, r, c, hi, hd, by simpa using hn⟩] at hv
    exact absurd hv (by simp)
  obtain ⟨a1, a2⟩ := C168_mean rn t good _ f1 h hna
  obtain ⟨b1, b2⟩ := C168_mean rn t good _ f2 hb hnb
  have eb : dzW rn t good (l.map CxExp.second) = dzW rn t good (l.map CxExp.first) := by
    simp only [dzW, List.map_map]; rfl
  rw [a1] at hw
  rw [a2, if_neg hw, Option.some.injEq] at hu
  rw [b2, eb, if_neg hw, Option.some.injEq] at hv
  rw [← hu, ← hv]
  have hpos : 0 ≤ dzW rn t good (l.map CxExp.first) := List.sum_nonneg (by
    intro x hx
    obtain ⟨q, hq, rfl⟩ := List.mem_map.1 hx
    have := dz_sum_le q.2 (fun _ _ => 0) (dzDow rn t good q.2) fun r c hi => h q hq r c hi
    simpa [dzSum] using this)
  refine div_le_div_of_nonneg_right ?_ hpos
  simp only [dzS, List.map_map]
  refine List.sum_le_sum fun p hp => ?_
  refine dz_sum_le p.first.2 _ _ fun r c hi => ?_
  have h0 := h p.first (List.mem_map_of_mem hp) r c hi
  have e2 : dzDow rn t good p.second.2 r c = dzDow rn t good p.first.2 r c := rfl
  rw [e2]
  by_cases hd : dzDow rn t good p.first.2 r c = 0
  · rw [hd, zero_mul, zero_mul]
  · refine mul_le_mul_of_nonneg_left ?_ h0
    have h1 : (p.d r c).isSome := hna p.first (List.mem_map_of_mem hp) r c hi hd
    have h2 : (p.e r c).isSome := hnb p.second (List.mem_map_of_mem hp) r c hi hd
    obtain ⟨a, ha⟩ := Option.isSome_iff_exists.1 h1
    obtain ⟨b, hb'⟩ := Option.isSome_iff_exists.1 h2
    have := mul_le_mul_of_nonneg_right (hle p hp r c a b ha hb') (hs p hp)
    simp only [dzSky, CxExp.first, CxExp.second, ha, hb', Option.getD_some]
    by_cases hp' : p.model.subtracted = true
    · simp only [hp', if_true] at this ⊢; exact this
    · simp only [hp', if_false, Bool.false_eq_true] at this ⊢; exact this

/-! ## Examples -/

/-- Two exposures of two scenes, the second with a bad pixel that is NaN. -/
def cxTwo : List (CxExp Unit ℚ) :=
  [⟨1, dzImage none none none 1 none, fun _ c => if c = 0 then some 8 else some 12, 2, fun _ c => some c, 1⟩,
   ⟨3 / 2, dzImage none none none 3 none, fun _ c => if c = 1 then none else some 4, 0, fun _ _ => some 7, 3⟩]

example : DzNonneg () .exptime (some 4) (cxTwo.map CxExp.first) ∧
    (science () .exptime (some 4) (cxTwo.map CxExp.first)).wht = 3 ∧
    (science () .exptime (some 4) (cxTwo.map CxExp.first)).out none = some (19 / 3) ∧
    (science () .exptime (some 4) (cxTwo.map CxExp.second)).out none = some (53 / 12) ∧
    (science () .exptime (some 4) (cxTwo.map (CxExp.both 2 (-1)))).out none = some (2 * (19 / 3) - 53 / 12) := by
  refine ⟨?_, by decide +kernel⟩
  intro q hq r c _
  simp only [cxTwo, List.map_cons, List.map_nil, List.mem_cons, List.not_mem_nil, or_false] at hq
  rcases hq with rfl | rfl
  · exact dz_image_nonneg none none none 1 none (by norm_num) r c
  · exact dz_image_nonneg none none none 3 none (by norm_num) r c

/-- One exposure of two scenes; the second is fainter in the first pixel, but only because its sky is lower. -/
def cxPair : List (CxExp Unit ℚ) :=
  [⟨2, dzImage none none none 1 none, fun _ c => if c = 1 then none else some (8 + c), 5, fun _ c => some (7 + 2 * c), 3⟩]

example : DzNonneg () .exptime (some 4) (cxPair.map CxExp.first) ∧ (∀ p ∈ cxPair, 0 ≤ p.scale) ∧
    (∀ p ∈ cxPair, ∀ r c, ∀ a b, p.d r c = some a → p.e r c = some b →
      a - (if p.model.subtracted then 0 else p.dSky) ≤ b - (if p.model.subtracted then 0 else p.eSky)) ∧
    (science () .exptime (some 4) (cxPair.map CxExp.first)).wht = 3 / 4 ∧
    (science () .exptime (some 4) (cxPair.map CxExp.first)).out none = some (22 / 3) ∧
    (science () .exptime (some 4) (cxPair.map CxExp.second)).out none = some (32 / 3) := by
  refine ⟨?_, ?_, ?_, by decide +kernel⟩
  · intro q hq r c _
    simp only [cxPair, List.map_cons, List.map_nil, List.mem_cons, List.not_mem_nil, or_false] at hq
    subst hq
    exact dz_image_nonneg none none none 1 none (by norm_num) r c
  · simp [cxPair]
  · intro p hp r c a b ha hb
    simp only [cxPair, List.mem_cons, List.not_mem_nil, or_false] at hp
    subst hp
    simp only [] at ha hb
    split at ha
    · exact absurd ha (by simp)
    · simp only [Option.some.injEq] at ha hb
      subst ha hb
      have : (0 : ℚ) ≤ c := Nat.cast_nonneg c
      simp only [dzImage, Bool.false_eq_true, if_false]
      linarith

end Verif.Thm
