import Verif.Model.Dark
import Mathlib.Tactic.Ring
import Mathlib.Tactic.FieldSimp
import Mathlib.Tactic.NormNum
import Mathlib.Data.Rat.Defs
import Mathlib.Algebra.Field.Rat

/-! # Dark subtraction is linear (C193) -/

namespace Verif.Thm

open Verif.Dark

set_option linter.unusedSectionVars false

variable {α : Type} [Field α]

/-! ## Specification -/

/-- Specification: `x a + y b`, NaN if one of them is. -/
def dlMix (x y : α) (p : Option α × Option α) : Option α :=
  match p with
  | (some a, some b) => some (x * a + y * b)
  | _ => none

/-- Specification: `x a + y b`. -/
def dlF (x y : α) (p : α × α) : α := x * p.1 + y * p.2

/-- Specification: a pixel of two exposures that were taken in the same way, with any NaNs. -/
structure DlExp (α : Type) where
  data : List (List (Option α × Option α))
  groupdq : List (List Nat)
  pixeldq : Nat
  nframes : Nat
  groupgap : Nat
  intstart : Option Int

/-- Specification: one of the exposures, or a combination, as science data. -/
def DlExp.sci (s : DlExp α) (h : Option α × Option α → Option α) : Sci α :=
  ⟨s.data.map fun r => r.map h, s.groupdq, s.pixeldq, s.nframes, s.groupgap, s.intstart⟩

/-- Specification: a combination of the ramps of two darks with NaN at the same places. -/
def dlRamp (x y : α) (r : List (Option (α × α))) : List (Option α) := r.map (Option.map (dlF x y))

/-- Specification: the same for the arrays. -/
def dlArr (x y : α) : DarkArr (α × α) → DarkArr α
  | .d3 r dq => .d3 (dlRamp x y r) dq
  | .d4 rs dq => .d4 (rs.map (dlRamp x y)) dq

/-- Specification: the same for the references. -/
def dlRef (x y : α) (d : Ref (α × α)) : Ref α := ⟨dlArr x y d.arr, d.ngroups, d.nframes, d.groupgap⟩

/-! ## The dark -/

theorem dl_getD (x y : α) (r : List (Option (α × α))) (i : Nat) :
    (dlRamp x y r)[i]?.getD none = Option.map (dlF x y) (r[i]?.getD none) := by
  simp only [dlRamp, List.getElem?_map]
  cases r[i]? <;> rfl

theorem dl_extrapolateInt (r : List (Option (α × α))) (n : Nat) :
    ∃ D : Option (List (Option (α × α))), ∀ x y, extrapolateInt (dlRamp x y r) n = D.map (dlRamp x y) := by
  by_cases h : r.length < 2
  · exact ⟨none, fun x y => by simp [extrapolateInt, dlRamp, h]⟩
  refine ⟨some (r ++ (List.range n).map fun k =>
    match r[r.length - 1]?.getD none, r[r.length - 2]?.getD none with
    | some l, some p => some (((k + 1 : Nat) : α) * (l.1 - p.1) + l.1, ((k + 1 : Nat) : α) * (l.2 - p.2) + l.2)
    | _, _ => none), fun x y => ?_⟩
  have hl : (dlRamp x y r).length = r.length := by simp [dlRamp]
  simp only [extrapolateInt, hl, if_neg h, dl_getD, Option.map_some]
  congr 1
  rw [show dlRamp x y (r ++ _) = dlRamp x y r ++ dlRamp x y _ from List.map_append]
  congr 1
  simp only [dlRamp, List.map_map]
  refine List.map_congr_left fun k _ => ?_
  simp only [Function.comp_apply]
  cases r[r.length - 1]?.getD none with
  | none => rfl
  | some l =>
    cases r[r.length - 2]?.getD none with
    | none => rfl
    | some p =>
      simp only [Option.map_some, osub, dlF]
      congr 1
      ring

theorem dl_mapM (g : List (Option α) → Option (List (Option α)))
    (hg : ∀ r, ∃ D : Option (List (Option (α × α))), ∀ x y, g (dlRamp x y r) = D.map (dlRamp x y))
    (rs : List (List (Option (α × α)))) :
    ∃ D : Option (List (List (Option (α × α)))), ∀ x y, (rs.map (dlRamp x y)).mapM g = D.map (List.map (dlRamp x y)) := by
  induction rs with
  | nil => exact ⟨some [], fun x y => by simp⟩
  | cons r rs ih =>
    obtain ⟨D, hD⟩ := hg r
    obtain ⟨E, hE⟩ := ih
    refine ⟨D.bind fun a => E.map fun b => a :: b, fun x y => ?_⟩
    simp only [List.map_cons, List.mapM_cons, hD, hE]
    cases D with
    | none => rfl
    | some a =>
      cases E with
      | none => rfl
      | some b => rfl

theorem dl_extrapolate (A : DarkArr (α × α)) (n : Nat) :
    ∃ D : Option (DarkArr (α × α)), ∀ x y, extrapolateArr (dlArr x y A) n = D.map (dlArr x y) := by
  cases A with
  | d3 r dq =>
    obtain ⟨D, hD⟩ := dl_extrapolateInt r n
    refine ⟨D.map fun r => .d3 r dq, fun x y => ?_⟩
    simp only [extrapolateArr, dlArr, hD]
    cases D <;> rfl
  | d4 rs dq =>
    obtain ⟨D, hD⟩ := dl_mapM (fun r => extrapolateInt r n) (fun r => dl_extrapolateInt r n) rs
    refine ⟨D.map fun r => .d4 r dq, fun x y => ?_⟩
    simp only [extrapolateArr, dlArr, hD]
    cases D <;> rfl

theorem dl_nan (x y : α) (r : List (Option (α × α))) :
    (dlRamp x y r).map nanToZero = dlRamp x y (r.map fun v => some (v.getD (0, 0))) := by
  simp only [dlRamp, List.map_map]
  refine List.map_congr_left fun v _ => ?_
  cases v <;> simp [nanToZero, dlF]

theorem dl_zero (A : DarkArr (α × α)) : ∃ D : DarkArr (α × α), ∀ x y, zeroNaNs (dlArr x y A) = dlArr x y D := by
  cases A with
  | d3 r dq => exact ⟨.d3 (r.map fun v => some (v.getD (0, 0))) dq, fun x y => by simp only [dlArr, zeroNaNs, dl_nan]⟩
  | d4 rs dq =>
    refine ⟨.d4 (rs.map fun r => r.map fun v => some (v.getD (0, 0))) dq, fun x y => ?_⟩
    simp only [dlArr, zeroNaNs, List.map_map]
    congr 1
    exact List.map_congr_left fun r _ => dl_nan x y r

theorem dl_seq (r : List (Option (α × α))) :
    ∃ D : Option (List (α × α)), ∀ x y, (dlRamp x y r).mapM (fun v => v) = D.map (List.map (dlF x y)) := by
  induction r with
  | nil => exact ⟨some [], fun x y => by simp [dlRamp]⟩
  | cons v r ih =>
    obtain ⟨E, hE⟩ := ih
    refine ⟨v.bind fun a => E.map fun b => a :: b, fun x y => ?_⟩
    simp only [dlRamp] at hE
    simp only [dlRamp, List.map_cons, List.mapM_cons, hE]
    cases v with
    | none => rfl
    | some a => cases E <;> rfl

theorem dl_sum (x y : α) (l : List (α × α)) : (l.map (dlF x y)).sum = dlF x y ((l.map Prod.fst).sum, (l.map Prod.snd).sum) := by
  induction l with
  | nil => simp [dlF]
  | cons p l ih =>
    simp only [List.map_cons, List.sum_cons, ih, dlF]
    ring

theorem dl_mean (r : List (Option (α × α))) :
    ∃ D : Option (α × α), ∀ x y, omean (dlRamp x y r) = D.map (dlF x y) := by
  by_cases h : r = []
  · exact ⟨none, fun x y => by simp [omean, dlRamp, h]⟩
  obtain ⟨E, hE⟩ := dl_seq r
  refine ⟨E.map fun l => ((l.map Prod.fst).sum / (l.length : α), (l.map Prod.snd).sum / (l.length : α)), fun x y => ?_⟩
  have h' : dlRamp x y r ≠ [] := by simpa [dlRamp] using h
  simp only [omean, if_neg h', hE]
  cases E with
  | none => rfl
  | some l =>
    simp only [Option.map_some, List.length_map, dl_sum, dlF]
    congr 1
    ring

theorem dl_loop (r : List (Option (α × α))) (nf gap n : Nat) : ∀ start,
    ∃ D : Option (List (Option (α × α))), ∀ x y, averageLoop (dlRamp x y r) nf gap n start = D.map (dlRamp x y) := by
  induction n with
  | zero => exact fun _ => ⟨some [], fun x y => rfl⟩
  | succ n ih =>
    intro start
    obtain ⟨E, hE⟩ := ih (start + nf + gap)
    obtain ⟨M, hM⟩ := dl_mean ((r.drop start).take (start + nf - start))
    refine ⟨(if nf = 1 then r[start]? else some M).bind fun a => E.map fun b => a :: b, fun x y => ?_⟩
    have h1 : (dlRamp x y r)[start]? = r[start]?.map (Option.map (dlF x y)) := by simp [dlRamp]
    have h2 : ((dlRamp x y r).drop start).take (start + nf - start) = dlRamp x y ((r.drop start).take (start + nf - start)) := by
      simp [dlRamp, List.map_take, List.map_drop]
    simp only [averageLoop, hE, h1, h2, hM]
    by_cases hn : nf = 1
    · simp only [hn, if_true]
      cases r[start]? with
      | none => rfl
      | some a => cases E <;> rfl
    · simp only [hn, if_false]
      cases E <;> rfl

theorem dl_average (A : DarkArr (α × α)) (ni ng nf gap : Nat) :
    ∃ D : Option (DarkArr (α × α)), ∀ x y, averageArr (dlArr x y A) ni ng nf gap = D.map (dlArr x y) := by
  cases A with
  | d3 r dq =>
    obtain ⟨D, hD⟩ := dl_loop r nf gap ng 0
    refine ⟨D.map fun r => .d3 r dq, fun x y => ?_⟩
    simp only [averageArr, dlArr, hD]
    cases D <;> rfl
  | d4 rs dq =>
    obtain ⟨D, hD⟩ := dl_mapM (fun r => averageLoop r nf gap ng 0) (fun r => dl_loop r nf gap ng 0)
      (rs.take (if rs.length > ni then ni else rs.length))
    refine ⟨D.map fun l => .d4 (l ++ List.replicate (rs.length - if rs.length > ni then ni else rs.length)
      (List.replicate ng (some (0, 0)))) dq, fun x y => ?_⟩
    simp only [averageArr, dlArr, List.length_map, ← List.map_take, hD]
    cases D with
    | none => rfl
    | some l => simp [dlArr, dlRamp, dlF]

/-! ## The subtraction -/

/-- The way in which data are combined goes with the way in which darks are. -/
def DlOk (h : Option α × Option α → Option α) (x y : α) : Prop :=
  ∀ s (d : Option (α × α)), osub (h s) (d.map (dlF x y)) = h (osub s.1 (d.map Prod.fst), osub s.2 (d.map Prod.snd))

theorem dl_first : DlOk (α := α) Prod.fst 1 0 := by
  intro s d
  rcases s with ⟨_ | a, b⟩ <;> rcases d with _ | d <;> simp [osub, dlF]

theorem dl_second : DlOk (α := α) Prod.snd 0 1 := by
  intro s d
  rcases s with ⟨a, _ | b⟩ <;> rcases d with _ | d <;> simp [osub, dlF]

theorem dl_both (x y : α) : DlOk (dlMix x y) x y := by
  intro s d
  rcases s with ⟨_ | a, _ | b⟩ <;> rcases d with _ | d <;> simp [osub, dlF, dlMix]
  ring

theorem dl_subInt (s : List (Option α × Option α)) (d : List (Option (α × α))) :
    ∃ D : Option (List (Option α × Option α)), ∀ h x y, DlOk h x y → subtractInt (s.map h) (dlRamp x y d) = D.map (List.map h) := by
  by_cases hl : d.length < s.length
  · exact ⟨none, fun h x y _ => by simp [subtractInt, dlRamp, hl]⟩
  refine ⟨some (List.zipWith (fun s d => (osub s.1 (d.map Prod.fst), osub s.2 (d.map Prod.snd))) s d), fun h x y hk => ?_⟩
  simp only [subtractInt, dlRamp, List.length_map, if_neg hl, Option.map_some, List.zipWith_map, List.map_zipWith]
  congr 2
  funext s d
  exact hk s d

theorem dl_for (A : DarkArr (α × α)) (st : Int) (i : Nat) :
    ∃ D : Option (List (Option (α × α))), ∀ x y, darkForInt (dlArr x y A) st i = D.map (dlRamp x y) := by
  cases A with
  | d3 r dq => exact ⟨some r, fun x y => rfl⟩
  | d4 rs dq =>
    refine ⟨if i < rs.length ∧ st = 1 then rs[i]? else rs.getLast?, fun x y => ?_⟩
    simp only [darkForInt, dlArr, List.length_map]
    split <;> simp

theorem dl_dq (A : DarkArr (α × α)) : ∃ q, ∀ x y, darkDq (dlArr x y A) = q := by
  cases A with
  | d3 r dq => exact ⟨some dq, fun x y => rfl⟩
  | d4 rs dq =>
    refine ⟨darkDq (dlArr 0 0 (.d4 rs dq)), fun x y => ?_⟩
    simp only [darkDq, dlArr, List.length_map]

theorem dl_ints (A : DarkArr (α × α)) (st : Int) (l : List (List (Option α × Option α))) : ∀ k,
    ∃ D : Option (List (List (Option α × Option α))), ∀ h x y, DlOk h x y →
      ((l.map fun r => r.map h).zipIdx k).mapM (fun p => (darkForInt (dlArr x y A) st p.2).bind (subtractInt p.1)) =
        D.map fun R => R.map fun r => r.map h := by
  induction l with
  | nil => exact fun _ => ⟨some [], fun h x y _ => by simp⟩
  | cons s l ih =>
    intro k
    obtain ⟨E, hE⟩ := ih (k + 1)
    obtain ⟨d, hd⟩ := dl_for A st k
    cases d with
    | none => exact ⟨none, fun h x y _ => by simp [hd]⟩
    | some d =>
      obtain ⟨D, hD⟩ := dl_subInt s d
      refine ⟨D.bind fun a => E.map fun b => a :: b, fun h x y hk => ?_⟩
      simp only [List.map_cons, List.zipIdx_cons, List.mapM_cons, hE h x y hk, hd, Option.map_some, Option.bind_some, hD h x y hk]
      cases D with
      | none => rfl
      | some a => cases E <;> rfl

theorem dl_subtract (s : DlExp α) (A : DarkArr (α × α)) :
    ∃ D : Option (List (List (Option α × Option α)) × Nat), ∀ h x y, DlOk h x y →
      subtractDark (s.sci h) (dlArr x y A) = D.map fun q => { s.sci h with data := q.1.map fun r => r.map h, pixeldq := q.2 } := by
  obtain ⟨q, hq⟩ := dl_dq A
  obtain ⟨D, hD⟩ := dl_ints A (s.intstart.getD 1) s.data 0
  refine ⟨q.bind fun q => D.map fun d => (d, s.pixeldq ||| q), fun h x y hk => ?_⟩
  have := hD h x y hk
  simp only [subtractDark, hq]
  rw [show (s.sci h).data = s.data.map fun r => r.map h from rfl, show (s.sci h).intstart = s.intstart from rfl, this]
  cases q with
  | none => rfl
  | some q => cases D <;> rfl

theorem dl_all (s : DlExp α) (d : Ref (α × α)) :
    ∃ D : Option (Bool × (List (List (Option α × Option α)) × Nat) × Option (DarkArr (α × α))), ∀ h x y, DlOk h x y →
      doCorrection (s.sci h) (dlRef x y d) = D.map fun q =>
        ⟨q.1, { s.sci h with data := q.2.1.1.map fun r => r.map h, pixeldq := q.2.1.2 }, q.2.2.map (dlArr x y)⟩ := by
  have hng : ∀ h, (s.sci h).ngroups = (s.data.head?.map List.length).getD 0 := by
    intro h
    simp only [Sci.ngroups, DlExp.sci, List.head?_map]
    cases s.data.head? <;> simp
  generalize hN : (s.data.head?.map List.length).getD 0 = N at hng
  have hext : ∃ E : Option (DarkArr (α × α)), ∀ h x y, extended (s.sci h) (dlRef x y d) = E.map (dlArr x y) := by
    obtain ⟨E, hE⟩ := dl_extrapolate d.arr (groupsToExtrapolate (totalFrames N s.nframes s.groupgap)
      (totalFrames d.ngroups d.nframes d.groupgap) d.nframes d.groupgap)
    refine ⟨if totalFrames N s.nframes s.groupgap > totalFrames d.ngroups d.nframes d.groupgap then E else some d.arr, fun h x y => ?_⟩
    simp only [extended, hng, show (s.sci h).nframes = s.nframes from rfl, show (s.sci h).groupgap = s.groupgap from rfl, dlRef, hE]
    split <;> rfl
  obtain ⟨E, hE⟩ := hext
  cases E with
  | none => exact ⟨none, fun h x y _ => by simp [doCorrection, hE]⟩
  | some A =>
    by_cases hc : d.nframes > s.nframes ∨ d.groupgap > s.groupgap
    · refine ⟨some (true, (s.data, s.pixeldq), none), fun h x y _ => ?_⟩
      simp only [doCorrection, hE, Option.map_some]
      rw [if_pos (by exact hc)]
      rfl
    · obtain ⟨Z, hZ⟩ := dl_zero A
      by_cases hm : s.nframes = d.nframes ∧ s.groupgap = d.groupgap
      · obtain ⟨D, hD⟩ := dl_subtract s Z
        refine ⟨D.map fun q => (false, q, none), fun h x y hk => ?_⟩
        simp only [doCorrection, hE, Option.map_some, hZ, hD h x y hk]
        rw [if_neg (by exact hc), if_pos (by exact hm)]
        cases D <;> rfl
      · obtain ⟨V, hV⟩ := dl_average Z s.data.length N s.nframes s.groupgap
        cases V with
        | none =>
          refine ⟨none, fun h x y hk => ?_⟩
          have hV' : averageArr (dlArr x y Z) (s.sci h).data.length (s.sci h).ngroups (s.sci h).nframes (s.sci h).groupgap = none := by
            rw [hng]
            simpa [DlExp.sci] using hV x y
          simp only [doCorrection, hE, Option.map_some, hZ, hV']
          rw [if_neg (by exact hc), if_neg (by exact hm)]
          rfl
        | some V =>
          obtain ⟨D, hD⟩ := dl_subtract s V
          refine ⟨D.map fun q => (false, q, some V), fun h x y hk => ?_⟩
          have hV' : averageArr (dlArr x y Z) (s.sci h).data.length (s.sci h).ngroups (s.sci h).nframes (s.sci h).groupgap =
              some (dlArr x y V) := by
            rw [hng]
            simpa [DlExp.sci] using hV x y
          simp only [doCorrection, hE, Option.map_some, hZ, hV', hD h x y hk]
          rw [if_neg (by exact hc), if_neg (by exact hm)]
          cases D <;> rfl

/-! ## The theorems -/

/-- **C193**: the dark-subtracted combination of two exposures, with the same combination of their darks, is the combination of the
dark-subtracted exposures: the three calls fail together, skip together, have the same DQ, and their data and averaged darks are
combinations, pixel by pixel, with NaN exactly where one of the exposures is NaN. -/
theorem C193_linear (s : DlExp α) (d : Ref (α × α)) (x y : α) :
    let a := doCorrection (s.sci Prod.fst) (dlRef 1 0 d)
    let b := doCorrection (s.sci Prod.snd) (dlRef 0 1 d)
    let m := doCorrection (s.sci (dlMix x y)) (dlRef x y d)
    (a = none ∧ b = none ∧ m = none) ∨
    ∃ (skip : Bool) (data : List (List (Option α × Option α))) (dq : Nat) (avg : Option (DarkArr (α × α))),
      a = some ⟨skip, { s.sci Prod.fst with data := data.map fun r => r.map Prod.fst, pixeldq := dq }, avg.map (dlArr 1 0)⟩ ∧
      b = some ⟨skip, { s.sci Prod.snd with data := data.map fun r => r.map Prod.snd, pixeldq := dq }, avg.map (dlArr 0 1)⟩ ∧
      m = some ⟨skip, { s.sci (dlMix x y) with data := data.map fun r => r.map (dlMix x y), pixeldq := dq }, avg.map (dlArr x y)⟩ := by
  obtain ⟨D, hD⟩ := dl_all s d
  intro a b m
  have ha : a = _ := hD _ _ _ dl_first
  have hb : b = _ := hD _ _ _ dl_second
  have hm : m = _ := hD _ _ _ (dl_both x y)
  cases D with
  | none => exact Or.inl ⟨ha, hb, hm⟩
  | some q => exact Or.inr ⟨_, _, _, _, ha, hb, hm⟩

/-- Specification: the exposure in another unit. -/
def dlSciUnit (k : α) (s : Sci α) : Sci α := { s with data := s.data.map fun r => r.map (Option.map (k * ·)) }

/-- Specification: the dark array in another unit. -/
def dlArrUnit (k : α) : DarkArr α → DarkArr α
  | .d3 r dq => .d3 (r.map (Option.map (k * ·))) dq
  | .d4 rs dq => .d4 (rs.map fun r => r.map (Option.map (k * ·))) dq

/-- **C193**, unit: with exposure and dark in another unit (any factor, also zero or negative) the result is in that unit. -/
theorem C193_unit (s : Sci α) (d : Ref α) (k : α) :
    doCorrection (dlSciUnit k s) { d with arr := dlArrUnit k d.arr } =
      (doCorrection s d).map fun res => ⟨res.skipped, dlSciUnit k res.out, res.averaged.map (dlArrUnit k)⟩ := by
  let e : DlExp α := ⟨s.data.map fun r => r.map fun v => (v, v), s.groupdq, s.pixeldq, s.nframes, s.groupgap, s.intstart⟩
  let pr : List (Option α) → List (Option (α × α)) := fun r => r.map (Option.map fun v => (v, v))
  let f : Ref (α × α) := ⟨match d.arr with | .d3 r dq => .d3 (pr r) dq | .d4 rs dq => .d4 (rs.map pr) dq, d.ngroups, d.nframes, d.groupgap⟩
  obtain ⟨D, hD⟩ := dl_all e f
  have hk : DlOk (fun p : Option α × Option α => p.1.map (k * ·)) k 0 := by
    intro s d
    rcases s with ⟨_ | a, b⟩ <;> rcases d with _ | d <;> simp [osub, dlF, mul_sub]
  have hp : ∀ x r, dlRamp x 0 (pr r) = r.map (Option.map (x * ·)) := by
    intro x r
    simp only [dlRamp, pr, List.map_map]
    refine List.map_congr_left fun v _ => ?_
    cases v <;> simp [dlF]
  have hf : ∀ x, dlRef x 0 f = { d with arr := dlArrUnit x d.arr } := by
    intro x
    obtain ⟨arr, _, _, _⟩ := d
    cases arr with
    | d3 r dq => simp only [dlRef, f, dlArr, dlArrUnit, hp]
    | d4 rs dq =>
      simp only [dlRef, f, dlArr, dlArrUnit, List.map_map]
      congr 2
      exact List.map_congr_left fun r _ => hp x r
  have hone : ∀ r : List (Option α), r.map (Option.map ((1 : α) * ·)) = r := by
    intro r
    have : (Option.map ((1 : α) * ·)) = id := by funext v; cases v <;> simp
    rw [this, List.map_id]
  have hf1 : dlRef 1 0 f = d := by
    rw [hf]
    obtain ⟨arr, _, _, _⟩ := d
    cases arr with
    | d3 r dq => simp only [dlArrUnit, hone]
    | d4 rs dq => simp only [dlArrUnit, hone, List.map_id']
  have he : e.sci (fun p => p.1.map (k * ·)) = dlSciUnit k s := by
    simp [DlExp.sci, e, dlSciUnit, List.map_map, Function.comp_def]
  have he1 : e.sci Prod.fst = s := by
    simp [DlExp.sci, e, List.map_map, Function.comp_def]
  have h1 := hD _ _ _ dl_first
  have h2 := hD _ _ _ hk
  rw [he1, hf1] at h1
  rw [he, hf] at h2
  rw [h1, h2]
  cases D with
  | none => rfl
  | some q =>
    simp only [Option.map_some, Option.some.injEq, Result.mk.injEq, true_and]
    refine ⟨?_, ?_⟩
    · simp [dlSciUnit, List.map_map, Function.comp_def]
    · rcases q with ⟨_, _, _ | A⟩
      · rfl
      · have hr : ∀ r : List (Option (α × α)), dlRamp k 0 r = (dlRamp 1 0 r).map (Option.map (k * ·)) := by
          intro r
          simp only [dlRamp, List.map_map]
          refine List.map_congr_left fun v _ => ?_
          cases v <;> simp [dlF]
        cases A with
        | d3 r dq => simp only [Option.map_some, dlArr, dlArrUnit, hr]
        | d4 rs dq =>
          simp only [Option.map_some, dlArr, dlArrUnit, List.map_map]
          congr 2
          exact List.map_congr_left fun r _ => hr r

/-! ## A signal on top -/

/-- The signal of a pixel does not notice the dark. -/
theorem dl_topInts (A : DarkArr α) (st : Int) (l : List (List (Option α × α))) : ∀ k,
    ∃ D : Option (List (List (Option α × α))),
      (∀ R, D = some R → R.map (fun r => r.map Prod.snd) = l.map fun r => r.map Prod.snd) ∧
      ((l.map fun r => r.map Prod.fst).zipIdx k).mapM (fun p => (darkForInt A st p.2).bind (subtractInt p.1)) =
        D.map (fun R => R.map fun r => r.map Prod.fst) ∧
      ((l.map fun r => r.map fun v => v.1.map (· + v.2)).zipIdx k).mapM (fun p => (darkForInt A st p.2).bind (subtractInt p.1)) =
        D.map (fun R => R.map fun r => r.map fun v => v.1.map (· + v.2)) := by
  induction l with
  | nil => exact fun _ => ⟨some [], by simp, by simp, by simp⟩
  | cons s l ih =>
    intro k
    obtain ⟨E, e0, e1, e2⟩ := ih (k + 1)
    cases hd : darkForInt A st k with
    | none => exact ⟨none, by simp, by simp [hd], by simp [hd]⟩
    | some d =>
      by_cases hl : d.length < s.length
      · exact ⟨none, by simp, by simp [hd, subtractInt, hl], by simp [hd, subtractInt, hl]⟩
      · refine ⟨E.map fun b => List.zipWith (fun v d => (osub v.1 d, v.2)) s d :: b, ?_, ?_, ?_⟩
        · intro R hR
          cases E with
          | none => exact absurd hR (by simp)
          | some b =>
            simp only [Option.map_some, Option.some.injEq] at hR
            subst hR
            simp only [List.map_cons, e0 b rfl]
            congr 1
            rw [List.map_zipWith]
            refine List.ext_getElem? fun i => ?_
            simp only [List.getElem?_zipWith, List.getElem?_map]
            cases hs : s[i]? with
            | none => rfl
            | some v =>
              have hi : i < d.length := lt_of_lt_of_le (List.getElem?_eq_some_iff.1 hs).1 (not_lt.1 hl)
              simp [List.getElem?_eq_getElem hi]
        · simp only [List.map_cons, List.zipIdx_cons, List.mapM_cons, e1, hd, Option.bind_some, subtractInt, List.length_map, if_neg hl,
            List.zipWith_map_left]
          cases E with
          | none => rfl
          | some b => simp [List.map_zipWith]
        · simp only [List.map_cons, List.zipIdx_cons, List.mapM_cons, e2, hd, Option.bind_some, subtractInt, List.length_map, if_neg hl,
            List.zipWith_map_left]
          cases E with
          | none => rfl
          | some b =>
            simp only [List.map_zipWith, Option.map_some, List.map_cons]
            have : (fun (v : Option α × α) d => osub (v.1.map (· + v.2)) d) = fun v d => (osub v.1 d).map (· + v.2) := by
              funext v d
              rcases v with ⟨_ | a, g⟩ <;> cases d <;> simp [osub]
              ring
            simp [this]

/-- Specification: a pixel of an exposure given together with a signal; the exposure without it. -/
def dlWithout (s : Sci α) (l : List (List (Option α × α))) : Sci α := { s with data := l.map fun r => r.map Prod.fst }

/-- Specification: the exposure with the signal added to its numbers. -/
def dlWith (s : Sci α) (l : List (List (Option α × α))) : Sci α := { s with data := l.map fun r => r.map fun v => v.1.map (· + v.2) }

theorem dl_topSubtract (s : Sci α) (l : List (List (Option α × α))) (A : DarkArr α) :
    ∃ D : Option (List (List (Option α × α)) × Nat),
      (∀ q, D = some q → q.1.map (fun r => r.map Prod.snd) = l.map fun r => r.map Prod.snd) ∧
      subtractDark (dlWithout s l) A = D.map (fun q => { dlWithout s q.1 with pixeldq := q.2 }) ∧
      subtractDark (dlWith s l) A = D.map (fun q => { dlWith s q.1 with pixeldq := q.2 }) := by
  obtain ⟨D, h0, h1, h2⟩ := dl_topInts A (s.intstart.getD 1) l 0
  refine ⟨(darkDq A).bind fun q => D.map fun d => (d, s.pixeldq ||| q), ?_, ?_, ?_⟩
  · intro q hq
    cases hd : darkDq A with
    | none => rw [hd] at hq; exact absurd hq (by simp)
    | some w =>
      rw [hd] at hq
      cases D with
      | none => exact absurd hq (by simp)
      | some R =>
        simp only [Option.bind_some, Option.map_some, Option.some.injEq] at hq
        subst hq
        exact h0 R rfl
  · simp only [subtractDark, dlWithout, h1]
    cases darkDq A with
    | none => rfl
    | some w => cases D <;> rfl
  · simp only [subtractDark, dlWith, h2]
    cases darkDq A with
    | none => rfl
    | some w => cases D <;> rfl

/-- **C193**, signal: whatever signal is added to the numbers of an exposure is in the result, in full and nowhere else, whatever the dark
is.  The dark has no influence on what is skipped or raised with the signal or without. -/
theorem C193_signal (s : Sci α) (l : List (List (Option α × α))) (d : Ref α) :
    (doCorrection (dlWithout s l) d = none ∧ doCorrection (dlWith s l) d = none) ∨
    ∃ (skip : Bool) (R : List (List (Option α × α))) (dq : Nat) (avg : Option (DarkArr α)),
      R.map (fun r => r.map Prod.snd) = l.map (fun r => r.map Prod.snd) ∧
      doCorrection (dlWithout s l) d = some ⟨skip, { dlWithout s R with pixeldq := dq }, avg⟩ ∧
      doCorrection (dlWith s l) d = some ⟨skip, { dlWith s R with pixeldq := dq }, avg⟩ := by
  have hn : (dlWith s l).ngroups = (dlWithout s l).ngroups := by
    simp only [Sci.ngroups, dlWith, dlWithout, List.head?_map]
    cases l.head? <;> simp
  have hl : (dlWith s l).data.length = (dlWithout s l).data.length := by simp [dlWith, dlWithout]
  have he : extended (dlWith s l) d = extended (dlWithout s l) d := by
    simp only [extended, hn, show (dlWith s l).nframes = (dlWithout s l).nframes from rfl,
      show (dlWith s l).groupgap = (dlWithout s l).groupgap from rfl]
  simp only [doCorrection, he, hl, hn, show (dlWith s l).nframes = (dlWithout s l).nframes from rfl,
    show (dlWith s l).groupgap = (dlWithout s l).groupgap from rfl]
  cases extended (dlWithout s l) d with
  | none => exact Or.inl ⟨rfl, rfl⟩
  | some A =>
    dsimp only
    by_cases hc : d.nframes > (dlWithout s l).nframes ∨ d.groupgap > (dlWithout s l).groupgap
    · simp only [if_pos hc]
      exact Or.inr ⟨true, l, s.pixeldq, none, rfl, rfl, rfl⟩
    simp only [if_neg hc]
    by_cases hm : (dlWithout s l).nframes = d.nframes ∧ (dlWithout s l).groupgap = d.groupgap
    · simp only [if_pos hm]
      obtain ⟨D, h0, h1, h2⟩ := dl_topSubtract s l (zeroNaNs A)
      rw [h1, h2]
      cases D with
      | none => exact Or.inl ⟨rfl, rfl⟩
      | some q => exact Or.inr ⟨false, q.1, q.2, none, h0 q rfl, rfl, rfl⟩
    · simp only [if_neg hm]
      cases averageArr (zeroNaNs A) (dlWithout s l).data.length (dlWithout s l).ngroups (dlWithout s l).nframes (dlWithout s l).groupgap with
      | none => exact Or.inl ⟨rfl, rfl⟩
      | some V =>
        dsimp only
        obtain ⟨D, h0, h1, h2⟩ := dl_topSubtract s l V
        rw [h1, h2]
        cases D with
        | none => exact Or.inl ⟨rfl, rfl⟩
        | some q => exact Or.inr ⟨false, q.1, q.2, some V, h0 q rfl, rfl, rfl⟩

/-! ## Examples -/

/-- Two exposures of two integrations of two groups of two frames, the second with a NaN. -/
def dlTwo : DlExp ℚ := ⟨[[(some 10, some 1), (some 20, some 3)], [(some 11, none), (some 22, some 4)]], [[0, 0], [0, 0]], 8, 2, 0, some 1⟩

/-- Two darks read out frame by frame, with three frames and a NaN; the fourth frame is extrapolated. -/
def dlDark : Ref (ℚ × ℚ) := ⟨.d3 [none, some (2, 1), some (4, 3)] 1, 3, 1, 0⟩

example : (doCorrection (dlTwo.sci Prod.fst) (dlRef 1 0 dlDark)).map (fun r => (r.skipped, r.out.data, r.out.pixeldq)) =
      some (false, [[some 9, some 15], [some 10, some 17]], 9) ∧
    (doCorrection (dlTwo.sci Prod.snd) (dlRef 0 1 dlDark)).map (fun r => r.out.data) =
      some [[some (1 / 2), some (-1)], [none, some 0]] ∧
    (doCorrection (dlTwo.sci (dlMix 2 (-1))) (dlRef 2 (-1) dlDark)).map (fun r => r.out.data) =
      some [[some (35 / 2), some 31], [none, some 34]] ∧
    (doCorrection (dlSciUnit 3 (dlTwo.sci Prod.fst)) { dlRef 1 0 dlDark with arr := dlArrUnit 3 (dlRef 1 0 dlDark).arr }).map
      (fun r => r.out.data) = some [[some 27, some 45], [some 30, some 51]] := by
  decide +kernel

example :
    let s : Sci ℚ := ⟨[], [[0, 0]], 8, 1, 0, none⟩
    let l : List (List (Option ℚ × ℚ)) := [[(some 10, 5), (none, 6)]]
    let d : Ref ℚ := ⟨.d3 [some 3, some 4] 1, 2, 1, 0⟩
    (doCorrection (dlWithout s l) d).map (fun r => r.out.data) = some [[some 7, none]] ∧
    (doCorrection (dlWith s l) d).map (fun r => r.out.data) = some [[some 12, none]] := by
  decide +kernel

end Verif.Thm
