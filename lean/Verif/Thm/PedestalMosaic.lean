import Verif.Thm.Mosaic
import Verif.Thm.Pedestal

/-! # Individual zero levels and the mosaic (C179) -/

set_option linter.unusedSectionVars false

namespace Verif.Thm
open Verif.Sky Verif.Drizzle Verif.Resample

section
variable {α : Type} [Field α] [LinearOrder α] [IsStrictOrderedRing α] [FloorRing α] {ν : Type}

/-- Two images that differ by `K` once the sky is out. -/
def ZmIm (sub : Bool) (K : α) (a b : Im α) : Prop :=
  ∀ p, b.data p - (if sub then 0 else b.sky) = a.data p - (if sub then 0 else a.sky) + K

theorem zm_both (sub : Bool) (K : α) (c w : Nat → α) (h : ∀ i, c i - (if sub then 0 else w i) = K) (r : List (Elem α)) :
    List.Forall₂ (ZmIm sub K) (r.flatMap skImages) ((pdBoth c w r).flatMap skImages) := by
  induction r generalizing c w with
  | nil => exact .nil
  | cons e r ih =>
    have ih' := ih (fun i => c (i + 1)) (fun i => w (i + 1)) fun i => h (i + 1)
    have hcons : pdBoth c w (e :: r) = kyElem 1 (c 0) (w 0) e :: pdBoth (fun i => c (i + 1)) (fun i => w (i + 1)) r := by
      simp [pdBoth, List.mapIdx_cons]
    have him : ∀ im : Im α, ZmIm sub K im (kyIm 1 (c 0) (w 0) im) := by
      intro im p
      have := h 0
      cases sub <;> simp only [kyIm, one_mul, if_true, Bool.false_eq_true, if_false] at * <;> linarith
    rw [hcons, List.flatMap_cons, List.flatMap_cons]
    refine List.rel_append ?_ ih'
    cases e with
    | single im => exact .cons (him im) .nil
    | group g ims =>
      simp only [skImages, kyElem]
      rw [List.forall₂_map_right_iff, List.forall₂_same]
      exact fun im _ => him im

theorem zm_science (sub : Bool) (g : Input ν α) (a b : Im α) (h : ZmIm sub 0 a b) :
    (moInput sub g a).science = (moInput sub g b).science := by
  funext r c
  have := h (r * g.nx + c)
  cases sub <;> simp only [Input.science, moInput, if_true, Bool.false_eq_true, if_false, sub_zero, add_zero] at * <;> simp [this]

/-- Images that are the same once the sky is out give the same mosaic. -/
theorem zm_same (sub : Bool) (geo : List (α × Input ν α)) (l l' : List (Im α)) (h : List.Forall₂ (ZmIm sub 0) l l') (rn : ν) (t : DrizType)
    (good : Option Nat) :
    science rn t good (List.zipWith (fun g im => (g.1, moInput sub g.2 im)) geo l') =
      science rn t good (List.zipWith (fun g im => (g.1, moInput sub g.2 im)) geo l) := by
  simp only [science]
  generalize (Cell.empty : Cell α) = c
  induction h generalizing geo c with
  | nil => simp
  | cons hq _ ih =>
    cases geo with
    | nil => rfl
    | cons g geo =>
      simp only [List.zipWith_cons_cons, List.foldl_cons]
      rw [← ih geo, ← zm_science sub g.2 _ _ hq]
      rfl

/-- Images that differ by one constant give mosaics that differ by it. -/
theorem zm_const (sub : Bool) (K s : α) (geo : List (α × Input ν α)) (hs : ∀ g ∈ geo, g.1 = s) (l l' : List (Im α))
    (h : List.Forall₂ (ZmIm sub K) l l') (rn : ν) (t : DrizType) (good : Option Nat) (hnn : DzNonneg rn t good geo) (fill : Option α) :
    let A := science rn t good (List.zipWith (fun g im => (g.1, moInput sub g.2 im)) geo l')
    let B := science rn t good (List.zipWith (fun g im => (g.1, moInput sub g.2 im)) geo l)
    A.wht = B.wht ∧ A.out fill = if B.wht = 0 then fill else (B.out fill).map fun x => x + s * K := by
  intro A B
  have hmem : ∀ (l : List (Im α)), ∀ q ∈ List.zipWith (fun g im => (g.1, moInput sub g.2 im)) geo l,
      ∃ g ∈ geo, ∃ im, q = (g.1, moInput sub g.2 im) := by
    intro l q hq
    obtain ⟨i, hi, rfl⟩ := List.getElem_of_mem hq
    rw [List.getElem_zipWith]
    exact ⟨_, List.getElem_mem _, _, rfl⟩
  have hnz : ∀ l : List (Im α), DzNonneg rn t good (List.zipWith (fun g im => (g.1, moInput sub g.2 im)) geo l) := by
    intro l q hq r c hi
    obtain ⟨g, hg, im, rfl⟩ := hmem l q hq
    exact hnn g hg r c hi
  have hnum : ∀ l : List (Im α), ∀ q ∈ List.zipWith (fun g im => (g.1, moInput sub g.2 im)) geo l, ∀ r c, DzIn q.2 r c →
      dzDow rn t good q.2 r c ≠ 0 → (q.2.data r c).isSome := by
    intro l q hq r c _ _
    obtain ⟨g, hg, im, rfl⟩ := hmem l q hq
    rfl
  obtain ⟨a1, a2⟩ := C168_mean rn t good _ fill (hnz l') (hnum l')
  obtain ⟨b1, b2⟩ := C168_mean rn t good _ fill (hnz l) (hnum l)
  clear hmem hnz hnum
  have hWS : dzW rn t good (List.zipWith (fun g im => (g.1, moInput sub g.2 im)) geo l')
        = dzW rn t good (List.zipWith (fun g im => (g.1, moInput sub g.2 im)) geo l)
      ∧ dzS rn t good (List.zipWith (fun g im => (g.1, moInput sub g.2 im)) geo l')
        = dzS rn t good (List.zipWith (fun g im => (g.1, moInput sub g.2 im)) geo l)
          + dzW rn t good (List.zipWith (fun g im => (g.1, moInput sub g.2 im)) geo l) * (s * K) := by
    clear a1 a2 b1 b2 A B hnn
    induction h generalizing geo with
    | nil => simp [dzW, dzS]
    | @cons a b l l' hq _ ih =>
      cases geo with
      | nil => simp [dzW, dzS]
      | cons g geo =>
        obtain ⟨i1, i2⟩ := ih geo fun q hq => hs q (List.mem_cons_of_mem _ hq)
        have e1 : dzSum (moInput sub g.2 b) (dzDow rn t good (moInput sub g.2 b)) = dzSum (moInput sub g.2 a) (dzDow rn t good (moInput sub g.2 a)) := rfl
        have e2 : dzSum (moInput sub g.2 b) (fun r c => dzDow rn t good (moInput sub g.2 b) r c * dzSky (g.1, moInput sub g.2 b) r c)
            = dzSum (moInput sub g.2 a) (fun r c => dzDow rn t good (moInput sub g.2 a) r c * dzSky (g.1, moInput sub g.2 a) r c)
              + dzSum (moInput sub g.2 a) (dzDow rn t good (moInput sub g.2 a)) * (s * K) := by
          rw [← dz_sum_mul]
          simp only [dzSum]
          rw [← Finset.sum_add_distrib]
          refine Finset.sum_congr rfl fun r _ => ?_
          rw [← Finset.sum_add_distrib]
          refine Finset.sum_congr rfl fun c _ => ?_
          have hi : DzIn (moInput sub g.2 b) r c = DzIn (moInput sub g.2 a) r c := rfl
          have hd : dzDow rn t good (moInput sub g.2 b) r c = dzDow rn t good (moInput sub g.2 a) r c := rfl
          have hv : dzSky (g.1, moInput sub g.2 b) r c = dzSky (g.1, moInput sub g.2 a) r c + s * K := by
            have := hq (r * g.2.nx + c)
            have hg := hs g (by simp)
            show (b.data (r * g.2.nx + c) - (if sub then 0 else b.sky)) * g.1 = (a.data (r * g.2.nx + c) - (if sub then 0 else a.sky)) * g.1 + s * K
            rw [this, hg]
            ring
          by_cases hx : DzIn (moInput sub g.2 a) r c
          · rw [if_pos (hi ▸ hx), if_pos hx, if_pos hx, hd, hv]
            ring
          · rw [if_neg (hi ▸ hx), if_neg hx, if_neg hx, add_zero]
        simp only [dzW, dzS] at i1 i2
        simp only [dzW, dzS, List.zipWith_cons_cons, List.map_cons, List.sum_cons]
        refine ⟨by rw [e1, i1], ?_⟩
        rw [e2, i2]
        ring
  refine ⟨by rw [a1, b1, hWS.1], ?_⟩
  rw [a2, b2, b1, hWS.1, hWS.2]
  split
  · rfl
  · rename_i hw
    rw [Option.map_some, add_div, mul_div_cancel_left₀ _ hw]

/-- **C179**: images (or groups), each with a constant of its own added, connected through usable overlaps.  The mosaic made after the
method `global+match` is exactly the mosaic of the images without the constants, whether the sky is subtracted by the sky matching or
recorded and subtracted while resampling; after the method `match` it is that mosaic raised everywhere by one constant. -/
theorem C179_mosaic (env : Env α) (hs : SgShift env) (solve : Nat → List ((Nat → α) × α) → Nat → α) (z : Nat → α) (md sub : Bool)
    (els : List (Elem α)) (h1 : SkLeastSquares env solve (!sub) els) (h2 : SkLeastSquares env solve (!sub) (pdEls z els))
    (hc : PdConnected env (!sub) els) (hg : KyGood env els) :
    (∀ (ν : Type) (rn : ν) (t : DrizType) (good : Option Nat) (geo : List (α × Input ν α)),
      (skymatch env solve .globMat md sub (pdEls z els)).map (fun r => science rn t good (moInputs sub geo r)) =
        (skymatch env solve .globMat md sub els).map fun r => science rn t good (moInputs sub geo r)) ∧
    ∃ r r' K, skymatch env solve .mat md sub els = some r ∧ skymatch env solve .mat md sub (pdEls z els) = some r' ∧
      ∀ (ν : Type) (rn : ν) (t : DrizType) (good : Option Nat) (s : α) (geo : List (α × Input ν α)) (fill : Option α),
        (∀ g ∈ geo, g.1 = s) → DzNonneg rn t good geo →
        let A := science rn t good (moInputs sub geo r')
        let B := science rn t good (moInputs sub geo r)
        A.wht = B.wht ∧ A.out fill = if B.wht = 0 then fill else (B.out fill).map fun x => x + s * K := by
  obtain ⟨g1, K, g2⟩ := C176_pedestals env hs solve z md sub els h1 h2 hc hg
  refine ⟨fun ν rn t good geo => ?_, ?_⟩
  · rw [g1, Option.map_map]
    congr 1
    funext r
    exact zm_same sub geo _ _ (zm_both sub 0 _ _ (fun i => by cases sub <;> simp) r) rn t good
  · have hm : skymatch env solve .mat md sub els = some (matchPhase env solve md sub els) := by
      simp only [skymatch, Method.doMatch, Method.doGlobal, if_true, Bool.not_true, Bool.or_false, Bool.false_eq_true, if_false]
    rw [hm] at g2 ⊢
    rw [g2]
    refine ⟨_, _, K, rfl, rfl, fun ν rn t good s geo fill hgs hnn => ?_⟩
    exact zm_const sub K s geo hgs _ _ (zm_both sub K _ _ (fun i => by cases sub <;> simp) _) rn t good hnn fill

/-- **C179** for the method `local`, without any condition on overlaps. -/
theorem C179_local (env : Env α) (hs : SgShift env) (solve : Nat → List ((Nat → α) × α) → Nat → α) (z : Nat → α) (md sub : Bool)
    (els : List (Elem α)) (hg : KyGood env els) (rn : ν) (t : DrizType) (good : Option Nat) (geo : List (α × Input ν α)) :
    (skymatch env solve .loc md sub (pdEls z els)).map (fun r => science rn t good (moInputs sub geo r)) =
      (skymatch env solve .loc md sub els).map fun r => science rn t good (moInputs sub geo r) := by
  rw [C176_local env hs solve z md sub els hg, Option.map_map]
  congr 1
  funext r
  exact zm_same sub geo _ _ (zm_both sub 0 _ _ (fun i => by cases sub <;> simp) r) rn t good

end

/-! ## Examples -/

-- C179_mosaic, C179_local: all hypotheses hold for a real solver, a group among the images and arbitrary constants
example (z : Nat → ℝ) (sub : Bool) : ∃ solve, SgShift sgEnv ∧ SkLeastSquares sgEnv solve (!sub) pdExample
    ∧ SkLeastSquares sgEnv solve (!sub) (pdEls z pdExample) ∧ PdConnected sgEnv (!sub) pdExample ∧ KyGood sgEnv pdExample
    ∧ ∃ geo : List (ℝ × Input Unit ℝ), geo.length = 4 ∧ (∀ g ∈ geo, g.1 = 2) ∧ DzNonneg () .unit none geo := by
  obtain ⟨solve, hp⟩ := sg_solver
  refine ⟨solve, sg_env_shift, (hp _ _).1, (hp _ _).1, pd_example _, ?_, List.replicate 4 (2, ⟨1, 2, fun _ _ => none, fun _ _ => 0, fun _ => none,
    none, 1, none, false, none, fun _ _ => 1⟩), rfl, by simp, ?_⟩
  · intro e x hx
    refine ⟨fun _ => rfl, fun g ims h => ?_⟩
    subst h
    have := List.mem_of_getElem? hx
    simp only [pdExample, List.mem_cons, reduceCtorEq, List.not_mem_nil, or_false, false_or, Elem.group.injEq] at this
    rw [this.2]
    simp
  · intro q hq r c _
    rw [(List.mem_replicate.1 hq).2]
    simp only [dzDow, dzWt]
    split <;> norm_num

/-- The images of `moEls` with 2, -3 and 10 added. -/
def zmEls : List (Elem ℚ) :=
  [.single ⟨fun p => 1 * (p + 5) + 2, 1 * 0 + 0, false⟩, .single ⟨fun p => 1 * (p + 7) + -3, 1 * 0 + 0, false⟩,
    .single ⟨fun p => 1 * (p + 4) + 10, 1 * 0 + 0, false⟩]

theorem zm_els : pdEls (fun i => if i = 0 then 2 else if i = 1 then -3 else 10) moEls = zmEls := rfl

/-- A solver returning a solution of the equations of `zmEls`. -/
def zmSolve (_ : Nat) (_ : List ((Nat → ℚ) × ℚ)) (k : Nat) : ℚ := [0, -3, 7].getD k 0

/-- Example: the value of the mosaic at one pixel. -/
def zmOut (sub : Bool) (r : List (Elem ℚ)) : Option ℚ := (science () .unit none (moInputs sub (List.replicate 3 (1, moGeo)) r)).out none

-- the mosaic of three images with constants of their own: the same after `global+match` and `local`, raised by 7 after `match`
example : (skymatch moEnv zmSolve .globMat true true zmEls).map (zmOut true) = some (some 1)
    ∧ (skymatch moEnv skSolve .globMat true true moEls).map (zmOut true) = some (some 1)
    ∧ (skymatch moEnv zmSolve .loc true false zmEls).map (zmOut false) = some (some 1)
    ∧ (skymatch moEnv skSolve .loc true false moEls).map (zmOut false) = some (some 1)
    ∧ (skymatch moEnv zmSolve .mat false true zmEls).map (zmOut true) = some (some (1 + 14))
    ∧ (skymatch moEnv skSolve .mat false true moEls).map (zmOut true) = some (some (1 + 7)) := by
  decide +kernel

end Verif.Thm
