import Verif.Model.JumpTimes
import Verif.Thm.JumpUnits
import Mathlib.Tactic.FieldSimp
import Mathlib.Tactic.Ring

/-!
# C151: read patterns in jump detection
-/

set_option linter.unusedSectionVars false

namespace Verif.Thm

open Verif Verif.Jump Verif.JumpStep Verif.JumpTimes
open Verif.JumpDriver
open Verif.Snowball (Env)
open Verif.Shower (Det)

section
variable {α : Type} [Field α] [LinearOrder α] [IsStrictOrderedRing α]

/-! ## Times in another unit -/

/-- Parameters with times in another unit. -/
def tuPar (k : α) (p : Params α) : Params α := { p with dt := fun j => k * p.dt j }

/-- A value per time in the other unit. -/
def tuSc (k : α) (x : Option α) : Option α := x.map fun y => y / k

theorem tu_diff {k : α} (hk : 0 < k) (p : Params α) (j : Nat) (a b : Option α) : diff (tuPar k p) j a b = tuSc k (diff p j a b) := by
  cases a with
  | none => cases b <;> rfl
  | some x =>
    cases b with
    | none => rfl
    | some y =>
      simp only [diff, tuPar, mul_eq_zero, hk.ne', false_or]
      split
      · rfl
      · simp only [tuSc, Option.map_some]
        congr 1
        field_simp

theorem tu_first {k : α} (hk : 0 < k) (p : Params α) (data : List (Option α)) (g : List Nat) :
    firstDiffs (tuPar k p) data g = (firstDiffs p data g).map (tuSc k) := by
  simp only [firstDiffs, List.map_map]
  congr 1
  funext j
  exact tu_diff hk p j _ _

theorem tu_median {k : α} (hk : 0 < k) (l : List (Option α)) : nanmedian (l.map (tuSc k)) = tuSc k (nanmedian l) := ju_median k hk l

theorem tu_sigma {k : α} (hk : 0 < k) (p : Params α) (sqrt : α → α) (rn2 : α) (m : Option α) (j : Nat) :
    sigma (tuPar k p) sqrt rn2 (tuSc k m) j = tuSc k (sigma p sqrt rn2 m j) := by
  cases m with
  | none => rfl
  | some m =>
    have e1 : |m / k| * (k * p.dt j) = |m| * p.dt j := by
      rw [abs_div, abs_of_pos hk]
      field_simp
    simp only [sigma, tuSc, tuPar, Option.map_some, e1]
    generalize sqrt (|m| * p.dt j + rn2 / (1 / 2 * p.nReads j)) = s
    have e2 : s / (k * p.dt j) = s / p.dt j / k := by rw [div_div, mul_comm]
    rw [e2]
    have : s / p.dt j / k = 0 ↔ s / p.dt j = 0 := by
      rw [div_eq_zero_iff]
      simp [hk.ne']
    simp only [this]
    split <;> rfl

theorem tu_ratio {k : α} (hk : 0 < k) (a b c : Option α) : ratio (tuSc k a) (tuSc k b) (tuSc k c) = ratio a b c := by
  cases a <;> cases b <;> cases c <;> simp only [ratio, tuSc, Option.map_some, Option.map_none]
  congr 1
  rw [← sub_div, abs_div, abs_of_pos hk, div_div_div_cancel_right₀ hk.ne']

theorem tu_isSome (k : α) (x : Option α) : (tuSc k x).isSome = x.isSome := by cases x <;> rfl

theorem tu_get (k : α) (l : List (Option α)) (i : Nat) : ((l.map (tuSc k))[i]?).getD none = tuSc k ((l[i]?).getD none) := by
  rw [List.getElem?_map]
  cases l[i]? <;> rfl

theorem tu_singleInt {k : α} (hk : 0 < k) (p : Params α) (sqrt : α → α) (rn2 : α) (m : Option α) (fd : List (Option α)) (g : List Nat) :
    singlePassInt (tuPar k p) sqrt rn2 (tuSc k m) (fd.map (tuSc k)) g = singlePassInt p sqrt rn2 m fd g := by
  simp only [singlePassInt, tu_get, tu_sigma hk, tu_ratio hk, tu_isSome]
  rfl

theorem tu_zip {k : α} (hk : 0 < k) (p : Params α) (data : List (List (Option α))) (g : List (List Nat)) :
    List.zipWith (firstDiffs (tuPar k p)) data g = (List.zipWith (firstDiffs p) data g).map (List.map (tuSc k)) := by
  rw [List.map_zipWith]
  congr 1
  funext a b
  exact tu_first hk p a b

theorem tu_flat (k : α) (l : List (List (Option α))) : (l.map (List.map (tuSc k))).flatten = l.flatten.map (tuSc k) :=
  (List.map_flatten ..).symm

theorem tu_single {k : α} (hk : 0 < k) (p : Params α) (sqrt : α → α) (rn2 : α) (data : List (List (Option α))) (g : List (List Nat)) :
    singlePass (tuPar k p) sqrt rn2 data g = singlePass p sqrt rn2 data g := by
  simp only [singlePass]
  rw [tu_zip hk, tu_flat, tu_median hk, List.zipWith_map_left]
  congr 1
  funext a b
  exact tu_singleInt hk p sqrt rn2 _ a b

theorem tu_finite (k : α) (l : List (Option α)) : finite (l.map (tuSc k)) = (finite l).map fun x => x / k := by
  simp only [finite]
  induction l with
  | nil => rfl
  | cons o l ih => cases o <;> simp [tuSc, ih]

theorem tu_max {k : α} (hk : 0 < k) (l : List (Option α)) : nanmax (l.map (tuSc k)) = tuSc k (nanmax l) := by
  rw [nanmax, tu_finite, nanmax]
  generalize finite l = s
  cases s with
  | nil => rfl
  | cons a s =>
    simp only [List.map_cons, List.max?_cons', tuSc, Option.map_some]
    congr 1
    induction s generalizing a with
    | nil => rfl
    | cons b s ih =>
      simp only [List.map_cons, List.foldl_cons]
      rw [← ih]
      congr 1
      exact (max_div_div_right hk.le a b)

theorem tu_min {k : α} (hk : 0 < k) (l : List (Option α)) : nanmin (l.map (tuSc k)) = tuSc k (nanmin l) := by
  rw [nanmin, tu_finite, nanmin]
  generalize finite l = s
  cases s with
  | nil => rfl
  | cons a s =>
    simp only [List.map_cons, List.min?_cons', tuSc, Option.map_some]
    congr 1
    induction s generalizing a with
    | nil => rfl
    | cons b s ih =>
      simp only [List.map_cons, List.foldl_cons]
      rw [← ih]
      congr 1
      exact (min_div_div_right hk.le a b)

theorem tu_inj {k : α} (hk : 0 < k) (a b : Option α) : tuSc k a = tuSc k b ↔ a = b := by
  cases a <;> cases b <;> simp [tuSc, div_left_inj' hk.ne']

theorem tu_calc {k : α} (hk : 0 < k) (l : List (Option α)) : calcMed (l.map (tuSc k)) = tuSc k (calcMed l) := by
  have h : (l.map (tuSc k)).map (fun x => if x = tuSc k (nanmax l) then none else x)
      = (l.map fun x => if x = nanmax l then none else x).map (tuSc k) := by
    rw [List.map_map, List.map_map]
    congr 1
    funext x
    simp only [Function.comp, tu_inj hk]
    split <;> rfl
  simp only [calcMed, tu_finite, List.length_map, tu_max hk, tu_min hk, h, tu_median hk]
  split_ifs <;> rfl

theorem tu_ratios {k : α} (hk : 0 < k) (p : Params α) (sqrt : α → α) (rn2 : α) (fa : List (List (Option α))) :
    ratios (tuPar k p) sqrt rn2 (fa.map (List.map (tuSc k))) = ratios p sqrt rn2 fa := by
  simp only [ratios, tu_flat, tu_calc hk, List.map_map]
  congr 1
  funext row
  simp only [Function.comp, List.zipIdx_map, List.map_map]
  congr 1
  funext q
  simp only [Function.comp, Prod.map_fst, Prod.map_snd, id, tu_sigma hk, tu_ratio hk]

theorem tu_new {k : α} (hk : 0 < k) (p : Params α) (sqrt : α → α) (rn2 : α) (fa : List (List (Option α))) :
    newCr (tuPar k p) sqrt rn2 (fa.map (List.map (tuSc k))) = newCr p sqrt rn2 fa := by
  simp only [newCr, tu_ratios hk, tu_flat, tu_finite, List.length_map]
  rfl

theorem tu_mask (k : α) (fa : List (List (Option α))) (n : List (List Bool)) :
    maskNew (fa.map (List.map (tuSc k))) n = (maskNew fa n).map (List.map (tuSc k)) := by
  simp only [maskNew, List.zipWith_map_left, List.map_zipWith]
  congr 1
  funext a b
  congr 1
  funext x y
  split <;> rfl

theorem tu_loop {k : α} (hk : 0 < k) (p : Params α) (sqrt : α → α) (rn2 : α) (fuel : Nat) (fa : List (List (Option α)))
    (acc : List (List Bool)) :
    (iterLoop (tuPar k p) sqrt rn2 fuel (fa.map (List.map (tuSc k))) acc).2 = (iterLoop p sqrt rn2 fuel fa acc).2 := by
  induction fuel generalizing fa acc with
  | zero => rfl
  | succ n ih =>
    simp only [iterLoop, tu_new hk, tu_mask]
    split
    · rfl
    · exact ih _ _

theorem tu_iter {k : α} (hk : 0 < k) (p : Params α) (sqrt : α → α) (rn2 : α) (fds : List (List (Option α))) :
    (iterative (tuPar k p) sqrt rn2 (fds.map (List.map (tuSc k)))).2 = (iterative p sqrt rn2 fds).2 := by
  have h : (fds.map (List.map (tuSc k))).map (fun row => row.map fun x => x.map fun v => |v|)
      = (fds.map fun row => row.map fun x => x.map fun v => |v|).map (List.map (tuSc k)) := by
    simp only [List.map_map]
    congr 1
    funext row
    simp only [Function.comp, List.map_map]
    congr 1
    funext x
    cases x with
    | none => rfl
    | some v => simp [tuSc, abs_div, abs_of_pos hk]
  have h2 : (fds.map (List.map (tuSc k))).map (fun row => row.map fun _ => false) = fds.map fun row => row.map fun _ => false := by
    simp only [List.map_map]
    congr 1
    funext row
    simp only [Function.comp, List.map_map]
    rfl
  simp only [iterative, h, h2, tu_flat, List.length_map]
  exact tu_loop hk p sqrt rn2 _ _ _

/-! ## The drivers -/

theorem tu_diffs {k : α} (hk : 0 < k) (p : Params α) (d : Dims) (data : Cube (Option α)) (g : Cube Nat) (r c : Nat) :
    diffs (tuPar k p) d data g r c = (diffs p d data g r c).map (List.map (tuSc k)) := tu_zip hk p _ _

theorem tu_med {k : α} (hk : 0 < k) (p : Params α) (d : Dims) (data : Cube (Option α)) (g : Cube Nat) (r c : Nat) :
    medDiff (tuPar k p) d data g r c = tuSc k (medDiff p d data g r c) := by
  rw [medDiff, tu_diffs hk, tu_flat, tu_median hk]
  rfl

theorem tu_entry (k : α) (l : List (List (Option α))) (i j : Nat) :
    entry none (l.map (List.map (tuSc k))) i j = tuSc k (entry none l i j) := by
  simp only [entry, List.getElem?_map]
  cases l[i]? with
  | none => rfl
  | some row =>
    simp only [Option.map_some, Option.getD_some]
    exact tu_get k row j

theorem tu_uniform {k : α} (hk : 0 < k) (p : Params α) (d : Dims) : uniform (tuPar k p) d = uniform p d := by
  simp only [uniform, tuPar]
  congr 1
  funext j
  congr 1
  exact decide_eq_decide.2 (mul_right_inj' hk.ne')

/-- Spec: the clipping rule compares with a multiple of the spread: it clips the same values in every unit. -/
def TuClip (clip : List (Option α) → List Bool) : Prop := ∀ (c : α), 0 < c → ∀ l, clip (l.map fun x => x.map fun y => y / c) = clip l

theorem tu_clipMask {k : α} (hk : 0 < k) {clip : List (Option α) → List Bool} (hc : TuClip clip) (s : Switch) (d : Dims)
    (fd : List (List (Option α))) (i j : Nat) : clipMask clip s d (fd.map (List.map (tuSc k))) i j = clipMask clip s d fd i j := by
  have h := hc k hk
  simp only [clipMask, tu_flat, tu_entry]
  have e1 : ((List.range d.ni).map fun k' => tuSc k (entry none fd k' j)) = ((List.range d.ni).map fun k' => entry none fd k' j).map (tuSc k) := by
    rw [List.map_map]; rfl
  rw [e1]
  have e2 : ∀ l, clip (l.map (tuSc k)) = clip l := h
  rw [e2, e2]

theorem tu_clip {k : α} (hk : 0 < k) {clip : List (Option α) → List Bool} (hc : TuClip clip) (p : Params α) (s : Switch) (d : Dims)
    (data : Cube (Option α)) (g : Cube Nat) : clipDetect (tuPar k p) clip s d data g = clipDetect p clip s d data g := by
  have h : clipWords (tuPar k p) clip s d data g = clipWords p clip s d data g := by
    funext i j r c
    simp only [clipWords, tu_diffs hk, tu_clipMask hk hc, tu_entry, tu_isSome]
    rfl
  funext i j r c
  simp only [clipDetect, h]
  rfl

theorem tu_detect {k : α} (hk : 0 < k) {clip : List (Option α) → List Bool} (hc : TuClip clip) (p : Params α) (sqrt : α → α) (s : Switch)
    (d : Dims) (rn : Nat → Nat → α) (data : Cube (Option α)) (g : Cube Nat) :
    detect (tuPar k p) sqrt clip s d rn data g = detect p sqrt clip s d rn data g := by
  have h1 : singleDetect (tuPar k p) sqrt rn d data g = singleDetect p sqrt rn d data g := by
    funext i j r c
    simp only [singleDetect, tu_single hk]
  have h2 : iterDetect (tuPar k p) sqrt rn d data g = iterDetect p sqrt rn d data g := by
    funext i j r c
    simp only [iterDetect, tu_diffs hk, tu_iter hk]
    rfl
  have h3 : usesClip (tuPar k p) s d g = usesClip p s d g := by
    simp only [usesClip, tu_uniform hk]
    rfl
  have h4 : usesSingle (tuPar k p) s d g = usesSingle p s d g := rfl
  simp only [detect, h1, h2, h3, h4, tu_clip hk hc]

/-- `transientInt` with the heights of the jumps given. -/
def tuBody (p : Params α) (ngroups npix : Nat) (ejump : Nat → Nat → Option α) (gdq : Nat → Nat → Nat) : Nat → Nat → Nat :=
  let big := fun (e : α) (g x : Nat) =>
    decide (1 ≤ g) && ge (ejump (g - 1) x) e && decide (gdq g x &&& p.jump ≠ 0)
  let b1 := propagateFlags ngroups npix p.n1 (big p.e1)
  let b2 := propagateFlags ngroups npix p.n2 (big p.e2)
  fun g x =>
    if (b1 g x || b2 g x) && decide (gdq g x &&& (p.sat ||| p.dnu) = 0) then gdq g x ||| p.jump
    else gdq g x

theorem tu_found {k : α} (hk : 0 < k) {clip : List (Option α) → List Bool} (hc : TuClip clip) (p : Params α) (sqrt : α → α) (s : Switch)
    (d : Dims) (rn : Nat → Nat → α) (data : Cube (Option α)) (g : Cube Nat) :
    findCrs (tuPar k p) sqrt clip s d rn data g = findCrs p sqrt clip s d rn data g := by
  have h1 : ∀ i j, ratioPlane (tuPar k p) sqrt d rn data g i j = ratioPlane p sqrt d rn data g i j := by
    intro i j
    funext r c
    simp only [ratioPlane, tu_diffs hk, tu_entry, tu_med hk, tu_sigma hk, tu_ratio hk]
  have h2 : ∀ w i j, neighborPlane (tuPar k p) sqrt s d rn data g w i j = neighborPlane p sqrt s d rn data g w i j := by
    intro w i j
    simp only [neighborPlane, h1]
    rfl
  have h3 : ∀ w, transient (tuPar k p) d data g w = transient p d data g w := by
    intro w
    funext i j r c
    have e : ∀ (a b : Option α) (t : α), (match tuSc k a, tuSc k b with
        | some a, some b => some ((a - b) * (k * t))
        | _, _ => none) = (match a, b with
        | some a, some b => some ((a - b) * t)
        | _, _ => none) := by
      intro a b t
      cases a <;> cases b <;> simp only [tuSc, Option.map_some, Option.map_none]
      congr 1
      field_simp
    have e' : ∀ (f : Nat → Nat → Option α) (m : Nat → Option α) (w : Nat → Nat → Nat),
        transientInt (tuPar k p) d.ng (d.nr * d.nc) (fun j x => tuSc k (f j x)) (fun x => tuSc k (m x)) w
          = transientInt p d.ng (d.nr * d.nc) f m w := by
      intro f m w
      have : (fun (j x : Nat) => match tuSc k (f j x), tuSc k (m x) with
          | some a, some b => some ((a - b) * (k * p.dt j))
          | _, _ => none) = fun (j x : Nat) => match f j x, m x with
          | some a, some b => some ((a - b) * p.dt j)
          | _, _ => none := by
        funext j x
        exact e _ _ _
      have a1 : transientInt (tuPar k p) d.ng (d.nr * d.nc) (fun j x => tuSc k (f j x)) (fun x => tuSc k (m x)) w
          = tuBody p d.ng (d.nr * d.nc) (fun (j x : Nat) => match tuSc k (f j x), tuSc k (m x) with
          | some a, some b => some ((a - b) * (k * p.dt j))
          | _, _ => none) w := rfl
      rw [a1, this]
      rfl
    simp only [transient, tu_diffs hk, tu_entry, tu_med hk, e']
    rfl
  simp only [findCrs, tu_detect hk hc, h2, h3]
  rfl

theorem tu_twoPoint {k : α} (hk : 0 < k) {clip : List (Option α) → List Bool} (hc : TuClip clip) (p : Params α) (sqrt : α → α) (s : Switch)
    (e : Exposure α) (mc : List Char) (ncpu : Nat) : twoPoint (tuPar k p) sqrt clip s e mc ncpu = twoPoint p sqrt clip s e mc ncpu := by
  have h1 : stepParams (tuPar k p) e = tuPar k (stepParams p e) := rfl
  have h2 : ∀ n, multi (tuPar k (stepParams p e)) sqrt clip s e.d (noiseElectrons e) (electrons e) e.gdq n
      = multi (stepParams p e) sqrt clip s e.d (noiseElectrons e) (electrons e) e.gdq n := by
    intro n
    have : sliceFound (tuPar k (stepParams p e)) sqrt clip s e.d (noiseElectrons e) (electrons e) e.gdq n
        = sliceFound (stepParams p e) sqrt clip s e.d (noiseElectrons e) (electrons e) e.gdq n := by
      funext m
      simp only [sliceFound, tu_found hk hc]
    simp only [multi, this]
  simp only [twoPoint, h1, h2, tu_found hk hc]
  rfl

theorem tu_step {k : α} (hk : 0 < k) {clip : List (Option α) → List Bool} (hc : TuClip clip) (p : Params α) (sqrt : α → α) (s : Switch)
    (env : Env α) (det : Det α) (ask : Ask α) (e : Exposure α) (mc : List Char) (ncpu : Nat) :
    step (tuPar k p) sqrt clip s env det ask e mc ncpu = step p sqrt clip s env det ask e mc ncpu := by
  rw [js_step, js_step, tu_twoPoint hk hc]
  rfl

/-! ## Read patterns -/

theorem tu_sumShift (k c : α) (l : List α) : (l.map fun t => k * t + c).sum = k * l.sum + l.length * c := by
  induction l with
  | nil => simp
  | cons a l ih =>
    simp only [List.map_cons, List.sum_cons, ih, List.length_cons, Nat.cast_succ]
    ring

theorem tu_mean (k c : α) (l : List α) (h : l ≠ []) : mean (l.map fun t => k * t + c) = k * mean l + c := by
  have : (l.length : α) ≠ 0 := by
    rw [Nat.cast_ne_zero]
    exact fun h0 => h (List.length_eq_zero_iff.1 h0)
  rw [mean, mean, tu_sumShift, List.length_map]
  field_simp

theorem tu_spread {k : α} (n : Nat) (l : List α) : spread n (l.map fun x => k * x) = (spread n l).map fun f j => k * f j := by
  simp only [spread, List.length_map]
  split
  · simp only [Option.map_some]
    congr 1
    funext j
    rw [List.getElem?_map]
    cases l[min j (l.length - 1)]? <;> simp
  · rfl

theorem tu_with {k c : α} (p : Params α) (ng nframes : Nat) (rp : List (List α)) (hne : ∀ l ∈ rp, l ≠ []) :
    withTimes p ng nframes (some (rp.map fun l => l.map fun t => k * t + c)) = (withTimes p ng nframes (some rp)).map (tuPar k) := by
  have h1 : (rp.map fun l => l.map fun t => k * t + c).map mean = (rp.map mean).map fun x => k * x + c := by
    rw [List.map_map, List.map_map]
    exact List.map_congr_left fun l hl => tu_mean k c l (hne l hl)
  have h2 : (rp.map fun l => l.map fun t => k * t + c).map (fun l => (l.length : α)) = rp.map fun l => (l.length : α) := by
    rw [List.map_map]
    congr 1
    funext l
    simp
  have h3 : ∀ t : List α, List.zipWith (fun a b => a - b) (t.map fun x => k * x + c).tail (t.map fun x => k * x + c)
      = (List.zipWith (fun a b => a - b) t.tail t).map fun x => k * x := by
    intro t
    rw [← List.map_tail, List.zipWith_map, List.map_zipWith]
    congr 1
    funext a b
    ring
  simp only [withTimes, groupTimes, h1, h2, h3, Option.bind_some, tu_spread]
  cases spread (ng - 1) (List.zipWith (fun a b => a - b) (rp.map mean).tail (rp.map mean)) with
  | none => rfl
  | some f =>
    simp only [Option.map_some, Option.bind_some]
    cases spread (ng - 1) (List.zipWith (· + ·) (rp.map fun l => (l.length : α)).tail (rp.map fun l => (l.length : α))) <;> rfl

/-- C151 (unit).  The times of the reads may be given in any unit and counted from any moment: the result of the step is the same. -/
theorem C151_time_unit (p : Params α) (sqrt : α → α) (clip : List (Option α) → List Bool) (hc : TuClip clip) (s : Switch) (env : Env α)
    (det : Det α) (ask : Ask α) (nframes : Nat) (rp : List (List α)) (hne : ∀ l ∈ rp, l ≠ []) (e : Exposure α) (maxCores : List Char)
    (ncpu : Nat) (k c : α) (hk : 0 < k) :
    stepTimes p sqrt clip s env det ask nframes (some (rp.map fun l => l.map fun t => k * t + c)) e maxCores ncpu
      = stepTimes p sqrt clip s env det ask nframes (some rp) e maxCores ncpu := by
  simp only [stepTimes, tu_with p e.d.ng nframes rp hne]
  cases withTimes p e.d.ng nframes (some rp) with
  | none => rfl
  | some q => exact tu_step hk hc q sqrt s env det ask e maxCores ncpu

/-- Spec: all groups have `m` reads and the mean time increases by `t` from each group to the next. -/
def TuEven (m : Nat) (t : α) (rp : List (List α)) : Prop :=
  (∀ l ∈ rp, l.length = m) ∧ rp.IsChain fun a b => b.sum - a.sum = m * t

theorem tu_const (n : Nat) (x : α) (l : List α) (hl : l.length = n) (hn : 1 ≤ n) (h : ∀ y ∈ l, y = x) : spread n l = some fun _ => x := by
  rw [spread, if_pos (Or.inr hl)]
  congr 1
  funext j
  have hj : min j (l.length - 1) < l.length := by omega
  rw [List.getElem?_eq_getElem hj, Option.getD_some]
  exact h _ (List.getElem_mem hj)

theorem tu_chain (m : Nat) (hm : 0 < m) (t : α) : ∀ rp : List (List α), TuEven m t rp →
    (∀ y ∈ List.zipWith (fun a b => a - b) (rp.map mean).tail (rp.map mean), y = t) ∧
    (∀ y ∈ List.zipWith (· + ·) (rp.map fun l => (l.length : α)).tail (rp.map fun l => (l.length : α)), y = 1 * 2 * (m : α))
  | [], _ => by simp
  | [a], _ => by simp
  | a :: b :: l, h => by
    have ih := tu_chain m hm t (b :: l) ⟨fun x hx => h.1 x (List.mem_cons_of_mem _ hx), (List.isChain_cons_cons.1 h.2).2⟩
    have hm' : (m : α) ≠ 0 := by
      rw [Nat.cast_ne_zero]; omega
    have h1 := h.1 a (by simp)
    have h2 := h.1 b (by simp)
    have h3 := (List.isChain_cons_cons.1 h.2).1
    constructor
    · intro y hy
      simp only [List.map_cons, List.tail_cons, List.zipWith_cons_cons, List.mem_cons] at hy ih
      rcases hy with rfl | hy
      · rw [mean, mean, h1, h2, ← sub_div, h3, mul_div_cancel_left₀ _ hm']
      · exact ih.1 y hy
    · intro y hy
      simp only [List.map_cons, List.tail_cons, List.zipWith_cons_cons, List.mem_cons] at hy ih
      rcases hy with rfl | hy
      · rw [h1, h2]; ring
      · exact ih.2 y hy

/-- C151 (even pattern).  With an even read pattern of `m` reads per group the step gives what it gives without a read pattern for `m`
frames per group. -/
theorem C151_even_pattern (p : Params α) (sqrt : α → α) (clip : List (Option α) → List Bool) (hc : TuClip clip) (s : Switch) (env : Env α)
    (det : Det α) (ask : Ask α) (nframes m : Nat) (hm : 0 < m) (t : α) (ht : 0 < t) (rp : List (List α)) (he : TuEven m t rp)
    (e : Exposure α) (hlen : rp.length = e.d.ng) (h2 : 2 ≤ e.d.ng) (maxCores : List Char) (ncpu : Nat) :
    stepTimes p sqrt clip s env det ask nframes (some rp) e maxCores ncpu
      = stepTimes p sqrt clip s env det ask m none e maxCores ncpu := by
  have hch := tu_chain m hm t rp he
  have w1 : withTimes p e.d.ng nframes (some rp) = some { p with dt := fun _ => t, nReads := fun _ => 1 * 2 * (m : α) } := by
    simp only [withTimes, groupTimes, Option.bind_some]
    rw [tu_const (e.d.ng - 1) t _ (by simp; omega) (by omega) hch.1, tu_const (e.d.ng - 1) (1 * 2 * (m : α)) _ (by simp; omega) (by omega) hch.2]
    rfl
  have w2 : withTimes p e.d.ng m (none : Option (List (List α))) = some { p with dt := fun _ => 1, nReads := fun _ => 1 * 2 * (m : α) } := by
    simp only [withTimes, groupTimes, if_neg (show ¬ m = 0 by omega), Option.bind_some, spread]
    simp
  rw [stepTimes, stepTimes, w1, w2]
  have h := tu_step ht hc { p with dt := fun _ => 1, nReads := fun _ => 1 * 2 * (m : α) } sqrt s env det ask e maxCores ncpu
  simp only [tuPar, mul_one] at h
  exact h

/-- C151 (failure).  Without snowballs, the step fails exactly if there is neither a read pattern nor a number of frames, or if the read
pattern has neither the groups of the data nor just two groups. -/
theorem C151_fails (p : Params α) (sqrt : α → α) (clip : List (Option α) → List Bool) (s : Switch) (env : Env α) (det : Det α) (ask : Ask α)
    (hl : ask.large = false) (nframes : Nat) (pattern : Option (List (List α))) (e : Exposure α) (h2 : 2 ≤ e.d.ng) (maxCores : List Char) (ncpu : Nat) :
    stepTimes p sqrt clip s env det ask nframes pattern e maxCores ncpu = none ↔
      (pattern = none ∧ nframes = 0) ∨ ∃ rp, pattern = some rp ∧ rp.length ≠ e.d.ng ∧ rp.length ≠ 2 := by
  have hs : ∀ q : Params α, step q sqrt clip s env det ask e maxCores ncpu ≠ none := by
    intro q
    simp [step, hl]
  have hw : stepTimes p sqrt clip s env det ask nframes pattern e maxCores ncpu = none ↔ withTimes p e.d.ng nframes pattern = none := by
    rw [stepTimes]
    cases withTimes p e.d.ng nframes pattern with
    | none => simp
    | some q => simp [hs q]
  rw [hw]
  cases pattern with
  | none =>
    by_cases hn : nframes = 0 <;> simp [withTimes, groupTimes, hn, spread]
  | some rp =>
    have l1 : (List.zipWith (fun a b => a - b) (rp.map mean).tail (rp.map mean)).length = rp.length - 1 := by
      simp
    have l2 : (List.zipWith (· + ·) (rp.map fun l => (l.length : α)).tail (rp.map fun l => (l.length : α))).length = rp.length - 1 := by
      simp
    simp only [withTimes, groupTimes, Option.bind_some, spread, l1, l2]
    by_cases hr : rp.length - 1 = 1 ∨ rp.length - 1 = e.d.ng - 1
    · simp only [if_pos hr, Option.bind_some, Option.map_some]
      constructor
      · intro h; exact absurd h (by simp)
      · rintro (⟨h, _⟩ | ⟨x, hx, a, b⟩)
        · simp at h
        · cases hx; omega
    · simp only [if_neg hr, Option.bind_none, true_iff]
      exact Or.inr ⟨rp, rfl, by omega, by omega⟩

end

/-! ## Examples -/

/-- A clipping rule: the largest value is clipped. -/
def tuRule (l : List (Option ℚ)) : List Bool := l.map fun x => decide (x = nanmax l)

theorem tu_rule : TuClip tuRule := by
  intro c hc l
  show ((l.map (tuSc c)).map fun x => decide (x = nanmax (l.map (tuSc c)))) = _
  rw [tu_max hc, List.map_map]
  show _ = l.map fun x => decide (x = nanmax l)
  congr 1
  funext x
  exact decide_eq_decide.2 (tu_inj hc x _)

def tuExp : Exposure ℚ := ⟨⟨1, 6, 1, 1⟩, fun _ g _ _ => some (if 3 ≤ g then 100 + g else g), fun _ _ _ _ => 0, fun _ _ => some 2,
  fun _ _ => 1, fun _ _ => 0, 50, 1000⟩

def tuSeen (nframes : Nat) (pattern : Option (List (List ℚ))) : Option (List Nat) :=
  (stepTimes { exJump with n1 := 1, n2 := 2 } id tuRule jsSw swEnv jsDet { jsAsk with large := false, showers := false } nframes pattern tuExp
    "none".toList 8).map fun o => (List.range 6).map fun g => o.1 0 g 0 0

/-- Three reads per group and a group every five reads of 1.5 seconds; without a pattern; and an uneven pattern, with which the large
step is no jump because a long time has passed. -/
example : TuEven 3 (15 / 2 : ℚ) ((List.range 6).map fun g => (List.range 3).map fun i => ((5 * g + i : ℕ) : ℚ) * (3 / 2)) := by
  refine ⟨by decide +kernel, by decide +kernel⟩
example : tuSeen 0 (some ((List.range 6).map fun g => (List.range 3).map fun i => ((5 * g + i : ℕ) : ℚ) * (3 / 2))) = some [0, 0, 0, 4, 4, 0] ∧
    tuSeen 3 none = some [0, 0, 0, 4, 4, 0] ∧
    tuSeen 0 (some [[1], [2], [3], [104], [105], [106]]) = some [0, 0, 0, 0, 0, 0] ∧
    tuSeen 0 none = none ∧ tuSeen 0 (some [[1], [2], [3]]) = none ∧ tuSeen 0 (some [[1], [2]]) = some [0, 0, 0, 4, 4, 0] := by
  decide +kernel

end Verif.Thm
