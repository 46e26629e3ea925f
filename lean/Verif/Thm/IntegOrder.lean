import Verif.Model.Ols
import Verif.Model.LikelyDriver
import Verif.Thm.OlsPixel
import Mathlib.Data.List.Perm.Basic
import Mathlib.Algebra.BigOperators.Group.List.Basic
import Mathlib.Algebra.Order.Ring.Rat

/-!
# C148: the order of the integrations

Rate products of the OLS_C fit (`ramp_fit_pixel`, slope_fitter.c:2808-2908) and of the likelihood fit (`compute_image_info`,
likely_fit.py:384-447) for permuted integrations.
-/

set_option linter.unusedSectionVars false

namespace Verif.Thm

open Verif Verif.Ols

section
variable {α : Type*} [Field α] [LinearOrder α]

instance io_rcomm {β : Type*} (f : β → Option α) : RightCommutative fun (s : Option α) (a : β) => o2 (· + ·) s (f a) where
  right_comm s a b := by
    cases s <;> cases f a <;> cases f b <;> simp [o2, add_right_comm]

instance io_rcomm_or {β : Type*} (f : β → Nat) : RightCommutative fun (s : Nat) (a : β) => s ||| f a where
  right_comm s a b := by rw [Nat.or_assoc, Nat.or_assoc, Nat.or_comm (f a)]

theorem io_fold {β : Type*} (f : β → Option α) {a b : List β} (h : a.Perm b) (z : Option α) :
    a.foldl (fun s x => o2 (· + ·) s (f x)) z = b.foldl (fun s x => o2 (· + ·) s (f x)) z :=
  h.foldl_eq (rcomm := io_rcomm f) z

theorem io_fold_or {β : Type*} (f : β → Nat) {a b : List β} (h : a.Perm b) (z : Nat) :
    a.foldl (fun s x => s ||| f x) z = b.foldl (fun s x => s ||| f x) z :=
  h.foldl_eq (rcomm := io_rcomm_or f) z

theorem io_zip {β γ : Type*} (f : β → γ) (l : List β) : l.zip (l.map f) = l.map fun e => (e, f e) := by
  induction l with
  | nil => rfl
  | cons a l ih => rw [List.map_cons, List.zip_cons_cons, ih, List.map_cons]

theorem io_zipIdx {β γ : Type*} (f : β → γ) (l : List β) (k : Nat) : ((l.zipIdx k).map fun e => f e.1) = l.map f := by
  induction l generalizing k with
  | nil => rfl
  | cons a l ih => rw [List.zipIdx_cons, List.map_cons, ih, List.map_cons]

theorem io_median (fl : Flags) (cfg : Cfg α) (n : Nat) {a b : List (Integ α)} (h : a.Perm b) : medianRate fl cfg n a = medianRate fl cfg n b := by
  simp only [medianRate]
  rw [h.length_eq, (h.map _).sum_eq]
  split
  · congr 1
    exact io_fold (fun i : Integ α => ((i.data[0]?).join).map fun d => d / cfg.oneGroupTime) h _
  · rfl

/-- **C148** (OLS): with the integrations in another order, the rate is the same in slope, variances, error and DQ, and every integration keeps
its result. -/
theorem C148_ols (fl : Flags) (cfg : Cfg α) (ngroups : Nat) (p p' : PixIn α) (hg : p'.gainBad = p.gainBad) (hx : p'.px = p.px)
    (hd : p'.pixeldq = p.pixeldq) (h : p.ints.Perm p'.ints) :
    (fitPixel fl cfg ngroups p').2 = (fitPixel fl cfg ngroups p).2 ∧
    (p.ints.zip (fitPixel fl cfg ngroups p).1).Perm (p'.ints.zip (fitPixel fl cfg ngroups p').1) := by
  have hload : (loadPixel fl cfg p).Perm (loadPixel fl cfg p') := h.map _
  have hmed := io_median fl cfg ngroups hload
  have hmeta : metaDq fl p' = metaDq fl p := by simp [metaDq, hg, hd]
  set F : Integ α → Integ α × (Rate α × Bool × Bool) × Option (Acc α) := fun i =>
    (i, postInteg fl i (fitInteg fl cfg p.px (medianRate fl cfg ngroups (loadPixel fl cfg p)) ngroups i (metaDq fl p ||| statBits fl i.st)).1,
      (fitInteg fl cfg p.px (medianRate fl cfg ngroups (loadPixel fl cfg p)) ngroups i (metaDq fl p ||| statBits fl i.st)).2) with hF
  have e1 : pixelInts fl cfg ngroups p = (loadPixel fl cfg p).map F := rfl
  have e2 : pixelInts fl cfg ngroups p' = (loadPixel fl cfg p').map F := by
    simp only [pixelInts, hF, ← hmed, hmeta, hx]
  have hrs : (pixelInts fl cfg ngroups p).Perm (pixelInts fl cfg ngroups p') := by
    rw [e1, e2]
    exact hload.map F
  constructor
  · have hacc : ((pixelInts fl cfg ngroups p).filterMap fun r => r.2.2).Perm ((pixelInts fl cfg ngroups p').filterMap fun r => r.2.2) :=
      hrs.filterMap _
    have a1 := hrs.length_eq
    have a2 := hrs.countP_eq fun r => r.2.1.2.1
    have a3 := hrs.countP_eq fun r => r.2.1.2.2
    have a4 := io_fold_or (fun r => statBits fl r.1.st) hrs (metaDq fl p)
    have a5 := (hacc.map fun a => if 0 < a.invP then a.invP else 0).sum_eq
    have a6 := (hacc.map fun a => a.invR).sum_eq
    have a7 := io_fold (fun a : Acc α => a.num) hacc (some 0)
    have a8 : (pixelInts fl cfg ngroups p).any (fun r => decide (0 < r.1.st.cntSat)) =
        (pixelInts fl cfg ngroups p').any fun r => decide (0 < r.1.st.cntSat) := by
      rw [Bool.eq_iff_iff, List.any_eq_true, List.any_eq_true]
      simp only [hrs.mem_iff]
    simp only [fitPixel, hmeta, a1, a2, a3, a4, a5, a6, a7, a8]
  · have hz : ∀ q : PixIn α, pixelInts fl cfg ngroups q = (loadPixel fl cfg q).map F → q.ints.zip (fitPixel fl cfg ngroups q).1 =
        q.ints.map fun e => (e, (F (loadInteg fl cfg.suppress1g e.1 e.2.1 e.2.2)).2.1.1) := by
      intro q hq
      simp only [fitPixel, hq, loadPixel, List.map_map]
      exact io_zip _ _
    rw [hz p e1, hz p' e2]
    exact h.map _

end

section
open Verif.Likely Verif.LikelyDriver
variable {α : Type} [Field α] [LinearOrder α]

theorem io_nanmedian {a b : List (Option α)} (h : a.Perm b) : Verif.Jump.nanmedian a = Verif.Jump.nanmedian b := by
  unfold Verif.Jump.nanmedian
  congr 1
  refine List.Perm.eq_of_pairwise' (r := (· ≤ ·)) (List.pairwise_insertionSort _ _) (List.pairwise_insertionSort _ _) ?_
  exact ((List.perm_insertionSort _ _).trans (h.filterMap _)).trans (List.perm_insertionSort _ _).symm

theorem io_nansum {a b : List (Option α)} (h : a.Perm b) : nansum a = nansum b := by
  unfold nansum
  first
  | exact (h.map _).sum_eq
  | exact (h.filterMap _).sum_eq

theorem io_sumOrNan {a b : List (Option α)} (h : a.Perm b) : sumOrNan a = sumOrNan b := by
  have : a.all (fun x => x.isNone) = b.all fun x => x.isNone := by
    rw [Bool.eq_iff_iff, List.all_eq_true, List.all_eq_true]
    simp only [h.mem_iff]
  simp only [sumOrNan, this, io_nansum h]

theorem io_weight (s : Option α) {a b : List (Int1 α)} (h : a.Perm b) : normWeight s a = normWeight s b := by
  funext i
  simp only [normWeight, io_nansum (h.map (rawWeight s))]

theorem io_round (s : Option α) {a b : List (Int1 α)} (h : a.Perm b) : combineRound a s = combineRound b s := by
  simp only [combineRound, io_weight s h]
  exact io_sumOrNan (h.map _)

theorem io_combine {a b : List (Int1 α)} (h : a.Perm b) : combine a = combine b := by
  by_cases h1 : ∃ i, a = [i]
  · obtain ⟨i, rfl⟩ := h1
    rw [List.singleton_perm.1 h]
  · have h2 : ¬ ∃ i, b = [i] := by
      rintro ⟨i, rfl⟩
      exact h1 ⟨i, List.perm_singleton.1 h⟩
    have hgen : ∀ l : List (Int1 α), (¬ ∃ i, l = [i]) → combine l =
        (let s0 := Verif.Jump.nanmedian (l.map fun i => i.data)
         let s1 := combineRound l s0
         let w := normWeight s1 l
         let sq := fun i => omul (w i) (w i)
         { data := combineRound l s1
           varP := sumOrNan (l.map fun i => omul (omul i.varP (some (rateScale s1 i.data))) (sq i))
           varR := sumOrNan (l.map fun i => omul i.varR (sq i)) }) := by
      intro l hl
      match l, hl with
      | [], _ => rfl
      | [i], hl => exact absurd ⟨i, rfl⟩ hl
      | _ :: _ :: _, _ => rfl
    rw [hgen a h1, hgen b h2]
    simp only
    have e0 : Verif.Jump.nanmedian (a.map fun i => i.data) = Verif.Jump.nanmedian (b.map fun i => i.data) := io_nanmedian (h.map _)
    rw [e0]
    have e1 := io_round (Verif.Jump.nanmedian (b.map fun i => i.data)) h
    rw [e1]
    have e2 := io_weight (combineRound b (Verif.Jump.nanmedian (b.map fun i => i.data))) h
    rw [e2, io_round _ h]
    congr 1
    · exact io_sumOrNan (h.map _)
    · exact io_sumOrNan (h.map _)

theorem io_dq (dnu : Nat) {a b : List Nat} (h : a.Perm b) : RampDq.compressFinal dnu a = RampDq.compressFinal dnu b := by
  have hset : ∀ w, RampDq.setIfTotal w a dnu dnu = RampDq.setIfTotal w b dnu dnu := by
    intro w
    simp only [RampDq.setIfTotal]
    rw [h.length_eq, (h.map _).sum_eq]
  cases a with
  | nil => rw [List.nil_perm.1 h]
  | cons x xs =>
    cases b with
    | nil => exact absurd h.length_eq (by simp)
    | cons y ys =>
      have hor : xs.foldl (fun acc d => acc ||| d) x = ys.foldl (fun acc d => acc ||| d) y := by
        have := h.foldl_eq (f := fun (acc d : Nat) => acc ||| d) 0
        simpa using this
      simp only [RampDq.compressFinal]
      rw [hset, hor]

theorem io_osum {a b : List (Option α)} (h : a.Perm b) : osum a = osum b := by
  have : RightCommutative fun (s : Option α) (x : Option α) => (match s, x with
    | some a, some b => some (a + b)
    | _, _ => none) := ⟨fun s x y => by cases s <;> cases x <;> cases y <;> simp [add_right_comm]⟩
  exact h.foldl_eq _

/-- The rate product of permuted integrations. -/
theorem io_image (fl : LikelyDriver.Flags) {a b : List (IntOut α)} (h : a.Perm b) : imageInfo fl a = imageInfo fl b := by
  by_cases h1 : ∃ i, a = [i]
  · obtain ⟨i, rfl⟩ := h1
    rw [List.singleton_perm.1 h]
  · have h2 : ¬ ∃ i, b = [i] := by
      rintro ⟨i, rfl⟩
      exact h1 ⟨i, List.perm_singleton.1 h⟩
    have hgen : ∀ l : List (IntOut α), (¬ ∃ i, l = [i]) → imageInfo fl l =
        (let k := combine (l.map toInt1)
         ⟨k, match k.varP, k.varR with
          | some p, some r => some (p + r)
          | _, _ => none, osum (l.map fun o => o.fit.map (·.chisq)), RampDq.compressFinal fl.dnu (l.map (·.dq))⟩) := by
      intro l hl
      match l, hl with
      | [], _ => rfl
      | [i], hl => exact absurd ⟨i, rfl⟩ hl
      | _ :: _ :: _, _ => rfl
    rw [hgen a h1, hgen b h2]
    simp only [io_combine (h.map toInt1), io_osum (h.map fun o => o.fit.map (·.chisq)), io_dq fl.dnu (h.map (·.dq))]

/-- **C148** (likelihood): with the integrations in another order, the rate product of the likelihood fit is the same and every integration keeps
its result. -/
theorem C148_likely (root : α → Nat → α) (fl : LikelyDriver.Flags) (ng nframes : Nat) (pattern : Option (List (List α)))
    (default : List (List α)) (hasZero : Bool) (c : Likely.Cfg α) (grow : Option ((Nat → Nat) → Nat → Nat)) (pixeldq : Nat)
    (ints ints' : List (IntIn α)) (h : ints.Perm ints') (outs : List (IntOut α)) (res : PixOut α)
    (hrun : likelyPixel root fl ng nframes pattern default hasZero c (fun _ => grow) pixeldq ints = some (outs, res)) :
    ∃ outs', likelyPixel root fl ng nframes pattern default hasZero c (fun _ => grow) pixeldq ints' = some (outs', res) ∧
      (ints.zip outs).Perm (ints'.zip outs') := by
  unfold likelyPixel at hrun ⊢
  split at hrun
  · exact absurd hrun (by simp)
  · next hng =>
    rw [if_neg hng]
    simp only [Option.some.injEq, Prod.mk.injEq] at hrun
    obtain ⟨h1, h2⟩ := hrun
    set F : IntIn α → IntOut α := fun e => fitInt root fl ng nframes (readTimes pattern default hasZero).2.2
      (readTimes pattern default hasZero).2.1 c grow pixeldq e with hF
    have hm : ∀ l : List (IntIn α), (l.zipIdx.map fun e => fitInt root fl ng nframes (readTimes pattern default hasZero).2.2
        (readTimes pattern default hasZero).2.1 c grow pixeldq e.1) = l.map F := by
      exact fun l => io_zipIdx F l 0
    rw [hm] at h1
    have hp : (ints.map F).Perm (ints'.map F) := h.map F
    refine ⟨ints'.map F, ?_, ?_⟩
    · simp only [hm, ← h2, io_image fl hp]
    · rw [← h1, io_zip, io_zip]
      exact h.map _

end

/-! ## Examples -/

/-- Example: two integrations of a pixel exchanged (the second one saturates). -/
example :
    let q : PixIn ℚ := { exPixel with ints := exPixel.ints.reverse }
    exPixel.ints.Perm q.ints ∧ (fitPixel exFlags exCfg 4 q).2.slope = some (7 / 22) ∧
    (fitPixel exFlags exCfg 4 exPixel).1.map (fun r => (r.slope, r.dq)) = [(some (3 / 10), 0), (some (1 / 2), 2)] ∧
    (fitPixel exFlags exCfg 4 q).1.map (fun r => (r.slope, r.dq)) = [(some (1 / 2), 2), (some (3 / 10), 0)] :=
  ⟨(List.reverse_perm _).symm, by decide +kernel, by decide +kernel, by decide +kernel⟩

/-- Example: three integrations of the likelihood fit, in two orders. -/
example :
    let e := fun (b : ℚ) => (⟨fun g => some (b * (3 * (g : ℚ) + 2)), fun _ => 0, none⟩ : LikelyDriver.IntIn ℚ)
    let run := fun l => (LikelyDriver.likelyPixel (fun _ _ => 1) ⟨1, 2, 4⟩ 5 2
      (some ((List.range 5).map fun g => [3 * (g : ℚ) + 1, 3 * (g : ℚ) + 3])) [] false ⟨1, 1, 0, 4, 9⟩ (fun _ => none) 0 l).map fun o =>
        (o.1.map fun i => i.fit.map fun f => f.countrate, o.2.comb.data)
    run [e 1, e 2, e 6] = (run [e 6, e 1, e 2]).map (fun o => ([some 1, some 2, some 6], o.2)) ∧
    (run [e 6, e 1, e 2]).map (fun o => o.1) = some [some 6, some 1, some 2] := by decide +kernel

end Verif.Thm
