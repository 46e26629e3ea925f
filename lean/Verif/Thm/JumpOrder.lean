import Verif.Thm.JumpDriver
import Verif.Thm.IntegOrder
import Mathlib.Data.List.Perm.Basic

/-!
# C153: the order of the integrations in jump detection

Two-point difference jump detection (jump.py:67-103, twopoint_difference.py:11-76) of an exposure whose integrations are put in another
order.
-/

set_option linter.unusedSectionVars false

namespace Verif.Thm

open Verif Verif.Jump Verif.JumpDriver

section
variable {α : Type} [Field α] [LinearOrder α]

/-- Spec: `σ` puts the numbers below `n` in another order. -/
def JoOrder (n : Nat) (σ : Nat → Nat) : Prop := ((List.range n).map σ).Perm (List.range n)

/-- Spec: the exposure with its integrations in another order. -/
def joExp (σ : Nat → Nat) (e : Exposure α) : Exposure α :=
  { e with data := fun i => e.data (σ i), gdq := fun i => e.gdq (σ i) }

/-- Spec: what sigma clipping rejects depends on a value and on the values it is compared with, not on where they stand. -/
def JoClip (clip : List (Option α) → List Bool) : Prop :=
  ∃ test : Multiset (Option α) → Option α → Bool, ∀ l, clip l = l.map (test (l : Multiset (Option α)))

theorem jo_lt {n : Nat} {σ : Nat → Nat} (h : JoOrder n σ) {i : Nat} (hi : i < n) : σ i < n := by
  have : σ i ∈ (List.range n).map σ := List.mem_map_of_mem (List.mem_range.2 hi)
  exact List.mem_range.1 ((h.mem_iff).1 this)

theorem jo_surj {n : Nat} {σ : Nat → Nat} (h : JoOrder n σ) {i : Nat} (hi : i < n) : ∃ j < n, σ j = i := by
  have := (h.mem_iff).2 (List.mem_range.2 hi)
  obtain ⟨j, hj, e⟩ := List.mem_map.1 this
  exact ⟨j, List.mem_range.1 hj, e⟩

theorem jo_map {β : Type*} {n : Nat} {σ : Nat → Nat} (h : JoOrder n σ) (f : Nat → β) :
    ((List.range n).map fun i => f (σ i)).Perm ((List.range n).map f) := by
  have := List.Perm.map f h
  rwa [List.map_map] at this

theorem jo_entry {β : Type} (z : β) (n : Nat) (F : Nat → List β) (i j : Nat) (hi : i < n) :
    entry z ((List.range n).map F) i j = ((F i)[j]?).getD z := by
  simp [entry, hi]

/-! ## Statistics -/

theorem jo_finite {a b : List (Option α)} (h : a.Perm b) : (finite a).Perm (finite b) := h.filterMap _

theorem jo_nanmax {a b : List (Option α)} (h : a.Perm b) : nanmax a = nanmax b := by
  have hf := jo_finite h
  apply Option.ext
  intro x
  simp only [nanmax, List.max?_eq_some_iff, hf.mem_iff]

theorem jo_nanmin {a b : List (Option α)} (h : a.Perm b) : nanmin a = nanmin b := by
  have hf := jo_finite h
  apply Option.ext
  intro x
  simp only [nanmin, List.min?_eq_some_iff, hf.mem_iff]

theorem jo_calcMed {a b : List (Option α)} (h : a.Perm b) : calcMed a = calcMed b := by
  simp only [calcMed, (jo_finite h).length_eq, jo_nanmin h, jo_nanmax h, io_nanmedian h]
  rw [io_nanmedian (h.map fun x => if x = nanmax b then none else x)]

/-! ## The iterative search -/

/-- The newly found jumps of an integration. -/
def joNew (p : Params α) (sqrt : α → α) (rn2 : α) (med m : Option α) (n : Nat) (row : List (Option α)) : List Bool :=
  (row.zipIdx.map fun q => ratio q.1 med (sigma p sqrt rn2 med q.2)).map fun x =>
    x.isSome && decide (x = m) && crInt p n (row.zipIdx.map fun q => ratio q.1 med (sigma p sqrt rn2 med q.2))

/-- The largest ratio. -/
def joMax (p : Params α) (sqrt : α → α) (rn2 : α) (fa : List (List (Option α))) : Option α :=
  nanmax (fa.map fun row => row.zipIdx.map fun q =>
    ratio q.1 (calcMed fa.flatten) (sigma p sqrt rn2 (calcMed fa.flatten) q.2)).flatten

theorem jo_new (p : Params α) (sqrt : α → α) (rn2 : α) (fa : List (List (Option α))) :
    newCr p sqrt rn2 fa
      = fa.map (joNew p sqrt rn2 (calcMed fa.flatten) (joMax p sqrt rn2 fa) (finite fa.flatten).length) := by
  simp only [newCr, ratios, List.map_map]
  rfl

theorem jo_max {p : Params α} {sqrt : α → α} {rn2 : α} {a b : List (List (Option α))} (h : a.Perm b) :
    joMax p sqrt rn2 a = joMax p sqrt rn2 b := by
  simp only [joMax, jo_calcMed h.flatten]
  exact jo_nanmax (h.map _).flatten

theorem jo_newFun {p : Params α} {sqrt : α → α} {rn2 : α} {a b : List (List (Option α))} (h : a.Perm b) :
    joNew p sqrt rn2 (calcMed a.flatten) (joMax p sqrt rn2 a) (finite a.flatten).length
      = joNew p sqrt rn2 (calcMed b.flatten) (joMax p sqrt rn2 b) (finite b.flatten).length := by
  rw [jo_calcMed h.flatten, jo_max h, (jo_finite h.flatten).length_eq]

/-- The loop treats every integration by itself once the statistics are known; these do not depend on the order. -/
theorem jo_loop (p : Params α) (sqrt : α → α) (rn2 : α) (fuel : Nat) (z : List (List (Option α) × List Bool)) :
    ∃ G : List (Option α) × List Bool → List (Option α) × List Bool, ∀ z' : List (List (Option α) × List Bool), z'.Perm z →
      iterLoop p sqrt rn2 fuel (z'.map Prod.fst) (z'.map Prod.snd) = (z'.map fun x => (G x).1, z'.map fun x => (G x).2) := by
  induction fuel generalizing z with
  | zero => exact ⟨id, fun z' _ => rfl⟩
  | succ fuel ih =>
    let fa := z.map Prod.fst
    let N := joNew p sqrt rn2 (calcMed fa.flatten) (joMax p sqrt rn2 fa) (finite fa.flatten).length
    let S : List (Option α) × List Bool → List (Option α) × List Bool := fun x =>
      (List.zipWith (fun v b => if b then none else v) x.1 (N x.1), List.zipWith (· || ·) x.2 (N x.1))
    obtain ⟨G, hG⟩ := ih (z.map S)
    have hN : ∀ z' : List (List (Option α) × List Bool), z'.Perm z → newCr p sqrt rn2 (z'.map Prod.fst) = (z'.map Prod.fst).map N := by
      intro z' h
      rw [jo_new, jo_newFun (h.map Prod.fst)]
    by_cases hany : ((z.map Prod.fst).map N).flatten.any (fun b => b) = false
    · refine ⟨id, fun z' h => ?_⟩
      rw [iterLoop]
      simp only [hN z' h]
      have : ((z'.map Prod.fst).map N).flatten.any (fun b => b) = ((z.map Prod.fst).map N).flatten.any fun b => b := by
        rw [Bool.eq_iff_iff, List.any_eq_true, List.any_eq_true]
        simp only [((h.map Prod.fst).map N).flatten.mem_iff]
      rw [this, if_pos hany]
      rfl
    · refine ⟨fun x => G (S x), fun z' h => ?_⟩
      rw [iterLoop]
      simp only [hN z' h]
      have : ((z'.map Prod.fst).map N).flatten.any (fun b => b) = ((z.map Prod.fst).map N).flatten.any fun b => b := by
        rw [Bool.eq_iff_iff, List.any_eq_true, List.any_eq_true]
        simp only [((h.map Prod.fst).map N).flatten.mem_iff]
      rw [this, if_neg hany]
      have e1 : maskNew (z'.map Prod.fst) ((z'.map Prod.fst).map N) = (z'.map S).map Prod.fst := by
        simp only [maskNew, List.map_map, List.zipWith_map, List.zipWith_self]
        rfl
      have e2 : orFlags (z'.map Prod.snd) ((z'.map Prod.fst).map N) = (z'.map S).map Prod.snd := by
        simp only [orFlags, List.map_map, List.zipWith_map, List.zipWith_self]
        rfl
      rw [e1, e2, hG _ (h.map S), List.map_map, List.map_map]
      rfl

theorem jo_iterative (p : Params α) (sqrt : α → α) (rn2 : α) (fds : List (List (Option α))) :
    ∃ H : List (Option α) → List Bool, ∀ f' : List (List (Option α)), f'.Perm fds → (iterative p sqrt rn2 f').2 = f'.map H := by
  let A : List (Option α) → List (Option α) × List Bool := fun row => (row.map fun x => x.map fun v => |v|, row.map fun _ => false)
  obtain ⟨G, hG⟩ := jo_loop p sqrt rn2 fds.flatten.length (fds.map A)
  refine ⟨fun row => (G (A row)).2, fun f' h => ?_⟩
  have h2 := hG (f'.map A) (h.map A)
  rw [List.map_map, List.map_map, List.map_map, List.map_map] at h2
  simp only [iterative, h.flatten.length_eq]
  exact congrArg Prod.snd h2

/-! ## An exposure -/

/-- Differences of one integration. -/
def joRow (p : Params α) (d : Dims) (f : Cube (Option α)) (gdq : Cube Nat) (r c i : Nat) : List (Option α) :=
  (List.range (d.ng - 1)).map fun j => jdDiff p f gdq i j r c

theorem jo_diffs (p : Params α) (d : Dims) (f : Cube (Option α)) (gdq : Cube Nat) (r c : Nat) :
    diffs p d f gdq r c = (List.range d.ni).map (joRow p d f gdq r c) := jd_diffs p d f gdq r c

theorem jo_diffs' (σ : Nat → Nat) (p : Params α) (d : Dims) (f : Cube (Option α)) (gdq : Cube Nat) (r c : Nat) :
    diffs p d (fun i => f (σ i)) (fun i => gdq (σ i)) r c = (List.range d.ni).map fun i => joRow p d f gdq r c (σ i) :=
  jd_diffs p d (fun i => f (σ i)) (fun i => gdq (σ i)) r c

theorem jo_perm {σ : Nat → Nat} (p : Params α) (d : Dims) (h : JoOrder d.ni σ) (f : Cube (Option α)) (gdq : Cube Nat) (r c : Nat) :
    (diffs p d (fun i => f (σ i)) (fun i => gdq (σ i)) r c).Perm (diffs p d f gdq r c) := by
  rw [jo_diffs', jo_diffs]
  exact jo_map h (joRow p d f gdq r c)

theorem jo_med {σ : Nat → Nat} (p : Params α) (d : Dims) (h : JoOrder d.ni σ) (f : Cube (Option α)) (gdq : Cube Nat) (r c : Nat) :
    medDiff p d (fun i => f (σ i)) (fun i => gdq (σ i)) r c = medDiff p d f gdq r c :=
  io_nanmedian (jo_perm p d h f gdq r c).flatten

theorem jo_ent {σ : Nat → Nat} (p : Params α) (d : Dims) (h : JoOrder d.ni σ) (f : Cube (Option α)) (gdq : Cube Nat) (r c i j : Nat)
    (hi : i < d.ni) : entry none (diffs p d (fun i => f (σ i)) (fun i => gdq (σ i)) r c) i j
      = entry none (diffs p d f gdq r c) (σ i) j := by
  rw [jo_diffs', jo_diffs, jo_entry none d.ni _ i j hi, jo_entry none d.ni _ (σ i) j (jo_lt h hi)]

theorem jo_loop1 {σ : Nat → Nat} (p : Params α) (d : Dims) (h : JoOrder d.ni σ) (gdq : Cube Nat) :
    (groupLoop p d fun i => gdq (σ i)).1 = (groupLoop p d gdq).1 ∧ (groupLoop p d fun i => gdq (σ i)).2.1 = (groupLoop p d gdq).2.1 := by
  obtain ⟨a1, a2, a3, -⟩ := jd_groupLoop p d gdq d.ni
  obtain ⟨b1, b2, b3, -⟩ := jd_groupLoop p d (fun i => gdq (σ i)) d.ni
  have hf : ∀ i, flaggedIn p d (fun i => gdq (σ i)) i = flaggedIn p d gdq (σ i) := fun _ => rfl
  constructor
  · apply Nat.le_antisymm
    · rcases b2 with b2 | ⟨i, hi, e⟩
      · exact le_of_eq_of_le b2 (Nat.zero_le _)
      · exact le_of_eq_of_le (e.trans (hf i)) (a1 _ (jo_lt h hi))
    · rcases a2 with a2 | ⟨i, hi, e⟩
      · exact le_of_eq_of_le a2 (Nat.zero_le _)
      · obtain ⟨j, hj, rfl⟩ := jo_surj h hi
        exact le_of_eq_of_le e (b1 j hj)
  · refine b3.trans (Eq.trans ?_ a3.symm)
    exact (jo_map h (flaggedIn p d gdq)).sum_eq

theorem jo_flat {β : Type} (m : Nat) (l : List (List β)) (hl : ∀ x ∈ l, x.length = m) (i j : Nat) (hj : j < m) :
    l.flatten[i * m + j]? = ((l[i]?).getD [])[j]? := by
  induction l generalizing i with
  | nil => simp
  | cons x l ih =>
    have hx : x.length = m := hl x (by simp)
    cases i with
    | zero => simp [List.getElem?_append, hx, hj]
    | succ i =>
      have := ih (fun y hy => hl y (by simp [hy])) i
      rw [List.flatten_cons, List.getElem?_append_right (by rw [hx, Nat.succ_mul]; omega), hx,
        show (i + 1) * m + j - m = i * m + j by rw [Nat.succ_mul]; omega, this]
      simp

theorem jo_clip {σ : Nat → Nat} (p : Params α) (clip : List (Option α) → List Bool) (hc : JoClip clip) (s : Switch) (d : Dims)
    (h : JoOrder d.ni σ) (f : Cube (Option α)) (gdq : Cube Nat) (r c i j : Nat) (hi : i < d.ni) (hj : j < d.ng - 1) :
    clipMask clip s d (diffs p d (fun i => f (σ i)) (fun i => gdq (σ i)) r c) i j = clipMask clip s d (diffs p d f gdq r c) (σ i) j := by
  obtain ⟨test, ht⟩ := hc
  have hi' := jo_lt h hi
  simp only [clipMask, ht]
  split
  · have e1 : ((List.range d.ni).map fun k => entry none (diffs p d (fun i => f (σ i)) (fun i => gdq (σ i)) r c) k j)
        = (List.range d.ni).map fun k => entry none (diffs p d f gdq r c) (σ k) j :=
      List.map_congr_left fun k hk => jo_ent p d h f gdq r c k j (List.mem_range.1 hk)
    have e2 : (((List.range d.ni).map fun k => entry none (diffs p d f gdq r c) (σ k) j : List (Option α)) : Multiset (Option α))
        = ((List.range d.ni).map fun k => entry none (diffs p d f gdq r c) k j : List (Option α)) :=
      Multiset.coe_eq_coe.2 (jo_map h fun k => entry none (diffs p d f gdq r c) k j)
    rw [e1, e2]
    simp [hi, hi']
  · rw [Multiset.coe_eq_coe.2 (jo_perm p d h f gdq r c).flatten, List.getElem?_map, List.getElem?_map]
    have e1 : (diffs p d (fun i => f (σ i)) (fun i => gdq (σ i)) r c).flatten[i * (d.ng - 1) + j]?
        = (diffs p d f gdq r c).flatten[σ i * (d.ng - 1) + j]? := by
      rw [jo_diffs', jo_diffs, jo_flat (d.ng - 1) _ _ i j hj, jo_flat (d.ng - 1) _ _ (σ i) j hj]
      · simp [hi, hi']
      · simp [joRow]
      · simp [joRow]
    rw [e1]

theorem jo_clipWords {σ : Nat → Nat} (p : Params α) (clip : List (Option α) → List Bool) (hc : JoClip clip) (s : Switch) (d : Dims)
    (h : JoOrder d.ni σ) (f : Cube (Option α)) (gdq : Cube Nat) (i : Nat) (hi : i < d.ni) :
    clipWords p clip s d (fun i => f (σ i)) (fun i => gdq (σ i)) i = clipWords p clip s d f gdq (σ i) := by
  funext g r c
  simp only [clipWords, jo_ent p d h f gdq r c i (g - 1) hi]
  by_cases hj : g - 1 < d.ng - 1
  · rw [jo_clip p clip hc s d h f gdq r c i (g - 1) hi hj]
  · have e : entry none (diffs p d f gdq r c) (σ i) (g - 1) = none := by
      rw [jd_entry, if_neg (by omega)]
    simp [e]

theorem jo_clipDetect {σ : Nat → Nat} (p : Params α) (clip : List (Option α) → List Bool) (hc : JoClip clip) (s : Switch) (d : Dims)
    (h : JoOrder d.ni σ) (f : Cube (Option α)) (gdq : Cube Nat) (i : Nat) (hi : i < d.ni) :
    clipDetect p clip s d (fun i => f (σ i)) (fun i => gdq (σ i)) i = clipDetect p clip s d f gdq (σ i) := by
  have hw := jo_clipWords p clip hc s d h f gdq i hi
  funext g r c
  simp only [clipDetect, hw]

theorem jo_single {σ : Nat → Nat} (p : Params α) (sqrt : α → α) (rn : Nat → Nat → α) (d : Dims)
    (h : JoOrder d.ni σ) (f : Cube (Option α)) (gdq : Cube Nat) (i : Nat) (hi : i < d.ni) :
    singleDetect p sqrt rn d (fun i => f (σ i)) (fun i => gdq (σ i)) i = singleDetect p sqrt rn d f gdq (σ i) := by
  funext g r c
  have hs : ∀ (f : Cube (Option α)) (gdq : Cube Nat), singleDetect p sqrt rn d f gdq
      = fun i g r c => entry 0 (List.zipWith (singlePassInt p sqrt (rn r c * rn r c) (medDiff p d f gdq r c)) (diffs p d f gdq r c)
        (pixel d gdq r c)) i g := fun _ _ => rfl
  rw [hs, hs]
  simp only [jo_med p d h, jo_diffs', pixel]
  rw [jo_diffs]
  simp only [List.zipWith_map, List.zipWith_self]
  rw [jo_entry 0 d.ni _ i g hi, jo_entry 0 d.ni _ (σ i) g (jo_lt h hi)]

theorem jo_iter {σ : Nat → Nat} (p : Params α) (sqrt : α → α) (rn : Nat → Nat → α) (d : Dims)
    (h : JoOrder d.ni σ) (f : Cube (Option α)) (gdq : Cube Nat) (i : Nat) (hi : i < d.ni) :
    iterDetect p sqrt rn d (fun i => f (σ i)) (fun i => gdq (σ i)) i = iterDetect p sqrt rn d f gdq (σ i) := by
  funext g r c
  obtain ⟨H, hH⟩ := jo_iterative p sqrt (rn r c * rn r c) (diffs p d f gdq r c)
  simp only [iterDetect, hH _ (jo_perm p d h f gdq r c), hH _ (List.Perm.refl _)]
  rw [jo_diffs', jo_diffs, List.map_map, List.map_map, jo_entry false d.ni _ i _ hi, jo_entry false d.ni _ (σ i) _ (jo_lt h hi)]
  rfl

theorem jo_detect {σ : Nat → Nat} (p : Params α) (sqrt : α → α) (clip : List (Option α) → List Bool) (hc : JoClip clip) (s : Switch)
    (d : Dims) (rn : Nat → Nat → α) (h : JoOrder d.ni σ) (f : Cube (Option α)) (gdq : Cube Nat) (i : Nat) (hi : i < d.ni) :
    detect p sqrt clip s d rn (fun i => f (σ i)) (fun i => gdq (σ i)) i = detect p sqrt clip s d rn f gdq (σ i) := by
  obtain ⟨h1, h2⟩ := jo_loop1 p d h gdq
  have hu : usesClip p s d (fun i => gdq (σ i)) = usesClip p s d gdq := by
    unfold usesClip totalGroups
    rw [h2]
  have hv : usesSingle p s d (fun i => gdq (σ i)) = usesSingle p s d gdq := by
    unfold usesSingle minUsable
    rw [h1]
  simp only [detect, hu, hv]
  split
  · exact jo_clipDetect p clip hc s d h f gdq i hi
  · split
    · exact jo_single p sqrt rn d h f gdq i hi
    · exact jo_iter p sqrt rn d h f gdq i hi

/-- Spec: putting the integrations in another order leaves the number of groups counted for sigma clipping as it is. -/
def JoLast (p : Params α) (s : Switch) (d : Dims) (gdq : Cube Nat) (σ : Nat → Nat) : Prop :=
  s.onlyInts = true ∨ jdUsable p d gdq (σ (d.ni - 1)) = jdUsable p d gdq (d.ni - 1)

theorem jo_skips {σ : Nat → Nat} (p : Params α) (s : Switch) (d : Dims) (h : JoOrder d.ni σ) (gdq : Cube Nat) (hl : JoLast p s d gdq σ)
    (hi : 0 < d.ni) : skips p s d (fun i => gdq (σ i)) = skips p s d gdq := by
  have h1 := (jo_loop1 p d h gdq).1
  unfold skips minUsable
  rw [h1]
  congr 1
  rcases hl with hl | hl
  · simp only [checkCounts, sigclipGroups, hl, if_true]
  · have e : (groupLoop p d fun i => gdq (σ i)).2.2 = (groupLoop p d gdq).2.2 := by
      have a := (jd_groupLoop p d gdq d.ni).2.2.2 hi
      have b := (jd_groupLoop p d (fun i => gdq (σ i)) d.ni).2.2.2 hi
      have x := jd_flagged p d gdq (σ (d.ni - 1))
      have y := jd_flagged p d gdq (d.ni - 1)
      refine b.trans (Eq.trans ?_ a.symm)
      change flaggedIn p d gdq (σ (d.ni - 1)) = _
      omega
    unfold checkCounts sigclipGroups
    rw [e]

theorem jo_prim {σ : Nat → Nat} (p : Params α) (d : Dims) (h : JoOrder d.ni σ) (w' w : Cube Nat) (hw : ∀ i < d.ni, w' i = w (σ i)) :
    primaries p d w' = primaries p d w := by
  unfold primaries
  congr 1
  apply List.map_congr_left
  intro r _
  unfold rowCount
  let F : Nat → Nat := fun i => ((List.range d.ng).map fun g => (List.range d.nc).countP fun c => decide (w i g r c &&& p.jump ≠ 0)).sum
  have e : ((List.range d.ni).map fun i => ((List.range d.ng).map fun g =>
      (List.range d.nc).countP fun c => decide (w' i g r c &&& p.jump ≠ 0)).sum) = (List.range d.ni).map fun i => F (σ i) := by
    apply List.map_congr_left
    intro i hi
    rw [hw i (List.mem_range.1 hi)]
  rw [e]
  exact (jo_map h F).sum_eq

theorem jo_find {σ : Nat → Nat} (p : Params α) (sqrt : α → α) (clip : List (Option α) → List Bool) (hc : JoClip clip) (s : Switch)
    (d : Dims) (rn : Nat → Nat → α) (h : JoOrder d.ni σ) (f : Cube (Option α)) (gdq : Cube Nat) (hl : JoLast p s d gdq σ) (i : Nat)
    (hi : i < d.ni) :
    let a := findCrs p sqrt clip s d rn (fun i => f (σ i)) (fun i => gdq (σ i))
    let b := findCrs p sqrt clip s d rn f gdq
    a.gdq i = b.gdq (σ i) ∧ a.below i = b.below (σ i) ∧ a.above i = b.above (σ i) ∧ a.count = b.count := by
  have hw : ∀ i < d.ni, detect p sqrt clip s d rn (fun i => f (σ i)) (fun i => gdq (σ i)) i = detect p sqrt clip s d rn f gdq (σ i) :=
    fun i hi => jo_detect p sqrt clip hc s d rn h f gdq i hi
  simp only [findCrs, jo_skips p s d h gdq hl (by omega)]
  split
  · exact ⟨rfl, rfl, rfl, rfl⟩
  · have hr : ∀ j, ratioPlane p sqrt d rn (fun i => f (σ i)) (fun i => gdq (σ i)) i j = ratioPlane p sqrt d rn f gdq (σ i) j := by
      intro j
      funext r c
      simp only [ratioPlane, jo_med p d h, jo_ent p d h f gdq r c i j hi]
    have hn : ∀ g, neighborPlane p sqrt s d rn (fun i => f (σ i)) (fun i => gdq (σ i))
        (detect p sqrt clip s d rn (fun i => f (σ i)) fun i => gdq (σ i)) i g
        = neighborPlane p sqrt s d rn f gdq (detect p sqrt clip s d rn f gdq) (σ i) g := by
      intro g
      simp only [neighborPlane, hr, hw i hi]
    refine ⟨?_, ?_, ?_, ?_⟩
    · funext g r c
      simp only [transient, hn, jo_med p d h]
      have : (fun j x => entry none (diffs p d (fun i => f (σ i)) (fun i => gdq (σ i)) (x / d.nc) (x % d.nc)) i j)
          = fun j x => entry none (diffs p d f gdq (x / d.nc) (x % d.nc)) (σ i) j := by
        funext j x
        exact jo_ent p d h f gdq _ _ i j hi
      rw [this]
    · funext g
      simp only [hn]
    · funext g
      simp only [hn]
    · exact congrArg Nat.cast (jo_prim p d h _ _ hw)

/-! ## C153 -/

/-- C153 (one process).  With the integrations in another order, jump detection by two-point differences gives the same words for each
integration, in the other order, and the same number of cosmic rays -- whichever of the three searches is used, with the neighbours and
the groups after a jump -- if the groups are counted over integrations only, or if the integration that comes last has as many usable
groups as the one that came last before. -/
theorem C153_one_process (p : Params α) (sqrt : α → α) (clip : List (Option α) → List Bool) (hc : JoClip clip) (s : Switch)
    (e : Exposure α) (cores : List Char) (ncpu : Nat) (h1 : Slicing.computeNumCores cores e.d.nr ncpu = 1) (σ : Nat → Nat)
    (hσ : JoOrder e.d.ni σ)
    (hl : s.onlyInts = true ∨ jdUsable p e.d e.gdq (σ (e.d.ni - 1)) = jdUsable p e.d e.gdq (e.d.ni - 1)) :
    let o := detectJumps p sqrt clip s e cores ncpu
    let o' := detectJumps p sqrt clip s (joExp σ e) cores ncpu
    ∀ i < e.d.ni, (∀ g r c, o'.1 i g r c = o.1 (σ i) g r c) ∧ o'.2 = o.2 := by
  intro o o' i hi
  have hf := jo_find (stepParams p e) sqrt clip hc { s with minGroups := 3 } e.d (noiseElectrons e) hσ (electrons e) e.gdq hl i hi
  obtain ⟨f1, -, -, f4⟩ := hf
  have ho : o = (fun i g r c => cleanup p ((findCrs (stepParams p e) sqrt clip { s with minGroups := 3 } e.d (noiseElectrons e)
      (electrons e) e.gdq).gdq i g r c), (findCrs (stepParams p e) sqrt clip { s with minGroups := 3 } e.d (noiseElectrons e)
      (electrons e) e.gdq).count, 0) := by
    simp only [o, detectJumps, twoPoint, h1, if_true]
  have ho' : o' = (fun i g r c => cleanup p ((findCrs (stepParams p e) sqrt clip { s with minGroups := 3 } e.d (noiseElectrons e)
      (fun i => electrons e (σ i)) fun i => e.gdq (σ i)).gdq i g r c), (findCrs (stepParams p e) sqrt clip { s with minGroups := 3 } e.d
      (noiseElectrons e) (fun i => electrons e (σ i)) fun i => e.gdq (σ i)).count, 0) := by
    have : Slicing.computeNumCores cores (joExp σ e).d.nr ncpu = 1 := h1
    simp only [o', detectJumps, twoPoint, this, if_true]
    rfl
  rw [ho, ho']
  refine ⟨fun g r c => ?_, ?_⟩
  · simp only [f1]
  · simp only [f4]

/-- C153 (any number of processes), groups counted over integrations only. -/
theorem C153_only_ints (p : Params α) (sqrt : α → α) (clip : List (Option α) → List Bool) (hc : JoClip clip) (s : Switch)
    (hs : s.onlyInts = true) (e : Exposure α) (cores : List Char) (ncpu : Nat) (σ : Nat → Nat) (hσ : JoOrder e.d.ni σ) :
    let o := detectJumps p sqrt clip s e cores ncpu
    let o' := detectJumps p sqrt clip s (joExp σ e) cores ncpu
    ∀ i < e.d.ni, (∀ g r c, o'.1 i g r c = o.1 (σ i) g r c) ∧ o'.2 = o.2 := by
  intro o o' i hi
  by_cases h1 : Slicing.computeNumCores cores e.d.nr ncpu = 1
  · exact C153_one_process p sqrt clip hc s e cores ncpu h1 σ hσ (Or.inl hs) i hi
  · set n := Slicing.computeNumCores cores e.d.nr ncpu with hn
    have hk : ∀ k, let a := sliceFound (stepParams p e) sqrt clip s e.d (noiseElectrons e) (fun i => electrons e (σ i)) (fun i => e.gdq (σ i)) n k;
        let b := sliceFound (stepParams p e) sqrt clip s e.d (noiseElectrons e) (electrons e) e.gdq n k;
        a.gdq i = b.gdq (σ i) ∧ a.below i = b.below (σ i) ∧ a.above i = b.above (σ i) ∧ a.count = b.count := by
      intro k
      exact jo_find (stepParams p e) sqrt clip hc s { e.d with nr := if n = k + 1 then e.d.nr - k * (e.d.nr / n) else e.d.nr / n } _ hσ
        (fromRow (k * (e.d.nr / n)) (electrons e)) (fromRow (k * (e.d.nr / n)) e.gdq) (Or.inl hs) i hi
    have ho : o = (fun i g r c => cleanup p ((multi (stepParams p e) sqrt clip s e.d (noiseElectrons e) (electrons e) e.gdq n).1 i g r c),
        (multi (stepParams p e) sqrt clip s e.d (noiseElectrons e) (electrons e) e.gdq n).2, 0) := by
      simp only [o, detectJumps, twoPoint, ← hn, h1, if_false]
    have ho' : o' = (fun i g r c => cleanup p ((multi (stepParams p e) sqrt clip s e.d (noiseElectrons e) (fun i => electrons e (σ i))
        (fun i => e.gdq (σ i)) n).1 i g r c), (multi (stepParams p e) sqrt clip s e.d (noiseElectrons e) (fun i => electrons e (σ i))
        (fun i => e.gdq (σ i)) n).2, 0) := by
      have : ¬ Slicing.computeNumCores cores (joExp σ e).d.nr ncpu = 1 := h1
      simp only [o', detectJumps, twoPoint, this, if_false]
      rfl
    rw [ho, ho']
    refine ⟨fun g r c => ?_, ?_⟩
    · simp only [multi, (hk _).1, (hk _).2.1, (hk _).2.2.1]
    · simp only [multi, (hk _).2.2.2]

end

/-! ## Examples -/

/-- Example: two integrations; in the second the first three groups are unusable, in the first there is a jump. -/
def joData : Exposure ℚ :=
  ⟨⟨2, 5, 2, 2⟩, fun i g r c => if i = 0 ∧ r = 0 ∧ c = 0 then jdData i g r c else some (g : ℚ), fun i g _ _ => if i = 1 ∧ g < 3 then 1 else 0,
    fun _ _ => some 1, jdRn, fun _ _ => 0, 100, 1000⟩

/-- Example: the other order of two integrations. -/
def joSwap : Nat → Nat := fun i => 1 - i

theorem jo_swap : JoOrder 2 joSwap := by unfold JoOrder joSwap; decide

theorem jo_rule : JoClip jdClipRule := ⟨fun _ x => match x with | some y => decide (50 < y) | none => false, fun _ => rfl⟩

-- C153_one_process, C153_only_ints: the jump of the first integration is found in the second one of the reordered exposure
example : Slicing.computeNumCores "none".toList joData.d.nr 8 = 1 ∧ Slicing.computeNumCores "2".toList joData.d.nr 8 = 2
    ∧ (detectJumps exJump id jdClipRule ⟨3, 2, 2, true, true⟩ joData "none".toList 8).1 0 3 0 0 = 4
    ∧ (detectJumps exJump id jdClipRule ⟨3, 2, 2, true, true⟩ (joExp joSwap joData) "none".toList 8).1 1 3 0 0 = 4
    ∧ (detectJumps exJump id jdClipRule ⟨3, 2, 2, true, true⟩ joData "2".toList 8).1 0 3 0 0 = 4
    ∧ (detectJumps exJump id jdClipRule ⟨3, 2, 2, true, true⟩ (joExp joSwap joData) "2".toList 8).1 1 3 0 0 = 4 := by
  decide +kernel

/-- Finding (twopoint_difference.py:663-666).  The number of groups for sigma clipping is the number of all groups less the unusable ones
of the last integration only.  With an integration of too few groups and a minimum of eight groups, detection is skipped if that
integration comes last (no jump found, -99 reported) and carried out if it comes first. -/
theorem C153_last_integration :
    (detectJumps exJump id jdClipRule ⟨3, 8, 2, false, true⟩ joData "none".toList 8).2.1 = -99
    ∧ (detectJumps exJump id jdClipRule ⟨3, 8, 2, false, true⟩ joData "none".toList 8).1 0 3 0 0 = 0
    ∧ (detectJumps exJump id jdClipRule ⟨3, 8, 2, false, true⟩ (joExp joSwap joData) "none".toList 8).2.1 = 1
    ∧ (detectJumps exJump id jdClipRule ⟨3, 8, 2, false, true⟩ (joExp joSwap joData) "none".toList 8).1 1 3 0 0 = 4 := by
  decide +kernel

end Verif.Thm
