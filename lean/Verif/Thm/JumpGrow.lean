import Verif.Thm.JumpDriver

/-!
# C154: what the flagging of neighbours and of groups after a jump adds

`find_crs` (twopoint_difference.py:11-76) with and without `flag_four_neighbors` (twopoint_difference.py:491-555) and `transient_jumps`
(twopoint_difference.py:558-601).
-/

namespace Verif.Thm

open Verif Verif.Jump Verif.JumpDriver

section
variable {α : Type} [Field α] [LinearOrder α]

/-- Spec: the pixel itself or one of its four neighbours inside a frame of `nr` rows and `nc` columns. -/
def GwNear (nr nc r c r' c' : Nat) : Prop :=
  r' < nr ∧ c' < nc ∧ (r' = r ∧ (c' = c ∨ c' = c + 1 ∨ c = c' + 1) ∨ c' = c ∧ (r' = r + 1 ∨ r = r' + 1))

/-- Spec: the difference leading to group `g` lies more than `lo` and less than `hi` standard deviations from the median difference. -/
def GwWindow (p : Params α) (sqrt : α → α) (d : Dims) (rn : Nat → Nat → α) (data : Cube (Option α)) (gdq : Cube Nat) (lo hi : α)
    (i g r c : Nat) : Prop :=
  ∃ x m, jdDiff p data gdq i (g - 1) r c = some x ∧ nanmedian (jdDiffs p d data gdq r c).flatten = some m ∧
    let s := sqrt (|m| * p.dt (g - 1) + rn r c * rn r c / (1 / 2 * p.nReads (g - 1))) / p.dt (g - 1)
    s ≠ 0 ∧ lo < |x - m| / s ∧ |x - m| / s < hi

/-- Spec: the difference leading to group `g` exceeds the median difference by at least `e` counts. -/
def GwLarge (p : Params α) (d : Dims) (data : Cube (Option α)) (gdq : Cube Nat) (e : α) (i g r c : Nat) : Prop :=
  1 ≤ g ∧ ∃ x m, jdDiff p data gdq i (g - 1) r c = some x ∧ nanmedian (jdDiffs p d data gdq r c).flatten = some m ∧
    e ≤ (x - m) * p.dt (g - 1)

/-- Parameters without flagging of groups after a jump. -/
def gwOff (p : Params α) : Params α := { p with n1 := 0, n2 := 0 }

theorem gw_loop (p : Params α) (sqrt : α → α) (rn2 : α) (fuel : Nat) (fa : List (List (Option α))) (acc : List (List Bool)) :
    iterLoop (gwOff p) sqrt rn2 fuel fa acc = iterLoop p sqrt rn2 fuel fa acc := by
  induction fuel generalizing fa acc with
  | zero => rfl
  | succ fuel ih =>
    have hn : newCr (gwOff p) sqrt rn2 fa = newCr p sqrt rn2 fa := rfl
    simp only [iterLoop, hn, ih]

theorem gw_detect (p : Params α) (sqrt : α → α) (clip : List (Option α) → List Bool) (s : Switch) (b : Bool) (d : Dims)
    (rn : Nat → Nat → α) (data : Cube (Option α)) (gdq : Cube Nat) :
    detect (gwOff p) sqrt clip { s with flag4 := b } d rn data gdq = detect p sqrt clip s d rn data gdq := by
  have e1 : usesClip (gwOff p) { s with flag4 := b } d gdq = usesClip p s d gdq := rfl
  have e2 : usesSingle (gwOff p) { s with flag4 := b } d gdq = usesSingle p s d gdq := rfl
  have e3 : clipDetect (gwOff p) clip { s with flag4 := b } d data gdq = clipDetect p clip s d data gdq := rfl
  have e4 : singleDetect (gwOff p) sqrt rn d data gdq = singleDetect p sqrt rn d data gdq := rfl
  have e5 : iterDetect (gwOff p) sqrt rn d data gdq = iterDetect p sqrt rn d data gdq := by
    have hd : ∀ r c, diffs (gwOff p) d data gdq r c = diffs p d data gdq r c := fun _ _ => rfl
    have ht : ∀ x f, iterative (gwOff p) sqrt x f = iterative p sqrt x f := fun _ _ => gw_loop p sqrt _ _ _ _
    funext i g r c
    unfold iterDetect
    rw [hd, ht]
    rfl
  simp only [detect, e1, e2, e3, e4, e5]

theorem gw_primary (p : Params α) (sqrt : α → α) (d : Dims) (rn : Nat → Nat → α) (data : Cube (Option α)) (gdq : Cube Nat) (w : Img Nat)
    (i g r c : Nat) (hi : i < d.ni) (h1 : 1 ≤ g) (hg : g < d.ng) :
    primary p (ratioPlane p sqrt d rn data gdq i (g - 1)) w r c = true
      ↔ Dq.Has (w r c) p.jump ∧ GwWindow p sqrt d rn data gdq p.minNeighbor p.maxNeighbor i g r c := by
  simp only [primary, Bool.and_eq_true, decide_eq_true_iff, ratioPlane, medDiff, GwWindow, Dq.Has]
  rw [jd_entry, if_pos ⟨hi, by omega⟩, jd_diffs]
  cases hx : jdDiff p data gdq i (g - 1) r c with
  | none => simp [ratio, lt]
  | some x =>
    cases hm : nanmedian (jdDiffs p d data gdq r c).flatten with
    | none => simp [ratio, lt]
    | some m =>
      simp only [sigma]
      by_cases hs : sqrt (|m| * p.dt (g - 1) + rn r c * rn r c / (1 / 2 * p.nReads (g - 1))) / p.dt (g - 1) = 0
      · rw [if_pos hs]
        simp only [ratio, lt]
        constructor
        · rintro ⟨⟨h, -⟩, -⟩
          cases h
        · rintro ⟨-, x', m', hx', hm', h, -⟩
          cases hx'
          cases hm'
          exact absurd hs h
      · rw [if_neg hs]
        simp only [ratio, lt, gt, decide_eq_true_iff]
        constructor
        · rintro ⟨⟨ha, hb⟩, hw⟩
          exact ⟨hw, x, m, rfl, rfl, hs, hb, ha⟩
        · rintro ⟨hw, x', m', hx', hm', -, hb, ha⟩
          cases hx'
          cases hm'
          exact ⟨⟨ha, hb⟩, hw⟩

theorem gw_dilate (nr nc : Nat) (f : Img Bool) (r c : Nat) (hr : r < nr) (hc : c < nc) :
    dilate4 nr nc f r c = true ↔ ∃ r' c', GwNear nr nc r c r' c' ∧ f r' c' = true := by
  simp only [dilate4, Bool.or_eq_true, Bool.and_eq_true, decide_eq_true_iff]
  constructor
  · rintro ((((h | ⟨h0, h⟩) | ⟨h0, h⟩) | ⟨h0, h⟩) | ⟨h0, h⟩)
    · exact ⟨r, c, by unfold GwNear; omega, h⟩
    · exact ⟨r - 1, c, by unfold GwNear; omega, h⟩
    · exact ⟨r + 1, c, by unfold GwNear; omega, h⟩
    · exact ⟨r, c - 1, by unfold GwNear; omega, h⟩
    · exact ⟨r, c + 1, by unfold GwNear; omega, h⟩
  · rintro ⟨r', c', ⟨h1, h2, ⟨rfl, h3⟩ | ⟨rfl, h3⟩⟩, h⟩
    · rcases h3 with rfl | rfl | rfl
      · exact Or.inl (Or.inl (Or.inl (Or.inl h)))
      · exact Or.inr ⟨h2, h⟩
      · exact Or.inl (Or.inr ⟨by omega, h⟩)
    · rcases h3 with rfl | rfl
      · exact Or.inl (Or.inl (Or.inr ⟨h1, h⟩))
      · exact Or.inl (Or.inl (Or.inl (Or.inr ⟨by omega, h⟩)))

/-! ## C154 -/

/-- C154 (neighbours).  If detection is not skipped, flagging of neighbours adds JUMP_DET to a sample exactly if it is neither saturated nor
unusable and it or one of its four neighbours inside the frame was detected as a jump in the same group and stands out by more than the
lower and less than the upper limit; nothing is added in the first group, and no other word changes. -/
theorem C154_neighbours (p : Params α) (sqrt : α → α) (clip : List (Option α) → List Bool) (s : Switch) (d : Dims)
    (rn : Nat → Nat → α) (data : Cube (Option α)) (gdq : Cube Nat) (hfew : ¬ JdTooFew p s d gdq) (i g r c : Nat)
    (hi : i < d.ni) (hg : g < d.ng) (hr : r < d.nr) (hc : c < d.nc) :
    let o := (findCrs (gwOff p) sqrt clip { s with flag4 := false } d rn data gdq).gdq
    let m := (findCrs (gwOff p) sqrt clip { s with flag4 := true } d rn data gdq).gdq
    let grown := 1 ≤ g ∧ ¬ Dq.Has (o i g r c) (p.sat ||| p.dnu) ∧ ∃ r' c', GwNear d.nr d.nc r c r' c' ∧ Dq.Has (o i g r' c') p.jump
      ∧ GwWindow p sqrt d rn data gdq p.minNeighbor p.maxNeighbor i g r' c'
    (grown → m i g r c = o i g r c ||| p.jump) ∧ (¬ grown → m i g r c = o i g r c) := by
  have hi0 : 0 < d.ni := by omega
  intro o m grown
  have ho : o = detect p sqrt clip s d rn data gdq := by
    rw [← gw_detect p sqrt clip s false]
    exact jd_plain (gwOff p) sqrt clip { s with flag4 := false } d rn data gdq hi0 hfew rfl rfl rfl
  have hm : m i g r c = (neighborPlane p sqrt { s with flag4 := true } d rn data gdq o i g).gdq r c := by
    rw [ho]
    simp only [m]
    rw [jd_run (gwOff p) sqrt clip { s with flag4 := true } d rn data gdq hi0 hfew, gw_detect]
    simp only [transient, gwOff, lt_irrefl, or_self, if_false]
    rfl
  clear_value o
  by_cases h1 : 1 ≤ g
  · have hd : (neighborPlane p sqrt { s with flag4 := true } d rn data gdq o i g).gdq r c
        = if decide (o i g r c &&& (p.sat ||| p.dnu) = 0)
            && dilate4 d.nr d.nc (primary p (ratioPlane p sqrt d rn data gdq i (g - 1)) (o i g)) r c then o i g r c ||| p.jump
          else o i g r c := by
      simp only [neighborPlane, h1, decide_true, Bool.and_self, if_true, fourNeighbors]
    have hiff : (decide (o i g r c &&& (p.sat ||| p.dnu) = 0)
            && dilate4 d.nr d.nc (primary p (ratioPlane p sqrt d rn data gdq i (g - 1)) (o i g)) r c) = true ↔ grown := by
      rw [Bool.and_eq_true, decide_eq_true_iff, gw_dilate _ _ _ _ _ hr hc]
      simp only [gw_primary p sqrt d rn data gdq (o i g) i g _ _ hi h1 hg, grown, Dq.Has, not_not, h1, true_and, ne_eq]
    rw [hm, hd]
    exact ⟨fun h => if_pos (hiff.2 h), fun h => if_neg (fun h' => h (hiff.1 h'))⟩
  · refine ⟨fun h => absurd h.1 h1, fun _ => ?_⟩
    rw [hm]
    simp [neighborPlane, h1]

/-- C154 (groups after a jump).  If detection is not skipped, flagging of the groups after a jump adds JUMP_DET to a sample exactly if it is
neither saturated nor unusable and lies at most `n1` groups after a jump -- of the same pixel and integration, detected or neighbour of a
detected one -- that exceeds the median by at least `e1` counts, or at most `n2` groups after one that exceeds it by at least `e2`; no
other word changes. -/
theorem C154_after_jump (p : Params α) (a : Nat) (ha : p.jump = 2 ^ a) (sqrt : α → α) (clip : List (Option α) → List Bool) (s : Switch)
    (d : Dims) (rn : Nat → Nat → α) (data : Cube (Option α)) (gdq : Cube Nat) (hfew : ¬ JdTooFew p s d gdq) (i g r c : Nat)
    (hi : i < d.ni) (hg : g < d.ng) (hc : c < d.nc) :
    let m := (findCrs (gwOff p) sqrt clip s d rn data gdq).gdq
    let f := (findCrs p sqrt clip s d rn data gdq).gdq
    let after := ¬ Dq.Has (m i g r c) (p.sat ||| p.dnu) ∧
      ((∃ g0, g0 ≤ g ∧ g ≤ g0 + p.n1 ∧ Dq.Has (m i g0 r c) p.jump ∧ GwLarge p d data gdq p.e1 i g0 r c) ∨
       (∃ g0, g0 ≤ g ∧ g ≤ g0 + p.n2 ∧ Dq.Has (m i g0 r c) p.jump ∧ GwLarge p d data gdq p.e2 i g0 r c))
    (after → f i g r c = m i g r c ||| p.jump) ∧ (¬ after → f i g r c = m i g r c) := by
  have hi0 : 0 < d.ni := by omega
  intro m f after
  have hf : f i g r c = transient p d data gdq m i g r c := by
    simp only [f, m]
    rw [jd_run p sqrt clip s d rn data gdq hi0 hfew, jd_run (gwOff p) sqrt clip s d rn data gdq hi0 hfew,
      show detect (gwOff p) sqrt clip s d rn data gdq = detect p sqrt clip s d rn data gdq from gw_detect p sqrt clip s s.flag4 d rn data gdq]
    simp only [transient, gwOff, lt_irrefl, or_self, if_false]
    rfl
  clear_value m
  rw [hf]
  have hL : ∀ e g0, g0 ≤ g → (LargeJump p (fun j x => entry none (diffs p d data gdq (x / d.nc) (x % d.nc)) i j)
      (fun x => medDiff p d data gdq (x / d.nc) (x % d.nc)) (fun k x => m i k (x / d.nc) (x % d.nc)) e g0 (r * d.nc + c)
      ↔ Dq.Has (m i g0 r c) p.jump ∧ GwLarge p d data gdq e i g0 r c) := by
    intro e g0 hle
    obtain ⟨e1, e2⟩ := jd_index d.nc r c hc
    simp only [LargeJump, GwLarge, e1, e2, medDiff, jd_entry]
    rw [jd_diffs]
    by_cases h1 : 1 ≤ g0
    · have hlt : i < d.ni ∧ g0 - 1 + 1 < d.ng := ⟨hi, by omega⟩
      simp only [hlt, and_self, if_true]
      tauto
    · tauto
  unfold transient
  split
  · obtain ⟨h1, h2⟩ := C24_transients_exact p d.ng (d.nr * d.nc)
      (fun j x => entry none (diffs p d data gdq (x / d.nc) (x % d.nc)) i j)
      (fun x => medDiff p d data gdq (x / d.nc) (x % d.nc)) (fun k x => m i k (x / d.nc) (x % d.nc)) g (r * d.nc + c) hg
    obtain ⟨e1, e2⟩ := jd_index d.nc r c hc
    simp only [e1, e2] at h1 h2
    have hex : ∀ e n, (∃ g0, g0 ≤ g ∧ g ≤ g0 + n ∧ LargeJump p (fun j x => entry none (diffs p d data gdq (x / d.nc) (x % d.nc)) i j)
          (fun x => medDiff p d data gdq (x / d.nc) (x % d.nc)) (fun k x => m i k (x / d.nc) (x % d.nc)) e g0 (r * d.nc + c))
        ↔ ∃ g0, g0 ≤ g ∧ g ≤ g0 + n ∧ Dq.Has (m i g0 r c) p.jump ∧ GwLarge p d data gdq e i g0 r c := fun e n =>
      ⟨fun ⟨g0, x, y, z⟩ => ⟨g0, x, y, (hL e g0 x).1 z⟩, fun ⟨g0, x, y, z⟩ => ⟨g0, x, y, (hL e g0 x).2 z⟩⟩
    rw [hex, hex] at h1 h2
    exact ⟨h1, h2⟩
  · rename_i hn
    refine ⟨fun h => ?_, fun _ => rfl⟩
    have hj : Dq.Has (m i g r c) p.jump := by
      rcases h.2 with ⟨g0, x, y, z, -⟩ | ⟨g0, x, y, z, -⟩
      · have : g0 = g := by omega
        rwa [this] at z
      · have : g0 = g := by omega
        rwa [this] at z
    rw [ha] at hj ⊢
    unfold Dq.Has at hj
    rw [Nat.and_two_pow] at hj
    have hb : (m i g r c).testBit a = true := by
      cases hb : (m i g r c).testBit a with
      | true => rfl
      | false => simp [hb] at hj
    apply Nat.eq_of_testBit_eq
    intro k
    rw [Nat.testBit_or, Nat.testBit_two_pow]
    by_cases hk : a = k
    · subst hk
      simp [hb]
    · simp [hk]

end

/-! ## Examples -/

/-- Example: one jump in the middle of a 3×3 frame, six groups; the pixel to the left is saturated from group 2 on. -/
def gwData : Cube (Option ℚ) := fun _ g r c => some ((g : ℚ) + if 2 ≤ g ∧ r = 1 ∧ c = 1 then 150 else 0)
def gwDq : Cube Nat := fun _ g r c => if 2 ≤ g ∧ r = 1 ∧ c = 0 then 2 else 0
def gwDim : Dims := ⟨1, 6, 3, 3⟩
def gwSw : Switch := ⟨3, 100, 2, true, true⟩

-- C154_neighbours, C154_after_jump: the jump is detected in group 2, its unsaturated neighbours are added, and one group more for the jump
example : ¬ JdTooFew exJump gwSw gwDim gwDq
    ∧ (let o := (findCrs (gwOff exJump) id jdClipRule { gwSw with flag4 := false } gwDim (fun _ _ => 1) gwData gwDq).gdq
      (List.range 3).map (fun r => (List.range 3).map fun c => o 0 2 r c) = [[0, 0, 0], [2, 4, 0], [0, 0, 0]])
    ∧ (let m := (findCrs (gwOff exJump) id jdClipRule { gwSw with flag4 := true } gwDim (fun _ _ => 1) gwData gwDq).gdq
      (List.range 3).map (fun r => (List.range 3).map fun c => m 0 2 r c) = [[0, 4, 0], [2, 4, 4], [0, 4, 0]])
    ∧ (let f := (findCrs exJump id jdClipRule gwSw gwDim (fun _ _ => 1) gwData gwDq).gdq
      (List.range 6).map (fun g => f 0 g 1 1) = [0, 0, 4, 4, 0, 0]) := by decide +kernel

-- the limits are strict: a jump that stands out by exactly the lower or the upper limit does not grow; here the ratio is 50
example :
    let grows := fun (lo hi : ℚ) => (findCrs { gwOff exJump with minNeighbor := lo, maxNeighbor := hi } id jdClipRule gwSw gwDim
      (fun _ _ => 1) gwData gwDq).gdq 0 2 0 1
    grows 10 200 = 4 ∧ grows 10 50 = 0 ∧ grows 50 200 = 0 ∧ grows 10 51 = 4 ∧ grows 49 200 = 4 := by decide +kernel

end Verif.Thm
