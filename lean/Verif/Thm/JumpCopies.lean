import Verif.Thm.JumpOrder
import Verif.Thm.RepeatImages

/-!
# C178: repeating the integrations in jump detection

Two-point difference jump detection (jump.py:67-103, twopoint_difference.py:11-76) of an exposure in which every integration occurs
several times.
-/

set_option linter.unusedSectionVars false

namespace Verif.Thm

open Verif Verif.Jump Verif.JumpDriver

section
variable {α : Type} [Field α] [LinearOrder α]

/-- Spec: the `m` integrations `σ 0, σ 1, ...` are `k` copies of each of the integrations `0, ..., n - 1`, in any order. -/
def JcCopies (k n m : Nat) (σ : Nat → Nat) : Prop := RpCopies k (List.range n) ((List.range m).map σ)

/-- Spec: the exposure made of `m` integrations, the `i`-th of which is the integration `σ i` of `e`. -/
def jcExp (m : Nat) (σ : Nat → Nat) (e : Exposure α) : Exposure α :=
  { e with d := { e.d with ni := m }, data := fun i => e.data (σ i), gdq := fun i => e.gdq (σ i) }

/-- Spec: what sigma clipping rejects depends on a value and on the values it is compared with, not on where they stand, and not on
whether every one of them is given once or `k` times (as for median and standard deviation). -/
def JcClip (k : Nat) (clip : List (Option α) → List Bool) : Prop :=
  ∃ test : Multiset (Option α) → Option α → Bool, (∀ l, clip l = l.map (test (l : Multiset (Option α)))) ∧ ∀ S, test (k • S) = test S

theorem jc_multiset {β : Type} {k : Nat} {l l' : List β} (h : RpCopies k l l') : (l' : Multiset β) = k • (l : Multiset β) := by
  rw [Multiset.coe_eq_coe.2 h]
  induction k generalizing l' with
  | zero => simp
  | succ k ih =>
    rw [List.replicate_succ, List.flatten_cons, ← Multiset.coe_add, ih (l' := (List.replicate k l).flatten) (List.Perm.refl _), succ_nsmul, add_comm]

theorem jc_flatten {β : Type} {k : Nat} {l l' : List (List β)} (h : RpCopies k l l') : RpCopies k l.flatten l'.flatten := by
  have h2 : l'.flatten.Perm ((List.replicate k l).flatten).flatten := List.Perm.flatten h
  refine h2.trans (List.Perm.of_eq ?_)
  clear h h2
  induction k with
  | zero => simp
  | succ k ih => simp [List.replicate_succ, ih]

theorem jc_nsum {β : Type} {k : Nat} {l l' : List β} (h : RpCopies k l l') (f : β → Nat) : (l'.map f).sum = k * (l.map f).sum := by
  have h2 : (l'.map f).sum = (((List.replicate k l).flatten).map f).sum := (h.map f).sum_eq
  rw [h2]
  clear h h2
  induction k with
  | zero => simp
  | succ k ih =>
    rw [List.replicate_succ, List.flatten_cons, List.map_append, List.sum_append, ih]
    ring

theorem jc_lt {k n m : Nat} (hk : 0 < k) {σ : Nat → Nat} (h : JcCopies k n m σ) {i : Nat} (hi : i < m) : σ i < n := by
  have : σ i ∈ (List.range m).map σ := List.mem_map_of_mem (List.mem_range.2 hi)
  exact List.mem_range.1 ((rp_mem hk h _).1 this)

theorem jc_map {β : Type} {k n m : Nat} {σ : Nat → Nat} (h : JcCopies k n m σ) (f : Nat → β) :
    RpCopies k ((List.range n).map f) ((List.range m).map fun i => f (σ i)) := by
  have := rp_copies_map h f
  rwa [List.map_map] at this

theorem jc_sum {k n m : Nat} {σ : Nat → Nat} (h : JcCopies k n m σ) (f : Nat → Nat) :
    ((List.range m).map fun i => f (σ i)).sum = k * ((List.range n).map f).sum := by
  have := jc_nsum h f
  rwa [List.map_map] at this

theorem jc_len {k n m : Nat} {σ : Nat → Nat} (h : JcCopies k n m σ) : m = k * n := by
  have := h.length_eq
  simpa using this

section
variable {k : Nat} (hk : 0 < k) {m : Nat} {σ : Nat → Nat} (p : Params α) (d : Dims) (h : JcCopies k d.ni m σ)
include h

theorem jc_diffs (f : Cube (Option α)) (gdq : Cube Nat) (r c : Nat) :
    diffs p { d with ni := m } (fun i => f (σ i)) (fun i => gdq (σ i)) r c = (List.range m).map fun i => joRow p d f gdq r c (σ i) :=
  jd_diffs p { d with ni := m } (fun i => f (σ i)) (fun i => gdq (σ i)) r c

theorem jc_copies (f : Cube (Option α)) (gdq : Cube Nat) (r c : Nat) :
    RpCopies k (diffs p d f gdq r c) (diffs p { d with ni := m } (fun i => f (σ i)) (fun i => gdq (σ i)) r c) := by
  rw [jc_diffs p d h, jo_diffs]
  exact jc_map h (joRow p d f gdq r c)

include hk

theorem jc_med [IsStrictOrderedRing α] (f : Cube (Option α)) (gdq : Cube Nat) (r c : Nat) :
    medDiff p { d with ni := m } (fun i => f (σ i)) (fun i => gdq (σ i)) r c = medDiff p d f gdq r c :=
  rp_nanmedian hk (jc_flatten (jc_copies p d h f gdq r c))

theorem jc_ent (f : Cube (Option α)) (gdq : Cube Nat) (r c i j : Nat) (hi : i < m) :
    entry none (diffs p { d with ni := m } (fun i => f (σ i)) (fun i => gdq (σ i)) r c) i j
      = entry none (diffs p d f gdq r c) (σ i) j := by
  rw [jc_diffs p d h, jo_diffs, jo_entry none m _ i j hi, jo_entry none d.ni _ (σ i) j (jc_lt hk h hi)]

theorem jc_clip (clip : List (Option α) → List Bool) (hc : JcClip k clip) (s : Switch)
    (f : Cube (Option α)) (gdq : Cube Nat) (r c i j : Nat) (hi : i < m) (hj : j < d.ng - 1) :
    clipMask clip s { d with ni := m } (diffs p { d with ni := m } (fun i => f (σ i)) (fun i => gdq (σ i)) r c) i j
      = clipMask clip s d (diffs p d f gdq r c) (σ i) j := by
  obtain ⟨test, ht, hq⟩ := hc
  have hi' := jc_lt hk h hi
  simp only [clipMask, ht]
  split
  · have e1 : ((List.range m).map fun q => entry none (diffs p { d with ni := m } (fun i => f (σ i)) (fun i => gdq (σ i)) r c) q j)
        = (List.range m).map fun q => entry none (diffs p d f gdq r c) (σ q) j :=
      List.map_congr_left fun q hq => jc_ent hk p d h f gdq r c q j (List.mem_range.1 hq)
    rw [e1, jc_multiset (jc_map h fun q => entry none (diffs p d f gdq r c) q j), hq]
    simp [hi, hi']
  · rw [jc_multiset (jc_flatten (jc_copies p d h f gdq r c)), hq, List.getElem?_map, List.getElem?_map]
    have e1 : (diffs p { d with ni := m } (fun i => f (σ i)) (fun i => gdq (σ i)) r c).flatten[i * (d.ng - 1) + j]?
        = (diffs p d f gdq r c).flatten[σ i * (d.ng - 1) + j]? := by
      rw [jc_diffs p d h, jo_diffs, jo_flat (d.ng - 1) _ _ i j hj, jo_flat (d.ng - 1) _ _ (σ i) j hj]
      · simp [hi, hi']
      · simp [joRow]
      · simp [joRow]
    rw [e1]

theorem jc_clipWords (clip : List (Option α) → List Bool) (hc : JcClip k clip) (s : Switch)
    (f : Cube (Option α)) (gdq : Cube Nat) (i : Nat) (hi : i < m) :
    clipWords p clip s { d with ni := m } (fun i => f (σ i)) (fun i => gdq (σ i)) i = clipWords p clip s d f gdq (σ i) := by
  funext g r c
  simp only [clipWords, jc_ent hk p d h f gdq r c i (g - 1) hi]
  by_cases hj : g - 1 < d.ng - 1
  · rw [jc_clip hk p d h clip hc s f gdq r c i (g - 1) hi hj]
  · have e : entry none (diffs p d f gdq r c) (σ i) (g - 1) = none := by
      rw [jd_entry, if_neg (by omega)]
    simp [e]

theorem jc_clipDetect (clip : List (Option α) → List Bool) (hc : JcClip k clip) (s : Switch)
    (f : Cube (Option α)) (gdq : Cube Nat) (i : Nat) (hi : i < m) :
    clipDetect p clip s { d with ni := m } (fun i => f (σ i)) (fun i => gdq (σ i)) i = clipDetect p clip s d f gdq (σ i) := by
  have hw := jc_clipWords hk p d h clip hc s f gdq i hi
  funext g r c
  simp only [clipDetect, hw]

theorem jc_single [IsStrictOrderedRing α] (sqrt : α → α) (rn : Nat → Nat → α) (f : Cube (Option α)) (gdq : Cube Nat) (i : Nat) (hi : i < m) :
    singleDetect p sqrt rn { d with ni := m } (fun i => f (σ i)) (fun i => gdq (σ i)) i = singleDetect p sqrt rn d f gdq (σ i) := by
  funext g r c
  have hs : ∀ (d : Dims) (f : Cube (Option α)) (gdq : Cube Nat), singleDetect p sqrt rn d f gdq
      = fun i g r c => entry 0 (List.zipWith (singlePassInt p sqrt (rn r c * rn r c) (medDiff p d f gdq r c)) (diffs p d f gdq r c)
        (pixel d gdq r c)) i g := fun _ _ _ => rfl
  rw [hs, hs]
  simp only [jc_med hk p d h, jc_diffs p d h, pixel]
  rw [jo_diffs]
  simp only [List.zipWith_map, List.zipWith_self]
  rw [jo_entry 0 m _ i g hi, jo_entry 0 d.ni _ (σ i) g (jc_lt hk h hi)]

/-- Spec: both exposures are searched in the same way: both by sigma clipping, or both in a single pass. -/
def JcSame (p : Params α) (s : Switch) (d : Dims) (m : Nat) (σ : Nat → Nat) (gdq : Cube Nat) : Prop :=
  JdClip p s d gdq ∨
    (¬ JdClip p s { d with ni := m } fun i => gdq (σ i)) ∧ ∀ i < d.ni, s.minSingle < jdUsable p d gdq i

theorem jc_clip_mono (s : Switch) (gdq : Cube Nat) (hc : JdClip p s d gdq) : JdClip p s { d with ni := m } fun i => gdq (σ i) := by
  obtain ⟨h1, h2, h3⟩ := hc
  refine ⟨h1, fun e => ?_, fun e => ?_⟩
  · have := h2 e
    have hm := jc_len h
    have : d.ni ≤ m := hm ▸ Nat.le_mul_of_pos_left _ hk
    exact le_trans (h2 e) this
  · have e1 : ((List.range m).map (jdUsable p { d with ni := m } fun i => gdq (σ i))).sum = k * ((List.range d.ni).map (jdUsable p d gdq)).sum :=
      jc_sum h (jdUsable p d gdq)
    show s.minSigclip ≤ ((List.range m).map (jdUsable p { d with ni := m } fun i => gdq (σ i))).sum
    rw [e1]
    exact le_trans (h3 e) (Nat.le_mul_of_pos_left _ hk)

theorem jc_detect [IsStrictOrderedRing α] (sqrt : α → α) (clip : List (Option α) → List Bool) (hc : JcClip k clip) (s : Switch)
    (rn : Nat → Nat → α) (f : Cube (Option α)) (gdq : Cube Nat) (hb : JcSame p s d m σ gdq) (i : Nat) (hi : i < m) :
    detect p sqrt clip s { d with ni := m } rn (fun i => f (σ i)) (fun i => gdq (σ i)) i = detect p sqrt clip s d rn f gdq (σ i) := by
  have h0 := jc_lt hk h hi
  rcases hb with hb | ⟨hb, hs⟩
  · have a := (jd_usesClip p s d gdq).2 hb
    have b := (jd_usesClip p s _ _).2 (jc_clip_mono hk p d h s gdq hb)
    simp only [detect, a, b, if_true]
    exact jc_clipDetect hk p d h clip hc s f gdq i hi
  · have a : usesClip p s d gdq = false := by
      rw [← Bool.not_eq_true, jd_usesClip]
      exact fun hx => hb (jc_clip_mono hk p d h s gdq hx)
    have b : usesClip p s { d with ni := m } (fun i => gdq (σ i)) = false := by
      rw [← Bool.not_eq_true, jd_usesClip]
      exact hb
    have a' := (jd_usesSingle p s d gdq (by omega)).2 hs
    have b' : usesSingle p s { d with ni := m } (fun i => gdq (σ i)) = true :=
      (jd_usesSingle p s { d with ni := m } _ (by show 0 < m; omega)).2 fun j hj => hs (σ j) (jc_lt hk h hj)
    simp only [detect, a, b, a', b', if_true, Bool.false_eq_true, if_false]
    exact jc_single hk p d h sqrt rn f gdq i hi

theorem jc_prim (w' w : Cube Nat) (hw : ∀ i < m, w' i = w (σ i)) :
    primaries p { d with ni := m } w' = k * primaries p d w := by
  unfold primaries
  rw [← List.sum_map_mul_left]
  congr 1
  apply List.map_congr_left
  intro r _
  unfold rowCount
  let F : Nat → Nat := fun i => ((List.range d.ng).map fun g => (List.range d.nc).countP fun c => decide (w i g r c &&& p.jump ≠ 0)).sum
  have e : ((List.range m).map fun i => ((List.range d.ng).map fun g =>
      (List.range d.nc).countP fun c => decide (w' i g r c &&& p.jump ≠ 0)).sum) = (List.range m).map fun i => F (σ i) := by
    apply List.map_congr_left
    intro i hi
    rw [hw i (List.mem_range.1 hi)]
  show ((List.range m).map fun i => ((List.range d.ng).map fun g =>
      (List.range d.nc).countP fun c => decide (w' i g r c &&& p.jump ≠ 0)).sum).sum = _
  rw [e]
  exact jc_sum h F

theorem jc_find [IsStrictOrderedRing α] (sqrt : α → α) (clip : List (Option α) → List Bool) (hc : JcClip k clip) (s : Switch)
    (rn : Nat → Nat → α) (f : Cube (Option α)) (gdq : Cube Nat) (hb : JcSame p s d m σ gdq)
    (hg : ∀ i < d.ni, s.minGroups ≤ jdUsable p d gdq i) (i : Nat) (hi : i < m) :
    let a := findCrs p sqrt clip s { d with ni := m } rn (fun i => f (σ i)) (fun i => gdq (σ i))
    let b := findCrs p sqrt clip s d rn f gdq
    a.gdq i = b.gdq (σ i) ∧ a.below i = b.below (σ i) ∧ a.above i = b.above (σ i) ∧ a.count = k * b.count := by
  have h0 := jc_lt hk h hi
  have hw : ∀ i < m, detect p sqrt clip s { d with ni := m } rn (fun i => f (σ i)) (fun i => gdq (σ i)) i = detect p sqrt clip s d rn f gdq (σ i) :=
    fun i hi => jc_detect hk p d h sqrt clip hc s rn f gdq hb i hi
  have ha : ¬ JdTooFew p s d gdq := fun hx => by
    obtain ⟨⟨j, hj, hl⟩, -⟩ := hx
    have := hg j hj
    omega
  have hb' : ¬ JdTooFew p s { d with ni := m } fun i => gdq (σ i) := fun hx => by
    obtain ⟨⟨j, hj, hl⟩, -⟩ := hx
    have h3 := hg (σ j) (jc_lt hk h hj)
    have h4 : jdUsable p { d with ni := m } (fun i => gdq (σ i)) j = jdUsable p d gdq (σ j) := rfl
    omega
  rw [jd_run p sqrt clip s d rn f gdq (by omega) ha,
    jd_run p sqrt clip s { d with ni := m } rn (fun i => f (σ i)) (fun i => gdq (σ i)) (by show 0 < m; omega) hb']
  have hr : ∀ j, ratioPlane p sqrt { d with ni := m } rn (fun i => f (σ i)) (fun i => gdq (σ i)) i j = ratioPlane p sqrt d rn f gdq (σ i) j := by
    intro j
    funext r c
    simp only [ratioPlane, jc_med hk p d h, jc_ent hk p d h f gdq r c i j hi]
  have hn : ∀ g, neighborPlane p sqrt s { d with ni := m } rn (fun i => f (σ i)) (fun i => gdq (σ i))
      (detect p sqrt clip s { d with ni := m } rn (fun i => f (σ i)) fun i => gdq (σ i)) i g
      = neighborPlane p sqrt s d rn f gdq (detect p sqrt clip s d rn f gdq) (σ i) g := by
    intro g
    simp only [neighborPlane, hr, hw i hi]
  refine ⟨?_, ?_, ?_, ?_⟩
  · funext g r c
    simp only [transient, hn, jc_med hk p d h]
    have : (fun j x => entry none (diffs p { d with ni := m } (fun i => f (σ i)) (fun i => gdq (σ i)) (x / d.nc) (x % d.nc)) i j)
        = fun j x => entry none (diffs p d f gdq (x / d.nc) (x % d.nc)) (σ i) j := by
      funext j x
      exact jc_ent hk p d h f gdq _ _ i j hi
    rw [this]
  · funext g
    simp only [hn]
  · funext g
    simp only [hn]
  · have := jc_prim hk p d h _ _ hw
    show ((primaries p { d with ni := m } _ : Nat) : Int) = k * ((primaries p d _ : Nat) : Int)
    rw [this]
    push_cast
    rfl

end

/-! ## C178 -/

/-- C178.  If every integration of an exposure is given `k` times, in any order, jump detection by two-point differences (one process)
gives every copy the words the integration gets without the copies, and reports `k` times as many cosmic rays -- if both exposures are
searched by sigma clipping or both in a single pass, and no integration has too few usable groups. -/
theorem C178_copies [IsStrictOrderedRing α] (p : Params α) (sqrt : α → α) (k : Nat) (hk : 0 < k) (clip : List (Option α) → List Bool)
    (hc : JcClip k clip) (s : Switch) (e : Exposure α) (cores : List Char) (ncpu : Nat)
    (h1 : Slicing.computeNumCores cores e.d.nr ncpu = 1) (m : Nat) (σ : Nat → Nat) (hσ : JcCopies k e.d.ni m σ)
    (hb : JcSame p s e.d m σ e.gdq) (hg : ∀ i < e.d.ni, 3 ≤ jdUsable p e.d e.gdq i) :
    let o := detectJumps p sqrt clip s e cores ncpu
    let o' := detectJumps p sqrt clip s (jcExp m σ e) cores ncpu
    ∀ i < m, (∀ g r c, o'.1 i g r c = o.1 (σ i) g r c) ∧ o'.2.1 = k * o.2.1 := by
  intro o o' i hi
  have hf := jc_find hk (stepParams p e) e.d hσ sqrt clip hc { s with minGroups := 3 } (noiseElectrons e) (electrons e) e.gdq hb hg i hi
  obtain ⟨f1, -, -, f4⟩ := hf
  have ho : o = (fun i g r c => cleanup p ((findCrs (stepParams p e) sqrt clip { s with minGroups := 3 } e.d (noiseElectrons e)
      (electrons e) e.gdq).gdq i g r c), (findCrs (stepParams p e) sqrt clip { s with minGroups := 3 } e.d (noiseElectrons e)
      (electrons e) e.gdq).count, 0) := by
    simp only [o, detectJumps, twoPoint, h1, if_true]
  have ho' : o' = (fun i g r c => cleanup p ((findCrs (stepParams p e) sqrt clip { s with minGroups := 3 } { e.d with ni := m }
      (noiseElectrons e) (fun i => electrons e (σ i)) fun i => e.gdq (σ i)).gdq i g r c), (findCrs (stepParams p e) sqrt clip
      { s with minGroups := 3 } { e.d with ni := m } (noiseElectrons e) (fun i => electrons e (σ i)) fun i => e.gdq (σ i)).count, 0) := by
    have : Slicing.computeNumCores cores (jcExp m σ e).d.nr ncpu = 1 := h1
    simp only [o', detectJumps, twoPoint, this, if_true]
    rfl
  rw [ho, ho']
  refine ⟨fun g r c => ?_, ?_⟩
  · simp only [f1]
  · simp only [f4]

end

/-! ## Examples -/

/-- Example: two integrations, the first with jumps. -/
def jcData : Exposure ℚ :=
  ⟨⟨2, 5, 2, 2⟩, fun i g r c => if i = 0 ∧ r = 0 ∧ c = 0 then jdData i g r c else some (g : ℚ), fun i g _ _ => if i = 1 ∧ g < 1 then 1 else 0,
    fun _ _ => some 1, jdRn, fun _ _ => 0, 100, 1000⟩

/-- Example: both integrations three times. -/
def jcThree : Nat → Nat := fun i => if i < 3 then 1 else 0

theorem jc_three : JcCopies 3 2 6 jcThree := by unfold JcCopies RpCopies jcThree; decide

theorem jc_rule (k : Nat) : JcClip k jdClipRule :=
  ⟨fun _ x => match x with | some y => decide (50 < y) | none => false, fun _ => rfl, fun _ => rfl⟩

-- C178_copies: single pass in both, then sigma clipping in both
example : JcSame exJump ⟨3, 100, 2, true, true⟩ jcData.d 6 jcThree jcData.gdq ∧ (∀ i < jcData.d.ni, 3 ≤ jdUsable exJump jcData.d jcData.gdq i)
    ∧ (detectJumps exJump id jdClipRule ⟨3, 100, 2, true, true⟩ jcData "none".toList 8).1 0 3 0 0 = 4
    ∧ (detectJumps exJump id jdClipRule ⟨3, 100, 2, true, true⟩ jcData "none".toList 8).2.1 = 1
    ∧ (detectJumps exJump id jdClipRule ⟨3, 100, 2, true, true⟩ (jcExp 6 jcThree jcData) "none".toList 8).1 4 3 0 0 = 4
    ∧ (detectJumps exJump id jdClipRule ⟨3, 100, 2, true, true⟩ (jcExp 6 jcThree jcData) "none".toList 8).2.1 = 3 := by
  refine ⟨Or.inr ⟨?_, by decide +kernel⟩, by decide +kernel⟩
  rw [← jd_usesClip]
  decide +kernel

example : JcSame exJump ⟨3, 2, 2, false, true⟩ jcData.d 6 jcThree jcData.gdq
    ∧ (detectJumps exJump id jdClipRule ⟨3, 2, 2, false, true⟩ jcData "none".toList 8).2.1 = 1
    ∧ (detectJumps exJump id jdClipRule ⟨3, 2, 2, false, true⟩ (jcExp 6 jcThree jcData) "none".toList 8).2.1 = 3 := by
  refine ⟨Or.inl ?_, by decide +kernel⟩
  rw [← jd_usesClip]
  decide +kernel

/-- Example: one integration of four groups; the last difference lies between the thresholds for four and for three differences. -/
def jcFour : Exposure ℚ :=
  ⟨⟨1, 4, 1, 1⟩, fun _ g _ _ => some (if g = 3 then 17 else (g : ℚ)), fun _ _ _ _ => 0, fun _ _ => some 1, fun _ _ => 1, fun _ _ => 0, 100, 1000⟩

/-- Outside the two cases of C178_copies (twopoint_difference.py:344-348): the iterative search has a threshold of its own for
three differences.  A jump between the two thresholds is not found in an integration of four groups, and is found if the integration is
given twice. -/
theorem C178_iterative :
    JcCopies 2 jcFour.d.ni 2 (fun _ => 0)
    ∧ (detectJumps exJump id jdClipRule ⟨3, 100, 50, true, true⟩ jcFour "none".toList 8).1 0 3 0 0 = 0
    ∧ (detectJumps exJump id jdClipRule ⟨3, 100, 50, true, true⟩ jcFour "none".toList 8).2.1 = 0
    ∧ (detectJumps exJump id jdClipRule ⟨3, 100, 50, true, true⟩ (jcExp 2 (fun _ => 0) jcFour) "none".toList 8).1 0 3 0 0 = 4
    ∧ (detectJumps exJump id jdClipRule ⟨3, 100, 50, true, true⟩ (jcExp 2 (fun _ => 0) jcFour) "none".toList 8).2.1 = 2 := by
  refine ⟨?_, ?_⟩
  · unfold JcCopies RpCopies; decide
  · decide +kernel

end Verif.Thm
