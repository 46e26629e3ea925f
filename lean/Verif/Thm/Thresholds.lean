import Verif.Thm.JumpGrow
import Verif.Thm.Cas22
import Verif.Thm.Slicing

/-!
# C160: stricter thresholds never add flags

Two-point jump detection (jump/twopoint_difference.py, jump/jump.py) and the jump search of the Casertano fit
(ramp_fitting/ols_cas22/_jump.pyx) with stricter thresholds.
-/

namespace Verif.Thm

open Verif Verif.Jump Verif.JumpDriver

section
variable {α : Type} [Field α] [LinearOrder α]

/-- Other rejection thresholds, limits for neighbours, and sizes and lengths for groups after a jump. -/
def thSet (p : Params α) (t4 t3 t2 lo up e1 e2 : α) (n1 n2 : Nat) : Params α :=
  { p with normalThresh := t4, threeThresh := t3, twoThresh := t2, minNeighbor := lo, maxNeighbor := up, e1 := e1, e2 := e2, n1 := n1, n2 := n2 }

/-- Spec: each of these is at least as strict as in `p`. -/
structure ThStricter (p : Params α) (t4 t3 t2 lo up : α) (n1 n2 : Nat) : Prop where
  normal : p.normalThresh ≤ t4
  three : p.threeThresh ≤ t3
  two : p.twoThresh ≤ t2
  low : p.minNeighbor ≤ lo
  high : up ≤ p.maxNeighbor
  first : n1 ≤ p.n1
  second : n2 ≤ p.n2

/-- Spec: the word `w` is `w'`, perhaps with the flag `f` added. -/
def ThUp (f w' w : Nat) : Prop := w = w' ∨ w = w' ||| f

variable {p : Params α} {t4 t3 t2 lo up e1 e2 : α} {n1 n2 : Nat}

omit [Field α] in
theorem th_threshold (hs : ThStricter p t4 t3 t2 lo up n1 n2) (n : Nat) (t' : α)
    (h : threshold (thSet p t4 t3 t2 lo up e1 e2 n1 n2) n = some t') : ∃ t, threshold p n = some t ∧ t ≤ t' := by
  unfold threshold at *
  simp only [thSet] at h
  split at h
  · cases h
    exact ⟨_, if_pos (by assumption), hs.normal⟩
  · rename_i h4
    rw [if_neg h4]
    split at h
    · cases h
      exact ⟨_, if_pos (by assumption), hs.three⟩
    · rename_i h3
      rw [if_neg h3]
      split at h
      · cases h
        exact ⟨_, if_pos (by assumption), hs.two⟩
      · cases h

/-- If the stricter search finds something, the other finds the same. -/
theorem th_newCr (hs : ThStricter p t4 t3 t2 lo up n1 n2) (sqrt : α → α) (rn2 : α) (fa : List (List (Option α)))
    (h : (newCr (thSet p t4 t3 t2 lo up e1 e2 n1 n2) sqrt rn2 fa).flatten.any (fun b => b) = true) :
    newCr (thSet p t4 t3 t2 lo up e1 e2 n1 n2) sqrt rn2 fa = newCr p sqrt rn2 fa := by
  rw [any_bat2] at h
  obtain ⟨i, j, h⟩ := h
  rw [newCr_bat2] at h
  obtain ⟨r0, t', hr0, ht', hlt, hmax⟩ := h
  obtain ⟨t, ht, htt⟩ := th_threshold hs _ _ ht'
  have hrs : ratios (thSet p t4 t3 t2 lo up e1 e2 n1 n2) sqrt rn2 fa = ratios p sqrt rn2 fa := rfl
  rw [hrs] at hr0 hmax
  unfold newCr
  rw [hrs]
  refine List.map_congr_left fun row hrow => List.map_congr_left fun x hx => ?_
  by_cases hc : (x.isSome && decide (x = nanmax (ratios p sqrt rn2 fa).flatten)) = true
  · rw [hc, Bool.true_and, Bool.true_and]
    rw [Bool.and_eq_true, decide_eq_true_iff] at hc
    obtain ⟨v, rfl⟩ := Option.isSome_iff_exists.1 hc.1
    have hv := nanmax_spec _ _ hc.2.symm
    have hge : r0 ≤ v := hv.2 r0 ((mem_at2 _ _).2 ⟨i, j, hr0⟩)
    obtain ⟨m, hm⟩ := nanmax_exists row v hx
    have hvm : v ≤ m := (nanmax_spec _ _ hm).2 v hx
    have e1 : crInt (thSet p t4 t3 t2 lo up e1 e2 n1 n2) (finite fa.flatten).length row = true := by
      simp only [crInt, ht', hm, gt, decide_eq_true_iff]
      exact lt_of_lt_of_le hlt (hge.trans hvm)
    have e2 : crInt p (finite fa.flatten).length row = true := by
      simp only [crInt, ht, hm, gt, decide_eq_true_iff]
      exact lt_of_le_of_lt htt (lt_of_lt_of_le hlt (hge.trans hvm))
    rw [e1, e2]
  · rw [Bool.not_eq_true] at hc
    rw [hc, Bool.false_and, Bool.false_and]

theorem th_acc (sqrt : α → α) (rn2 : α) (fuel : Nat) (fa : List (List (Option α))) (acc : List (List Bool)) (h : SameShape acc fa)
    (i j : Nat) (hb : bat2 acc i j = true) : bat2 (iterLoop p sqrt rn2 fuel fa acc).2 i j = true := by
  induction fuel generalizing fa acc with
  | zero => exact hb
  | succ fuel ih =>
    simp only [iterLoop]
    split
    · exact hb
    · have hn := sameShape_newCr p sqrt rn2 fa
      have hsh : SameShape acc (newCr p sqrt rn2 fa) := h.trans hn
      refine ih _ _ ?_ ?_
      · exact (sameShape_zipWith _ acc _ hsh).symm.trans (h.trans (sameShape_zipWith _ fa _ hn))
      · rw [orFlags_bat2 _ _ hsh, hb, Bool.true_or]

theorem th_loop (hs : ThStricter p t4 t3 t2 lo up n1 n2) (sqrt : α → α) (rn2 : α) (fuel : Nat) (fa : List (List (Option α)))
    (acc : List (List Bool)) (h : SameShape acc fa) (i j : Nat)
    (hb : bat2 (iterLoop (thSet p t4 t3 t2 lo up e1 e2 n1 n2) sqrt rn2 fuel fa acc).2 i j = true) :
    bat2 (iterLoop p sqrt rn2 fuel fa acc).2 i j = true := by
  induction fuel generalizing fa acc with
  | zero => exact hb
  | succ fuel ih =>
    by_cases hany : (newCr (thSet p t4 t3 t2 lo up e1 e2 n1 n2) sqrt rn2 fa).flatten.any (fun b => b) = true
    · have he := th_newCr hs sqrt rn2 fa hany
      have hany' := hany
      rw [he] at hany'
      simp only [iterLoop, he, hany', Bool.true_eq_false, if_false] at hb ⊢
      have hn := sameShape_newCr p sqrt rn2 fa
      have hsh : SameShape acc (newCr p sqrt rn2 fa) := h.trans hn
      exact ih _ _ ((sameShape_zipWith _ acc _ hsh).symm.trans (h.trans (sameShape_zipWith _ fa _ hn))) hb
    · rw [Bool.not_eq_true] at hany
      simp only [iterLoop, hany, if_true] at hb
      exact th_acc sqrt rn2 (fuel + 1) fa acc h i j hb

theorem th_up_step (f m : Nat) (hd : f &&& m = 0) {w' w x' x : Nat} (h : ThUp f w' w) {c' c : Prop}
    (h' : (c' ∧ ¬ Dq.Has w' m → x' = w' ||| f) ∧ (¬ (c' ∧ ¬ Dq.Has w' m) → x' = w'))
    (k : (c ∧ ¬ Dq.Has w m → x = w ||| f) ∧ (¬ (c ∧ ¬ Dq.Has w m) → x = w)) (hc : c' → c) : ThUp f x' x := by
  have hm : Dq.Has w m ↔ Dq.Has w' m := by
    rcases h with rfl | rfl
    · exact Iff.rfl
    · rw [Dq.has_or_left]
      exact ⟨fun h => h.resolve_right (fun h => h hd), Or.inl⟩
  by_cases h1 : c' ∧ ¬ Dq.Has w' m
  · have h2 : c ∧ ¬ Dq.Has w m := ⟨hc h1.1, fun h => h1.2 (hm.1 h)⟩
    rw [h'.1 h1, k.1 h2]
    rcases h with rfl | rfl
    · exact Or.inl rfl
    · exact Or.inl (by rw [Nat.or_assoc, Nat.or_self])
  · rw [h'.2 h1]
    by_cases h2 : c ∧ ¬ Dq.Has w m
    · rw [k.1 h2]
      rcases h with rfl | rfl
      · exact Or.inr rfl
      · exact Or.inr (by rw [Nat.or_assoc, Nat.or_self])
    · rw [k.2 h2]
      exact h

theorem th_up_has (f : Nat) {w' w : Nat} (h : ThUp f w' w) (m : Nat) (hw : Dq.Has w' m) : Dq.Has w m := by
  rcases h with rfl | rfl
  · exact hw
  · exact Dq.has_or_left.2 (Or.inl hw)

variable (sqrt : α → α) (clip : List (Option α) → List Bool) (s : Switch) (d : Dims) (rn : Nat → Nat → α)
  (data : Cube (Option α)) (gdq : Cube Nat)

theorem th_detect (hs : ThStricter p t4 t3 t2 lo up n1 n2) (b : Bool) (i g r c : Nat) (hi : i < d.ni) (hg : g < d.ng) :
    ThUp p.jump (detect (thSet p t4 t3 t2 lo up e1 e2 n1 n2) sqrt clip { s with flag4 := b } d rn data gdq i g r c)
      (detect p sqrt clip s d rn data gdq i g r c) := by
  have u1 : usesClip (thSet p t4 t3 t2 lo up e1 e2 n1 n2) { s with flag4 := b } d gdq = usesClip p s d gdq := rfl
  have u2 : usesSingle (thSet p t4 t3 t2 lo up e1 e2 n1 n2) { s with flag4 := b } d gdq = usesSingle p s d gdq := rfl
  have u3 : clipDetect (thSet p t4 t3 t2 lo up e1 e2 n1 n2) clip { s with flag4 := b } d data gdq = clipDetect p clip s d data gdq := rfl
  simp only [detect, u1, u2, u3]
  split
  · exact Or.inl rfl
  · split
    · obtain ⟨a1, a2⟩ := jd_single p sqrt d rn data gdq i g r c hi hg
      obtain ⟨b1, b2⟩ := jd_single (thSet p t4 t3 t2 lo up e1 e2 n1 n2) sqrt d rn data gdq i g r c hi hg
      by_cases h' : JdOutlier (thSet p t4 t3 t2 lo up e1 e2 n1 n2) sqrt d rn data gdq i g r c
      · have h : JdOutlier p sqrt d rn data gdq i g r c := by
          obtain ⟨q1, x, m, q2, q3, q4, q5⟩ := h'
          exact ⟨q1, x, m, q2, q3, q4, lt_of_le_of_lt hs.normal q5⟩
        rw [b1 h', a1 h]
        exact Or.inl rfl
      · rw [b2 h']
        by_cases h : JdOutlier p sqrt d rn data gdq i g r c
        · exact Or.inr (a1 h)
        · exact Or.inl (a2 h)
    · unfold iterDetect
      have hd : diffs (thSet p t4 t3 t2 lo up e1 e2 n1 n2) d data gdq r c = diffs p d data gdq r c := rfl
      rw [hd]
      have hj : (thSet p t4 t3 t2 lo up e1 e2 n1 n2).jump = p.jump := rfl
      rw [hj]
      by_cases h' : (decide (1 ≤ g) && entry false (iterative (thSet p t4 t3 t2 lo up e1 e2 n1 n2) sqrt (rn r c * rn r c)
          (diffs p d data gdq r c)).2 i (g - 1)) = true
      · have h : (decide (1 ≤ g) && entry false (iterative p sqrt (rn r c * rn r c) (diffs p d data gdq r c)).2 i (g - 1)) = true := by
          rw [Bool.and_eq_true, jd_bat2] at h' ⊢
          refine ⟨h'.1, th_loop hs sqrt _ _ _ _ ?_ i (g - 1) h'.2⟩
          simp [SameShape, Function.comp_def]
        rw [if_pos h', if_pos h]
        exact Or.inl rfl
      · rw [if_neg h']
        split
        · exact Or.inr rfl
        · exact Or.inl rfl

theorem th_neighbor (p : Params α) (s : Switch) (w : Cube Nat) (i g r c : Nat) :
    (neighborPlane p sqrt s d rn data gdq w i g).gdq r c
      = if (s.flag4 = true ∧ 1 ≤ g ∧ dilate4 d.nr d.nc (primary p (ratioPlane p sqrt d rn data gdq i (g - 1)) (w i g)) r c = true)
          ∧ ¬ Dq.Has (w i g r c) (p.sat ||| p.dnu) then w i g r c ||| p.jump else w i g r c := by
  unfold neighborPlane
  by_cases h : (s.flag4 && decide (1 ≤ g)) = true
  · rw [if_pos h]
    rw [Bool.and_eq_true, decide_eq_true_iff] at h
    simp only [fourNeighbors]
    refine if_congr ?_ rfl rfl
    rw [Bool.and_eq_true, decide_eq_true_iff]
    simp only [Dq.Has, ne_eq, not_not]
    tauto
  · rw [if_neg h]
    rw [Bool.and_eq_true, decide_eq_true_iff] at h
    rw [if_neg (by tauto)]

omit [Field α] in
theorem th_primary (hs : ThStricter p t4 t3 t2 lo up n1 n2) (q : Img (Option α)) {w' w : Img Nat} (r c : Nat)
    (hw : ThUp p.jump (w' r c) (w r c)) (h : primary (thSet p t4 t3 t2 lo up e1 e2 n1 n2) q w' r c = true) : primary p q w r c = true := by
  unfold primary at *
  simp only [Bool.and_eq_true, decide_eq_true_iff] at *
  obtain ⟨⟨h1, h2⟩, h3⟩ := h
  refine ⟨⟨?_, ?_⟩, th_up_has _ hw _ h3⟩
  · unfold lt at *
    split at h1
    · exact decide_eq_true (lt_of_lt_of_le (of_decide_eq_true h1) hs.high)
    · cases h1
  · unfold gt at *
    split at h2
    · exact decide_eq_true (lt_of_le_of_lt hs.low (of_decide_eq_true h2))
    · cases h2

theorem th_transient (p : Params α) (a : Nat) (ha : p.jump = 2 ^ a) (w : Cube Nat) (i g r c : Nat)
    (hi : i < d.ni) (hg : g < d.ng) (hc : c < d.nc) :
    (((∃ g0, g0 ≤ g ∧ g ≤ g0 + p.n1 ∧ Dq.Has (w i g0 r c) p.jump ∧ GwLarge p d data gdq p.e1 i g0 r c) ∨
       (∃ g0, g0 ≤ g ∧ g ≤ g0 + p.n2 ∧ Dq.Has (w i g0 r c) p.jump ∧ GwLarge p d data gdq p.e2 i g0 r c))
        ∧ ¬ Dq.Has (w i g r c) (p.sat ||| p.dnu) → transient p d data gdq w i g r c = w i g r c ||| p.jump) ∧
    (¬ (((∃ g0, g0 ≤ g ∧ g ≤ g0 + p.n1 ∧ Dq.Has (w i g0 r c) p.jump ∧ GwLarge p d data gdq p.e1 i g0 r c) ∨
       (∃ g0, g0 ≤ g ∧ g ≤ g0 + p.n2 ∧ Dq.Has (w i g0 r c) p.jump ∧ GwLarge p d data gdq p.e2 i g0 r c))
        ∧ ¬ Dq.Has (w i g r c) (p.sat ||| p.dnu)) → transient p d data gdq w i g r c = w i g r c) := by
  have hL : ∀ e g0, g0 ≤ g → (LargeJump p (fun j x => entry none (diffs p d data gdq (x / d.nc) (x % d.nc)) i j)
      (fun x => medDiff p d data gdq (x / d.nc) (x % d.nc)) (fun k x => w i k (x / d.nc) (x % d.nc)) e g0 (r * d.nc + c)
      ↔ Dq.Has (w i g0 r c) p.jump ∧ GwLarge p d data gdq e i g0 r c) := by
    intro e g0 hle
    obtain ⟨e1, e2⟩ := jd_index d.nc r c hc
    simp only [LargeJump, GwLarge, e1, e2, medDiff, jd_entry]
    rw [jd_diffs]
    by_cases h1 : 1 ≤ g0
    · have hlt : i < d.ni ∧ g0 - 1 + 1 < d.ng := ⟨hi, by omega⟩
      simp only [hlt, and_self, if_true]
      tauto
    · tauto
  unfold transient
  split
  · obtain ⟨h1, h2⟩ := C24_transients_exact p d.ng (d.nr * d.nc)
      (fun j x => entry none (diffs p d data gdq (x / d.nc) (x % d.nc)) i j)
      (fun x => medDiff p d data gdq (x / d.nc) (x % d.nc)) (fun k x => w i k (x / d.nc) (x % d.nc)) g (r * d.nc + c) hg
    obtain ⟨e1, e2⟩ := jd_index d.nc r c hc
    simp only [e1, e2] at h1 h2
    have hex : ∀ e n, (∃ g0, g0 ≤ g ∧ g ≤ g0 + n ∧ LargeJump p (fun j x => entry none (diffs p d data gdq (x / d.nc) (x % d.nc)) i j)
          (fun x => medDiff p d data gdq (x / d.nc) (x % d.nc)) (fun k x => w i k (x / d.nc) (x % d.nc)) e g0 (r * d.nc + c))
        ↔ ∃ g0, g0 ≤ g ∧ g ≤ g0 + n ∧ Dq.Has (w i g0 r c) p.jump ∧ GwLarge p d data gdq e i g0 r c := fun e n =>
      ⟨fun ⟨g0, x, y, z⟩ => ⟨g0, x, y, (hL e g0 x).1 z⟩, fun ⟨g0, x, y, z⟩ => ⟨g0, x, y, (hL e g0 x).2 z⟩⟩
    rw [hex, hex] at h1 h2
    exact ⟨fun h => h1 h.symm, fun h => h2 (fun h' => h h'.symm)⟩
  · rename_i hn
    refine ⟨fun h => ?_, fun _ => rfl⟩
    have hj : Dq.Has (w i g r c) p.jump := by
      rcases h.1 with ⟨g0, x, y, z, -⟩ | ⟨g0, x, y, z, -⟩
      · have : g0 = g := by omega
        rwa [this] at z
      · have : g0 = g := by omega
        rwa [this] at z
    rw [ha] at hj ⊢
    unfold Dq.Has at hj
    rw [Nat.and_two_pow] at hj
    have hb : (w i g r c).testBit a = true := by
      cases hb : (w i g r c).testBit a with
      | true => rfl
      | false => simp [hb] at hj
    apply Nat.eq_of_testBit_eq
    intro k
    rw [Nat.testBit_or, Nat.testBit_two_pow]
    by_cases hk : a = k
    · subst hk
      simp [hb]
    · simp [hk]

omit [Field α] [LinearOrder α] in
theorem th_edge (f : Nat) {b' b q' q : Bool} (hb : b' = true → b = true) (h : q' = true → q = true) (g : Nat) :
    ThUp f (if b' && decide (1 ≤ g) then (if q' then f else 0) else 0) (if b && decide (1 ≤ g) then (if q then f else 0) else 0) := by
  unfold ThUp
  by_cases hg : 1 ≤ g
  · cases b' <;> cases b <;> cases q' <;> cases q <;> simp_all
  · simp [hg]

theorem th_edges (p : Params α) (s : Switch) (w : Cube Nat) (i g c : Nat) :
    (neighborPlane p sqrt s d rn data gdq w i g).below c
      = (if s.flag4 && decide (1 ≤ g) then (if primary p (ratioPlane p sqrt d rn data gdq i (g - 1)) (w i g) 0 c then p.jump else 0) else 0) ∧
    (neighborPlane p sqrt s d rn data gdq w i g).above c
      = (if s.flag4 && decide (1 ≤ g) then
          (if primary p (ratioPlane p sqrt d rn data gdq i (g - 1)) (w i g) (d.nr - 1) c then p.jump else 0) else 0) := by
  unfold neighborPlane
  split
  · exact ⟨rfl, rfl⟩
  · exact ⟨rfl, rfl⟩

theorem th_up_or (f : Nat) {a' a b' b : Nat} (h : ThUp f a' a) (k : ThUp f b' b) : ThUp f (a' ||| b') (a ||| b) := by
  rcases h with rfl | rfl <;> rcases k with rfl | rfl
  · exact Or.inl rfl
  · exact Or.inr (Nat.or_assoc _ _ _).symm
  · exact Or.inr (by rw [Nat.or_assoc, Nat.or_assoc, Nat.or_comm f])
  · refine Or.inr ?_
    rw [Nat.or_assoc, ← Nat.or_assoc f, Nat.or_comm f, Nat.or_assoc, Nat.or_self, Nat.or_assoc]

theorem th_found (hs : ThStricter p t4 t3 t2 lo up n1 n2) (a : Nat) (ha : p.jump = 2 ^ a) (hd : p.jump &&& (p.sat ||| p.dnu) = 0)
    (he1 : p.e1 ≤ e1) (he2 : p.e2 ≤ e2) (b : Bool) (hb : b = true → s.flag4 = true) (i g : Nat) (hi : i < d.ni) (hg : g < d.ng) :
    let o := findCrs p sqrt clip s d rn data gdq
    let o' := findCrs (thSet p t4 t3 t2 lo up e1 e2 n1 n2) sqrt clip { s with flag4 := b } d rn data gdq
    (∀ r < d.nr, ∀ c < d.nc, ThUp p.jump (o'.gdq i g r c) (o.gdq i g r c)) ∧
      (∀ c, ThUp p.jump (o'.below i g c) (o.below i g c)) ∧ ∀ c, ThUp p.jump (o'.above i g c) (o.above i g c) := by
  intro o o'
  have hsk : skips (thSet p t4 t3 t2 lo up e1 e2 n1 n2) { s with flag4 := b } d gdq = skips p s d gdq := rfl
  by_cases hskip : skips p s d gdq = true
  · simp only [o, o', findCrs, hsk, hskip, if_true]
    exact ⟨fun _ _ _ _ => Or.inl rfl, fun _ => Or.inl rfl, fun _ => Or.inl rfl⟩
  · rw [Bool.not_eq_true] at hskip
    have hdet : ∀ g < d.ng, ∀ r c, ThUp p.jump
        (detect (thSet p t4 t3 t2 lo up e1 e2 n1 n2) sqrt clip { s with flag4 := b } d rn data gdq i g r c)
        (detect p sqrt clip s d rn data gdq i g r c) := fun g hg r c => th_detect sqrt clip s d rn data gdq hs b i g r c hi hg
    have ho : o = ⟨transient p d data gdq (fun i g => (neighborPlane p sqrt s d rn data gdq (detect p sqrt clip s d rn data gdq) i g).gdq),
        fun i g => (neighborPlane p sqrt s d rn data gdq (detect p sqrt clip s d rn data gdq) i g).below,
        fun i g => (neighborPlane p sqrt s d rn data gdq (detect p sqrt clip s d rn data gdq) i g).above, o.count, o.data⟩ := by
      simp only [o, findCrs, hskip, Bool.false_eq_true, if_false]
    have ho' : o' = ⟨transient (thSet p t4 t3 t2 lo up e1 e2 n1 n2) d data gdq (fun i g => (neighborPlane (thSet p t4 t3 t2 lo up e1 e2 n1 n2)
          sqrt { s with flag4 := b } d rn data gdq (detect (thSet p t4 t3 t2 lo up e1 e2 n1 n2) sqrt clip { s with flag4 := b } d rn data gdq) i g).gdq),
        fun i g => (neighborPlane (thSet p t4 t3 t2 lo up e1 e2 n1 n2) sqrt { s with flag4 := b } d rn data gdq
          (detect (thSet p t4 t3 t2 lo up e1 e2 n1 n2) sqrt clip { s with flag4 := b } d rn data gdq) i g).below,
        fun i g => (neighborPlane (thSet p t4 t3 t2 lo up e1 e2 n1 n2) sqrt { s with flag4 := b } d rn data gdq
          (detect (thSet p t4 t3 t2 lo up e1 e2 n1 n2) sqrt clip { s with flag4 := b } d rn data gdq) i g).above, o'.count, o'.data⟩ := by
      simp only [o', findCrs, hsk, hskip, Bool.false_eq_true, if_false]
    generalize detect p sqrt clip s d rn data gdq = w at *
    generalize detect (thSet p t4 t3 t2 lo up e1 e2 n1 n2) sqrt clip { s with flag4 := b } d rn data gdq = w' at *
    have hpr : ∀ g < d.ng, ∀ r c,
        primary (thSet p t4 t3 t2 lo up e1 e2 n1 n2) (ratioPlane (thSet p t4 t3 t2 lo up e1 e2 n1 n2) sqrt d rn data gdq i (g - 1)) (w' i g) r c = true →
          primary p (ratioPlane p sqrt d rn data gdq i (g - 1)) (w i g) r c = true := fun g hg r c h =>
      th_primary hs _ r c (hdet g hg r c) h
    have hnb : ∀ g < d.ng, ∀ r < d.nr, ∀ c < d.nc, ThUp p.jump
        ((neighborPlane (thSet p t4 t3 t2 lo up e1 e2 n1 n2) sqrt { s with flag4 := b } d rn data gdq w' i g).gdq r c)
        ((neighborPlane p sqrt s d rn data gdq w i g).gdq r c) := by
      intro g hg r hr c hc
      rw [th_neighbor, th_neighbor]
      refine th_up_step _ (p.sat ||| p.dnu) hd (hdet g hg r c) ⟨fun h => if_pos h, fun h => if_neg h⟩
        ⟨fun h => if_pos h, fun h => if_neg h⟩ fun h => ⟨hb h.1, h.2.1, ?_⟩
      have h3 := h.2.2
      rw [gw_dilate _ _ _ _ _ hr hc] at h3 ⊢
      obtain ⟨r', c', q1, q2⟩ := h3
      exact ⟨r', c', q1, hpr g hg r' c' q2⟩
    refine ⟨fun r hr c hc => ?_, fun c => ?_, fun c => ?_⟩
    · rw [ho, ho']
      simp only
      generalize hx : (fun i g => (neighborPlane p sqrt s d rn data gdq w i g).gdq) = x
      generalize hx' : (fun i g => (neighborPlane (thSet p t4 t3 t2 lo up e1 e2 n1 n2) sqrt { s with flag4 := b } d rn data gdq w' i g).gdq) = x'
      have hxx : ∀ g < d.ng, ThUp p.jump (x' i g r c) (x i g r c) := by
        intro g hg
        rw [← hx, ← hx']
        exact hnb g hg r hr c hc
      obtain ⟨a1, a2⟩ := th_transient d data gdq p a ha x i g r c hi hg hc
      obtain ⟨b1, b2⟩ := th_transient d data gdq (thSet p t4 t3 t2 lo up e1 e2 n1 n2) a ha x' i g r c hi hg hc
      refine th_up_step p.jump (p.sat ||| p.dnu) hd (hxx g hg) ⟨b1, b2⟩ ⟨a1, a2⟩ ?_
      have hl : ∀ e e' g0, e ≤ e' → GwLarge p d data gdq e' i g0 r c → GwLarge p d data gdq e i g0 r c := by
        rintro e e' g0 hle ⟨q1, y, m, q2, q3, q4⟩
        exact ⟨q1, y, m, q2, q3, hle.trans q4⟩
      rintro (⟨g0, q1, q2, q3, q4⟩ | ⟨g0, q1, q2, q3, q4⟩)
      · exact Or.inl ⟨g0, q1, q2.trans (Nat.add_le_add_left hs.first _), th_up_has _ (hxx g0 (by omega)) _ q3, hl _ _ _ he1 q4⟩
      · exact Or.inr ⟨g0, q1, q2.trans (Nat.add_le_add_left hs.second _), th_up_has _ (hxx g0 (by omega)) _ q3, hl _ _ _ he2 q4⟩
    · rw [ho, ho']
      simp only
      rw [(th_edges sqrt d rn data gdq p s w i g c).1, (th_edges sqrt d rn data gdq (thSet p t4 t3 t2 lo up e1 e2 n1 n2) _ w' i g c).1]
      exact th_edge p.jump hb (hpr g hg 0 c) g
    · rw [ho, ho']
      simp only
      rw [(th_edges sqrt d rn data gdq p s w i g c).2, (th_edges sqrt d rn data gdq (thSet p t4 t3 t2 lo up e1 e2 n1 n2) _ w' i g c).2]
      exact th_edge p.jump hb (hpr g hg (d.nr - 1) c) g

theorem th_cleanup (ja jb jc : Nat) (hf : FlagBits p ja jb jc) {w' w : Nat} (h : ThUp p.jump w' w) : ThUp p.jump (cleanup p w') (cleanup p w) := by
  obtain ⟨hj, hdn, hsa, h1, h2⟩ := hf
  rcases h with rfl | rfl
  · exact Or.inl rfl
  · by_cases hu : w'.testBit jb = true ∨ w'.testBit jc = true
    · refine Or.inl (Nat.eq_of_testBit_eq fun k => ?_)
      rw [cleanup_testBit p ja jb jc _ hj hdn hsa h1 h2, cleanup_testBit p ja jb jc _ hj hdn hsa h1 h2, hj]
      simp only [Nat.testBit_or, Nat.testBit_two_pow, h1, h2]
      by_cases hk : k = ja
      · subst hk
        rcases hu with hu | hu <;> simp [hu]
      · simp [hk, Ne.symm hk]
    · refine Or.inr (Nat.eq_of_testBit_eq fun k => ?_)
      rw [Nat.testBit_or, cleanup_testBit p ja jb jc _ hj hdn hsa h1 h2, cleanup_testBit p ja jb jc _ hj hdn hsa h1 h2, hj]
      simp only [Nat.testBit_or, Nat.testBit_two_pow, h1, h2]
      by_cases hk : k = ja
      · subst hk
        simp only [not_or, Bool.not_eq_true] at hu
        simp [hu.1, hu.2]
      · simp [hk, Ne.symm hk]

omit [Field α] [LinearOrder α] in
theorem th_disjoint (ja jb jc : Nat) (hf : FlagBits p ja jb jc) : p.jump &&& (p.sat ||| p.dnu) = 0 := by
  obtain ⟨hj, hdn, hsa, h1, h2⟩ := hf
  rw [hj, hdn, hsa]
  refine Nat.eq_of_testBit_eq fun k => ?_
  rw [Nat.testBit_and, Nat.testBit_or, Nat.testBit_two_pow, Nat.testBit_two_pow, Nat.testBit_two_pow]
  by_cases hk : ja = k
  · subst hk
    simp [Ne.symm h1, Ne.symm h2]
  · simp [hk]

theorem th_if (f : Nat) (P : Prop) [Decidable P] {x' x : Nat} (h : ThUp f x' x) : ThUp f (if P then x' else 0) (if P then x else 0) := by
  split
  · exact h
  · exact Or.inl rfl

theorem th_multi (hs : ThStricter p t4 t3 t2 lo up n1 n2) (a : Nat) (ha : p.jump = 2 ^ a) (hd : p.jump &&& (p.sat ||| p.dnu) = 0)
    (he1 : p.e1 ≤ e1) (he2 : p.e2 ≤ e2) (b : Bool) (hb : b = true → s.flag4 = true) (i g r c : Nat) (hi : i < d.ni) (hg : g < d.ng)
    (hr : r < d.nr) (hc : c < d.nc) (n : Nat) (hle : n ≤ d.nr) :
    ThUp p.jump ((multi (thSet p t4 t3 t2 lo up e1 e2 n1 n2) sqrt clip { s with flag4 := b } d rn data gdq n).1 i g r c)
      ((multi p sqrt clip s d rn data gdq n).1 i g r c) := by
  by_cases hn0 : n = 0
  · subst hn0
    exact Or.inl rfl
  · have hy : 1 ≤ d.nr / n := (Nat.le_div_iff_mul_le (by omega)).mpr (by omega)
    have hny : n * (d.nr / n) ≤ d.nr := Nat.mul_div_le _ _
    have hk : ∀ k,
        (∀ r < (if n = k + 1 then d.nr - k * (d.nr / n) else d.nr / n), ∀ c < d.nc, ThUp p.jump
          ((sliceFound (thSet p t4 t3 t2 lo up e1 e2 n1 n2) sqrt clip { s with flag4 := b } d rn data gdq n k).gdq i g r c)
          ((sliceFound p sqrt clip s d rn data gdq n k).gdq i g r c)) ∧
        (∀ c, ThUp p.jump
          ((sliceFound (thSet p t4 t3 t2 lo up e1 e2 n1 n2) sqrt clip { s with flag4 := b } d rn data gdq n k).below i g c)
          ((sliceFound p sqrt clip s d rn data gdq n k).below i g c)) ∧
        ∀ c, ThUp p.jump
          ((sliceFound (thSet p t4 t3 t2 lo up e1 e2 n1 n2) sqrt clip { s with flag4 := b } d rn data gdq n k).above i g c)
          ((sliceFound p sqrt clip s d rn data gdq n k).above i g c) := fun k =>
      th_found sqrt clip s { d with nr := if n = k + 1 then d.nr - k * (d.nr / n) else d.nr / n } (fun r c => rn (r + k * (d.nr / n)) c)
        (fromRow (k * (d.nr / n)) data) (fromRow (k * (d.nr / n)) gdq) hs a ha hd he1 he2 b hb i g hi hg
    simp only [multi]
    rw [reassemble_eq _ _ _ _ _ (by omega) hy hny r c hr, reassemble_eq _ _ _ _ _ (by omega) hy hny r c hr]
    generalize sliceFound (thSet p t4 t3 t2 lo up e1 e2 n1 n2) sqrt clip { s with flag4 := b } d rn data gdq n = f' at *
    generalize sliceFound p sqrt clip s d rn data gdq n = f at *
    generalize hy' : d.nr / n = y at *
    refine th_up_or _ (th_up_or _ ((hk _).1 _ ?_ c hc) (th_if _ _ ((hk _).2.1 c))) (th_if _ _ ((hk _).2.2 c))
    have hdm := Nat.div_add_mod r y
    have hmod := Nat.mod_lt r (show y > 0 by omega)
    rw [Nat.mul_comm] at hdm
    by_cases hlast : r / y < n - 1
    · rw [Nat.min_eq_left (by omega), if_neg (by omega)]
      omega
    · have hmul : (n - 1) * y ≤ r / y * y := Nat.mul_le_mul_right _ (by omega)
      rw [Nat.min_eq_right (by omega), if_pos (by omega)]
      omega

variable [IsStrictOrderedRing α]

theorem th_gain (e : Exposure α) (h : ∀ r < e.d.nr, ∀ c < e.d.nc, ∀ x, e.gain r c = some x → 0 ≤ x) : 0 ≤ medianGain e := by
  unfold medianGain
  cases hm : nanmedian ((List.range e.d.nr).flatMap fun r => (List.range e.d.nc).map fun c => e.gain r c) with
  | none => exact le_rfl
  | some m =>
    have h1 := (nanmedian_spec _ _ hm).1
    have hne : finite ((List.range e.d.nr).flatMap fun r => (List.range e.d.nc).map fun c => e.gain r c) ≠ [] := by
      intro h0
      rw [(nanmedian_none_iff _).2 h0] at hm
      cases hm
    have hl := List.length_pos_of_ne_nil hne
    have hpos : 0 < (finite ((List.range e.d.nr).flatMap fun r => (List.range e.d.nc).map fun c => e.gain r c)).countP
        (fun x => decide (x ≤ m)) := by omega
    obtain ⟨x, hx, hxm⟩ := List.countP_pos_iff.1 hpos
    simp only [finite, List.mem_filterMap, List.mem_flatMap, List.mem_map, List.mem_range] at hx
    obtain ⟨y, ⟨r, hr, c, hc, hy⟩, rfl⟩ := hx
    exact (h r hr c hc x hy).trans (of_decide_eq_true hxm)

/-! ## C160: two-point jump detection -/

/-- C160 (jumps).  With larger rejection thresholds, a narrower window for neighbours (or no neighbours), fewer groups after a jump or larger
sizes asked for, and the same sigma clipping, every sample is flagged as before or has lost JUMP_DET; with any number of processes. -/
theorem C160_jumps (hs : ThStricter p t4 t3 t2 lo up n1 n2) (ja jb jc : Nat) (hf : FlagBits p ja jb jc) (e : Exposure α) (dn1 dn2 : α)
    (h1 : e.dn1 ≤ dn1) (h2 : e.dn2 ≤ dn2) (hgain : ∀ r < e.d.nr, ∀ c < e.d.nc, ∀ x, e.gain r c = some x → 0 ≤ x) (b : Bool)
    (hb : b = true → s.flag4 = true) (cores : List Char) (ncpu : Nat) (i g r c : Nat) (hi : i < e.d.ni) (hg : g < e.d.ng)
    (hr : r < e.d.nr) (hc : c < e.d.nc) :
    let o := (detectJumps p sqrt clip s e cores ncpu).1 i g r c
    let o' := (detectJumps (thSet p t4 t3 t2 lo up e1 e2 n1 n2) sqrt clip { s with flag4 := b }
      { e with dn1 := dn1, dn2 := dn2 } cores ncpu).1 i g r c
    o = o' ∨ o = o' ||| p.jump := by
  have hm : 0 ≤ medianGain e := th_gain e hgain
  have hd := th_disjoint ja jb jc hf
  intro o o'
  by_cases hn : Slicing.computeNumCores cores e.d.nr ncpu = 1
  · have ho : o = cleanup p ((findCrs (stepParams p e) sqrt clip { s with minGroups := 3 } e.d (noiseElectrons e) (electrons e) e.gdq).gdq i g r c) := by
      simp only [o, detectJumps, twoPoint, hn, if_true]
    have ho' : o' = cleanup p ((findCrs (thSet (stepParams p e) t4 t3 t2 lo up (dn1 * medianGain e) (dn2 * medianGain e) n1 n2) sqrt clip
        { s with minGroups := 3, flag4 := b } e.d (noiseElectrons e) (electrons e) e.gdq).gdq i g r c) := by
      simp only [o', detectJumps, twoPoint, hn, if_true]
      rfl
    rw [ho, ho']
    exact th_cleanup ja jb jc hf ((th_found sqrt clip { s with minGroups := 3 } e.d (noiseElectrons e) (electrons e) e.gdq
      (⟨hs.normal, hs.three, hs.two, hs.low, hs.high, hs.first, hs.second⟩ : ThStricter (stepParams p e) t4 t3 t2 lo up n1 n2) ja hf.1 hd
      (mul_le_mul_of_nonneg_right h1 hm) (mul_le_mul_of_nonneg_right h2 hm) b hb i g hi hg).1 r hr c hc)
  · have ho : o = cleanup p ((multi (stepParams p e) sqrt clip s e.d (noiseElectrons e) (electrons e) e.gdq
        (Slicing.computeNumCores cores e.d.nr ncpu)).1 i g r c) := by
      simp only [o, detectJumps, twoPoint, hn, if_false]
    have ho' : o' = cleanup p ((multi (thSet (stepParams p e) t4 t3 t2 lo up (dn1 * medianGain e) (dn2 * medianGain e) n1 n2) sqrt clip
        { s with flag4 := b } e.d (noiseElectrons e) (electrons e) e.gdq (Slicing.computeNumCores cores e.d.nr ncpu)).1 i g r c) := by
      simp only [o', detectJumps, twoPoint, hn, if_false]
      rfl
    rw [ho, ho']
    exact th_cleanup ja jb jc hf (th_multi sqrt clip s e.d (noiseElectrons e) (electrons e) e.gdq
      (⟨hs.normal, hs.three, hs.two, hs.low, hs.high, hs.first, hs.second⟩ : ThStricter (stepParams p e) t4 t3 t2 lo up n1 n2) ja hf.1 hd
      (mul_le_mul_of_nonneg_right h1 hm) (mul_le_mul_of_nonneg_right h2 hm) b hb i g r c hi hg hr hc _ (C01_num_cores cores e.d.nr ncpu).1)

end

/-! ## The jump search of the Casertano fit -/

section
open Verif.Cas22 (Ramp Loop runLoop loopBody setJump jumpDet Cfg Pix fitPixel initRamps)

/-- The ramps that come up when those of `st` are fitted and split. -/
inductive ThReach (det : Ramp → Option Nat) (st : List Ramp) : Ramp → Prop
  | init (r : Ramp) : r ∈ st → ThReach det st r
  | left (r : Ramp) (a : Nat) : ThReach det st r → det r = some a → a + r.start > r.start → ThReach det st ⟨r.start, a + r.start - 1⟩
  | right (r : Ramp) (a : Nat) : ThReach det st r → det r = some a → a + r.start + 1 < r.stop → ThReach det st ⟨a + r.start + 1 + 1, r.stop⟩

theorem th_reach_nil (det : Ramp → Option Nat) (r : Ramp) : ¬ ThReach det [] r := by
  intro h
  induction h with
  | init r h => cases h
  | left r a _ _ _ ih => exact ih
  | right r a _ _ _ ih => exact ih

theorem th_reach_cons (det : Ramp → Option Nat) (dq : Nat → Nat) (done : List Ramp) (r : Ramp) (rest : List Ramp) (x : Ramp) :
    ThReach det (r :: rest) x ↔ x = r ∨ ThReach det (loopBody det dq done r rest).stack x := by
  have hrest : ∀ y ∈ rest, y ∈ (loopBody det dq done r rest).stack := by
    intro y hy
    unfold loopBody
    split
    · simp only
      split <;> split <;> simp [hy]
    · exact hy
  constructor
  · intro h
    induction h with
    | init x h =>
      rcases List.mem_cons.1 h with rfl | h
      · exact Or.inl rfl
      · exact Or.inr (.init _ (hrest _ h))
    | left y a _ ha hl ih =>
      rcases ih with rfl | ih
      · refine Or.inr (.init _ ?_)
        simp only [loopBody, ha, if_pos hl]
        split <;> simp
      · exact Or.inr (.left y a ih ha hl)
    | right y a _ ha hl ih =>
      rcases ih with rfl | ih
      · refine Or.inr (.init _ ?_)
        simp only [loopBody, ha, if_pos hl]
        simp
      · exact Or.inr (.right y a ih ha hl)
  · rintro (rfl | h)
    · exact .init _ (List.mem_cons_self ..)
    · induction h with
      | init x h =>
        unfold loopBody at h
        split at h
        · rename_i a ha
          simp only at h
          have hr := ThReach.init (det := det) (st := r :: rest) r (List.mem_cons_self ..)
          split at h
          · rename_i h2
            rcases List.mem_cons.1 h with rfl | h
            · exact .right r a hr ha h2
            · split at h
              · rename_i h1
                rcases List.mem_cons.1 h with rfl | h
                · exact .left r a hr ha h1
                · exact .init _ (List.mem_cons_of_mem _ h)
              · exact .init _ (List.mem_cons_of_mem _ h)
          · split at h
            · rename_i h1
              rcases List.mem_cons.1 h with rfl | h
              · exact .left r a hr ha h1
              · exact .init _ (List.mem_cons_of_mem _ h)
            · exact .init _ (List.mem_cons_of_mem _ h)
        · exact .init _ (List.mem_cons_of_mem _ h)
      | left y a _ ha hl ih => exact .left y a ih ha hl
      | right y a _ ha hl ih => exact .right y a ih ha hl

/-- A resultant is next to a jump found in one of these ramps. -/
def ThHit (det : Ramp → Option Nat) (st : List Ramp) (j : Nat) : Prop :=
  ∃ r a, ThReach det st r ∧ det r = some a ∧ (j = a + r.start ∨ j = a + r.start + 1)

theorem th_run (det : Ramp → Option Nat) (fuel : Nat) (st : List Ramp) (dq : Nat → Nat) (done : List Ramp) (L : Loop)
    (h : runLoop det fuel ⟨st, dq, done⟩ = some L) :
    (∀ j, (ThHit det st j → L.dq j = jumpDet) ∧ (¬ ThHit det st j → L.dq j = dq j)) ∧
      ∀ r, r ∈ L.done ↔ r ∈ done ∨ (ThReach det st r ∧ det r = none) := by
  induction fuel generalizing st dq done with
  | zero =>
    cases st with
    | nil =>
      rw [runLoop] at h
      cases h
      refine ⟨fun j => ⟨?_, fun _ => rfl⟩, fun r => ?_⟩
      · rintro ⟨r, a, hr, -⟩
        exact absurd hr (th_reach_nil det r)
      · simp [th_reach_nil det r]
    | cons r rest =>
      rw [runLoop] at h
      cases h
  | succ fuel ih =>
    cases st with
    | nil =>
      rw [runLoop] at h
      cases h
      refine ⟨fun j => ⟨?_, fun _ => rfl⟩, fun r => ?_⟩
      · rintro ⟨r, a, hr, -⟩
        exact absurd hr (th_reach_nil det r)
      · simp [th_reach_nil det r]
    | cons r rest =>
      rw [runLoop] at h
      obtain ⟨h1, h2⟩ := ih (loopBody det dq done r rest).stack (loopBody det dq done r rest).dq (loopBody det dq done r rest).done h
      have hc := th_reach_cons det dq done r rest
      have hhit : ∀ j, ThHit det (r :: rest) j ↔
          (∃ a, det r = some a ∧ (j = a + r.start ∨ j = a + r.start + 1)) ∨ ThHit det (loopBody det dq done r rest).stack j := by
        intro j
        unfold ThHit
        constructor
        · rintro ⟨x, a, hx, q⟩
          rcases (hc x).1 hx with rfl | hx
          · exact Or.inl ⟨a, q⟩
          · exact Or.inr ⟨x, a, hx, q⟩
        · rintro (⟨a, q⟩ | ⟨x, a, hx, q⟩)
          · exact ⟨r, a, (hc r).2 (Or.inl rfl), q⟩
          · exact ⟨x, a, (hc x).2 (Or.inr hx), q⟩
      cases hdet : det r with
      | some a =>
        have hdq : ∀ j, (loopBody det dq done r rest).dq j = if j = a + r.start ∨ j = a + r.start + 1 then jumpDet else dq j := by
          intro j
          simp only [loopBody, hdet, setJump]
          by_cases h1 : j = a + r.start + 1
          · simp [h1]
          · by_cases h0 : j = a + r.start
            · simp [h0]
            · simp [h0, h1]
        have hdone : (loopBody det dq done r rest).done = done := by simp only [loopBody, hdet]
        refine ⟨fun j => ⟨fun hj => ?_, fun hj => ?_⟩, fun x => ?_⟩
        · by_cases hs : ThHit det (loopBody det dq done r rest).stack j
          · exact (h1 j).1 hs
          · rw [(h1 j).2 hs, hdq]
            rcases (hhit j).1 hj with ⟨a', ha', hj'⟩ | hj'
            · rw [hdet] at ha'
              cases ha'
              exact if_pos hj'
            · exact absurd hj' hs
        · rw [(h1 j).2 (fun hs => hj ((hhit j).2 (Or.inr hs))), hdq]
          exact if_neg fun hj' => hj ((hhit j).2 (Or.inl ⟨a, hdet, hj'⟩))
        · rw [h2, hdone, hc]
          constructor
          · rintro (q | ⟨q1, q2⟩)
            · exact Or.inl q
            · exact Or.inr ⟨Or.inr q1, q2⟩
          · rintro (q | ⟨rfl | q1, q2⟩)
            · exact Or.inl q
            · rw [hdet] at q2
              cases q2
            · exact Or.inr ⟨q1, q2⟩
      | none =>
        have hdq : (loopBody det dq done r rest).dq = dq := by simp only [loopBody, hdet]
        have hdone : (loopBody det dq done r rest).done = done ++ [r] := by simp only [loopBody, hdet]
        have hno : ∀ j, ThHit det (r :: rest) j ↔ ThHit det (loopBody det dq done r rest).stack j := by
          intro j
          rw [hhit]
          refine or_iff_right ?_
          rintro ⟨a, ha, -⟩
          rw [hdet] at ha
          cases ha
        refine ⟨fun j => ?_, fun x => ?_⟩
        · rw [hno]
          have := h1 j
          rwa [hdq] at this
        · rw [h2, hdone, hc, List.mem_append, List.mem_singleton]
          constructor
          · rintro ((q | rfl) | ⟨q1, q2⟩)
            · exact Or.inl q
            · exact Or.inr ⟨Or.inl rfl, hdet⟩
            · exact Or.inr ⟨Or.inr q1, q2⟩
          · rintro (q | ⟨rfl | q1, q2⟩)
            · exact Or.inl (Or.inl q)
            · exact Or.inl (Or.inr rfl)
            · exact Or.inr ⟨q1, q2⟩

theorem th_reach_mono {det' det : Ramp → Option Nat} (h : ∀ r a, det' r = some a → det r = some a) (st : List Ramp) (r : Ramp)
    (hr : ThReach det' st r) : ThReach det st r := by
  induction hr with
  | init r hr => exact .init r hr
  | left r a _ ha hl ih => exact .left r a ih (h r a ha) hl
  | right r a _ ha hl ih => exact .right r a ih (h r a ha) hl

theorem th_reach_valid {det : Ramp → Option Nat} (hok : Verif.Cas22.DetOk det) (st : List Ramp) (hst : ∀ r ∈ st, r.start ≤ r.stop)
    (r : Ramp) (hr : ThReach det st r) : r.start ≤ r.stop := by
  induction hr with
  | init r hr => exact hst r hr
  | left r a _ ha hl ih =>
    have := hok r a ha ih
    simp only
    omega
  | right r a _ ha hl ih =>
    have := hok r a ha ih
    simp only
    omega

/-- A ramp of the lenient search is one of the strict search or inside one that the strict search leaves whole. -/
theorem th_reach_inside {det' det : Ramp → Option Nat} (h : ∀ r a, det' r = some a → det r = some a) (hok : Verif.Cas22.DetOk det)
    (st : List Ramp) (hst : ∀ r ∈ st, r.start ≤ r.stop) (r : Ramp) (hr : ThReach det st r) :
    ThReach det' st r ∨ ∃ r', ThReach det' st r' ∧ det' r' = none ∧ r'.start ≤ r.start ∧ r.stop ≤ r'.stop := by
  have hfun : ∀ r a a', det r = some a → det' r = some a' → a' = a := by
    intro r a a' h1 h2
    have := h r a' h2
    rw [h1] at this
    cases this
    rfl
  induction hr with
  | init r hr => exact Or.inl (.init r hr)
  | left r a hr ha hl ih =>
    have hv := hok r a ha (th_reach_valid hok st hst r hr)
    rcases ih with ih | ⟨r', q1, q2, q3, q4⟩
    · cases hd : det' r with
      | none => exact Or.inr ⟨r, ih, hd, le_rfl, by simp only; omega⟩
      | some a' =>
        cases hfun r a a' ha hd
        exact Or.inl (.left r _ ih hd hl)
    · exact Or.inr ⟨r', q1, q2, q3, by simp only; omega⟩
  | right r a hr ha hl ih =>
    rcases ih with ih | ⟨r', q1, q2, q3, q4⟩
    · cases hd : det' r with
      | none => exact Or.inr ⟨r, ih, hd, by simp only; omega, le_rfl⟩
      | some a' =>
        cases hfun r a a' ha hd
        exact Or.inl (.right r _ ih hd hl)
    · exact Or.inr ⟨r', q1, q2, by simp only; omega, q4⟩

theorem th_init_valid (dq : Nat → Nat) (n : Nat) : ∀ r ∈ (initRamps dq n).reverse, r.start ≤ r.stop := by
  obtain ⟨s, h, -, hv, -⟩ := C36_loop (fun _ => none) (by simp) dq n
  obtain ⟨-, hd⟩ := C36_no_jump_detection dq n s (h (n + 1) le_rfl)
  intro r hr
  rw [← hd] at hr
  exact (hv r hr).1

variable {α : Type*} [Field α] [LinearOrder α] [IsStrictOrderedRing α]

theorem th_cas_threshold (cfg : Cfg α) (b k : α) (hb : cfg.intercept ≤ b) (hk : k ≤ cfg.constant)
    (hl : ∀ x, 1 ≤ x → x ≤ 10000 → 0 ≤ cfg.log10 x) (slope : α) :
    Verif.Cas22.threshold cfg slope ≤ Verif.Cas22.threshold { cfg with intercept := b, constant := k } slope := by
  simp only [Verif.Cas22.threshold]
  generalize hs : (if (if slope > 1 then slope else 1) < 10000 then (if slope > 1 then slope else 1) else (10000 : α)) = x
  have h1 : 1 ≤ x ∧ x ≤ 10000 := by
    rw [← hs]
    split_ifs with g1 g2 g2
    · exact ⟨g1.le, g2.le⟩
    · exact ⟨by norm_num, le_rfl⟩
    · exact ⟨le_rfl, g2.le⟩
    · exact ⟨by norm_num, le_rfl⟩
  have := mul_le_mul_of_nonneg_right hk (hl x h1.1 h1.2)
  linarith

theorem th_cas_detect (cfg : Cfg α) (b k : α) (hb : cfg.intercept ≤ b) (hk : k ≤ cfg.constant)
    (hl : ∀ x, 1 ≤ x → x ≤ 10000 → 0 ≤ cfg.log10 x) (p : Pix α) (r : Ramp) (a : Nat)
    (h : Verif.Cas22.detect { cfg with intercept := b, constant := k } p r = some a) : Verif.Cas22.detect cfg p r = some a := by
  unfold Verif.Cas22.detect at h ⊢
  have e1 : Verif.Cas22.fitRamp { cfg with intercept := b, constant := k } p r = Verif.Cas22.fitRamp cfg p r := rfl
  rw [e1] at h
  split at h
  · rename_i hu
    rw [if_pos hu]
    cases hf : Verif.Cas22.fitRamp cfg p r with
    | none => rw [hf] at h; cases h
    | some f =>
      rw [hf] at h
      have e2 : Verif.Cas22.fitStatistic { cfg with intercept := b, constant := k } p r f.slope = Verif.Cas22.fitStatistic cfg p r f.slope := rfl
      simp only [e2] at h ⊢
      split at h
      · rename_i hg
        cases h
        refine if_pos ?_
        generalize (Verif.Cas22.fitStatistic cfg p r f.slope).2 = v at hg ⊢
        cases v with
        | none => simp [Verif.Cas22.gt] at hg
        | some v =>
          simp only [Verif.Cas22.gt, Verif.Cas22.fin, decide_eq_true_eq] at hg ⊢
          refine lt_of_le_of_lt ?_ hg
          rw [WithBot.coe_le_coe, WithTop.coe_le_coe]
          exact th_cas_threshold cfg b k hb hk hl f.slope
      · cases h
  · cases h

/-- C160. The Casertano fit with a higher threshold (a larger intercept, a smaller constant) marks no resultant that the
fit with the lower threshold does not mark as a jump, and every ramp fitted with the lower threshold lies in one fitted
with the higher. -/
theorem C160_casertano (cfg : Cfg α) (b k : α) (hb : cfg.intercept ≤ b) (hk : k ≤ cfg.constant)
    (hl : ∀ x, 1 ≤ x → x ≤ 10000 → 0 ≤ cfg.log10 x) (p : Pix α) (dq : Nat → Nat) (n : Nat) :
    ∃ w ramps f w' ramps' f',
      (∀ fuel, n + 1 ≤ fuel → fitPixel cfg p dq n fuel = some (w, ramps, f)
        ∧ fitPixel { cfg with intercept := b, constant := k } p dq n fuel = some (w', ramps', f'))
      ∧ (∀ j, w' j = w j ∨ (w' j = dq j ∧ w j = 4))
      ∧ ∀ r ∈ ramps, ∃ r' ∈ ramps', r'.start ≤ r.start ∧ r.stop ≤ r'.stop := by
  obtain ⟨w, ramps, f, h, -⟩ := C36_pixel cfg p dq n
  obtain ⟨w', ramps', f', h', -⟩ := C36_pixel { cfg with intercept := b, constant := k } p dq n
  refine ⟨w, ramps, f, w', ramps', f', fun fuel hf => ⟨h fuel hf, h' fuel hf⟩, ?_⟩
  have h1 := h (n + 1) le_rfl
  have h1' := h' (n + 1) le_rfl
  unfold fitPixel at h1 h1'
  rw [Option.map_eq_some_iff] at h1 h1'
  obtain ⟨L, hL, hL2⟩ := h1
  obtain ⟨L', hL', hL2'⟩ := h1'
  have hdet := th_cas_detect cfg b k hb hk hl p
  generalize hst : (initRamps dq n).reverse = st at hL hL'
  have hv : ∀ r ∈ st, r.start ≤ r.stop := by
    rw [← hst]
    exact th_init_valid dq n
  have hok := Verif.Cas22.detect_ok cfg p
  generalize Verif.Cas22.detect cfg p = det at hL hdet hok
  generalize Verif.Cas22.detect { cfg with intercept := b, constant := k } p = det' at hL' hdet
  obtain ⟨q1, q2⟩ := th_run det _ _ _ _ L hL
  obtain ⟨q1', q2'⟩ := th_run det' _ _ _ _ L' hL'
  have ew : L.dq = w := congrArg Prod.fst hL2
  have ew' : L'.dq = w' := congrArg Prod.fst hL2'
  have er : L.done = ramps := congrArg (fun t => t.2.1) hL2
  have er' : L'.done = ramps' := congrArg (fun t => t.2.1) hL2'
  refine ⟨fun j => ?_, fun r hr => ?_⟩
  · rw [← ew, ← ew']
    by_cases hj : ThHit det' st j
    · left
      rw [(q1' j).1 hj, (q1 j).1]
      obtain ⟨r, a, g1, g2, g3⟩ := hj
      exact ⟨r, a, th_reach_mono hdet st r g1, hdet r a g2, g3⟩
    · rw [(q1' j).2 hj]
      by_cases hj2 : ThHit det st j
      · exact Or.inr ⟨rfl, (q1 j).1 hj2⟩
      · exact Or.inl ((q1 j).2 hj2).symm
  · rw [← er] at hr
    rw [← er']
    rcases (q2 r).1 hr with g | ⟨g1, g2⟩
    · cases g
    · rcases th_reach_inside hdet hok st hv r g1 with g | ⟨r', g3, g4, g5, g6⟩
      · refine ⟨r, (q2' r).2 (Or.inr ⟨g, ?_⟩), le_rfl, le_rfl⟩
        cases hd : det' r with
        | none => rfl
        | some a => rw [hdet r a hd] at g2; cases g2
      · exact ⟨r', (q2' r').2 (Or.inr ⟨g3, g4⟩), g5, g6⟩

end

/-! ## Examples -/

/-- Example: jumps of 150 in group 2 and of 30 in group 6 of the middle pixel of a 3×3 frame. -/
def thExp : Exposure ℚ :=
  ⟨⟨1, 9, 3, 3⟩, fun _ g r c => some ((g : ℚ) + if r = 1 ∧ c = 1 then (if 2 ≤ g then 150 else 0) + (if 6 ≤ g then 30 else 0) else 0),
    fun _ _ _ _ => 0, fun _ _ => some 1, fun _ _ => 1, fun _ _ => 0, 100, 1000⟩

-- C160_jumps: the stricter search misses the second jump and does not flag the neighbours of the first
example : ThStricter exJump (20 : ℚ) 25 30 60 180 0 3 ∧ FlagBits exJump 2 0 1
    ∧ (let o := fun g r c => (detectJumps exJump id jdClipRule gwSw thExp "2".toList 4).1 0 g r c
      let o' := fun g r c => (detectJumps (thSet exJump 20 25 30 60 180 100 1000 0 3) id jdClipRule gwSw
        { thExp with dn1 := 200, dn2 := 2000 } "2".toList 4).1 0 g r c
      (List.range 9).map (fun g => o g 1 1) = [0, 0, 4, 4, 0, 0, 4, 0, 0]
      ∧ (List.range 9).map (fun g => o' g 1 1) = [0, 0, 4, 0, 0, 0, 0, 0, 0]
      ∧ (List.range 9).map (fun g => o g 0 1) = [0, 0, 4, 0, 0, 0, 0, 0, 0]
      ∧ (List.range 9).map (fun g => o' g 0 1) = [0, 0, 0, 0, 0, 0, 0, 0, 0]) :=
  ⟨by constructor <;> norm_num [exJump], by unfold FlagBits; decide +kernel, by decide +kernel⟩

-- C160_casertano: with the higher threshold the ramp of eight resultants stays whole
example : (cas22Cfg true).intercept ≤ 1000 ∧ (1 : ℚ) ≤ (cas22Cfg true).constant ∧ (∀ x : ℚ, 1 ≤ x → x ≤ 10000 → 0 ≤ (cas22Cfg true).log10 x)
    ∧ (let f := fun cfg => (Verif.Cas22.fitPixel cfg (cas22Ex fun i => if i < 4 then (i : ℚ) else 40 + i) (fun _ => 0) 8 9).map
        fun o => ((List.range 8).map o.1, o.2.1.map fun r => (r.start, r.stop))
      f (cas22Cfg true) = some ([0, 0, 4, 4, 0, 0, 0, 0], [(4, 7), (0, 1)])
      ∧ f { cas22Cfg true with intercept := 1000, constant := 1 } = some ([0, 0, 0, 0, 0, 0, 0, 0], [(0, 7)])) :=
  ⟨by norm_num [cas22Cfg], by norm_num [cas22Cfg], fun _ _ _ => le_rfl, by decide +kernel⟩

end Verif.Thm
