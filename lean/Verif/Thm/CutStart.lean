import Verif.Thm.CutGroups

/-!
# C166: cutting off unusable groups at the beginning

The OLS_C fit of a pixel (slope_fitter.c:2808-2908) for an exposure whose first groups are not to be used, and for the same exposure
without them, as `discard_miri_groups` (ols_fit.py:670-760) leaves it.
-/

set_option linter.unusedSectionVars false

namespace Verif.Thm

open Verif

section
open Verif.Ols Verif.Dq
variable {α : Type*} [Field α] [LinearOrder α]

/-- Spec: words of groups that are not to be used, without saturation, jump and persistence. -/
def CuHead (fl : Flags) (t : List Nat) : Prop :=
  ∀ w ∈ t, Has w fl.dnu ∧ ¬ Has w fl.sat ∧ ¬ Has w fl.jump ∧ ¬ Has w fl.pers

/-- Spec: the second integration has `k` groups that are not to be used before the `n` groups of the first. -/
def CuLonger (fl : Flags) (k n : Nat) (x y : List (Option α) × List Nat × Option (Option α)) : Prop :=
  x.1.length = n ∧ x.2.1.length = n ∧ x.2.2 = y.2.2 ∧
    ∃ d t, d.length = k ∧ t.length = k ∧ CuHead fl t ∧ y.1 = d ++ x.1 ∧ y.2.1 = t ++ x.2.1

/-- Spec: the first group is not saturated, and two neighbouring groups without any flag have samples that are numbers. -/
def CuGood (fl : Flags) (x : List (Option α) × List Nat × Option (Option α)) : Prop :=
  ¬ Has (x.2.1.getD 0 0) fl.sat ∧ ∃ (i : Nat) (a b : α), x.2.1[i]? = some 0 ∧ x.2.1[i + 1]? = some 0 ∧
    x.1[i]? = some (some a) ∧ x.1[i + 1]? = some (some b)

theorem cu_tail {fl : Flags} {t : List Nat} (h : CuHead fl t) : CgTail fl t := fun w hw =>
  ⟨Or.inl (h w hw).1, (h w hw).2.2.1, (h w hw).2.2.2⟩

/-! ### Segments -/

def cuSeg (k : Nat) (s : Seg) : Seg := ⟨s.start + k, s.stop + k⟩

def cuList (k : Nat) (l : SegList) : SegList := ⟨l.segs.map (cuSeg k), l.size, l.maxLen⟩

theorem cu_len (k : Nat) (s : Seg) : (cuSeg k s).len = s.len := by simp only [cuSeg, Seg.len]; omega

theorem cu_add (k : Nat) (l : SegList) (s : Seg) : addSeg (cuList k l) (cuSeg k s) = cuList k (addSeg l s) := by
  unfold addSeg
  rw [cu_len, show (cuList k l).maxLen = l.maxLen from rfl]
  by_cases h : s.len = 1 ∧ 1 < l.maxLen
  · rw [if_pos h, if_pos h]
  · rw [if_neg h, if_neg h]
    simp [cuList]

theorem cu_prune (k : Nat) (l : SegList) : prune (cuList k l) = cuList k (prune l) := by
  have hf : ∀ q : Seg → Bool, (∀ s, q (cuSeg k s) = q s) → (l.segs.map (cuSeg k)).filter q = (l.segs.filter q).map (cuSeg k) := by
    intro q hq
    rw [List.filter_map]
    congr 2
    funext s
    exact hq s
  have h1 := hf (fun s => decide (s.len ≠ 1)) fun s => by simp only [cu_len]
  have h2 := hf (fun s => decide (s.len = 1)) fun s => by simp only [cu_len]
  unfold prune
  by_cases ha : l.size < 2
  · rw [if_pos ha, if_pos (show (cuList k l).size < 2 from ha)]
  rw [if_neg ha, if_neg (show ¬ (cuList k l).size < 2 from ha)]
  by_cases hb : l.maxLen < 2
  · rw [if_pos hb, if_pos (show (cuList k l).maxLen < 2 from hb)]
    simp only [cuList, List.map_take]
  · rw [if_neg hb, if_neg (show ¬ (cuList k l).maxLen < 2 from hb)]
    simp only [cuList, h1, h2, List.length_map]

def CuSt (k : Nat) (a b : LoopSt) : Prop :=
  b.inSeg = a.inSeg ∧ (a.inSeg = true → b.start = a.start + k) ∧ b.lst = cuList k a.lst

theorem cu_step (fl : Flags) (t g : List Nat) (ht : CuHead fl t) (a b : LoopSt) (h : CuSt t.length a b) (i : Nat) :
    CuSt t.length (segStep fl g a i) (segStep fl (t ++ g) b (t.length + i)) := by
  obtain ⟨h1, h2, h3⟩ := h
  have hg : (t ++ g).getD (t.length + i) 0 = g.getD i 0 := by
    rw [List.getD_eq_getElem?_getD, List.getD_eq_getElem?_getD, List.getElem?_append_right (by omega)]
    congr 2
    omega
  unfold segStep
  rw [hg, h1]
  by_cases hz : clear (g.getD i 0) fl.pers = 0
  · rw [if_pos hz, if_pos hz]
    cases hin : a.inSeg with
    | true => exact ⟨by simp [h1, hin], fun _ => by simpa using h2 hin, by simpa using h3⟩
    | false =>
      simp only [Bool.not_false, if_true]
      refine ⟨rfl, fun _ => ?_, h3⟩
      simp only
      by_cases hi : 0 < i
      · have hg' : (t ++ g).getD (t.length + i - 1) 0 = g.getD (i - 1) 0 := by
          rw [List.getD_eq_getElem?_getD, List.getD_eq_getElem?_getD, List.getElem?_append_right (by omega)]
          congr 2
          omega
        rw [hg']
        by_cases hj : clear (g.getD (i - 1) 0) fl.pers = fl.jump
        · rw [if_pos ⟨by omega, hj⟩, if_pos ⟨hi, hj⟩]
          omega
        · rw [if_neg (fun x => hj x.2), if_neg (fun x => hj x.2)]
          omega
      · have hi0 : i = 0 := by omega
        subst hi0
        rw [if_neg (show ¬ (0 < 0 ∧ clear (g.getD (0 - 1) 0) fl.pers = fl.jump) from fun x => absurd x.1 (lt_irrefl 0)), if_neg]
        · omega
        · rintro ⟨hp, hj⟩
          have hm : (t ++ g).getD (t.length + 0 - 1) 0 ∈ t := by
            rw [List.getD_eq_getElem?_getD, List.getElem?_append_left (by omega), List.getElem?_eq_getElem (by omega)]
            exact List.getElem_mem _
          have hne := cg_clear (cu_tail ht) hm
          obtain ⟨-, -, hnj, -⟩ := ht _ hm
          obtain ⟨b, hb⟩ := Nat.exists_testBit_of_ne_zero (fun h0 => hne (hj.trans h0))
          refine hnj (has_iff.2 ⟨b, ?_, hb⟩)
          have := congrArg (fun n => n.testBit b) hj
          simp only [testBit_clear, hb, Bool.and_eq_true] at this
          exact this.1
  · rw [if_neg hz, if_neg hz]
    cases hin : a.inSeg with
    | false => exact ⟨by simp [h1, hin], by simp [hin], by simpa using h3⟩
    | true =>
      simp only [if_true]
      refine ⟨rfl, by simp, ?_⟩
      simp only
      rw [h3, h2 hin, ← cu_add, Nat.add_comm t.length i]
      rfl

theorem cu_segs (fl : Flags) (t g : List Nat) (ht : CuHead fl t) : computeSegs fl (t ++ g) = cuList t.length (computeSegs fl g) := by
  have hbad : ∀ i ∈ List.range t.length, clear ((t ++ g).getD i 0) fl.pers ≠ 0 := by
    intro i hi
    have := List.mem_range.1 hi
    rw [List.getD_eq_getElem?_getD, List.getElem?_append_left this, List.getElem?_eq_getElem this]
    exact cg_clear (cu_tail ht) (List.getElem_mem _)
  have hf : ∀ (l : List Nat) (a b : LoopSt), CuSt t.length a b →
      CuSt t.length (l.foldl (segStep fl g) a) ((l.map (t.length + ·)).foldl (segStep fl (t ++ g)) b) := by
    intro l
    induction l with
    | nil => exact fun a b h => h
    | cons i l ih =>
      intro a b h
      rw [List.map_cons, List.foldl_cons, List.foldl_cons]
      exact ih _ _ (cu_step fl t g ht a b h i)
  simp only [computeSegs, List.length_append]
  rw [List.range_add, List.foldl_append, cg_outside fl (t ++ g) _ hbad _ rfl]
  obtain ⟨e1, e2, e3⟩ := hf (List.range g.length) ⟨false, 0, SegList.empty⟩ ⟨false, 0, SegList.empty⟩ ⟨rfl, by simp, rfl⟩
  generalize (List.range g.length).foldl (segStep fl g) ⟨false, 0, SegList.empty⟩ = a at e1 e2 e3
  generalize ((List.range g.length).map (t.length + ·)).foldl (segStep fl (t ++ g)) ⟨false, 0, SegList.empty⟩ = b at e1 e2 e3
  rw [e1, e3, ← cu_prune]
  cases hin : a.inSeg with
  | false => rfl
  | true =>
    simp only [if_true]
    rw [e2 hin, ← cu_add, Nat.add_comm t.length g.length]
    rfl

/-! ### Fit of a segment -/

theorem cu_wls (n start k : Nat) (w y : Nat → α) : (wls n (start + k) w y).1 = (wls n start w y).1 := by
  have e1 : sumTo n (fun i => ((i : α) + ((start + k : Nat) : α)) * w i) = sumTo n (fun i => ((i : α) + (start : α)) * w i) + (k : α) * sumTo n w := by
    rw [← sumTo_mul, ← sumTo_add]
    exact sumTo_congr n fun i _ => by push_cast; ring
  have e2 : sumTo n (fun i => y i * (((i : α) + ((start + k : Nat) : α)) * w i))
      = sumTo n (fun i => y i * (((i : α) + (start : α)) * w i)) + (k : α) * sumTo n fun i => y i * w i := by
    rw [← sumTo_mul, ← sumTo_add]
    exact sumTo_congr n fun i _ => by push_cast; ring
  have e3 : sumTo n (fun i => ((i : α) + ((start + k : Nat) : α)) * (((i : α) + ((start + k : Nat) : α)) * w i))
      = sumTo n (fun i => ((i : α) + (start : α)) * (((i : α) + (start : α)) * w i))
        + ((2 * (k : α)) * sumTo n (fun i => ((i : α) + (start : α)) * w i) + (k : α) ^ 2 * sumTo n w) := by
    rw [← sumTo_mul, ← sumTo_mul, ← sumTo_add, ← sumTo_add]
    exact sumTo_congr n fun i _ => by push_cast; ring
  simp only [wls, e1, e2, e3]
  generalize sumTo n w = s0
  generalize sumTo n (fun i => ((i : α) + (start : α)) * w i) = s1
  congr 1
  · ring
  · congr 1
    ring

theorem cu_fitSeg (cfg : Cfg α) (px : Pix α) (med : Option α) (a b : Bool) (d d' : Nat → Option α) (k : Nat) (h : ∀ i, d' (i + k) = d i)
    (s : Seg) : fitSeg cfg px med a b d' (cuSeg k s) = fitSeg cfg px med a b d s := by
  unfold fitSeg
  rw [cu_len]
  have h1 : d' (cuSeg k s).start = d s.start := h _
  have h2 : d' ((cuSeg k s).start + 1) = d (s.start + 1) := by rw [← h]; congr 1; simp only [cuSeg]; omega
  rw [h1, h2]
  split
  · rfl
  split
  · rfl
  · have hl : s.len ≠ 0 ∨ s.len = 0 := by omega
    rename_i hn1 hn2
    have h3 : ∀ i, d' ((cuSeg k s).start + i) = d (s.start + i) := fun i => by rw [← h]; congr 1; simp only [cuSeg]; omega
    have h4 : d' ((cuSeg k s).start + s.len - 1) = d (s.start + s.len - 1) ∨ s.len = 0 := by
      rcases hl with hl | hl
      · left
        have := h3 (s.len - 1)
        rwa [show (cuSeg k s).start + (s.len - 1) = (cuSeg k s).start + s.len - 1 by omega, show s.start + (s.len - 1) = s.start + s.len - 1 by omega] at this
      · exact Or.inr hl
    dsimp only
    simp only [h3]
    rw [show (cuSeg k s).start = s.start + k from rfl, cu_wls]
    rcases h4 with h4 | h4
    · rw [show (cuSeg k s).start = s.start + k from rfl] at h4
      rw [h4]
    · rw [h4]
      simp [wls, sumTo]

/-! ### Loading -/

structure CuInt (fl : Flags) (k n : Nat) (i j : Integ α) : Prop where
  ex : ∃ d t, d.length = k ∧ t.length = k ∧ CuHead fl t ∧ j.data = d ++ i.data ∧ j.gdq = t ++ i.gdq
  dlen : i.data.length = n
  glen : i.gdq.length = n
  is0 : i.is0th = false ∧ j.is0th = false
  isZ : i.isZframe = false ∧ j.isZframe = false
  jump : j.st.jumpDet = i.st.jumpDet
  pers : j.st.persistence = i.st.persistence
  cnt : j.st.cntDnuSat = i.st.cntDnuSat + k
  cntLt : i.st.cntDnuSat < n
  sat : j.st.cntSat = i.st.cntSat
  first : firstSat fl i.gdq = false ∧ firstSat fl j.gdq = false
  good : ∃ (m : Nat) (a b : α), i.gdq[m]? = some 0 ∧ i.gdq[m + 1]? = some 0 ∧ i.data[m]? = some (some a) ∧ i.data[m + 1]? = some (some b)

theorem cu_two (g : List Nat) (i : Nat) (h1 : g[i]? = some 0) (h2 : g[i + 1]? = some 0) : 2 ≤ g.countP fun d => decide (d = 0) := by
  induction g generalizing i with
  | nil => simp at h1
  | cons a g ih =>
    cases i with
    | zero =>
      simp only [List.getElem?_cons_zero, Option.some.injEq] at h1
      simp only [Nat.zero_add, List.getElem?_cons_succ] at h2
      have : 0 < g.countP fun d => decide (d = 0) := List.countP_pos_iff.2 ⟨0, List.mem_of_getElem? h2, by simp⟩
      rw [List.countP_cons, h1]
      simp only [decide_true, if_true]
      omega
    | succ i =>
      simp only [List.getElem?_cons_succ] at h1 h2
      have := ih i h1 h2
      rw [List.countP_cons]
      omega

theorem cu_load (fl : Flags) (sup : Bool) (k n : Nat) (x y : List (Option α) × List Nat × Option (Option α)) (h : CuLonger fl k n x y)
    (hx : CuGood fl x) : CuInt fl k n (loadInteg fl sup x.1 x.2.1 x.2.2) (loadInteg fl sup y.1 y.2.1 y.2.2) := by
  obtain ⟨d, g, z⟩ := x
  obtain ⟨d', g', z'⟩ := y
  obtain ⟨h1, h2, h3, e, t, h4, h5, h6, h7, h8⟩ := h
  obtain ⟨hs, m, a, b, q1, q2, q3, q4⟩ := hx
  simp only at h1 h2 h3 h7 h8 hs q1 q2 q3 q4 ⊢
  subst h3 h7 h8
  have htwo := cu_two g m q1 q2
  have hgood : (t ++ g).countP (fun d => decide (d = 0)) = g.countP fun d => decide (d = 0) := by
    rw [List.countP_append, (List.countP_eq_zero (l := t)).2 (fun w hw => by simpa using cg_ne (cu_tail h6) hw), zero_add]
  have hjump : ((t ++ g).any fun d => hasB d fl.jump) = g.any fun d => hasB d fl.jump := by
    rw [List.any_append, (List.any_eq_false (l := t)).2 (fun w hw => by rw [Bool.not_eq_true, hasB_false]; exact (h6 w hw).2.2.1), Bool.false_or]
  have hpers : ((t ++ g).any fun d => hasB d fl.pers) = g.any fun d => hasB d fl.pers := by
    rw [List.any_append, (List.any_eq_false (l := t)).2 (fun w hw => by rw [Bool.not_eq_true, hasB_false]; exact (h6 w hw).2.2.2), Bool.false_or]
  have hcnt : (t ++ g).countP (fun d => hasB d fl.dnu || hasB d fl.sat) = g.countP (fun d => hasB d fl.dnu || hasB d fl.sat) + k := by
    rw [List.countP_append, ← h5, Nat.add_comm]
    congr 1
    rw [List.countP_eq_length]
    intro w hw
    rw [Bool.or_eq_true, hasB_iff]
    exact Or.inl (h6 w hw).1
  have hsat : (t ++ g).countP (fun d => hasB d fl.sat) = g.countP fun d => hasB d fl.sat := by
    rw [List.countP_append, (List.countP_eq_zero (l := t)).2 (fun w hw => by rw [Bool.not_eq_true, hasB_false]; exact (h6 w hw).2.1), zero_add]
  have hlt : g.countP (fun d => hasB d fl.dnu || hasB d fl.sat) < n := by
    refine lt_of_le_of_ne (h2 ▸ List.countP_le_length) fun he => ?_
    rw [← h2, List.countP_eq_length] at he
    have := he 0 (List.mem_of_getElem? q1)
    simp [hasB] at this
  have hz : List.zipWith (fun (x : Option α) q => if hasB q fl.sat then none else x) (e ++ d) (t ++ g)
      = List.zipWith (fun x q => if hasB q fl.sat then none else x) e t
        ++ List.zipWith (fun x q => if hasB q fl.sat then none else x) d g := List.zipWith_append (by omega)
  have hf : firstSat fl g = false := hasB_false.2 hs
  have hf' : firstSat fl (t ++ g) = false := by
    cases t with
    | nil => exact hf
    | cons w t => exact hasB_false.2 (h6 w (by simp)).2.1
  have hd : ∀ (i : Nat) (v : α), g[i]? = some 0 → d[i]? = some (some v) →
      (List.zipWith (fun (x : Option α) q => if hasB q fl.sat then none else x) d g)[i]? = some (some v) := by
    intro i v hg hv
    rw [List.getElem?_zipWith, hg, hv]
    simp [hasB]
  have hbase : CuInt fl k n (⟨List.zipWith (fun (x : Option α) q => if hasB q fl.sat then none else x) d g, g, stats fl g, false, false⟩ : Integ α)
      ⟨List.zipWith (fun (x : Option α) q => if hasB q fl.sat then none else x) (e ++ d) (t ++ g), t ++ g, stats fl (t ++ g), false, false⟩ :=
    ⟨⟨_, t, by simp [h4, h5], h5, h6, hz, rfl⟩, by simp [h1, h2], h2, ⟨rfl, rfl⟩, ⟨rfl, rfl⟩, hjump, hpers,
      by simp only [stats, hcnt]; push_cast; rfl, by simp only [stats]; exact_mod_cast hlt, hsat, ⟨hf, hf'⟩,
      ⟨m, a, b, q1, q2, hd _ _ q1 q3, hd _ _ q2 q4⟩⟩
  simp only [loadInteg]
  have hgs : (stats fl (t ++ g)).cntGood = (stats fl g).cntGood := hgood
  have h2s : 2 ≤ (stats fl g).cntGood := htwo
  rw [hgs, if_neg (show ¬ ((stats fl g).cntGood = 1 ∧ g.getD 0 0 = 0) by omega),
    if_neg (show ¬ ((stats fl g).cntGood = 1 ∧ (t ++ g).getD 0 0 = 0) by omega), if_neg (show ¬ (stats fl g).cntGood = 0 by omega),
    if_neg (show ¬ (stats fl g).cntGood = 0 by omega)]
  split <;> exact hbase

/-! ### Median rate -/

theorem cu_medianInteg (fl : Flags) (cfg : Cfg α) (k n : Nat) (i j : Integ α) (h : CuInt fl k n i j) :
    medianInteg fl cfg j.data j.gdq = medianInteg fl cfg i.data i.gdq := by
  obtain ⟨d, t, h1, h2, h3, h4, h5⟩ := h.ex
  obtain ⟨m, a, b, q1, q2, q3, q4⟩ := h.good
  have hd := h.dlen
  have hg := h.glen
  have hm : m + 1 < n := by
    rw [← hg]
    exact (List.getElem?_eq_some_iff.1 q2).1
  set f : Option α → Nat → Option α := fun x q => if hasB q fl.dnu then none else x.map fun d => d / cfg.groupTime with hf
  have hz : List.zipWith f j.data j.gdq = List.zipWith f d t ++ List.zipWith f i.data i.gdq := by
    rw [h4, h5]
    exact List.zipWith_append (by omega)
  have hlen : (List.zipWith f d t).length = k := by simp [h1, h2]
  have hn : ∀ m : Nat, m < k → ((List.zipWith f j.data j.gdq)[m]?).join = none := by
    intro m hm
    rw [hz, List.getElem?_append_left (by omega), List.getElem?_zipWith, List.getElem?_eq_getElem (l := t) (by omega),
      List.getElem?_eq_getElem (by omega)]
    have := hasB_iff.2 (h3 _ (List.getElem_mem (show m < t.length by omega))).1
    simp [hf, this]
  have hl : ∀ m : Nat, (List.zipWith f j.data j.gdq)[k + m]? = (List.zipWith f i.data i.gdq)[m]? := by
    intro m
    rw [hz, List.getElem?_append_right (by omega), hlen]
    congr 1
    omega
  have hgd : ∀ m, j.gdq.getD (k + m) 0 = i.gdq.getD m 0 := by
    intro m
    rw [h5, List.getD_eq_getElem?_getD, List.getD_eq_getElem?_getD, List.getElem?_append_right (by omega), h2]
    congr 2
    omega
  generalize hD : ((List.range (i.gdq.length - 1)).map fun k =>
      if hasB (i.gdq.getD (k + 1) 0) fl.jump then none
      else o2 (· - ·) (((List.zipWith f i.data i.gdq)[k + 1]?).join) (((List.zipWith f i.data i.gdq)[k]?).join)) = D
  have hdiff : ((List.range (j.gdq.length - 1)).map fun k =>
      if hasB (j.gdq.getD (k + 1) 0) fl.jump then none
      else o2 (· - ·) (((List.zipWith f j.data j.gdq)[k + 1]?).join) (((List.zipWith f j.data j.gdq)[k]?).join))
      = List.replicate k none ++ D := by
    have hlen : j.gdq.length - 1 = k + (i.gdq.length - 1) := by rw [h5, List.length_append]; omega
    rw [hlen, List.range_add, List.map_append, ← hD]
    congr 1
    · rw [List.eq_replicate_iff]
      refine ⟨by simp, fun x hx => ?_⟩
      obtain ⟨n, hn', rfl⟩ := List.mem_map.1 hx
      rw [hn n (List.mem_range.1 hn')]
      cases (List.zipWith f j.data j.gdq)[n + 1]?.join <;> simp [o2]
    · rw [List.map_map]
      refine List.map_congr_left fun n _ => ?_
      simp only [Function.comp_apply]
      rw [Nat.add_assoc, hgd, hl, hl]
  have hnum : ∀ (m : Nat) (v : α), i.gdq[m]? = some 0 → i.data[m]? = some (some v) →
      ((List.zipWith f i.data i.gdq)[m]?).join = some (v / cfg.groupTime) := by
    intro m v hg hv
    rw [List.getElem?_zipWith, hg, hv]
    simp [hf, hasB]
  have hsome : D.all (fun d => d.isNone) = false := by
    rw [List.all_eq_false]
    refine ⟨some (b / cfg.groupTime - a / cfg.groupTime), ?_, by simp⟩
    rw [← hD, List.mem_map]
    refine ⟨m, List.mem_range.2 (by omega), ?_⟩
    rw [hnum m a q1 q3, hnum (m + 1) b q2 q4, List.getD_eq_getElem?_getD, q2]
    simp [hasB, o2]
  have hsome' : (List.replicate k none ++ D).all (fun d => d.isNone) = false := by
    rw [List.all_append, hsome, Bool.and_false]
  simp only [medianInteg]
  rw [← hf, hdiff, hD, hsome, hsome']
  simp only [Bool.false_and, Bool.false_eq_true, if_false]
  have : (List.replicate k none ++ D).filterMap id = D.filterMap id := by
    rw [List.filterMap_append, (List.filterMap_eq_nil_iff (l := List.replicate k none)).2
      (fun x hx => by rw [List.eq_of_mem_replicate hx]; rfl), List.nil_append]
  rw [nanMedian, nanMedian, this]

theorem cu_medianRate (fl : Flags) (cfg : Cfg α) (k n : Nat) (hn : 2 ≤ n) (l l' : List (Integ α))
    (h : List.Forall₂ (CuInt fl k n) l l') : medianRate fl cfg (k + n) l' = medianRate fl cfg n l := by
  simp only [medianRate, if_neg (show k + n ≠ 1 by omega), if_neg (show n ≠ 1 by omega), h.length_eq]
  congr 3
  induction h with
  | nil => rfl
  | cons hab _ ih =>
    rw [List.map_cons, List.map_cons, ih]
    congr 1
    rw [hab.is0.1, hab.is0.2, hab.isZ.1, hab.isZ.2, cu_medianInteg fl cfg k n _ _ hab]
    rfl

/-! ### The fit -/

theorem cu_fitInteg (fl : Flags) (cfg : Cfg α) (px : Pix α) (med : Option α) (k n : Nat) (i j : Integ α) (h : CuInt fl k n i j) (dq : Nat) :
    fitInteg fl cfg px med (k + n) j dq = fitInteg fl cfg px med n i dq := by
  obtain ⟨d, t, h1, h2, h3, h4, h5⟩ := h.ex
  have hlt := h.cntLt
  have hc := h.cnt
  have hsegs : (fitSegs fl j.gdq).segs = (fitSegs fl i.gdq).segs.map (cuSeg k) := by
    rw [fitSegs, fitSegs, h.first.1, h.first.2, h5, if_neg (by simp), if_neg (by simp), cu_segs fl t _ h3, h2]
    rfl
  have hfit : (fitSegs fl j.gdq).segs.map (fitSeg cfg px med j.is0th j.isZframe fun k => (j.data[k]?).join)
      = (fitSegs fl i.gdq).segs.map (fitSeg cfg px med i.is0th i.isZframe fun k => (i.data[k]?).join) := by
    rw [hsegs, List.map_map, h.is0.1, h.is0.2, h.isZ.1, h.isZ.2]
    refine List.map_congr_left fun s _ => ?_
    refine cu_fitSeg cfg px med _ _ _ _ k (fun i => ?_) s
    rw [h4, List.getElem?_append_right (by omega), h1, Nat.add_sub_cancel]
  simp only [fitInteg, h.first.1, h.first.2, hfit]
  rw [if_neg (show ¬ ((k + n : Nat) : Int) = j.st.cntDnuSat by rw [hc]; push_cast; omega),
    if_neg (show ¬ (n : Int) = i.st.cntDnuSat by omega)]

/-- C166.  Groups at the beginning that are not to be used (without saturation, jump and persistence) can be cut off: if in every
integration the first of the other groups is not saturated and two neighbouring groups are good, all entries and the rate of the OLS_C
fit are the same. -/
theorem C166_ols (fl : Flags) (cfg : Cfg α) (k n : Nat) (hn : 2 ≤ n) (p p' : PixIn α) (hg : p'.gainBad = p.gainBad) (hx : p'.px = p.px)
    (hd : p'.pixeldq = p.pixeldq) (h : List.Forall₂ (CuLonger fl k n) p.ints p'.ints) (hp : ∀ x ∈ p.ints, CuGood fl x) :
    fitPixel fl cfg (k + n) p' = fitPixel fl cfg n p := by
  have hm : metaDq fl p' = metaDq fl p := by rw [metaDq, metaDq, hg, hd]
  have hload : List.Forall₂ (CuInt fl k n) (loadPixel fl cfg p) (loadPixel fl cfg p') := by
    simp only [loadPixel]
    refine List.forall₂_map_left_iff.2 (List.forall₂_map_right_iff.2 ?_)
    rw [List.forall₂_iff_get] at h ⊢
    exact ⟨h.1, fun i h1 h2 => cu_load fl _ k n _ _ (h.2 i h1 h2) (hp _ (List.get_mem _ _))⟩
  have hr : List.Forall₂ (fun a b : Integ α × (Rate α × Bool × Bool) × Option (Acc α) =>
      statBits fl a.1.st = statBits fl b.1.st ∧ a.1.st.cntSat = b.1.st.cntSat ∧ a.2 = b.2)
      (pixelInts fl cfg n p) (pixelInts fl cfg (k + n) p') := by
    simp only [pixelInts]
    rw [cu_medianRate fl cfg k n hn _ _ hload, hm, hx]
    refine List.forall₂_map_left_iff.2 (List.forall₂_map_right_iff.2 (hload.imp fun i j hij => ?_))
    have hst : statBits fl j.st = statBits fl i.st := by rw [statBits, statBits, hij.jump, hij.pers]
    refine ⟨hst.symm, hij.sat.symm, ?_⟩
    simp only
    rw [hst, cu_fitInteg fl cfg p.px _ k n i j hij]
    simp only [postInteg, hij.sat]
  simp only [fitPixel]
  have e1 := hr.length_eq
  have e2 := un_countP (fun r => r.2.1.2.1) (fun r => r.2.1.2.1) (fun b c hbc => by rw [hbc.2.2]) hr
  have e3 := un_countP (fun r => r.2.1.2.2) (fun r => r.2.1.2.2) (fun b c hbc => by rw [hbc.2.2]) hr
  have e4 := un_fold (fun acc r => acc ||| statBits fl r.1.st) (fun acc r => acc ||| statBits fl r.1.st)
    (fun s b c hbc => by rw [hbc.1]) hr (metaDq fl p)
  have e5 := un_filterMap id (fun r => r.2.2) (fun r => r.2.2) (fun b c hbc => by rw [hbc.2.2]; simp) hr
  have e6 := un_any (fun r => decide (0 < r.1.st.cntSat)) (fun r => decide (0 < r.1.st.cntSat)) (fun b c hbc => by rw [hbc.2.1]) hr
  have e7 : (pixelInts fl cfg (k + n) p').map (fun r => r.2.1.1) = (pixelInts fl cfg n p).map fun r => r.2.1.1 := by
    rw [← List.forall₂_eq_eq_eq, List.forall₂_map_left_iff, List.forall₂_map_right_iff]
    exact hr.flip.imp fun a b hab => by rw [hab.2.2]
  rw [List.map_id] at e5
  rw [hm, ← e1, e2, e3, e4, e5, e6, e7]

end

/-! ## Finding and examples -/

section
open Verif.Ols Verif.Dq

instance (fl : Flags) (t : List Nat) : Decidable (CuHead fl t) := by unfold CuHead; infer_instance

/-- Groups that are not to be used before the two integrations of `cgShort`. -/
def cuLong : PixIn ℚ :=
  ⟨false, ⟨2, 3, 0⟩, 0, [([some 7, none, some 1, some 3, some 5, some 8], [1, 1, 0, 0, 0, 0], none),
    ([some 2, some 0, some 1, some 4, some 50, some 53], [1, 1, 0, 0, 4, 0], none)]⟩

example : List.Forall₂ (CuLonger exFlags 2 4) cgShort.ints cuLong.ints :=
  .cons ⟨rfl, rfl, rfl, [some 7, none], [1, 1], rfl, rfl, by decide, rfl, rfl⟩
    (.cons ⟨rfl, rfl, rfl, [some 2, some 0], [1, 1], rfl, rfl, by decide, rfl, rfl⟩ .nil)
example : ∀ x ∈ cgShort.ints, CuGood exFlags x := by
  intro x hx
  simp only [cgShort, List.mem_cons, List.not_mem_nil, or_false] at hx
  rcases hx with rfl | rfl
  · exact ⟨by decide, 0, 1, 3, rfl, rfl, rfl, rfl⟩
  · exact ⟨by decide, 0, 1, 4, rfl, rfl, rfl, rfl⟩
example : (fitPixel exFlags exCfg 6 cuLong).2.slope = (fitPixel exFlags exCfg 4 cgShort).2.slope ∧
    (fitPixel exFlags exCfg 6 cuLong).2.slope ≠ some 0 := by decide +kernel

/-- Finding (slope_fitter.c:1828-1830, 2051, 3275-3282; ols_fit.py:700-722).  A pixel of which one group is usable, the one after a
group that is not to be used.  With that first group in place the rate is the signal divided by the group time; after the first group has
been cut off, as is done for MIRI, the same signal counts as that of the first group and is divided by the exposure time of a first group
((nframes + 1) / 2 frame times; the same as the group time for one frame per group without gap).  In both cases the signal has
accumulated over two groups. -/
theorem C166_one_group :
    (fitPixel exFlags exCfg 3 ⟨false, ⟨2, 3, 0⟩, 0, [([some 5, some 70, some 100], [1, 0, 2], none)]⟩).2.slope = some 7 ∧
    (fitPixel exFlags exCfg 2 ⟨false, ⟨2, 3, 0⟩, 0, [([some 70, some 100], [0, 2], none)]⟩).2.slope = some 10 := by decide +kernel
end

end Verif.Thm
