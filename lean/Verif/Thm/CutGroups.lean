import Verif.Thm.Unseen

/-!
# C165: cutting off unusable groups at the end

The OLS_C fit of a pixel (slope_fitter.c:2808-2908) and the Casertano fit (_fit.pyx:97-236) for an exposure whose last groups cannot be
used, and for the same exposure without them.
-/

set_option linter.unusedSectionVars false

namespace Verif.Thm

open Verif

section
open Verif.Ols Verif.Dq
variable {α : Type*} [Field α] [LinearOrder α]

/-- Spec: words of groups that cannot be used and report no jump and no persistence. -/
def CgTail (fl : Flags) (t : List Nat) : Prop :=
  ∀ w ∈ t, (Has w fl.dnu ∨ Has w fl.sat) ∧ ¬ Has w fl.jump ∧ ¬ Has w fl.pers

/-- Spec: the second integration has unusable groups after the `m` groups of the first. -/
def CgLonger (fl : Flags) (m k : Nat) (x y : List (Option α) × List Nat × Option (Option α)) : Prop :=
  x.1.length = m ∧ x.2.1.length = m ∧ x.2.2 = y.2.2 ∧
    ∃ d t, d.length = k ∧ t.length = k ∧ CgTail fl t ∧ y.1 = x.1 ++ d ∧ y.2.1 = x.2.1 ++ t

theorem cg_ne {fl : Flags} {t : List Nat} (h : CgTail fl t) {w : Nat} (hw : w ∈ t) : w ≠ 0 := by
  rintro rfl
  rcases (h 0 hw).1 with h | h <;> simp [Has] at h

theorem cg_clear {fl : Flags} {t : List Nat} (h : CgTail fl t) {w : Nat} (hw : w ∈ t) : clear w fl.pers ≠ 0 := by
  obtain ⟨-, -, h3⟩ := h w hw
  have h0 := cg_ne h hw
  have : w &&& fl.pers = 0 := by simpa [Has] using h3
  rw [clear, this, Nat.xor_zero]
  exact h0

/-! ### Segments -/

theorem cg_step (fl : Flags) (g t : List Nat) (st : LoopSt) (idx : Nat) (hi : idx < g.length) :
    segStep fl (g ++ t) st idx = segStep fl g st idx := by
  have h1 : (g ++ t).getD idx 0 = g.getD idx 0 := by
    rw [List.getD_eq_getElem?_getD, List.getD_eq_getElem?_getD, List.getElem?_append_left hi]
  have h2 : (g ++ t).getD (idx - 1) 0 = g.getD (idx - 1) 0 := by
    rw [List.getD_eq_getElem?_getD, List.getD_eq_getElem?_getD, List.getElem?_append_left (by omega)]
  simp only [segStep, h1, h2]

theorem cg_fold {β : Type*} (f f' : β → Nat → β) (l : List Nat) (h : ∀ s, ∀ i ∈ l, f s i = f' s i) (s : β) : l.foldl f s = l.foldl f' s := by
  induction l generalizing s with
  | nil => rfl
  | cons a l ih =>
    rw [List.foldl_cons, List.foldl_cons, h s a (by simp)]
    exact ih (fun s i hi => h s i (by simp [hi])) _

theorem cg_outside (fl : Flags) (g : List Nat) (l : List Nat) (h : ∀ i ∈ l, clear (g.getD i 0) fl.pers ≠ 0) (st : LoopSt)
    (hs : st.inSeg = false) : l.foldl (segStep fl g) st = st := by
  induction l with
  | nil => rfl
  | cons a l ih =>
    rw [List.foldl_cons]
    have : segStep fl g st a = st := by
      simp only [segStep, if_neg (h a (by simp)), hs, Bool.false_eq_true, if_false]
    rw [this]
    exact ih fun i hi => h i (by simp [hi])

theorem cg_segs (fl : Flags) (g t : List Nat) (ht : CgTail fl t) : computeSegs fl (g ++ t) = computeSegs fl g := by
  have hbad : ∀ i, g.length ≤ i → i < g.length + t.length → clear ((g ++ t).getD i 0) fl.pers ≠ 0 := by
    intro i h1 h2
    rw [List.getD_eq_getElem?_getD, List.getElem?_append_right h1, List.getElem?_eq_getElem (by omega)]
    exact cg_clear ht (List.getElem_mem _)
  simp only [computeSegs, List.length_append]
  rw [List.range_add, List.foldl_append,
    cg_fold (segStep fl (g ++ t)) (segStep fl g) (List.range g.length) (fun s i hi => cg_step fl g t s i (List.mem_range.1 hi))]
  generalize (List.range g.length).foldl (segStep fl g) ⟨false, 0, SegList.empty⟩ = st
  cases t with
  | nil => simp
  | cons w t =>
    rw [List.length_cons, List.range_succ_eq_map, List.map_cons, List.foldl_cons]
    have hb0 := hbad (g.length + 0) (by omega) (by simp)
    have hrest : ∀ i ∈ (List.map Nat.succ (List.range t.length)).map (g.length + ·), clear ((g ++ w :: t).getD i 0) fl.pers ≠ 0 := by
      intro i hi
      simp only [List.mem_map, List.mem_range] at hi
      obtain ⟨a, ⟨b, hb, rfl⟩, rfl⟩ := hi
      exact hbad _ (by omega) (by simp; omega)
    cases hin : st.inSeg with
    | false =>
      have : segStep fl (g ++ w :: t) st (g.length + 0) = st := by
        simp only [segStep, if_neg hb0, hin, Bool.false_eq_true, if_false]
      rw [this, cg_outside fl _ _ hrest st hin, hin]
      rfl
    | true =>
      have : segStep fl (g ++ w :: t) st (g.length + 0) = { st with inSeg := false, lst := addSeg st.lst ⟨st.start, g.length⟩ } := by
        rw [segStep, if_neg hb0, if_pos hin]
        rfl
      rw [this, cg_outside fl _ _ hrest _ rfl]
      simp

theorem cg_first (fl : Flags) (g t : List Nat) (hg : 0 < g.length) : firstSat fl (g ++ t) = firstSat fl g := by
  rw [firstSat, firstSat, List.getD_eq_getElem?_getD, List.getD_eq_getElem?_getD, List.getElem?_append_left hg]

/-! ### Loading -/

/-- Some group of the tail is saturated. -/
def cgSat (fl : Flags) (t : List Nat) : Bool := t.any fun w => hasB w fl.sat

structure CgInt (fl : Flags) (m k : Nat) (b : Bool) (i j : Integ α) : Prop where
  ex : ∃ d t, d.length = k ∧ t.length = k ∧ CgTail fl t ∧ cgSat fl t = b ∧ j.data = i.data ++ d ∧ j.gdq = i.gdq ++ t ∧
    ∀ (n : Nat), n < k → hasB (t.getD n 0) fl.dnu = false → d[n]? = some none
  dlen : i.data.length = m
  glen : i.gdq.length = m
  is0 : j.is0th = i.is0th
  isZ : j.isZframe = i.isZframe
  jump : j.st.jumpDet = i.st.jumpDet
  pers : j.st.persistence = i.st.persistence
  cnt : j.st.cntDnuSat = i.st.cntDnuSat + k
  sat : decide (0 < j.st.cntSat) = (decide (0 < i.st.cntSat) || b)
  full : i.st.cntDnuSat = m → (i.st.cntSat = m → firstSat fl i.gdq = true) ∧ (j.st.cntSat = m + k → firstSat fl i.gdq = true)

theorem cg_countP_pos (fl : Flags) (t : List Nat) : decide (0 < t.countP fun d => hasB d fl.sat) = cgSat fl t := by
  rw [cgSat, Bool.eq_iff_iff, decide_eq_true_eq, List.countP_pos_iff, List.any_eq_true]

theorem cg_all_first (fl : Flags) (g : List Nat) (h0 : 0 < g.length) (h : g.countP (fun d => hasB d fl.sat) = g.length) :
    firstSat fl g = true := by
  rw [List.countP_eq_length] at h
  rw [firstSat, List.getD_eq_getElem _ _ h0]
  exact h _ (List.getElem_mem _)

theorem cg_load (fl : Flags) (sup : Bool) (m k : Nat) (hm : 2 ≤ m) (x y : List (Option α) × List Nat × Option (Option α))
    (h : CgLonger fl m k x y) :
    CgInt fl m k (cgSat fl (y.2.1.drop m)) (loadInteg fl sup x.1 x.2.1 x.2.2) (loadInteg fl sup y.1 y.2.1 y.2.2) := by
  obtain ⟨d, g, z⟩ := x
  obtain ⟨d', g', z'⟩ := y
  obtain ⟨h1, h2, h3, e, t, h4, h5, h6, h7, h8⟩ := h
  simp only at h1 h2 h3 h7 h8 ⊢
  subst h3 h7 h8
  have hdrop : (g ++ t).drop m = t := by rw [← h2, List.drop_left]
  rw [hdrop]
  have hgood : (g ++ t).countP (fun d => decide (d = 0)) = g.countP fun d => decide (d = 0) := by
    rw [List.countP_append, (List.countP_eq_zero (l := t)).2 (fun w hw => by simpa using cg_ne h6 hw), add_zero]
  have hjump : ((g ++ t).any fun d => hasB d fl.jump) = g.any fun d => hasB d fl.jump := by
    rw [List.any_append, (List.any_eq_false (l := t)).2 (fun w hw => by rw [Bool.not_eq_true, hasB_false]; exact (h6 w hw).2.1), Bool.or_false]
  have hpers : ((g ++ t).any fun d => hasB d fl.pers) = g.any fun d => hasB d fl.pers := by
    rw [List.any_append, (List.any_eq_false (l := t)).2 (fun w hw => by rw [Bool.not_eq_true, hasB_false]; exact (h6 w hw).2.2), Bool.or_false]
  have hcnt : (g ++ t).countP (fun d => hasB d fl.dnu || hasB d fl.sat) = g.countP (fun d => hasB d fl.dnu || hasB d fl.sat) + k := by
    rw [List.countP_append, ← h5]
    congr 1
    rw [List.countP_eq_length]
    intro w hw
    rw [Bool.or_eq_true, hasB_iff, hasB_iff]
    exact (h6 w hw).1
  have hsat : (g ++ t).countP (fun d => hasB d fl.sat) = g.countP (fun d => hasB d fl.sat) + t.countP fun d => hasB d fl.sat :=
    List.countP_append
  have hle : g.countP (fun d => hasB d fl.sat) ≤ m := h2 ▸ List.countP_le_length
  have hle2 : t.countP (fun d => hasB d fl.sat) ≤ k := h5 ▸ List.countP_le_length
  have hpos := cg_countP_pos fl t
  have hget : (g ++ t).getD 0 0 = g.getD 0 0 := by
    rw [List.getD_eq_getElem?_getD, List.getD_eq_getElem?_getD, List.getElem?_append_left (by omega)]
  have hz : List.zipWith (fun (x : Option α) q => if hasB q fl.sat then none else x) (d ++ e) (g ++ t)
      = List.zipWith (fun x q => if hasB q fl.sat then none else x) d g
        ++ List.zipWith (fun x q => if hasB q fl.sat then none else x) e t := List.zipWith_append (by omega)
  have htail : ∀ (n : Nat), n < k → hasB (t.getD n 0) fl.dnu = false →
      (List.zipWith (fun (x : Option α) q => if hasB q fl.sat then none else x) e t)[n]? = some none := by
    intro n hn hd
    have ht : t[n]? = some (t[n]'(by omega)) := List.getElem?_eq_getElem _
    rw [List.getD_eq_getElem _ _ (by omega)] at hd
    have hw := (h6 _ (List.getElem_mem (show n < t.length by omega))).1.resolve_left (hasB_false.1 hd)
    rw [List.getElem?_zipWith, ht, List.getElem?_eq_getElem (by omega)]
    simp [hasB_iff.2 hw]
  have hex : ∃ d₁ t₁, d₁.length = k ∧ t₁.length = k ∧ CgTail fl t₁ ∧ cgSat fl t₁ = cgSat fl t ∧
      List.zipWith (fun (x : Option α) q => if hasB q fl.sat then none else x) (d ++ e) (g ++ t)
        = List.zipWith (fun x q => if hasB q fl.sat then none else x) d g ++ d₁ ∧ g ++ t = g ++ t₁ ∧
      ∀ (n : Nat), n < k → hasB (t₁.getD n 0) fl.dnu = false → d₁[n]? = some none :=
    ⟨_, t, by simp [h4, h5], h5, h6, rfl, hz, rfl, htail⟩
  have hdl : (List.zipWith (fun (x : Option α) q => if hasB q fl.sat then none else x) d g).length = m := by simp [h1, h2]
  have hs : decide (0 < (g ++ t).countP fun d => hasB d fl.sat) = (decide (0 < g.countP fun d => hasB d fl.sat) || cgSat fl t) := by
    rw [hsat, ← hpos, Bool.eq_iff_iff]
    simp only [decide_eq_true_eq, Bool.or_eq_true]
    omega
  have hfull : ((g.countP (fun d => hasB d fl.dnu || hasB d fl.sat) : Nat) : Int) = m → (g.countP (fun d => hasB d fl.sat) = m → firstSat fl g = true)
      ∧ ((g ++ t).countP (fun d => hasB d fl.sat) = m + k → firstSat fl g = true) := by
    intro _
    exact ⟨fun hh => cg_all_first fl g (by omega) (by omega), fun hh => cg_all_first fl g (by omega) (by omega)⟩
  have hbase : CgInt fl m k (cgSat fl t) (⟨List.zipWith (fun (x : Option α) q => if hasB q fl.sat then none else x) d g, g, stats fl g, false, false⟩ : Integ α)
      ⟨List.zipWith (fun (x : Option α) q => if hasB q fl.sat then none else x) (d ++ e) (g ++ t), g ++ t, stats fl (g ++ t), false, false⟩ :=
    ⟨hex, hdl, h2, rfl, rfl, hjump, hpers, by simp only [stats, hcnt]; push_cast; rfl, hs, hfull⟩
  simp only [loadInteg]
  have hgs : (stats fl (g ++ t)).cntGood = (stats fl g).cntGood := hgood
  rw [hgs, hget]
  split
  · exact hbase
  split
  · exact ⟨hbase.ex, hbase.dlen, hbase.glen, rfl, rfl, hbase.jump, hbase.pers, hbase.cnt, hbase.sat, hbase.full⟩
  split
  · cases z with
    | none => exact hbase
    | some z =>
      simp only
      split
      · exact hbase
      · refine ⟨⟨List.zipWith (fun x q => if hasB q fl.sat then none else x) e t, t, by simp [h4, h5], h5, h6, rfl, ?_, ?_, htail⟩, by simp [h1, h2],
          by simp [h2], rfl, rfl, hjump, hpers, ?_, ?_, ?_⟩
        · simp only
          rw [hz, List.set_append_left _ _ (by omega)]
        · simp only
          rw [List.set_append_left _ _ (by omega)]
        · simp only [stats, hcnt]
          push_cast
          ring
        · simp only [stats, hsat, List.length_append, h2, h5]
          rw [← hpos, Bool.eq_iff_iff]
          simp only [decide_eq_true_eq, Bool.or_eq_true]
          split <;> split <;> omega
        · simp only [stats]
          intro hh
          have : g.countP (fun d => hasB d fl.dnu || hasB d fl.sat) ≤ m := h2 ▸ List.countP_le_length
          omega
  · exact hbase

/-! ### The fit -/

theorem cg_median (l r : List (Option α)) (h : ∀ x ∈ r, x = none) : nanMedian (l ++ r) = nanMedian l := by
  have : (l ++ r).filterMap id = l.filterMap id := by
    rw [List.filterMap_append, (List.filterMap_eq_nil_iff (l := r)).2 (fun x hx => by rw [h x hx]; rfl), List.append_nil]
  rw [nanMedian, nanMedian, this]

theorem cg_medianInteg (fl : Flags) (cfg : Cfg α) (m k : Nat) (hm : 2 ≤ m) (b : Bool) (i j : Integ α) (h : CgInt fl m k b i j) :
    medianInteg fl cfg j.data j.gdq = medianInteg fl cfg i.data i.gdq := by
  obtain ⟨d, t, h1, h2, h3, -, h4, h5, h6⟩ := h.ex
  have hd := h.dlen
  have hg := h.glen
  set f : Option α → Nat → Option α := fun x q => if hasB q fl.dnu then none else x.map fun d => d / cfg.groupTime with hf
  have hz : List.zipWith f j.data j.gdq = List.zipWith f i.data i.gdq ++ List.zipWith f d t := by
    rw [h4, h5]
    exact List.zipWith_append (by omega)
  have hn : ∀ n : Nat, m ≤ n → ((List.zipWith f j.data j.gdq)[n]?).join = none := by
    intro n hn
    rw [hz, List.getElem?_append_right (by simp; omega)]
    simp only [List.length_zipWith, hd, hg, min_self]
    by_cases hk : n - m < k
    · rw [List.getElem?_zipWith, List.getElem?_eq_getElem (l := t) (by omega)]
      by_cases hq : hasB (t[n - m]'(by omega)) fl.dnu = true
      · rw [List.getElem?_eq_getElem (by omega)]
        simp [hf, hq]
      · rw [h6 (n - m) hk (by rw [List.getD_eq_getElem _ _ (by omega)]; simpa using hq)]
        simp [hf]
    · rw [List.getElem?_eq_none (by simp; omega)]
      rfl
  have hl : ∀ n : Nat, n < m → (List.zipWith f j.data j.gdq)[n]? = (List.zipWith f i.data i.gdq)[n]? := by
    intro n hn
    rw [hz, List.getElem?_append_left (by simp; omega)]
  have hgd : ∀ n, n < m → j.gdq.getD n 0 = i.gdq.getD n 0 := by
    intro n hn
    rw [h5, List.getD_eq_getElem?_getD, List.getD_eq_getElem?_getD, List.getElem?_append_left (by omega)]
  have hdiff : ((List.range (j.gdq.length - 1)).map fun k =>
      if hasB (j.gdq.getD (k + 1) 0) fl.jump then none
      else o2 (· - ·) (((List.zipWith f j.data j.gdq)[k + 1]?).join) (((List.zipWith f j.data j.gdq)[k]?).join))
      = ((List.range (i.gdq.length - 1)).map fun k =>
      if hasB (i.gdq.getD (k + 1) 0) fl.jump then none
      else o2 (· - ·) (((List.zipWith f i.data i.gdq)[k + 1]?).join) (((List.zipWith f i.data i.gdq)[k]?).join)) ++ List.replicate k none := by
    have hlen : j.gdq.length - 1 = (i.gdq.length - 1) + k := by rw [h5, List.length_append]; omega
    rw [hlen, List.range_add, List.map_append]
    congr 1
    · refine List.map_congr_left fun n hn' => ?_
      have := List.mem_range.1 hn'
      rw [hgd (n + 1) (by omega), hl (n + 1) (by omega), hl n (by omega)]
    · rw [List.map_map, List.eq_replicate_iff]
      refine ⟨by simp, fun x hx => ?_⟩
      obtain ⟨n, -, rfl⟩ := List.mem_map.1 hx
      simp only [Function.comp_apply]
      rw [hn (i.gdq.length - 1 + n + 1) (by omega)]
      simp [o2]
  simp only [medianInteg]
  rw [← hf, hdiff, hl 0 (by omega)]
  generalize hD : ((List.range (i.gdq.length - 1)).map fun k =>
      if hasB (i.gdq.getD (k + 1) 0) fl.jump then none
      else o2 (· - ·) (((List.zipWith f i.data i.gdq)[k + 1]?).join) (((List.zipWith f i.data i.gdq)[k]?).join)) = D
  have hDl : 0 < D.length := by rw [← hD]; simp; omega
  have hall : (D ++ List.replicate k none).all (fun d => d.isNone) = D.all fun d => d.isNone := by
    rw [List.all_append, List.all_eq_true (l := List.replicate k (none : Option α)) |>.2 (fun x hx => by rw [List.eq_of_mem_replicate hx]; rfl),
      Bool.and_true]
  rw [hall, List.set_append_left _ _ hDl]
  have hrep : ∀ x ∈ List.replicate k (none : Option α), x = none := fun x hx => List.eq_of_mem_replicate hx
  split
  · exact cg_median _ _ hrep
  · exact cg_median _ _ hrep

theorem cg_medianRate (fl : Flags) (cfg : Cfg α) (m k : Nat) (hm : 2 ≤ m) (l l' : List (Integ α))
    (h : List.Forall₂ (fun i j => ∃ b, CgInt fl m k b i j) l l') : medianRate fl cfg (m + k) l' = medianRate fl cfg m l := by
  simp only [medianRate, if_neg (show m + k ≠ 1 by omega), if_neg (show m ≠ 1 by omega), h.length_eq]
  congr 3
  induction h with
  | nil => rfl
  | cons hab _ ih =>
    obtain ⟨b, hab⟩ := hab
    rw [List.map_cons, List.map_cons, ih]
    congr 1
    obtain ⟨d, t, -, -, -, -, h4, -⟩ := hab.ex
    rw [hab.is0, hab.isZ, cg_medianInteg fl cfg m k hm b _ _ hab, h4, List.getElem?_append_left (by rw [hab.dlen]; omega)]

theorem cg_fitInteg (fl : Flags) (cfg : Cfg α) (px : Pix α) (med : Option α) (m k : Nat) (hm : 2 ≤ m) (b : Bool)
    (i j : Integ α) (h : CgInt fl m k b i j) (dq : Nat) :
    fitInteg fl cfg px med (m + k) j dq = fitInteg fl cfg px med m i dq := by
  obtain ⟨d, t, h1, h2, h3, -, h4, h5, h6⟩ := h.ex
  have hfs : firstSat fl j.gdq = firstSat fl i.gdq := by rw [h5, cg_first _ _ _ (by rw [h.glen]; omega)]
  have hsegs : fitSegs fl j.gdq = fitSegs fl i.gdq := by rw [fitSegs, fitSegs, hfs, h5, cg_segs fl _ _ h3]
  have hfit : (fitSegs fl i.gdq).segs.map (fitSeg cfg px med j.is0th j.isZframe fun k => (j.data[k]?).join)
      = (fitSegs fl i.gdq).segs.map (fitSeg cfg px med i.is0th i.isZframe fun k => (i.data[k]?).join) := by
    rw [h.is0, h.isZ]
    simp only [fitSegs]
    split
    · rfl
    · apply List.map_congr_left
      intro s hs
      obtain ⟨-, g1⟩ := C27_segments_sound fl i.gdq
      obtain ⟨g2, g3, -⟩ := g1 s hs
      refine us_fitSeg cfg px med _ _ _ _ s g2 fun n _ hn' => ?_
      rw [h4, List.getElem?_append_left (by rw [h.dlen, ← h.glen]; omega)]
  simp only [fitInteg, hfs, hsegs, hfit]
  have hc : ((m + k : Nat) : Int) = j.st.cntDnuSat ↔ (m : Int) = i.st.cntDnuSat := by
    rw [h.cnt]
    push_cast
    omega
  by_cases hz : (m : Int) = i.st.cntDnuSat
  · rw [if_pos hz, if_pos (hc.2 hz)]
    obtain ⟨f1, f2⟩ := h.full hz.symm
    have hor : firstSat fl i.gdq = true → (if firstSat fl i.gdq = true then dq ||| fl.dnu ||| fl.sat else dq) ||| fl.dnu ||| fl.sat
        = (if firstSat fl i.gdq = true then dq ||| fl.dnu ||| fl.sat else dq) ||| fl.dnu := by
      intro hh
      rw [if_pos hh]
      apply Nat.eq_of_testBit_eq
      intro n
      simp only [Nat.testBit_or]
      cases dq.testBit n <;> cases fl.dnu.testBit n <;> cases fl.sat.testBit n <;> rfl
    have ea : (if m = i.st.cntSat then (if firstSat fl i.gdq = true then dq ||| fl.dnu ||| fl.sat else dq) ||| fl.dnu ||| fl.sat
        else (if firstSat fl i.gdq = true then dq ||| fl.dnu ||| fl.sat else dq) ||| fl.dnu)
        = (if firstSat fl i.gdq = true then dq ||| fl.dnu ||| fl.sat else dq) ||| fl.dnu := by
      split
      · rename_i hh
        exact hor (f1 hh.symm)
      · rfl
    have eb : (if m + k = j.st.cntSat then (if firstSat fl i.gdq = true then dq ||| fl.dnu ||| fl.sat else dq) ||| fl.dnu ||| fl.sat
        else (if firstSat fl i.gdq = true then dq ||| fl.dnu ||| fl.sat else dq) ||| fl.dnu)
        = (if firstSat fl i.gdq = true then dq ||| fl.dnu ||| fl.sat else dq) ||| fl.dnu := by
      split
      · rename_i hh
        exact hor (f2 hh.symm)
      · rfl
    rw [ea, eb]
  · rw [if_neg hz, if_neg (fun hh => hz (hc.1 hh))]

/-- Spec: the same rate, variances and error; the words agree but for SATURATED, which is added if `b`. -/
def CgSame (fl : Flags) (b : Bool) (r r' : Rate α) : Prop :=
  r'.slope = r.slope ∧ r'.varP = r.varP ∧ r'.varR = r.varR ∧ r'.varErr = r.varErr ∧ r'.dq = if b then r.dq ||| fl.sat else r.dq

/-- Spec: some of the groups after the first `m` is saturated. -/
def CgSatAfter (fl : Flags) (m : Nat) (y : List (Option α) × List Nat × Option (Option α)) : Bool :=
  (y.2.1.drop m).any fun w => decide (Has w fl.sat)

theorem cg_entry (fl : Flags) (cfg : Cfg α) (px : Pix α) (med : Option α) (m k : Nat) (hm : 2 ≤ m) (b : Bool) (i j : Integ α)
    (hi : CgInt fl m k b i j) (dq : Nat) :
    CgSame fl b (postInteg fl i (fitInteg fl cfg px med m i (dq ||| statBits fl i.st)).1).1
        (postInteg fl j (fitInteg fl cfg px med (m + k) j (dq ||| statBits fl j.st)).1).1 ∧
      (postInteg fl j (fitInteg fl cfg px med (m + k) j (dq ||| statBits fl j.st)).1).2
        = (postInteg fl i (fitInteg fl cfg px med m i (dq ||| statBits fl i.st)).1).2 ∧
      (fitInteg fl cfg px med (m + k) j (dq ||| statBits fl j.st)).2 = (fitInteg fl cfg px med m i (dq ||| statBits fl i.st)).2 ∧
      statBits fl j.st = statBits fl i.st ∧ decide (0 < j.st.cntSat) = (decide (0 < i.st.cntSat) || b) := by
  have hst : statBits fl j.st = statBits fl i.st := by rw [statBits, statBits, hi.jump, hi.pers]
  rw [hst, cg_fitInteg fl cfg px med m k hm _ i j hi]
  generalize fitInteg fl cfg px med m i (dq ||| statBits fl i.st) = r
  have hs := hi.sat
  refine ⟨⟨rfl, rfl, rfl, rfl, ?_⟩, rfl, rfl, rfl, hs⟩
  simp only [postInteg]
  cases b with
  | false =>
    simp only [Bool.or_false, decide_eq_decide] at hs
    simp [hs]
  | true =>
    simp only [Bool.or_true, decide_eq_true_eq] at hs
    rw [if_pos hs, if_pos rfl]
    split
    · rw [Nat.or_assoc, Nat.or_self]
    · rfl

theorem cg_pixel (fl : Flags) (cfg : Cfg α) (m k : Nat) (hm : 2 ≤ m) (p p' : PixIn α)
    (hg : p'.gainBad = p.gainBad) (hx : p'.px = p.px) (hd : p'.pixeldq = p.pixeldq) (h : List.Forall₂ (CgLonger fl m k) p.ints p'.ints) :
    List.Forall₂ (fun (a : Integ α × (Rate α × Bool × Bool) × Option (Acc α)) (c : (Integ α × (Rate α × Bool × Bool) × Option (Acc α)) × Bool) =>
        CgSame fl c.2 a.2.1.1 c.1.2.1.1 ∧ c.1.2.1.2 = a.2.1.2 ∧ c.1.2.2 = a.2.2 ∧ statBits fl c.1.1.st = statBits fl a.1.st ∧
        decide (0 < c.1.1.st.cntSat) = (decide (0 < a.1.st.cntSat) || c.2))
      (pixelInts fl cfg m p) ((pixelInts fl cfg (m + k) p').zip (p'.ints.map (CgSatAfter fl m))) := by
  have hmeta : metaDq fl p' = metaDq fl p := by rw [metaDq, metaDq, hg, hd]
  have hload : List.Forall₂ (fun i j => ∃ b, CgInt fl m k b i j) (loadPixel fl cfg p) (loadPixel fl cfg p') := by
    simp only [loadPixel]
    exact List.forall₂_map_left_iff.2 (List.forall₂_map_right_iff.2 (h.imp fun x y hxy => ⟨_, cg_load fl _ m k hm x y hxy⟩))
  simp only [pixelInts]
  rw [cg_medianRate fl cfg m k hm _ _ hload, hmeta, hx]
  generalize medianRate fl cfg m (loadPixel fl cfg p) = med
  simp only [loadPixel, List.map_map, List.zip_map']
  refine List.forall₂_map_left_iff.2 (List.forall₂_map_right_iff.2 (h.imp fun x y hxy => ?_))
  have hi := cg_load fl cfg.suppress1g m k hm x y hxy
  have hb : cgSat fl (y.2.1.drop m) = CgSatAfter fl m y := by
    simp only [cgSat, CgSatAfter]
    congr 1
  rw [hb] at hi
  exact cg_entry fl cfg p.px med m k hm _ _ _ hi _

theorem cg_left {β γ δ : Type*} {R : β → γ × δ → Prop} {l : List β} {l1 : List γ} {l2 : List δ} (hl : l1.length = l2.length)
    (h : List.Forall₂ R l (l1.zip l2)) : List.Forall₂ (fun b c => ∃ d, R b (c, d)) l l1 := by
  have : List.Forall₂ (fun b (x : γ × δ) => ∃ d, R b (x.1, d)) l (l1.zip l2) := h.imp fun b x hx => ⟨x.2, hx⟩
  have e : l1 = (l1.zip l2).map Prod.fst := (List.map_fst_zip (by omega)).symm
  rw [e]
  exact List.forall₂_map_right_iff.2 this

theorem cg_any {β γ : Type*} {R : β → γ × Bool → Prop} (f : β → Bool) (f' : γ → Bool) (h : ∀ b c, R b c → f' c.1 = (f b || c.2))
    {l : List β} {l1 : List γ} {l2 : List Bool} (hl : l1.length = l2.length) (hR : List.Forall₂ R l (l1.zip l2)) :
    l1.any f' = (l.any f || l2.any id) := by
  induction l1 generalizing l l2 with
  | nil =>
    cases l2 with
    | nil => cases hR; rfl
    | cons => simp at hl
  | cons a l1 ih =>
    cases l2 with
    | nil => simp at hl
    | cons b l2 =>
      rw [List.zip_cons_cons] at hR
      cases hR with
      | cons h1 h2 =>
        rw [List.any_cons, List.any_cons, List.any_cons, ih (by simpa using hl) h2, h _ _ h1]
        simp only [id]
        ac_rfl

/-- C165.  Groups at the end that cannot be used (DO_NOT_USE or SATURATED, without jump or persistence) can be cut off: with at least
two groups left, every entry and the rate of the OLS_C fit stay the same, except that SATURATED is in the DQ of the longer ramp if one of
those groups is saturated. -/
theorem C165_ols (fl : Flags) (cfg : Cfg α) (m k : Nat) (hm : 2 ≤ m) (p p' : PixIn α)
    (hg : p'.gainBad = p.gainBad) (hx : p'.px = p.px) (hd : p'.pixeldq = p.pixeldq) (h : List.Forall₂ (CgLonger fl m k) p.ints p'.ints) :
    List.Forall₂ (fun (r : Rate α) (x : Rate α × Bool) => CgSame fl x.2 r x.1) (fitPixel fl cfg m p).1
      ((fitPixel fl cfg (m + k) p').1.zip (p'.ints.map (CgSatAfter fl m))) ∧
    CgSame fl (p'.ints.any (CgSatAfter fl m)) (fitPixel fl cfg m p).2 (fitPixel fl cfg (m + k) p').2 := by
  have hr := cg_pixel fl cfg m k hm p p' hg hx hd h
  have hlen : (pixelInts fl cfg (m + k) p').length = (p'.ints.map (CgSatAfter fl m)).length := by simp [pixelInts, loadPixel]
  have hmeta : metaDq fl p' = metaDq fl p := by rw [metaDq, metaDq, hg, hd]
  constructor
  · simp only [fitPixel]
    rw [List.zip_map_left]
    exact List.forall₂_map_left_iff.2 (List.forall₂_map_right_iff.2 (hr.imp fun a c hac => hac.1))
  have hl := cg_left hlen hr
  have e0 := cg_any (fun r => decide (0 < r.1.st.cntSat)) (fun r => decide (0 < r.1.st.cntSat)) (fun b c hbc => hbc.2.2.2.2) hlen hr
  rw [List.any_map] at e0
  have e1 := hl.length_eq
  have e2 := un_countP (fun r => r.2.1.2.1) (fun r => r.2.1.2.1) (fun b c hbc => by obtain ⟨d, hbc⟩ := hbc; rw [hbc.2.1]) hl
  have e3 := un_countP (fun r => r.2.1.2.2) (fun r => r.2.1.2.2) (fun b c hbc => by obtain ⟨d, hbc⟩ := hbc; rw [hbc.2.1]) hl
  have e4 := un_fold (fun acc r => acc ||| statBits fl r.1.st) (fun acc r => acc ||| statBits fl r.1.st)
    (fun s b c hbc => by obtain ⟨d, hbc⟩ := hbc; rw [hbc.2.2.2.1]) hl (metaDq fl p)
  have e5 := un_filterMap id (fun r => r.2.2) (fun r => r.2.2) (fun b c hbc => by obtain ⟨d, hbc⟩ := hbc; rw [hbc.2.2.1]; simp) hl
  rw [List.map_id] at e5
  simp only [fitPixel]
  rw [hmeta, ← e1, e2, e3, e4, e5, e0]
  have hany : (p'.ints.any (id ∘ CgSatAfter fl m)) = p'.ints.any (CgSatAfter fl m) := rfl
  rw [hany]
  generalize p'.ints.any (CgSatAfter fl m) = b
  generalize (pixelInts fl cfg m p).any (fun r => decide (0 < r.1.st.cntSat)) = c
  generalize (pixelInts fl cfg m p).foldl (fun acc r => acc ||| statBits fl r.1.st) (metaDq fl p) = q0
  generalize (if (pixelInts fl cfg m p).length = (pixelInts fl cfg m p).countP (fun r => r.2.1.2.1) then q0 ||| fl.dnu else q0) = q1
  generalize (if (pixelInts fl cfg m p).countP (fun r => r.2.1.2.2) = (pixelInts fl cfg m p).length then q1 ||| fl.sat else q1) = q2
  split
  · refine ⟨rfl, rfl, rfl, rfl, ?_⟩
    cases b <;> cases c <;> simp
  · refine ⟨rfl, rfl, rfl, rfl, ?_⟩
    cases b <;> cases c <;> simp

end

section
open Verif.Cas22 Verif.Cas22Driver
variable {α : Type*} [Field α] [LinearOrder α]

structure CgAgree (n : Nat) (p q : Cas22.Pix α) : Prop where
  tbar : ∀ i, i < n → q.tbar i = p.tbar i
  tau : ∀ i, i < n → q.tau i = p.tau i
  nreads : ∀ i, i < n → q.nreads i = p.nreads i
  res : ∀ i, i < n → q.res i = p.res i
  rn : q.readNoise = p.readNoise

theorem cg_fitRamp (cfg : Cas22.Cfg α) (n : Nat) (p q : Cas22.Pix α) (h : CgAgree n p q) (r : Ramp) (hr : r.start ≤ r.stop) (hn : r.stop < n) :
    fitRamp cfg q r = fitRamp cfg p r := by
  have hi : ∀ i ∈ r.idx, i < n := fun i hi => by have := us_idx r i hi; omega
  have hw : ∀ i, i < n → weight cfg q r i = weight cfg p r i := by
    intro i hi
    simp only [weight, rampPower, h.res r.start (by omega), h.res r.stop hn, h.tbar r.start (by omega), h.tbar r.stop hn, h.rn, h.nreads i hi,
      h.tbar i hi]
  have hf : ∀ (c c' : Nat → α) (l : List Nat) (a : Fit α × α), (∀ i ∈ l, i < n) → (∀ i ∈ l, c i = c' i) →
      l.foldl (fitStep q c) a = l.foldl (fitStep p c') a := by
    intro c c' l
    induction l with
    | nil => intro a _ _; rfl
    | cons i l ih =>
      intro a hl hc
      rw [List.foldl_cons, List.foldl_cons, ih _ (fun j hj => hl j (List.mem_cons_of_mem _ hj)) fun j hj => hc j (List.mem_cons_of_mem _ hj)]
      congr 1
      have h1 := hl i List.mem_cons_self
      simp only [fitStep, h.res i h1, h.nreads i h1, h.tau i h1, h.tbar i h1, h.rn, hc i List.mem_cons_self]
  have e0 : r.idx.map (weight cfg q r) = r.idx.map (weight cfg p r) := List.map_congr_left fun i h' => hw i (hi i h')
  have e1 : (r.idx.map fun i => weight cfg q r i * q.tbar i) = r.idx.map fun i => weight cfg p r i * p.tbar i :=
    List.map_congr_left fun i h' => by rw [hw i (hi i h'), h.tbar i (hi i h')]
  have e2 : (r.idx.map fun i => weight cfg q r i * (q.tbar i * q.tbar i)) = r.idx.map fun i => weight cfg p r i * (p.tbar i * p.tbar i) :=
    List.map_congr_left fun i h' => by rw [hw i (hi i h'), h.tbar i (hi i h')]
  unfold fitRamp
  dsimp only
  rw [e0, e1, e2]
  split
  · rfl
  split
  · rfl
  · congr 2
    exact hf _ _ _ _ hi fun i h' => by rw [hw i (hi i h'), h.tbar i (hi i h')]

theorem cg_stat (cfg : Cas22.Cfg α) (n : Nat) (p q : Cas22.Pix α) (h : CgAgree n p q) (r : Ramp) (hr : r.start ≤ r.stop) (hn : r.stop < n)
    (slope : α) (i j : Nat) (hij : i + j < n) : stat cfg q r slope i j = stat cfg p r slope i j := by
  simp only [stat, h.tbar i (by omega), h.tbar (i + j) hij, h.res i (by omega), h.res (i + j) hij, h.tau i (by omega), h.tau (i + j) hij,
    h.nreads i (by omega), h.nreads (i + j) hij, h.rn, h.tbar r.start (by omega), h.tbar r.stop hn]

theorem cg_detect (cfg : Cas22.Cfg α) (n : Nat) (p q : Cas22.Pix α) (h : CgAgree n p q) (r : Ramp) (hr : r.start ≤ r.stop) (hn : r.stop < n) :
    detect cfg q r = detect cfg p r := by
  have hs : ∀ slope, fitStatistic cfg q r slope = fitStatistic cfg p r slope := by
    intro slope
    simp only [fitStatistic]
    split
    · rfl
    · rw [cg_stat cfg n p q h r hr hn slope (r.stop - 1) 1 (by omega)]
      apply us_maxStep
      intro k hk
      rw [List.mem_range] at hk
      simp only [stat2, cg_stat cfg n p q h r hr hn slope (r.start + k) 1 (by omega), cg_stat cfg n p q h r hr hn slope (r.start + k) 2 (by omega)]
  simp only [detect, cg_fitRamp cfg n p q h r hr hn, hs]

theorem cg_init (dq : Nat → Nat) (m k : Nat) (h : ∀ i, m ≤ i → i < m + k → dq i ≠ 0) : initRamps dq (m + k) = initRamps dq m := by
  have hout : ∀ (l : List Nat), (∀ i ∈ l, dq i ≠ 0) → ∀ rs : List Ramp, l.foldl (initStep dq) (none, rs) = (none, rs) := by
    intro l
    induction l with
    | nil => intro _ rs; rfl
    | cons a l ih =>
      intro hl rs
      rw [List.foldl_cons]
      have : initStep dq (none, rs) a = (none, rs) := by simp only [initStep, if_neg (hl a (by simp))]
      rw [this]
      exact ih (fun i hi => hl i (by simp [hi])) rs
  simp only [initRamps, List.range_add, List.foldl_append]
  generalize (List.range m).foldl (initStep dq) (none, []) = st
  obtain ⟨o, rs⟩ := st
  cases k with
  | zero => rfl
  | succ k =>
    rw [List.range_succ_eq_map, List.map_cons, List.foldl_cons]
    have hrest : ∀ i ∈ (List.map Nat.succ (List.range k)).map (m + ·), dq i ≠ 0 := by
      intro i hi
      simp only [List.mem_map, List.mem_range] at hi
      obtain ⟨a, ⟨b, hb, rfl⟩, rfl⟩ := hi
      exact h _ (by omega) (by omega)
    have h0 := h (m + 0) (by omega) (by omega)
    cases o with
    | none =>
      have : initStep dq (none, rs) (m + 0) = (none, rs) := by simp only [initStep, if_neg h0]
      rw [this, hout _ hrest]
    | some s =>
      have : initStep dq (some s, rs) (m + 0) = (none, rs ++ [⟨s, m - 1⟩]) := by
        rw [initStep]
        exact if_neg h0
      rw [this, hout _ hrest]

theorem cg_casPixel (cfg : Cas22.Cfg α) (m k : Nat) (p q : Cas22.Pix α) (hpq : CgAgree m p q) (dq : Nat → Nat)
    (h : ∀ i, m ≤ i → i < m + k → dq i ≠ 0) :
    Cas22.fitPixel cfg q dq (m + k) (m + k + 1) = Cas22.fitPixel cfg p dq m (m + 1) := by
  obtain ⟨s, h1, -, h3, -⟩ := C36_loop (detect cfg p) (detect_ok cfg p) dq m
  have hr := us_run (detect cfg p) (detect cfg q) (detect_ok cfg p) dq m
    (fun r hr hn _ => (cg_detect cfg m p q hpq r hr hn).symm) (m + k + 1) _ (us_init dq m)
  rw [Cas22.fitPixel, Cas22.fitPixel, cg_init dq m k h, ← hr, h1 (m + k + 1) (by omega), h1 (m + 1) le_rfl, Option.map_some, Option.map_some]
  congr 4
  exact List.map_congr_left fun r hr => cg_fitRamp cfg m p q hpq r (h3 r hr).1 (h3 r hr).2

/-- C165.  If no pixel has a good resultant after the first ones, `fit_ramps` of the whole read pattern and `fit_ramps` of its beginning
give the same slopes, variances and DQ. -/
theorem C165_casertano (cfg : Cas22.Cfg α) (readTime : α) (first rest : List (List α)) (npix : Nat) (res : Nat → Nat → α)
    (dq : Nat → Nat → Nat) (rn : Nat → α) (f0 f1 : Fixed α) (s0 s1 : Scratch α)
    (h : ∀ k i, k < npix → first.length ≤ i → i < first.length + rest.length → dq k i ≠ 0) :
    fitRamps cfg readTime (first ++ rest) (first ++ rest).length npix res dq rn f1 s1
      = fitRamps cfg readTime first first.length npix res dq rn f0 s0 := by
  obtain ⟨o, e, l, g⟩ := C103_every_pixel cfg readTime first npix res dq rn f0 s0
  obtain ⟨o', e', l', g'⟩ := C103_every_pixel cfg readTime (first ++ rest) npix res dq rn f1 s1
  rw [e, e', Option.some.injEq]
  refine List.ext_getElem? fun k => ?_
  by_cases hk : k < npix
  · obtain ⟨d, rs, a, g1, g2⟩ := g k hk
    obtain ⟨d', rs', a', g1', g2'⟩ := g' k hk
    have hget : ∀ i, i < first.length → (first ++ rest).getD i [] = first.getD i [] := fun i hi => by
      rw [List.getD_eq_getElem?_getD, List.getD_eq_getElem?_getD, List.getElem?_append_left hi]
    have hp : CgAgree first.length (pixelOf readTime first res rn k) (pixelOf readTime (first ++ rest) res rn k) :=
      ⟨fun i hi => by simp only [pixelOf, hget i hi], fun i hi => by simp only [pixelOf, hget i hi],
        fun i hi => by simp only [pixelOf, hget i hi], fun _ _ => rfl, rfl⟩
    rw [List.length_append, cg_casPixel cfg first.length rest.length _ _ hp (dq k) (fun i => h k i hk), g1, Option.some.injEq,
      Prod.mk.injEq, Prod.mk.injEq] at g1'
    obtain ⟨rfl, -, rfl⟩ := g1'
    rw [g2, g2']
  · rw [List.getElem?_eq_none (by omega), List.getElem?_eq_none (by omega)]

end

/-! ## Examples -/

section
open Verif.Ols

/-- Two integrations of four groups, the second with a jump; two groups more, one of them saturated in the second integration. -/
def cgShort : PixIn ℚ :=
  ⟨false, ⟨2, 3, 0⟩, 0, [([some 1, some 3, some 5, some 8], [0, 0, 0, 0], none), ([some 1, some 4, some 50, some 53], [0, 0, 4, 0], none)]⟩
def cgLong : PixIn ℚ :=
  ⟨false, ⟨2, 3, 0⟩, 0, [([some 1, some 3, some 5, some 8, some 900, none], [0, 0, 0, 0, 1, 1], none),
    ([some 1, some 4, some 50, some 53, some 77, some 78], [0, 0, 4, 0, 1, 2], none)]⟩

instance (fl : Flags) (t : List Nat) : Decidable (CgTail fl t) := by unfold CgTail; infer_instance

example : List.Forall₂ (CgLonger exFlags 4 2) cgShort.ints cgLong.ints :=
  .cons ⟨rfl, rfl, rfl, [some 900, none], [1, 1], rfl, rfl, by decide, rfl, rfl⟩
    (.cons ⟨rfl, rfl, rfl, [some 77, some 78], [1, 2], rfl, rfl, by decide, rfl, rfl⟩ .nil)

example : (fitPixel exFlags exCfg 4 cgShort).2.slope = (fitPixel exFlags exCfg 6 cgLong).2.slope ∧
    (fitPixel exFlags exCfg 4 cgShort).2.slope ≠ some 0 ∧ (fitPixel exFlags exCfg 4 cgShort).2.dq = 4 ∧
    (fitPixel exFlags exCfg 6 cgLong).2.dq = 6 ∧ (fitPixel exFlags exCfg 6 cgLong).1.map (fun r => r.dq) = [0, 6] := by decide +kernel
end

section
open Verif.Cas22Driver

example : (∀ k < 2, ∀ i < 6, 4 ≤ i → cdDq (i * 2 + k) + (if 4 ≤ i then 1 else 0) ≠ 0) ∧
    (fitRamps (cas22Cfg true) 3 (cdPattern ++ [[6, 7], [8]]) 6 2 (fun k i => cdRes (i * 2 + k))
      (fun k i => cdDq (i * 2 + k) + if 4 ≤ i then 1 else 0) (fun _ => 2) (fun _ _ _ => none) fun _ _ _ => none).map
      (List.map fun o => (o.slope, o.readVar, (List.range 6).map o.dq))
    = (fitRamps (cas22Cfg true) 3 cdPattern 4 2 (fun k i => cdRes (i * 2 + k))
      (fun k i => cdDq (i * 2 + k) + if 4 ≤ i then 1 else 0) (fun _ => 2) (fun _ _ _ => none) fun _ _ _ => none).map
      (List.map fun o => (o.slope, o.readVar, (List.range 6).map o.dq)) := by decide +kernel
end

end Verif.Thm
