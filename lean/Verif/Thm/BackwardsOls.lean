import Verif.Thm.Backwards
import Verif.Thm.CutStart

/-!
# Pixels read backwards in the least-squares fit (C190)

A jump flagged at group `g` separates the groups `g - 1` and `g`; backwards these are the groups `n - g` and `n - 1 - g`, and the flag
belongs to group `n - g`.  With the flags placed so, the segments of the fit are the segments of the ramp in the opposite order, and
every segment has the same fit (`C190_segment`).
-/

set_option linter.unusedSectionVars false

namespace Verif.Thm

section
open Verif.Ols Verif.Dq

variable {α : Type} [Field α] [LinearOrder α] [IsStrictOrderedRing α]

/-- Specification: the words of `n` groups and of the same groups read backwards.  Groups are clean, unusable or hit by a jump; usable
neighbours are separated by a jump in both or in neither. -/
structure CvWords (fl : Flags) (n : Nat) (g g' : List Nat) : Prop where
  len : g.length = n
  len' : g'.length = n
  word : ∀ k, k < n → g.getD k 0 = 0 ∨ g.getD k 0 = fl.dnu ∨ g.getD k 0 = fl.jump
  word' : ∀ k, k < n → g'.getD k 0 = 0 ∨ g'.getD k 0 = fl.dnu ∨ g'.getD k 0 = fl.jump
  dnu : ∀ k, k < n → (g'.getD (n - 1 - k) 0 = fl.dnu ↔ g.getD k 0 = fl.dnu)
  jump : ∀ k, k + 1 < n → g.getD k 0 ≠ fl.dnu → g.getD (k + 1) 0 ≠ fl.dnu →
    (g'.getD (n - 1 - k) 0 = fl.jump ↔ g.getD (k + 1) 0 = fl.jump)
  any : (∃ k, k < n ∧ g'.getD k 0 = fl.jump) ↔ ∃ k, k < n ∧ g.getD k 0 = fl.jump
  two : ∃ k, k + 1 < n ∧ g.getD k 0 ≠ fl.dnu ∧ g.getD (k + 1) 0 = 0

/-- Specification: the segments of two or more groups. -/
def CvSeg (fl : Flags) (g : List Nat) (a e : Nat) : Prop :=
  a + 2 ≤ e ∧ e ≤ g.length ∧ (∀ i, a ≤ i → i < e → g.getD i 0 ≠ fl.dnu) ∧ (∀ i, a < i → i < e → g.getD i 0 ≠ fl.jump)
    ∧ (a = 0 ∨ g.getD (a - 1) 0 = fl.dnu ∨ g.getD a 0 = fl.jump) ∧ (e = g.length ∨ g.getD e 0 = fl.dnu ∨ g.getD e 0 = fl.jump)

/-- The flags are non-zero words without common bits. -/
structure CvBits (fl : Flags) : Prop where
  ok : OlsFlagsOk fl
  jump0 : fl.jump ≠ 0
  pj : ¬ Has fl.pers fl.jump

theorem cv_clear {d f : Nat} (h : ¬ Has f d) : clear d f = d := by
  apply Nat.eq_of_testBit_eq
  intro b
  rw [testBit_clear]
  cases h1 : d.testBit b
  · rfl
  · cases h2 : f.testBit b
    · rfl
    · exact absurd (has_iff.2 ⟨b, h2, h1⟩) h

theorem cv_dj {fl : Flags} (hf : CvBits fl) : fl.dnu ≠ fl.jump := by
  intro h
  have := hf.ok.jd
  rw [← h] at this
  exact this (has_self.2 hf.ok.dnu0)

theorem cv_goodG {fl : Flags} (hf : CvBits fl) {g : List Nat} {k : Nat}
    (h : g.getD k 0 = 0 ∨ g.getD k 0 = fl.dnu ∨ g.getD k 0 = fl.jump) : goodG fl g k ↔ g.getD k 0 = 0 := by
  rw [goodG]
  rcases h with h | h | h <;> rw [h]
  · simp [clear]
  · rw [cv_clear hf.ok.pd]
  · rw [cv_clear hf.pj]

theorem cv_jmpG {fl : Flags} (hf : CvBits fl) {g : List Nat} {k : Nat}
    (h : g.getD k 0 = 0 ∨ g.getD k 0 = fl.dnu ∨ g.getD k 0 = fl.jump) : jmpG fl g k ↔ g.getD k 0 = fl.jump := by
  rw [jmpG]
  rcases h with h | h | h <;> rw [h]
  · simp [clear]
  · rw [cv_clear hf.ok.pd]
  · rw [cv_clear hf.pj]

theorem cv_natSeg {fl : Flags} (hf : CvBits fl) {g : List Nat}
    (hw : ∀ k, k < g.length → g.getD k 0 = 0 ∨ g.getD k 0 = fl.dnu ∨ g.getD k 0 = fl.jump) (a e : Nat) :
    (NatSeg fl g a e ∧ 2 ≤ e - a) ↔ CvSeg fl g a e := by
  have hg := fun k hk => cv_goodG hf (hw k hk)
  have hj := fun k hk => cv_jmpG hf (hw k hk)
  have d0 := hf.ok.dnu0
  have j0 := hf.jump0
  have dj := cv_dj hf
  rw [natSeg_iff]
  constructor
  · rintro ⟨⟨s, ⟨h1, h2, h3, h4, h5⟩, rfl⟩, hl⟩
    have h3' : ∀ i, s ≤ i → i < e → g.getD i 0 = 0 := fun i x y => (hg i (by omega)).1 (h3 i x y)
    have h5' : e = g.length ∨ g.getD e 0 = fl.dnu ∨ g.getD e 0 = fl.jump := by
      rcases Nat.lt_or_ge e g.length with he | he
      · rcases h5 with h5 | h5
        · omega
        · rw [hg e he] at h5
          exact Or.inr ((hw e he).resolve_left h5)
      · exact Or.inl (by omega)
    by_cases hx : 0 < s ∧ jmpG fl g (s - 1)
    · have hs : Ols.ext (jmpG fl g) s = s - 1 := if_pos hx
      have hx2 := (hj (s - 1) (by omega)).1 hx.2
      rw [hs] at hl ⊢
      refine ⟨by omega, h2, fun i x y => ?_, fun i x y => ?_, Or.inr (Or.inr hx2), h5'⟩
      · rcases Nat.lt_or_ge i s with hi | hi
        · rw [show i = s - 1 by omega, hx2]; exact dj.symm
        · rw [h3' i hi y]; exact d0.symm
      · rw [h3' i (by omega) y]; exact j0.symm
    · have hs : Ols.ext (jmpG fl g) s = s := if_neg hx
      rw [hs] at hl ⊢
      refine ⟨by omega, h2, fun i x y => by rw [h3' i x y]; exact d0.symm, fun i x y => by rw [h3' i (by omega) y]; exact j0.symm, ?_, h5'⟩
      rcases Nat.eq_zero_or_pos s with hs0 | hs0
      · exact Or.inl hs0
      · right; left
        have q1 := h4.resolve_left (by omega)
        rw [hg (s - 1) (by omega)] at q1
        have q2 : ¬ jmpG fl g (s - 1) := fun q => hx ⟨hs0, q⟩
        rw [hj (s - 1) (by omega)] at q2
        exact ((hw (s - 1) (by omega)).resolve_left q1).resolve_right q2
  · rintro ⟨h1, h2, h3, h4, h5, h6⟩
    have hz : ∀ i, a < i → i < e → g.getD i 0 = 0 := fun i x y =>
      (hw i (by omega)).resolve_right fun q => q.elim (h3 i (by omega) y) (h4 i x y)
    have h6' : e = g.length ∨ ¬ goodG fl g e := by
      rcases Nat.lt_or_ge e g.length with he | he
      · right
        rw [hg e he]
        rcases h6 with h6 | h6 | h6
        · omega
        · rw [h6]; exact d0
        · rw [h6]; exact j0
      · exact Or.inl (by omega)
    refine ⟨?_, by omega⟩
    by_cases ha : g.getD a 0 = fl.jump
    · refine ⟨a + 1, ⟨by omega, h2, fun i x y => (hg i (by omega)).2 (hz i (by omega) y), Or.inr ?_, h6'⟩, ?_⟩
      · rw [Nat.add_sub_cancel, hg a (by omega), ha]; exact j0
      · have : 0 < a + 1 ∧ jmpG fl g (a + 1 - 1) := ⟨by omega, by rw [Nat.add_sub_cancel]; exact (hj a (by omega)).2 ha⟩
        exact (if_pos this).symm
    · have ha0 : g.getD a 0 = 0 := (hw a (by omega)).resolve_right fun q => q.elim (h3 a le_rfl (by omega)) ha
      have h5' : a = 0 ∨ g.getD (a - 1) 0 = fl.dnu := by tauto
      refine ⟨a, ⟨by omega, h2, fun i x y => ?_, ?_, h6'⟩, ?_⟩
      · rw [hg i (by omega)]
        rcases Nat.eq_or_lt_of_le x with q | q
        · rw [← q]; exact ha0
        · exact hz i q y
      · rcases h5' with q | q
        · exact Or.inl q
        · right
          rw [hg (a - 1) (by omega), q]; exact d0
      · have : ¬ (0 < a ∧ jmpG fl g (a - 1)) := by
          rintro ⟨q1, q2⟩
          rcases h5' with q | q
          · omega
          · rw [hj (a - 1) (by omega), q] at q2
            exact dj q2
        exact (if_neg this).symm

theorem CvWords.symm {fl : Flags} (hf : CvBits fl) {n : Nat} {g g' : List Nat} (h : CvWords fl n g g') : CvWords fl n g' g := by
  refine ⟨h.len', h.len, h.word', h.word, fun k hk => ?_, fun k hk h1 h2 => ?_, h.any.symm, ?_⟩
  · have := h.dnu (n - 1 - k) (by omega)
    rw [show n - 1 - (n - 1 - k) = k by omega] at this
    exact this.symm
  · have a1 := h.dnu (n - 1 - k) (by omega)
    have a2 := h.dnu (n - 2 - k) (by omega)
    rw [show n - 1 - (n - 1 - k) = k by omega] at a1
    rw [show n - 1 - (n - 2 - k) = k + 1 by omega] at a2
    have := h.jump (n - 2 - k) (by omega) (a2.not.1 h2) (by rw [show n - 2 - k + 1 = n - 1 - k by omega]; exact a1.not.1 h1)
    rw [show n - 1 - (n - 2 - k) = k + 1 by omega, show n - 2 - k + 1 = n - 1 - k by omega] at this
    exact this.symm
  · obtain ⟨k, h1, h2, h3⟩ := h.two
    have a1 := h.dnu k (by omega)
    have a2 := h.dnu (k + 1) (by omega)
    have h3' : g.getD (k + 1) 0 ≠ fl.dnu := by rw [h3]; exact hf.ok.dnu0.symm
    refine ⟨n - 2 - k, by omega, ?_, ?_⟩
    · rw [show n - 2 - k = n - 1 - (k + 1) by omega]
      exact a2.not.2 h3'
    · rw [show n - 2 - k + 1 = n - 1 - k by omega]
      refine (h.word' _ (by omega)).resolve_right fun q => q.elim (a1.not.2 h2) ?_
      rw [h.jump k h1 h2 h3', h3]
      exact hf.jump0.symm

theorem cv_seg {fl : Flags} {n : Nat} {g g' : List Nat} (h : CvWords fl n g g') {a e : Nat} (hs : CvSeg fl g a e) :
    CvSeg fl g' (n - e) (n - a) := by
  obtain ⟨h1, h2, h3, h4, h5, h6⟩ := hs
  have hn := h.len
  refine ⟨by omega, by rw [h.len']; omega, fun i x y => ?_, fun i x y => ?_, ?_, ?_⟩
  · have := h.dnu (n - 1 - i) (by omega)
    rw [show n - 1 - (n - 1 - i) = i by omega] at this
    rw [ne_eq, this]
    exact h3 _ (by omega) (by omega)
  · have := h.jump (n - 1 - i) (by omega) (h3 _ (by omega) (by omega)) (h3 _ (by omega) (by omega))
    rw [show n - 1 - (n - 1 - i) = i by omega] at this
    rw [ne_eq, this]
    exact h4 _ (by omega) (by omega)
  · rcases Nat.eq_or_lt_of_le h2 with he | he
    · left; omega
    · right
      have q := h6.resolve_left (by omega)
      by_cases hd : g.getD e 0 = fl.dnu
      · left
        have := h.dnu e (by omega)
        rw [show n - e - 1 = n - 1 - e by omega]
        exact this.2 hd
      · right
        have := h.jump (e - 1) (by omega) (h3 _ (by omega) (by omega)) (by rw [show e - 1 + 1 = e by omega]; exact hd)
        rw [show n - 1 - (e - 1) = n - e by omega, show e - 1 + 1 = e by omega] at this
        exact this.2 (q.resolve_left hd)
  · rcases Nat.eq_zero_or_pos a with ha | ha
    · left; rw [h.len']; omega
    · right
      have q := h5.resolve_left (by omega)
      by_cases hd : g.getD (a - 1) 0 = fl.dnu
      · left
        have := h.dnu (a - 1) (by omega)
        rw [show n - 1 - (a - 1) = n - a by omega] at this
        exact this.2 hd
      · right
        have := h.jump (a - 1) (by omega) hd (by rw [show a - 1 + 1 = a by omega]; exact h3 _ le_rfl (by omega))
        rw [show n - 1 - (a - 1) = n - a by omega, show a - 1 + 1 = a by omega] at this
        exact this.2 (q.resolve_left hd)

theorem cv_exists {fl : Flags} (hf : CvBits fl) {n : Nat} {g g' : List Nat} (h : CvWords fl n g g') :
    ∃ a e, NatSeg fl g a e ∧ 2 ≤ e - a := by
  obtain ⟨k, h1, h2, h3⟩ := h.two
  have hw : ∀ k, k < g.length → _ := fun k hk => h.word k (by rw [← h.len]; exact hk)
  have hlen := h.len
  have hgood : GoodGroup fl.pers g (k + 1) := (goodG_iff fl g _ (by omega)).1 ((cv_goodG hf (hw _ (by omega))).2 h3)
  obtain ⟨a, e, ⟨q1, q2, q3⟩, -⟩ := C27_every_good_group_once fl hf.jump0 g (k + 1) hgood
  refine ⟨a, e, q1, ?_⟩
  by_contra hlt
  rw [natSeg_iff] at q1
  obtain ⟨s, ⟨r1, r2, r3, r4, r5⟩, rfl⟩ := q1
  by_cases hx : 0 < s ∧ jmpG fl g (s - 1)
  · have hs : Ols.ext (jmpG fl g) s = s - 1 := if_pos hx
    rw [hs] at q2 hlt
    omega
  · have hs : Ols.ext (jmpG fl g) s = s := if_neg hx
    rw [hs] at q2 hlt
    have hsk : s = k + 1 := by omega
    subst hsk
    simp only [Nat.add_sub_cancel] at hx r4
    rw [cv_jmpG hf (hw k (by omega))] at hx
    rw [cv_goodG hf (hw k (by omega))] at r4
    have := hw k (by omega)
    have r4' := r4.resolve_left (by omega)
    exact h2 ((this.resolve_left r4').resolve_right fun q => hx ⟨by omega, q⟩)

theorem cv_mem {fl : Flags} (hf : CvBits fl) {n : Nat} {g g' : List Nat} (h : CvWords fl n g g') (s : Seg) :
    s ∈ (computeSegs fl g).segs ↔ CvSeg fl g s.start s.stop := by
  rw [(C28_pruning_exact fl g).1 (cv_exists hf h) s]
  exact cv_natSeg hf (fun k hk => h.word k (by rw [← h.len]; exact hk)) _ _

theorem cv_nodup (fl : Flags) (g : List Nat) : (computeSegs fl g).segs.Nodup := by
  obtain ⟨h1, h2⟩ := C27_segments_sound fl g
  refine List.Pairwise.imp_of_mem (fun {a b} ha _ hab => ?_) h1
  rintro rfl
  have := (h2 _ ha).1
  omega

/-- The segments of the ramp read backwards are the segments of the ramp. -/
theorem cv_segs {fl : Flags} (hf : CvBits fl) {n : Nat} {g g' : List Nat} (h : CvWords fl n g g') :
    (computeSegs fl g').segs.Perm ((computeSegs fl g).segs.map fun s => ⟨n - s.stop, n - s.start⟩) := by
  have hle : ∀ s : Seg, CvSeg fl g s.start s.stop → s.start ≤ n ∧ s.stop ≤ n := by
    rintro s ⟨q1, q2, -⟩
    rw [h.len] at q2
    omega
  refine (List.perm_ext_iff_of_nodup (cv_nodup fl g') ?_).2 fun s => ?_
  · refine List.Nodup.map_on ?_ (cv_nodup fl g)
    rintro ⟨a, b⟩ hx ⟨c, d⟩ hy hxy
    have e1 := hle _ ((cv_mem hf h _).1 hx)
    have e2 := hle _ ((cv_mem hf h _).1 hy)
    simp only [Seg.mk.injEq] at hxy e1 e2 ⊢
    omega
  · rw [cv_mem hf (h.symm hf), List.mem_map]
    constructor
    · intro hs
      have := cv_seg (h.symm hf) hs
      refine ⟨⟨n - s.stop, n - s.start⟩, (cv_mem hf h _).2 this, ?_⟩
      obtain ⟨q1, q2, -⟩ := hs
      rw [h.len'] at q2
      obtain ⟨a, e⟩ := s
      simp only [Seg.mk.injEq] at q1 q2 ⊢
      omega
    · rintro ⟨t, ht, rfl⟩
      exact cv_seg h ((cv_mem hf h _).1 ht)

theorem cv_acc {a b : List (SegFit α)} (h : a.Perm b) : accSegs a = accSegs b := by
  refine h.foldl_eq (rcomm := ⟨fun s x y => ?_⟩) _
  have hn : o2 (· + ·) (o2 (· + ·) s.num (x.slope.map fun v => v / x.varR)) (y.slope.map fun v => v / y.varR)
      = o2 (· + ·) (o2 (· + ·) s.num (y.slope.map fun v => v / y.varR)) (x.slope.map fun v => v / x.varR) := by
    cases s.num <;> cases x.slope <;> cases y.slope <;> simp [o2, add_right_comm]
  have hp : (if 0 < y.varP then (if 0 < x.varP then s.invP + 1 / x.varP else s.invP) + 1 / y.varP
        else if 0 < x.varP then s.invP + 1 / x.varP else s.invP)
      = (if 0 < x.varP then (if 0 < y.varP then s.invP + 1 / y.varP else s.invP) + 1 / x.varP
        else if 0 < y.varP then s.invP + 1 / y.varP else s.invP) := by
    by_cases h1 : 0 < x.varP <;> by_cases h2 : 0 < y.varP <;> simp only [h1, h2, if_true, if_false] ; ring
  show (Acc.mk _ _ _ _ : Acc α) = Acc.mk _ _ _ _
  rw [hn, hp]
  congr 1
  · exact add_right_comm _ _ _
  · exact add_right_comm _ _ _

theorem cv_nanMedian {a b : List (Option α)} (h : a.Perm b) : nanMedian a = nanMedian b := by
  have : (a.filterMap id).insertionSort (· ≤ ·) = (b.filterMap id).insertionSort (· ≤ ·) := by
    refine List.Perm.eq_of_pairwise' (r := (· ≤ ·)) (List.pairwise_insertionSort _ _) (List.pairwise_insertionSort _ _) ?_
    exact ((List.perm_insertionSort _ _).trans (h.filterMap _)).trans (List.perm_insertionSort _ _).symm
  rw [nanMedian, nanMedian, this]

/-- Specification: an integration and the integration read backwards, upside down about half of `z`; usable samples are numbers. -/
structure CvInteg (fl : Flags) (n : Nat) (z : α) (x x' : List (Option α) × List Nat × Option (Option α)) : Prop where
  words : CvWords fl n x.2.1 x'.2.1
  dlen : x.1.length = n
  dlen' : x'.1.length = n
  data : ∀ k : Nat, k < n → (x'.1[n - 1 - k]?).join = ((x.1[k]?).join).map fun v => z - v
  num : ∀ k : Nat, k < n → x.2.1.getD k 0 ≠ fl.dnu → ∃ v, (x.1[k]?).join = some v

theorem cv_hasB {fl : Flags} (hf : CvBits fl) {w : Nat} (h : w = 0 ∨ w = fl.dnu ∨ w = fl.jump) :
    hasB w fl.sat = false ∧ hasB w fl.pers = false ∧ (hasB w fl.dnu = true ↔ w = fl.dnu) ∧ (hasB w fl.jump = true ↔ w = fl.jump) := by
  have d0 := hf.ok.dnu0
  have j0 := hf.jump0
  have dj := cv_dj hf
  have comm : ∀ {a b : Nat}, Has a b → Has b a := by
    intro a b q
    simp only [Has, Nat.land_comm] at q ⊢
    exact q
  rcases h with rfl | rfl | rfl
  · refine ⟨by simp [hasB], by simp [hasB], ?_, ?_⟩
    · simp [hasB]; exact d0.symm
    · simp [hasB]; exact j0.symm
  · refine ⟨hasB_false.2 hf.ok.ds, hasB_false.2 fun q => hf.ok.pd (comm q), ?_, ?_⟩
    · exact ⟨fun _ => rfl, fun _ => hasB_iff.2 (has_self.2 d0)⟩
    · rw [hasB_iff]
      exact ⟨fun q => absurd (comm q) hf.ok.jd, fun q => absurd q dj⟩
  · refine ⟨hasB_false.2 hf.ok.js, hasB_false.2 fun q => hf.pj (comm q), ?_, ?_⟩
    · rw [hasB_iff]
      exact ⟨fun q => absurd q hf.ok.jd, fun q => absurd q dj.symm⟩
    · exact ⟨fun _ => rfl, fun _ => hasB_iff.2 (has_self.2 j0)⟩

theorem cv_mem_word {fl : Flags} {n : Nat} {g : List Nat} (hl : g.length = n)
    (hw : ∀ k, k < n → g.getD k 0 = 0 ∨ g.getD k 0 = fl.dnu ∨ g.getD k 0 = fl.jump) {w : Nat} (h : w ∈ g) :
    w = 0 ∨ w = fl.dnu ∨ w = fl.jump := by
  obtain ⟨k, hk, rfl⟩ := List.mem_iff_getElem.1 h
  have := hw k (by omega)
  rwa [List.getD_eq_getElem _ _ hk] at this

theorem cv_load {fl : Flags} (hf : CvBits fl) (sup : Bool) {n : Nat} {g g' : List Nat} (h : CvWords fl n g g') (d : List (Option α))
    (hd : d.length = n) (zf : Option (Option α)) : loadInteg fl sup d g zf = ⟨d, g, stats fl g, false, false⟩ := by
  have hz : List.zipWith (fun (x : Option α) q => if hasB q fl.sat then none else x) d g = d := by
    apply List.ext_getElem
    · simp [hd, h.len]
    · intro k h1 h2
      rw [List.getElem_zipWith, (cv_hasB hf (cv_mem_word h.len h.word (List.getElem_mem _))).1]
      simp
  obtain ⟨k, h1, h2, h3⟩ := h.two
  have hlen := h.len
  have hc1 : ¬ ((stats fl g).cntGood = 1 ∧ g.getD 0 0 = 0) := by
    rintro ⟨q1, q2⟩
    cases g with
    | nil => simp at hlen; omega
    | cons w t =>
      simp only [List.getD_cons_zero] at q2
      simp only [List.length_cons] at hlen
      have q3 : t.getD k 0 = 0 := by simpa using h3
      rw [List.getD_eq_getElem _ _ (by omega)] at q3
      have : 0 < t.countP fun d => decide (d = 0) := List.countP_pos_iff.2 ⟨_, List.getElem_mem (show k < t.length by omega), by simp [q3]⟩
      simp only [stats, List.countP_cons, q2, decide_true, if_true] at q1
      omega
  have hc0 : ¬ (stats fl g).cntGood = 0 := by
    have : 0 < g.countP fun d => decide (d = 0) := by
      rw [List.getD_eq_getElem _ _ (by omega)] at h3
      exact List.countP_pos_iff.2 ⟨_, List.getElem_mem (show k + 1 < g.length by omega), by simp [h3]⟩
    simp only [stats]
    omega
  simp only [loadInteg, hz, if_neg hc1, if_neg hc0]
  split <;> rfl

theorem cv_stats {fl : Flags} (hf : CvBits fl) {n : Nat} {g g' : List Nat} (h : CvWords fl n g g') :
    (stats fl g).cntSat = 0 ∧ (stats fl g).cntDnuSat ≠ (n : Int) ∧ firstSat fl g = false
      ∧ ((stats fl g).jumpDet = true ↔ ∃ k, k < n ∧ g.getD k 0 = fl.jump) ∧ (stats fl g).persistence = false := by
  have hm := fun w (hw : w ∈ g) => cv_hasB hf (cv_mem_word h.len h.word hw)
  obtain ⟨k, h1, h2, h3⟩ := h.two
  have hlen := h.len
  rw [List.getD_eq_getElem _ _ (by omega)] at h2
  refine ⟨List.countP_eq_zero.2 fun w hw => by rw [(hm w hw).1]; simp, ?_, ?_, ?_, ?_⟩
  · intro he
    simp only [stats] at he
    have he' : g.countP (fun d => hasB d fl.dnu || hasB d fl.sat) = g.length := by rw [hlen]; exact_mod_cast he
    rw [List.countP_eq_length] at he'
    have q := he' _ (List.getElem_mem (show k < g.length by omega))
    have q2 := hm _ (List.getElem_mem (show k < g.length by omega))
    rw [q2.1, Bool.or_false, q2.2.2.1] at q
    exact h2 q
  · rw [firstSat]
    exact (cv_hasB hf (h.word 0 (by omega))).1
  · simp only [stats, List.any_eq_true]
    constructor
    · rintro ⟨w, hw, q⟩
      obtain ⟨j, hj, rfl⟩ := List.mem_iff_getElem.1 hw
      exact ⟨j, by omega, by rw [List.getD_eq_getElem _ _ hj]; exact (hm _ hw).2.2.2.1 q⟩
    · rintro ⟨j, hj, q⟩
      rw [List.getD_eq_getElem _ _ (by omega)] at q
      exact ⟨_, List.getElem_mem (show j < g.length by omega), (hm _ (List.getElem_mem _)).2.2.2.2 q⟩
  · simp only [stats]
    exact List.any_eq_false.2 fun w hw => by rw [(hm w hw).2.1]; simp

theorem cv_loc {fl : Flags} (hf : CvBits fl) (cfg : Ols.Cfg α) {n : Nat} {g : List Nat} (hl : g.length = n)
    (hw : ∀ k, k < n → g.getD k 0 = 0 ∨ g.getD k 0 = fl.dnu ∨ g.getD k 0 = fl.jump) (d : List (Option α)) (hd : d.length = n) (k : Nat)
    (hk : k < n) :
    ((List.zipWith (fun x q => if hasB q fl.dnu then none else x.map fun d => d / cfg.groupTime) d g)[k]?).join
      = if g.getD k 0 = fl.dnu then none else ((d[k]?).join).map fun d => d / cfg.groupTime := by
  have hb := (cv_hasB hf (hw k hk)).2.2.1
  rw [List.getElem?_zipWith, List.getElem?_eq_getElem (show k < d.length by omega), List.getElem?_eq_getElem (show k < g.length by omega)]
  rw [List.getD_eq_getElem _ _ (show k < g.length by omega)] at hb ⊢
  by_cases h : g[k]'(by omega) = fl.dnu
  · rw [if_pos h]
    simp [hb.2 h]
  · rw [if_neg h]
    simp [Bool.not_eq_true _ ▸ (hb.not.2 h)]

theorem cv_medianInteg {fl : Flags} (hf : CvBits fl) (cfg : Ols.Cfg α) {n : Nat} {z : α}
    {x x' : List (Option α) × List Nat × Option (Option α)} (h : CvInteg fl n z x x') :
    medianInteg fl cfg x'.1 x'.2.1 = medianInteg fl cfg x.1 x.2.1 := by
  obtain ⟨d, g, zf⟩ := x
  obtain ⟨d', g', zf'⟩ := x'
  obtain ⟨hw, hd, hd', hdata, hnum⟩ := h
  simp only at hw hd hd' hdata hnum ⊢
  have hl := hw.len
  have hl' := hw.len'
  have hloc := cv_loc hf cfg hl hw.word d hd
  have hloc' := cv_loc hf cfg hl' hw.word' d' hd'
  set f : Option α → Nat → Option α := fun x q => if hasB q fl.dnu then none else x.map fun d => d / cfg.groupTime with hfd
  have hdiff : ∀ k, k + 1 < n →
      (if hasB (g'.getD (n - 1 - 1 - k + 1) 0) fl.jump then none
        else o2 (· - ·) (((List.zipWith f d' g')[n - 1 - 1 - k + 1]?).join) (((List.zipWith f d' g')[n - 1 - 1 - k]?).join))
      = if hasB (g.getD (k + 1) 0) fl.jump then none
        else o2 (· - ·) (((List.zipWith f d g)[k + 1]?).join) (((List.zipWith f d g)[k]?).join) := by
    intro k hk
    have e1 : n - 1 - 1 - k + 1 = n - 1 - k := by omega
    have e2 : n - 1 - 1 - k = n - 1 - (k + 1) := by omega
    rw [e1, e2, hloc' _ (by omega), hloc' _ (by omega), hloc (k + 1) hk, hloc k (by omega), hdata k (by omega), hdata (k + 1) hk]
    have d1 := hw.dnu k (by omega)
    have d2 := hw.dnu (k + 1) (by omega)
    by_cases q1 : g.getD k 0 = fl.dnu
    · rw [if_pos (d1.2 q1), if_pos q1]
      have : ∀ v : Option α, o2 (· - ·) v none = none := fun v => by cases v <;> rfl
      rw [this]
      simp [o2]
    · by_cases q2 : g.getD (k + 1) 0 = fl.dnu
      · rw [if_pos (d2.2 q2), if_pos q2]
        have : ∀ v : Option α, o2 (· - ·) v none = none := fun v => by cases v <;> rfl
        rw [this]
        simp [o2]
      · rw [if_neg (d1.not.2 q1), if_neg (d2.not.2 q2), if_neg q1, if_neg q2]
        obtain ⟨v, hv⟩ := hnum k (by omega) q1
        obtain ⟨u, hu⟩ := hnum (k + 1) hk q2
        have hj : hasB (g'.getD (n - 1 - k) 0) fl.jump = hasB (g.getD (k + 1) 0) fl.jump := by
          rw [Bool.eq_iff_iff, (cv_hasB hf (hw.word' _ (by omega))).2.2.2, (cv_hasB hf (hw.word _ hk)).2.2.2]
          exact hw.jump k hk q1 q2
        rw [hj, hv, hu]
        simp only [Option.map_some, o2, Option.bind_some]
        rw [show (z - v) / cfg.groupTime - (z - u) / cfg.groupTime = u / cfg.groupTime - v / cfg.groupTime by ring]
  have hrev : ((List.range (g'.length - 1)).map fun k => if hasB (g'.getD (k + 1) 0) fl.jump then none
        else o2 (· - ·) (((List.zipWith f d' g')[k + 1]?).join) (((List.zipWith f d' g')[k]?).join))
      = ((List.range (g.length - 1)).map fun k => if hasB (g.getD (k + 1) 0) fl.jump then none
        else o2 (· - ·) (((List.zipWith f d g)[k + 1]?).join) (((List.zipWith f d g)[k]?).join)).reverse := by
    rw [hl, hl', ← List.reverse_eq_iff, ← cv_range_reverse]
    refine List.map_congr_left fun k hk => ?_
    have := List.mem_range.1 hk
    exact hdiff k (by omega)
  simp only [medianInteg]
  rw [hrev]
  generalize hD : ((List.range (g.length - 1)).map fun k => if hasB (g.getD (k + 1) 0) fl.jump then none
        else o2 (· - ·) (((List.zipWith f d g)[k + 1]?).join) (((List.zipWith f d g)[k]?).join)) = D
  have hsome : D.all (fun d => d.isNone) = false := by
    obtain ⟨k, h1, h2, h3⟩ := hw.two
    have h3' : g.getD (k + 1) 0 ≠ fl.dnu := by rw [h3]; exact hf.ok.dnu0.symm
    obtain ⟨v, hv⟩ := hnum k (by omega) h2
    obtain ⟨u, hu⟩ := hnum (k + 1) h1 h3'
    rw [List.all_eq_false]
    refine ⟨some (u / cfg.groupTime - v / cfg.groupTime), ?_, by simp⟩
    rw [← hD, List.mem_map]
    refine ⟨k, List.mem_range.2 (by omega), ?_⟩
    rw [hloc _ h1, hloc _ (by omega), if_neg h2, if_neg h3', hv, hu, h3]
    simp [hasB, o2]
  rw [List.all_reverse, hsome]
  simp only [Bool.false_and, Bool.false_eq_true, if_false]
  exact cv_nanMedian (List.reverse_perm D)

theorem cv_fitInteg {fl : Flags} (hf : CvBits fl) (cfg : Ols.Cfg α) (px : Ols.Pix α) (med : Option α) {n : Nat} {z : α}
    {x x' : List (Option α) × List Nat × Option (Option α)} (h : CvInteg fl n z x x') (dq : Nat) :
    fitInteg fl cfg px med n ⟨x'.1, x'.2.1, stats fl x'.2.1, false, false⟩ dq
      = fitInteg fl cfg px med n ⟨x.1, x.2.1, stats fl x.2.1, false, false⟩ dq := by
  obtain ⟨d, g, zf⟩ := x
  obtain ⟨d', g', zf'⟩ := x'
  obtain ⟨hw, hd, hd', hdata, hnum⟩ := h
  simp only at hw hd hd' hdata hnum ⊢
  have s1 := cv_stats hf hw
  have s2 := cv_stats hf (hw.symm hf)
  have hfits : ((fitSegs fl g').segs.map (fitSeg cfg px med false false fun k => (d'[k]?).join)).Perm
      ((fitSegs fl g).segs.map (fitSeg cfg px med false false fun k => (d[k]?).join)) := by
    rw [fitSegs, fitSegs, s1.2.2.1, s2.2.2.1, if_neg (by simp), if_neg (by simp)]
    refine ((cv_segs hf hw).map _).trans (List.Perm.of_eq ?_)
    rw [List.map_map]
    refine List.map_congr_left fun s hs => ?_
    obtain ⟨q1, q2, q3, -⟩ := (cv_mem hf hw s).1 hs
    rw [hw.len] at q2
    exact C190_segment cfg px med false false n z _ _ hdata s (by omega) q2 fun k h1 h2 => hnum k (by omega) (q3 k h1 h2)
  have hemp : ((fitSegs fl g').segs.map (fitSeg cfg px med false false fun k => (d'[k]?).join)).isEmpty
      = ((fitSegs fl g).segs.map (fitSeg cfg px med false false fun k => (d[k]?).join)).isEmpty := by
    rw [Bool.eq_iff_iff, List.isEmpty_iff, List.isEmpty_iff]
    exact ⟨fun e => by rw [e] at hfits; exact hfits.symm.eq_nil, fun e => by rw [e] at hfits; exact hfits.eq_nil⟩
  simp only [fitInteg, s1.2.2.1, s2.2.2.1, if_neg s1.2.1.symm, if_neg s2.2.1.symm, combineInteg, hemp, cv_acc hfits]

/-- **C190**, the least-squares fit of a pixel: if every integration is read backwards and upside down, with jumps flagged at the group after
the jump in both directions, and usable samples are numbers and some two neighbouring usable groups are not separated by a jump, all
entries and the rate are the same. -/
theorem C190_ols (fl : Flags) (hf : CvBits fl) (cfg : Ols.Cfg α) (n : Nat) (hn : 2 ≤ n) (p p' : PixIn α) (hg : p'.gainBad = p.gainBad)
    (hx : p'.px = p.px) (hd : p'.pixeldq = p.pixeldq) (h : List.Forall₂ (fun x x' => ∃ z, CvInteg fl n z x x') p.ints p'.ints) :
    fitPixel fl cfg n p' = fitPixel fl cfg n p := by
  have hm : metaDq fl p' = metaDq fl p := by rw [metaDq, metaDq, hg, hd]
  have l1 : loadPixel fl cfg p = p.ints.map fun x => ⟨x.1, x.2.1, stats fl x.2.1, false, false⟩ := by
    simp only [loadPixel]
    refine List.map_congr_left fun x hx => ?_
    obtain ⟨i, hi, rfl⟩ := List.mem_iff_getElem.1 hx
    obtain ⟨z, q⟩ := (List.forall₂_iff_get.1 h).2 i hi (by rw [← h.length_eq]; exact hi)
    exact cv_load hf _ q.words _ q.dlen _
  have l2 : loadPixel fl cfg p' = p'.ints.map fun x => ⟨x.1, x.2.1, stats fl x.2.1, false, false⟩ := by
    simp only [loadPixel]
    refine List.map_congr_left fun x hx => ?_
    obtain ⟨i, hi, rfl⟩ := List.mem_iff_getElem.1 hx
    obtain ⟨z, q⟩ := (List.forall₂_iff_get.1 h).2 i (by rw [h.length_eq]; exact hi) hi
    exact cv_load hf _ (q.words.symm hf) _ q.dlen' _
  have hmed : medianRate fl cfg n (loadPixel fl cfg p') = medianRate fl cfg n (loadPixel fl cfg p) := by
    rw [l1, l2]
    simp only [medianRate, if_neg (show n ≠ 1 by omega), List.length_map, h.length_eq, List.map_map, Function.comp_def, Bool.false_eq_true,
      if_false]
    congr 3
    clear l1 l2 hm hx hd hg
    generalize p.ints = l at h ⊢
    generalize p'.ints = l' at h ⊢
    induction h with
    | nil => rfl
    | cons hab _ ih =>
      obtain ⟨z, hab⟩ := hab
      rw [List.map_cons, List.map_cons, ih, cv_medianInteg hf cfg hab]
  have hr : List.Forall₂ (fun a b : Integ α × (Rate α × Bool × Bool) × Option (Acc α) =>
      statBits fl a.1.st = statBits fl b.1.st ∧ a.1.st.cntSat = b.1.st.cntSat ∧ a.2 = b.2)
      (pixelInts fl cfg n p) (pixelInts fl cfg n p') := by
    simp only [pixelInts]
    rw [hmed, hm, hx]
    generalize medianRate fl cfg n (loadPixel fl cfg p) = med
    rw [l1, l2, List.map_map, List.map_map]
    refine List.forall₂_map_left_iff.2 (List.forall₂_map_right_iff.2 (h.imp fun x x' hxx => ?_))
    obtain ⟨z, q⟩ := hxx
    have s1 := cv_stats hf q.words
    have s2 := cv_stats hf (q.words.symm hf)
    have hj : (stats fl x'.2.1).jumpDet = (stats fl x.2.1).jumpDet := by
      rw [Bool.eq_iff_iff, s1.2.2.2.1, s2.2.2.2.1]
      exact q.words.any
    have hst : statBits fl (stats fl x'.2.1) = statBits fl (stats fl x.2.1) := by
      rw [statBits, statBits, hj, s1.2.2.2.2, s2.2.2.2.2]
    refine ⟨hst.symm, by simp only [Function.comp_apply]; rw [s1.1, s2.1], ?_⟩
    simp only [Function.comp_apply]
    rw [hst, cv_fitInteg hf cfg p.px _ q]
    simp only [postInteg, s1.1, s2.1]
  simp only [fitPixel]
  have e1 := hr.length_eq
  have e2 := un_countP (fun r => r.2.1.2.1) (fun r => r.2.1.2.1) (fun b c hbc => by rw [hbc.2.2]) hr
  have e3 := un_countP (fun r => r.2.1.2.2) (fun r => r.2.1.2.2) (fun b c hbc => by rw [hbc.2.2]) hr
  have e4 := un_fold (fun acc r => acc ||| statBits fl r.1.st) (fun acc r => acc ||| statBits fl r.1.st)
    (fun s b c hbc => by rw [hbc.1]) hr (metaDq fl p)
  have e5 := un_filterMap id (fun r => r.2.2) (fun r => r.2.2) (fun b c hbc => by rw [hbc.2.2]; simp) hr
  have e6 := un_any (fun r => decide (0 < r.1.st.cntSat)) (fun r => decide (0 < r.1.st.cntSat)) (fun b c hbc => by rw [hbc.2.1]) hr
  have e7 : (pixelInts fl cfg n p').map (fun r => r.2.1.1) = (pixelInts fl cfg n p).map fun r => r.2.1.1 := by
    rw [← List.forall₂_eq_eq_eq, List.forall₂_map_left_iff, List.forall₂_map_right_iff]
    exact hr.flip.imp fun a b hab => by rw [hab.2.2]
  rw [List.map_id] at e5
  rw [hm, ← e1, e2, e3, e4, e5, e6, e7]

/-- Example: six groups, a jump at group 2 and an unusable group 4. -/
def cvOne : List (Option ℚ) × List Nat × Option (Option ℚ) := ([some 1, some 3, some 20, some 22, none, some 25], [0, 0, 4, 0, 1, 0], none)

/-- Example: the same backwards, with the jump at group 6 - 2. -/
def cvOther : List (Option ℚ) × List Nat × Option (Option ℚ) := ([some 25, none, some 28, some 30, some 47, some 49], [0, 1, 0, 0, 4, 0], none)

example : CvBits exFlags := ⟨olsExFlags_ok, by decide, by decide⟩

example : CvInteg exFlags 6 50 cvOne cvOther where
  words :=
    { len := rfl
      len' := rfl
      word := by decide
      word' := by decide
      dnu := by decide
      jump := fun k hk => by
        have : k < 5 := by omega
        clear hk
        revert k
        decide
      any := ⟨fun _ => ⟨2, by decide⟩, fun _ => ⟨4, by decide⟩⟩
      two := ⟨0, by decide⟩ }
  dlen := rfl
  dlen' := rfl
  data := by decide +kernel
  num := fun k hk h => by
    rw [← Option.ne_none_iff_exists']
    revert k
    decide +kernel

/-- The rate is the same backwards; with the flags only in the opposite order it is not. -/
example :
    let f := fun x => (fitPixel exFlags exCfg 6 ⟨false, ⟨2, 3, 0⟩, 0, [x]⟩).2
    (f cvOther).slope = (f cvOne).slope ∧ (f cvOther).varP = (f cvOne).varP ∧ (f cvOther).varR = (f cvOne).varR ∧ (f cvOne).slope = some (1 / 5)
      ∧ (f (cvOther.1, cvOne.2.1.reverse, none)).varR ≠ (f cvOne).varR := by decide +kernel

end
end Verif.Thm
