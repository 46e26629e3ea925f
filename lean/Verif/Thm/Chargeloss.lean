import Verif.Model.Chargeloss
import Verif.Thm.OlsPixel
import Verif.Thm.OlsVar

/-! # Read-noise variance of ramps with charge loss (C87) -/

namespace Verif.Thm

open Verif.Dq Verif.Ols

set_option linter.unusedSectionVars false

/-- A group's DQ with CHARGELOSS and DO_NOT_USE taken away if it is flagged CHARGELOSS. -/
def clClean (dnu cl d : Nat) : Nat := if Has d cl then clear d (dnu ||| cl) else d

theorem cl_xor (a b d : Nat) (h : Has d (2 ^ b) → Has d (2 ^ a)) :
    (if hasB d (2 ^ b) then d ^^^ (2 ^ a ||| 2 ^ b) else d) = clClean (2 ^ a) (2 ^ b) d := by
  unfold clClean
  by_cases hb : Has d (2 ^ b)
  · rw [if_pos hb, if_pos (hasB_iff.2 hb)]
    have key : ∀ e, Has d (2 ^ e) → d.testBit e = true := by
      intro e he
      obtain ⟨i, h1, h2⟩ := has_iff.1 he
      rw [Nat.testBit_two_pow] at h2
      simp only [decide_eq_true_eq] at h2
      rw [h2]; exact h1
    have ha := key a (h hb)
    have hb' := key b hb
    apply Nat.eq_of_testBit_eq
    intro i
    rw [testBit_clear, Nat.testBit_xor, Nat.testBit_or, Nat.testBit_two_pow, Nat.testBit_two_pow]
    by_cases h1 : a = i
    · subst h1; simp [ha]
    · by_cases h2 : b = i
      · subst h2; simp [hb']
      · simp [h1, h2]
  · rw [if_neg hb, if_neg (by rw [hasB_iff]; exact hb)]

/-- What becomes of a group's DQ: CHARGELOSS with DO_NOT_USE disappears with it, CHARGELOSS alone turns into DO_NOT_USE. -/
def clSwap (dnu cl d : Nat) : Nat := if Has d cl then (if Has d dnu then clear d (dnu ||| cl) else clear d cl ||| dnu) else d

theorem cl_swap (a b d : Nat) (hab : a ≠ b) :
    (if hasB d (2 ^ b) then d ^^^ (2 ^ a ||| 2 ^ b) else d) = clSwap (2 ^ a) (2 ^ b) d := by
  by_cases ha : Has d (2 ^ a)
  · rw [cl_xor a b d fun _ => ha]
    simp only [clClean, clSwap, if_pos ha]
  · by_cases hb : Has d (2 ^ b)
    · simp only [clSwap, if_neg ha, if_pos hb, if_pos (hasB_iff.2 hb)]
      have key : ∀ e, Has d (2 ^ e) ↔ d.testBit e = true := by
        intro e
        rw [has_iff]
        constructor
        · rintro ⟨i, h1, h2⟩
          rw [Nat.testBit_two_pow] at h2
          simp only [decide_eq_true_eq] at h2
          rw [h2]; exact h1
        · intro h
          exact ⟨e, h, by simp⟩
      rw [key] at ha hb
      apply Nat.eq_of_testBit_eq
      intro i
      rw [Nat.testBit_or, testBit_clear, Nat.testBit_xor, Nat.testBit_or, Nat.testBit_two_pow, Nat.testBit_two_pow]
      by_cases h1 : a = i
      · subst h1; simp [ha, Ne.symm hab]
      · by_cases h2 : b = i
        · subst h2; simp [hb, h1]
        · simp [h1, h2]
    · simp only [clSwap, if_neg hb]
      rw [if_neg (by rw [hasB_iff]; exact hb)]

theorem cl_zip4 {A B C D : Type*} (l1 : List A) (l2 : List B) (l3 : List C) (l4 : List D) (k : Nat) (a : A) (b : B)
    (c : C) (d : D) (h1 : l1[k]? = some a) (h2 : l2[k]? = some b) (h3 : l3[k]? = some c) (h4 : l4[k]? = some d) :
    (List.zip (List.zip l1 l2) (List.zip l3 l4))[k]? = some ((a, b), (c, d)) := by
  rw [List.getElem?_zip_eq_some, List.getElem?_zip_eq_some, List.getElem?_zip_eq_some]
  exact ⟨⟨h1, h2⟩, h3, h4⟩

section
variable {α : Type*} [Field α] [LinearOrder α] [IsStrictOrderedRing α]

/-- The charge-loss step changes nothing but read-noise variances: the number of integrations, all slopes, Poisson
variances, errors and DQ words are those of the fit, and so are the read-noise variances of the integrations
without a CHARGELOSS group; without any such group the whole result is that of the fit. -/
theorem C87_only_read_noise (fl : Flags) (cfg : Cfg α) (ngroups : Nat) (p : PixIn α) (orig : List (List Nat))
    (ho : orig.length = p.ints.length) :
    let a := fitPixel fl cfg ngroups p
    let b := fitPixelOrig fl cfg ngroups p orig
    b.1.length = a.1.length
    ∧ (∀ (k : Nat) (x y : Rate α), a.1[k]? = some x → b.1[k]? = some y →
        y.slope = x.slope ∧ y.varP = x.varP ∧ y.varErr = x.varErr ∧ y.dq = x.dq
        ∧ ∀ e, p.ints[k]? = some e → (∀ d ∈ e.2.1, ¬ Has d fl.chargeloss) → y.varR = x.varR)
    ∧ b.2.slope = a.2.slope ∧ b.2.varP = a.2.varP ∧ b.2.varErr = a.2.varErr ∧ b.2.dq = a.2.dq
    ∧ ((∀ e ∈ p.ints, ∀ d ∈ e.2.1, ¬ Has d fl.chargeloss) → b = a) := by
  intro a b
  have hl1 : (loadPixel fl cfg p).length = p.ints.length := by simp [loadPixel]
  have hl2 : a.1.length = p.ints.length := by simp [a, fitPixel, pixelInts, loadPixel]
  have hcl : ∀ g : List Nat, chargelossB fl g = false ↔ ∀ d ∈ g, ¬ Has d fl.chargeloss := by
    intro g; simp [chargelossB, hasB_false]
  have hb1 : ∀ k : Nat, b.1[k]? = ((List.zip (List.zip (loadPixel fl cfg p) p.ints) (List.zip orig a.1))[k]?).map
      fun e => (chargelossInteg fl cfg p.px e.1.1 e.1.2.2.1 e.2.1 e.2.2).1 := by
    intro k; simp only [b, fitPixelOrig, a, List.map_map, List.getElem?_map]; rfl
  have hlen : b.1.length = a.1.length := by
    simp only [b, fitPixelOrig, List.length_map, List.length_zip]
    change min (min _ _) (min _ a.1.length) = _
    omega
  have hk : ∀ (k : Nat) (x y : Rate α), a.1[k]? = some x → b.1[k]? = some y →
      ∃ i e o, p.ints[k]? = some e ∧ (loadPixel fl cfg p)[k]? = some i ∧ orig[k]? = some o
        ∧ y = (chargelossInteg fl cfg p.px i e.2.1 o x).1 := by
    intro k x y hx hy
    have hka : k < a.1.length := (List.getElem?_eq_some_iff.1 hx).1
    have e1 : p.ints[k]? = some p.ints[k] := List.getElem?_eq_getElem (by omega)
    have e2 : (loadPixel fl cfg p)[k]? = some (loadPixel fl cfg p)[k] := List.getElem?_eq_getElem (by omega)
    have e3 : orig[k]? = some orig[k] := List.getElem?_eq_getElem (by omega)
    refine ⟨_, _, _, e1, e2, e3, ?_⟩
    rw [hb1, cl_zip4 _ _ _ _ k _ _ _ _ e2 e1 e3 hx] at hy
    simpa using hy.symm
  refine ⟨hlen, ?_, ?_⟩
  · intro k x y hx hy
    obtain ⟨i, e, o, h1, -, -, h4⟩ := hk k x y hx hy
    subst h4
    simp only [chargelossInteg]
    refine ⟨by split <;> rfl, by split <;> rfl, by split <;> rfl, by split <;> rfl, fun e' he' hn => ?_⟩
    rw [h1] at he'
    cases he'
    rw [(hcl e.2.1).2 hn]
    rfl
  · have h2 : b.2 = a.2 ∨ ∃ v, b.2 = { a.2 with varR := v } := by
      simp only [b, fitPixelOrig]
      split
      · exact Or.inr ⟨_, rfl⟩
      · exact Or.inl rfl
    refine ⟨?_, ?_, ?_, ?_, fun hall => ?_⟩
    · rcases h2 with h | ⟨v, h⟩ <;> rw [h]
    · rcases h2 with h | ⟨v, h⟩ <;> rw [h]
    · rcases h2 with h | ⟨v, h⟩ <;> rw [h]
    · rcases h2 with h | ⟨v, h⟩ <;> rw [h]
    · have hf : (p.ints.any fun e => chargelossB fl e.2.1) = false := by
        rw [List.any_eq_false]
        intro e he
        rw [(hcl e.2.1).2 (hall e he)]
        simp
      refine Prod.ext ?_ ?_
      · apply List.ext_getElem hlen
        intro k hk1 hk2
        obtain ⟨i, e, o, h1, -, -, h4⟩ := hk k _ _ (List.getElem?_eq_getElem hk2) (List.getElem?_eq_getElem hk1)
        have he : e ∈ p.ints := List.mem_of_getElem? h1
        rw [h4]
        simp only [chargelossInteg, (hcl e.2.1).2 (hall e he), Bool.false_eq_true, if_false]
      · simp only [b, fitPixelOrig, hf, Bool.false_eq_true, if_false]; rfl

theorem cl_fold (l : List Seg) (v : Seg → α) (hv : ∀ s ∈ l, 0 < v s) (a0 : α) :
    l.foldl (fun a s => if 0 < v s then a + 1 / v s else a) a0 = a0 + (l.map fun s => 1 / v s).sum := by
  induction l generalizing a0 with
  | nil => simp
  | cons s l ih =>
    rw [List.foldl_cons, if_pos (hv s (List.mem_cons_self ..)), ih (fun x hx => hv x (List.mem_cons_of_mem _ hx)),
      List.map_cons, List.sum_cons]
    ring

theorem cl_invR (fits : List (SegFit α)) : (accSegs fits).invR = (fits.map fun f => 1 / f.varR).sum := by
  have key : ∀ (l : List (SegFit α)) (a0 : Acc α), (l.foldl (fun (a : Acc α) (f : SegFit α) =>
      { invR := a.invR + 1 / f.varR
        invP := if 0 < f.varP then a.invP + 1 / f.varP else a.invP
        invE := a.invE + 1 / (f.varP + f.varR)
        num := o2 (· + ·) a.num (f.slope.map fun s => s / f.varR) }) a0).invR
      = a0.invR + (l.map fun f => 1 / f.varR).sum := by
    intro l
    induction l with
    | nil => intro a0; simp
    | cons f l ih => intro a0; rw [List.foldl_cons, ih, List.map_cons, List.sum_cons]; ring
  rw [accSegs, key, zero_add]

/-- A ramp with two adjacent groups of DQ zero has natural segments of two or more groups, and only those are
kept. -/
theorem cl_segs (fl : Flags) (hj : fl.jump ≠ 0) (c : List Nat) (a : Nat) (h0 : c[a]? = some 0)
    (h1 : c[a + 1]? = some 0) :
    (computeSegs fl c).segs ≠ [] ∧ ∀ s ∈ (computeSegs fl c).segs, 2 ≤ s.len := by
  have hg : ∀ i, c[i]? = some 0 → GoodGroup fl.pers c i := by
    intro i hi
    obtain ⟨hl, he⟩ := List.getElem?_eq_some_iff.1 hi
    exact ⟨hl, by rw [he]; intro b hb; simp at hb⟩
  obtain ⟨s, e, ⟨hn, h2, h3⟩, -⟩ := C27_every_good_group_once fl hj c a (hg a h0)
  have h4 : a + 1 < e := by
    by_contra hc
    have : e = a + 1 := by omega
    obtain ⟨r, -, -, -, -, h5, -⟩ := hn
    rw [this] at h5
    rcases h5 with h5 | h5
    · have := (List.getElem?_eq_some_iff.1 h1).1
      omega
    · exact h5 (hg _ h1)
  have hex : ∃ a e, NatSeg fl c a e ∧ 2 ≤ e - a := ⟨s, e, hn, by omega⟩
  have hiff := (C28_pruning_exact fl c).1 hex
  refine ⟨List.ne_nil_of_mem ((hiff ⟨s, e⟩).2 ⟨hn, by simp only; omega⟩), fun s' hs' => ((hiff s').1 hs').2⟩

/-- Charge loss does not cost precision in the reported read noise: let every CHARGELOSS group of the unmodified DQ
also be flagged DO_NOT_USE, and let the integration, once these two flags are taken away, contain two adjacent
groups without any flag.  Then the read-noise variance of that integration is the one the fit reports for the same
pixel without these flags, whatever its samples.  Missing: CHARGELOSS groups that are not DO_NOT_USE (the step sets
DO_NOT_USE on them, `C87_lone_flag_not_restored`) and ramps left with one-group segments only, whose timing is chosen
with the flags still present. -/
theorem C87_as_if_not_lost_partial (fl : Flags) (hf : OlsFlagsOk fl) (hj : fl.jump ≠ 0) (a b : Nat) (hda : fl.dnu = 2 ^ a)
    (hcb : fl.chargeloss = 2 ^ b) (cfg : Cfg α) (ngroups : Nat) (p : PixIn α)
    (hg : 0 < p.px.gain) (hr : p.px.rnoise ≠ 0)
    (ht : cfg.groupTime ≠ 0) (hft : cfg.frameTime ≠ 0) (hot : cfg.oneGroupTime ≠ 0)
    (hd : ¬ Has (entryDq fl p) fl.dnu) (hs : ¬ Has (entryDq fl p) fl.sat)
    (orig : List (List Nat)) (k : Nat) (e : List (Option α) × List Nat × Option (Option α)) (he : p.ints[k]? = some e)
    (hlost : ∃ d ∈ e.2.1, Has d fl.chargeloss)
    (o : List Nat) (hok : orig[k]? = some o) (hon : o.length = ngroups)
    (hboth : ∀ d ∈ o, Has d fl.chargeloss → Has d fl.dnu)
    (c : List Nat) (hc : c = o.map (clClean fl.dnu fl.chargeloss))
    (hfirst : ∀ d, c[0]? = some d → ¬ Has d fl.sat)
    (i : Nat) (hi0 : c[i]? = some 0) (hi1 : c[i + 1]? = some 0)
    (q : PixIn α) (hq : q.px = p.px ∧ q.pixeldq = p.pixeldq ∧ q.gainBad = p.gainBad)
    (d' : List (Option α)) (z' : Option (Option α)) (hqk : q.ints[k]? = some (d', c, z')) :
    ∃ x y, (fitPixelOrig fl cfg ngroups p orig).1[k]? = some x ∧ (fitPixel fl cfg ngroups q).1[k]? = some y
      ∧ x.varR = y.varR := by
  -- the charge-loss side
  have hl2 : (fitPixel fl cfg ngroups p).1.length = p.ints.length := by simp [fitPixel, pixelInts, loadPixel]
  have hkl : k < p.ints.length := (List.getElem?_eq_some_iff.1 he).1
  obtain ⟨ii, e2⟩ : ∃ ii, (loadPixel fl cfg p)[k]? = some ii :=
    ⟨_, List.getElem?_eq_getElem (by simpa [loadPixel] using hkl)⟩
  obtain ⟨r0, e4⟩ : ∃ r0, (fitPixel fl cfg ngroups p).1[k]? = some r0 :=
    ⟨_, List.getElem?_eq_getElem (by omega)⟩
  have hcl : chargelossB fl e.2.1 = true := by
    rw [chargelossB, List.any_eq_true]
    obtain ⟨d, h1, h2⟩ := hlost
    exact ⟨d, h1, hasB_iff.2 h2⟩
  have hrem : chargelossRemove fl o = c := by
    rw [chargelossRemove, hc]
    apply List.map_congr_left
    intro d hdm
    rw [hda, hcb]
    have := hboth d hdm
    rw [hda, hcb] at this
    exact cl_xor a b d this
  obtain ⟨hne, hlen⟩ := cl_segs fl hj c i hi0 hi1
  set S := (computeSegs fl c).segs with hS
  have hx : (fitPixelOrig fl cfg ngroups p orig).1[k]?
      = some { r0 with varR := chargelossVar (chargelossInv fl cfg p.px ii o) } := by
    simp only [fitPixelOrig, List.map_map, List.getElem?_map]
    rw [cl_zip4 _ _ _ _ k _ _ _ _ e2 he hok e4]
    simp only [Option.map_some, Function.comp, chargelossInteg, hcl, if_true]
  -- variance of a segment
  have hsv : ∀ (med : Option α) (z0 zf : Bool) (data : Nat → Option α), ∀ s ∈ S,
      (fitSeg cfg p.px med z0 zf data s).varR = chargelossSegVar cfg p.px ii s := by
    intro med z0 zf data s hsS
    have := hlen s hsS
    have h1 : ¬ s.len = 1 := by omega
    simp only [fitSeg, chargelossSegVar, h1, if_false]
    split <;> rfl
  have hpos : ∀ s ∈ S, 0 < chargelossSegVar cfg p.px ii s := by
    intro s hsS
    rw [← hsv none false false (fun _ => none) s hsS]
    exact fitSeg_varR_pos cfg p.px _ _ _ _ s (by have := hlen s hsS; omega) hg hr ht hft hot
  have hinv : chargelossInv fl cfg p.px ii o = (S.map fun s => 1 / chargelossSegVar cfg p.px ii s).sum := by
    simp only [chargelossInv, hrem, ← hS]
    rw [cl_fold S _ hpos, zero_add]
  -- the fit of the cleaned ramp
  have hql : k < q.ints.length := (List.getElem?_eq_some_iff.1 hqk).1
  have hload : (loadPixel fl cfg q)[k]? = some (loadInteg fl cfg.suppress1g d' c z') := by
    simp [loadPixel, hqk]
  have hmem0 : (0 : Nat) ∈ c := List.mem_of_getElem? hi0
  have hns : ¬ ZeroSub cfg.suppress1g c z' := fun h => h.2.1 0 hmem0 rfl
  obtain ⟨l1, l2, l3⟩ := load_nosub fl cfg.suppress1g d' c z' hns
  set j := loadInteg fl cfg.suppress1g d' c z' with hj'
  have hfs : firstSat fl j.gdq = false := by
    rw [l1, firstSat, hasB_false]
    cases hc0 : c with
    | nil => rw [hc0] at hmem0; simp at hmem0
    | cons x t =>
      have := hfirst x (by rw [hc0]; rfl)
      simpa using this
  have hcnt : ¬ (ngroups : Int) = j.st.cntDnuSat := by
    intro h
    have hcl' : c.length = ngroups := by rw [hc, List.length_map, hon]
    rw [l2] at h
    simp only [stats] at h
    have h' : c.countP (fun d => hasB d fl.dnu || hasB d fl.sat) = c.length := by
      rw [hcl']; exact_mod_cast h.symm
    have := List.countP_eq_length.1 h' 0 hmem0
    simp [hasB] at this
  have hdq : ∀ st, hasB (metaDq fl q ||| statBits fl st) (fl.dnu ||| fl.sat) = false := by
    intro st
    have hm : metaDq fl q = entryDq fl p := by simp only [metaDq, entryDq, hq.2.1, hq.2.2]
    have hsb := statBits_not fl hf st
    rw [hasB_false, has_or_right, has_or_left, has_or_left, hm]
    rintro ((h | h) | (h | h))
    · exact hd h
    · exact hsb.1 h
    · exact hs h
    · exact hsb.2 h
  refine ⟨_, (postInteg fl j (fitInteg fl cfg q.px (medianRate fl cfg ngroups (loadPixel fl cfg q)) ngroups j
      (metaDq fl q ||| statBits fl j.st)).1).1, hx, ?_, ?_⟩
  · simp only [fitPixel, pixelInts, List.map_map, List.getElem?_map, hload, Option.map_some, Function.comp]
  · have hfs' : firstSat fl c = false := by rw [← l1]; exact hfs
    simp only [postInteg, fitInteg, hcnt, if_false, fitSegs, l1, hfs', Bool.false_eq_true, ← hS]
    have hemp : (S.map (fitSeg cfg q.px (medianRate fl cfg ngroups (loadPixel fl cfg q)) j.is0th j.isZframe
        fun k => (j.data[k]?).join)).isEmpty = false := by
      cases hS' : S with
      | nil => exact absurd hS' hne
      | cons x t => rfl
    have hR : (accSegs (S.map (fitSeg cfg q.px (medianRate fl cfg ngroups (loadPixel fl cfg q)) j.is0th j.isZframe
        fun k => (j.data[k]?).join))).invR = chargelossInv fl cfg p.px ii o := by
      rw [cl_invR, List.map_map, hinv]
      congr 1
      apply List.map_congr_left
      intro s hsS
      simp only [Function.comp, hq.1, hsv _ _ _ _ s hsS]
    have hpos' : 0 < chargelossInv fl cfg p.px ii o := by
      rw [hinv]
      exact sum_pos_of_mem S _ (fun x hx => by have := hpos x hx; positivity) hne
    simp only [hemp, Bool.false_eq_true, if_false, combineInteg, hdq, hR, chargelossVar, hpos'.ne']

/-- The variance itself, whichever flags are set.  For an integration with a CHARGELOSS group: take CHARGELOSS and DO_NOT_USE from
the groups of the unmodified DQ that have both, and make the groups that have CHARGELOSS alone DO_NOT_USE instead.  Let `w` be the sum of the inverse slope variances of the segments (C27, C28) of this DQ, each being
that of the unweighted straight line through its groups, and a segment of one group counting as two that are its own integration
time apart.  The read-noise variance is `1/w`, and zero if there is no segment or `1/w` reaches the cut-off. -/
theorem C87_variance_exact (fl : Flags) (a b : Nat) (hab : a ≠ b) (hda : fl.dnu = 2 ^ a) (hcb : fl.chargeloss = 2 ^ b) (cfg : Cfg α) (ngroups : Nat)
    (p : PixIn α) (hg : 0 < p.px.gain) (hr : p.px.rnoise ≠ 0) (ht : cfg.groupTime ≠ 0) (hft : cfg.frameTime ≠ 0)
    (hot : cfg.oneGroupTime ≠ 0) (orig : List (List Nat)) (k : Nat) (e : List (Option α) × List Nat × Option (Option α))
    (he : p.ints[k]? = some e) (hlost : ∃ d ∈ e.2.1, Has d fl.chargeloss) (o : List Nat) (hok : orig[k]? = some o)
    (ii : Integ α) (hii : (loadPixel fl cfg p)[k]? = some ii)
    (time : α) (htime : time = if cfg.suppress1g then cfg.groupTime else if ii.is0th then cfg.oneGroupTime
      else if ii.isZframe then cfg.frameTime else cfg.groupTime)
    (w : α) (hw : w = ((computeSegs fl (o.map (clSwap fl.dnu fl.chargeloss))).segs.map fun s =>
      1 / (if s.stop - s.start = 1 then ovSlopeVar 2 time ((p.px.rnoise / p.px.gain) ^ 2)
        else ovSlopeVar (s.stop - s.start) cfg.groupTime ((p.px.rnoise / p.px.gain) ^ 2))).sum) :
    ∃ x, (fitPixelOrig fl cfg ngroups p orig).1[k]? = some x ∧ (w = 0 → x.varR = 0)
      ∧ (w ≠ 0 → 1 / w < 1000000 → x.varR = 1 / w) ∧ (1000000 ≤ 1 / w → x.varR = 0) := by
  have hl2 : (fitPixel fl cfg ngroups p).1.length = p.ints.length := by simp [fitPixel, pixelInts, loadPixel]
  have hkl : k < p.ints.length := (List.getElem?_eq_some_iff.1 he).1
  obtain ⟨r0, e4⟩ : ∃ r0, (fitPixel fl cfg ngroups p).1[k]? = some r0 :=
    ⟨_, List.getElem?_eq_getElem (by omega)⟩
  have hcl : chargelossB fl e.2.1 = true := by
    rw [chargelossB, List.any_eq_true]
    obtain ⟨d, h1, h2⟩ := hlost
    exact ⟨d, h1, hasB_iff.2 h2⟩
  have hrem : chargelossRemove fl o = o.map (clSwap fl.dnu fl.chargeloss) := by
    rw [chargelossRemove]
    apply List.map_congr_left
    intro d _
    rw [hda, hcb]
    exact cl_swap a b d hab
  have hx : (fitPixelOrig fl cfg ngroups p orig).1[k]?
      = some { r0 with varR := chargelossVar (chargelossInv fl cfg p.px ii o) } := by
    simp only [fitPixelOrig, List.map_map, List.getElem?_map]
    rw [cl_zip4 _ _ _ _ k _ _ _ _ hii he hok e4]
    simp only [Option.map_some, Function.comp, chargelossInteg, hcl, if_true]
  have hsv : ∀ s : Seg, chargelossSegVar cfg p.px ii s = (fitSeg cfg p.px none ii.is0th ii.isZframe (fun _ => none) s).varR := by
    intro s
    simp only [fitSeg, chargelossSegVar]
    split
    · rfl
    · split <;> rfl
  have htime0 : time ≠ 0 := by
    rw [htime]
    split_ifs <;> assumption
  have hlen : ∀ s ∈ (computeSegs fl (o.map (clSwap fl.dnu fl.chargeloss))).segs, 1 ≤ s.stop - s.start := by
    intro s hs
    have := ((C27_segments_sound fl _).2 s hs).1
    omega
  have hinv : chargelossInv fl cfg p.px ii o = w := by
    rw [chargelossInv, hrem, cl_fold _ _ (fun s hs => by
      rw [hsv]; exact fitSeg_varR_pos cfg p.px _ _ _ _ s (hlen s hs) hg hr ht hft hot), zero_add, hw]
    congr 1
    apply List.map_congr_left
    intro s hs
    have h1 := hlen s hs
    obtain ⟨c1, c2⟩ := C85_read_noise cfg p.px hg none ii.is0th ii.isZframe (fun _ => none) s
    rw [hsv]
    split
    · rename_i h
      rw [c2 h time htime0 htime]
    · rename_i h
      rw [c1 (show 2 ≤ s.stop - s.start by omega) ht]
      rfl
  refine ⟨_, hx, ?_, ?_, ?_⟩
  · intro h; simp [hinv, chargelossVar, h]
  · intro h h'
    have : ¬ (large : α) ≤ 1 / w := not_le.2 (by simpa [large] using h')
    simp only [hinv, chargelossVar, h, this, if_false]
  · intro h
    have : (large : α) ≤ 1 / w := by simpa [large] using h
    simp only [hinv, chargelossVar, this, if_true, ite_self]

/-- The variance itself.  For an integration with a CHARGELOSS group, whose CHARGELOSS groups in the unmodified DQ are also flagged
DO_NOT_USE: let `w` be the sum of the inverse slope variances of the segments (C27, C28) of the DQ without these flags, each being
that of the unweighted straight line through its groups, and a segment of one group counting as two that are its own integration
time apart.  The read-noise variance is `1/w`, and zero if there is no segment or `1/w` reaches the cut-off. -/
theorem C87_variance (fl : Flags) (a b : Nat) (hab : a ≠ b) (hda : fl.dnu = 2 ^ a) (hcb : fl.chargeloss = 2 ^ b) (cfg : Cfg α) (ngroups : Nat)
    (p : PixIn α) (hg : 0 < p.px.gain) (hr : p.px.rnoise ≠ 0) (ht : cfg.groupTime ≠ 0) (hft : cfg.frameTime ≠ 0)
    (hot : cfg.oneGroupTime ≠ 0) (orig : List (List Nat)) (k : Nat) (e : List (Option α) × List Nat × Option (Option α))
    (he : p.ints[k]? = some e) (hlost : ∃ d ∈ e.2.1, Has d fl.chargeloss) (o : List Nat) (hok : orig[k]? = some o)
    (hboth : ∀ d ∈ o, Has d fl.chargeloss → Has d fl.dnu) (ii : Integ α) (hii : (loadPixel fl cfg p)[k]? = some ii)
    (time : α) (htime : time = if cfg.suppress1g then cfg.groupTime else if ii.is0th then cfg.oneGroupTime
      else if ii.isZframe then cfg.frameTime else cfg.groupTime)
    (w : α) (hw : w = ((computeSegs fl (o.map (clClean fl.dnu fl.chargeloss))).segs.map fun s =>
      1 / (if s.stop - s.start = 1 then ovSlopeVar 2 time ((p.px.rnoise / p.px.gain) ^ 2)
        else ovSlopeVar (s.stop - s.start) cfg.groupTime ((p.px.rnoise / p.px.gain) ^ 2))).sum) :
    ∃ x, (fitPixelOrig fl cfg ngroups p orig).1[k]? = some x ∧ (w = 0 → x.varR = 0)
      ∧ (w ≠ 0 → 1 / w < 1000000 → x.varR = 1 / w) ∧ (1000000 ≤ 1 / w → x.varR = 0) := by
  have hmap : o.map (clClean fl.dnu fl.chargeloss) = o.map (clSwap fl.dnu fl.chargeloss) := by
    apply List.map_congr_left
    intro d hd
    by_cases h : Has d fl.chargeloss
    · simp only [clClean, clSwap, if_pos h, if_pos (hboth d hd h)]
    · simp only [clClean, clSwap, if_neg h]
  rw [hmap] at hw
  exact C87_variance_exact fl a b hab hda hcb cfg ngroups p hg hr ht hft hot orig k e he hlost o hok ii hii time htime w hw

/-- The exposure's read-noise variance after the charge-loss step combines the new integration variances: if all of
them are positive it is `1/Σ(1/vᵢ)`, unless that reaches the cut-off. -/
theorem C87_exposure (fl : Flags) (cfg : Cfg α) (ngroups : Nat) (p : PixIn α) (orig : List (List Nat))
    (hne : orig ≠ []) (ho : orig.length = p.ints.length) (hlost : ∃ e ∈ p.ints, ∃ d ∈ e.2.1, Has d fl.chargeloss)
    (hpos : ∀ x ∈ (fitPixelOrig fl cfg ngroups p orig).1, 0 < x.varR)
    (hlarge : 1 / ((fitPixelOrig fl cfg ngroups p orig).1.map fun x => 1 / x.varR).sum < 1000000) :
    (fitPixelOrig fl cfg ngroups p orig).2.varR
      = 1 / ((fitPixelOrig fl cfg ngroups p orig).1.map fun x => 1 / x.varR).sum := by
  have hany : (p.ints.any fun e => chargelossB fl e.2.1) = true := by
    obtain ⟨e, he, d, h1, h2⟩ := hlost
    exact List.any_eq_true.2 ⟨e, he, List.any_eq_true.2 ⟨d, h1, hasB_iff.2 h2⟩⟩
  have hl2 : (fitPixel fl cfg ngroups p).1.length = p.ints.length := by simp [fitPixel, pixelInts, loadPixel]
  have hl1 : (loadPixel fl cfg p).length = p.ints.length := by simp [loadPixel]
  simp only [fitPixelOrig, hany, if_true] at hpos hlarge ⊢
  set Z := List.zip (List.zip (loadPixel fl cfg p) p.ints) (List.zip orig (fitPixel fl cfg ngroups p).1) with hZ
  have hZne : Z ≠ [] := by
    intro h
    have : Z.length = orig.length := by
      rw [hZ, List.length_zip, List.length_zip, List.length_zip]; omega
    rw [h] at this
    exact hne (List.length_eq_zero_iff.1 this.symm)
  have key : ∀ e ∈ Z, (chargelossInteg fl cfg p.px e.1.1 e.1.2.2.1 e.2.1 e.2.2).2
      = 1 / (chargelossInteg fl cfg p.px e.1.1 e.1.2.2.1 e.2.1 e.2.2).1.varR := by
    intro e he
    have h0 := hpos _ (List.mem_map.2 ⟨_, List.mem_map.2 ⟨e, he, rfl⟩, rfl⟩)
    revert h0
    simp only [chargelossInteg]
    split
    · simp only [chargelossVar]
      split
      · intro h; exact absurd h (lt_irrefl _)
      · split
        · intro h; exact absurd h (lt_irrefl _)
        · intro _; rw [one_div_one_div]
    · intro h; simp only at h ⊢; rw [if_pos h]
  have hsum : ((Z.map fun e => chargelossInteg fl cfg p.px e.1.1 e.1.2.2.1 e.2.1 e.2.2).map Prod.snd).sum
      = (((Z.map fun e => chargelossInteg fl cfg p.px e.1.1 e.1.2.2.1 e.2.1 e.2.2).map Prod.fst).map
          fun x => 1 / x.varR).sum := by
    rw [List.map_map, List.map_map, List.map_map]
    congr 1
    exact List.map_congr_left key
  rw [hsum]
  have h0 : 0 < (((Z.map fun e => chargelossInteg fl cfg p.px e.1.1 e.1.2.2.1 e.2.1 e.2.2).map Prod.fst).map
          fun x => 1 / x.varR).sum := by
    apply sum_pos_of_mem
    · intro x hx; have := hpos x hx; positivity
    · intro h; exact hZne (by simpa using h)
  rw [if_pos h0, if_neg (not_le.2 (by simpa [large] using hlarge))]

end

/-! ## Examples and findings -/

/-- Four groups, the last two lost to charge migration (CHARGELOSS and DO_NOT_USE). -/
def clPixel : PixIn ℚ := ⟨false, exPix, 0, [([some 5, some 8, some 11, some 13], [0, 0, 129, 129], none)]⟩

/-- Hypotheses of `C87_as_if_not_lost_partial` hold for this pixel, and the variance falls from 9/200 to 9/2000. -/
example : (∃ d ∈ [0, 0, 129, 129], Has d exFlags.chargeloss)
    ∧ [0, 0, 129, 129].map (clClean exFlags.dnu exFlags.chargeloss) = [0, 0, 0, 0]
    ∧ ¬ Has (entryDq exFlags clPixel) exFlags.dnu
    ∧ (fitPixel exFlags exCfg 4 clPixel).2.varR = 9 / 200
    ∧ (fitPixelOrig exFlags exCfg 4 clPixel [[0, 0, 129, 129]]).2.varR = 9 / 2000
    ∧ (fitPixelOrig exFlags exCfg 4 clPixel [[0, 0, 129, 129]]).1.map (fun x => x.varR) = [9 / 2000] := by
  decide +kernel

/-- Hypotheses of `C87_variance` hold for this pixel and for one whose only unlost group is the second. -/
example : (∀ d ∈ [0, 0, 129, 129], Has d exFlags.chargeloss → Has d exFlags.dnu)
    ∧ (computeSegs exFlags ([0, 0, 129, 129].map (clClean exFlags.dnu exFlags.chargeloss))).segs = [⟨0, 4⟩]
    ∧ (computeSegs exFlags ([1, 129, 1, 1].map (clClean exFlags.dnu exFlags.chargeloss))).segs = [⟨1, 2⟩] := by
  decide +kernel

/-- Hypotheses of `C87_variance_exact` hold for a ramp with a lone CHARGELOSS flag: the group is left out of the segments. -/
example : [0, 0, 128, 129].map (clSwap exFlags.dnu exFlags.chargeloss) = [0, 0, 1, 0]
    ∧ (computeSegs exFlags ([0, 0, 128, 129].map (clSwap exFlags.dnu exFlags.chargeloss))).segs = [⟨0, 2⟩] ∧ (0 : Nat) ≠ 7 := by
  decide +kernel

/-- The error is not recomputed: after the charge-loss step it is no longer the square root of the sum of the two
variances, although the fit had set it so. -/
theorem C87_error_not_updated :
    ∃ (cfg : Cfg ℚ) (p : PixIn ℚ) (orig : List (List Nat)),
      (fitPixel exFlags cfg 4 p).2.varErr = cfg.sqrt ((fitPixel exFlags cfg 4 p).2.varP + (fitPixel exFlags cfg 4 p).2.varR)
      ∧ (fitPixelOrig exFlags cfg 4 p orig).2.varErr ≠ cfg.sqrt
        ((fitPixelOrig exFlags cfg 4 p orig).2.varP + (fitPixelOrig exFlags cfg 4 p orig).2.varR) :=
  ⟨exCfg, clPixel, [[0, 0, 129, 129]], by decide +kernel, by decide +kernel⟩

/-- The flags are toggled, not cleared: a group flagged CHARGELOSS but not DO_NOT_USE becomes DO_NOT_USE, so the
read-noise variance stays that of the shorter ramp instead of falling to the one without the flags. -/
theorem C87_lone_flag_not_restored :
    ∃ (cfg : Cfg ℚ) (p q : PixIn ℚ) (orig : List (List Nat)),
      orig = [[0, 0, 128, 128]] ∧ p.ints.map (fun e => e.2.1) = orig ∧ q.ints.map (fun e => e.2.1) = [[0, 0, 0, 0]]
      ∧ chargelossRemove exFlags [0, 0, 128, 128] = [0, 0, 1, 1]
      ∧ (fitPixelOrig exFlags cfg 4 p orig).2.varR = (fitPixel exFlags cfg 4 p).2.varR
      ∧ (fitPixelOrig exFlags cfg 4 p orig).2.varR ≠ (fitPixel exFlags cfg 4 q).2.varR :=
  ⟨exCfg, ⟨false, exPix, 0, [([some 5, some 8, some 11, some 13], [0, 0, 128, 128], none)]⟩,
    ⟨false, exPix, 0, [([some 5, some 8, some 11, some 13], [0, 0, 0, 0], none)]⟩, _, rfl, rfl, rfl,
    by decide +kernel, by decide +kernel, by decide +kernel⟩

/-- An integration all of whose groups were lost has no slope and is flagged, and the fit reports variance zero for
it; the charge-loss step gives it a positive read-noise variance again. -/
theorem C87_unusable_gets_variance :
    ∃ (cfg : Cfg ℚ) (p : PixIn ℚ) (orig : List (List Nat)),
      (fitPixel exFlags cfg 2 p).2.slope = none ∧ (fitPixel exFlags cfg 2 p).2.varR = 0
      ∧ (fitPixelOrig exFlags cfg 2 p orig).2.slope = none
      ∧ Has (fitPixelOrig exFlags cfg 2 p orig).2.dq exFlags.dnu
      ∧ 0 < (fitPixelOrig exFlags cfg 2 p orig).2.varR :=
  ⟨exCfg, ⟨false, exPix, 0, [([some 5, some 8], [129, 129], none)]⟩, [[129, 129]], by decide +kernel,
    by decide +kernel, by decide +kernel, by decide +kernel, by decide +kernel⟩

end Verif.Thm
