import Verif.Thm.OlsPixel

/-!
# C128: the fit recovers the rate of a steady source between flagged groups
-/

namespace Verif.Thm

open Verif.Dq Verif.Ols

variable {α : Type*} [Field α] [LinearOrder α] [IsStrictOrderedRing α]

/-- Groups `k` and `k + 1` can be compared: the second has no flag besides PERSISTENCE, and neither has the first, or it is flagged only as
a jump, that is, the jump came before it. -/
def FrPair (fl : Flags) (g : List Nat) (k : Nat) : Prop :=
  GoodGroup fl.pers g (k + 1) ∧ (GoodGroup fl.pers g k ∨ JumpOnly fl.pers fl.jump g k)

/-- Groups that can be compared differ by `b`; all other samples are arbitrary. -/
def FrSteady (fl : Flags) (d : List (Option α)) (g : List Nat) (b : α) : Prop :=
  ∀ k, FrPair fl g k → ∃ u, d[k]? = some (some u) ∧ d[k + 1]? = some (some (u + b))

/-- An integration with groups to compare, which differ by `b`; its first group is not saturated and the zero frame is not used. -/
def FrFit (fl : Flags) (su : Bool) (x : List (Option α) × List Nat × Option (Option α)) (b : α) : Prop :=
  ¬ ZeroSub su x.2.1 x.2.2 ∧ ¬ Has (x.2.1.getD 0 0) fl.sat ∧ (∃ k, FrPair fl x.2.1 k) ∧ FrSteady fl x.1 x.2.1 b

theorem fr_unflagged (fl : Flags) (hf : OlsFlagsOk fl) (g : List Nat) (k : Nat)
    (h : GoodGroup fl.pers g k ∨ JumpOnly fl.pers fl.jump g k) :
    k < g.length ∧ ¬ Has (g.getD k 0) fl.sat ∧ ¬ Has (g.getD k 0) fl.dnu := by
  rcases h with ⟨hk, h⟩ | ⟨hk, h⟩
  · refine ⟨hk, ?_, ?_⟩ <;> rw [List.getD_eq_getElem _ _ hk, has_iff] <;> rintro ⟨i, h1, h2⟩
    · exact hf.ps (has_iff.2 ⟨i, h i h1, h2⟩)
    · exact hf.pd (has_iff.2 ⟨i, h i h1, h2⟩)
  · refine ⟨hk, ?_, ?_⟩ <;> rw [List.getD_eq_getElem _ _ hk, has_iff] <;> rintro ⟨i, h1, h2⟩
    · rcases hp : fl.pers.testBit i with _ | _
      · exact hf.js (has_iff.2 ⟨i, (h i).1 ⟨h1, hp⟩, h2⟩)
      · exact hf.ps (has_iff.2 ⟨i, hp, h2⟩)
    · rcases hp : fl.pers.testBit i with _ | _
      · exact hf.jd (has_iff.2 ⟨i, (h i).1 ⟨h1, hp⟩, h2⟩)
      · exact hf.pd (has_iff.2 ⟨i, hp, h2⟩)

/-- Neighbours within a natural segment can be compared. -/
theorem fr_natSeg (fl : Flags) (g : List Nat) (a e : Nat) (h : NatSeg fl g a e) (k : Nat) (h1 : a ≤ k) (h2 : k + 1 < e) : FrPair fl g k := by
  obtain ⟨s, -, -, h3, -, -, h4⟩ := h
  rcases h4 with ⟨h5, h6, h7⟩ | ⟨-, rfl⟩
  · refine ⟨h3 _ (by omega) h2, ?_⟩
    by_cases hk : s ≤ k
    · exact Or.inl (h3 k hk (by omega))
    · have : k = s - 1 := by omega
      rw [this]
      exact Or.inr h6
  · exact ⟨h3 _ (by omega) h2, Or.inl (h3 k h1 (by omega))⟩

/-- If two groups can be compared, all segments fitted are natural segments of at least two groups. -/
theorem fr_segs (fl : Flags) (hj : fl.jump ≠ 0) (g : List Nat) (k : Nat) (h : FrPair fl g k) :
    (computeSegs fl g).segs ≠ [] ∧ ∀ s ∈ (computeSegs fl g).segs, NatSeg fl g s.start s.stop ∧ 2 ≤ s.len := by
  obtain ⟨a, e, ⟨hn, h1, h2⟩, -⟩ := C27_every_good_group_once fl hj g (k + 1) h.1
  have ha : a ≤ k := by
    obtain ⟨s, -, -, h3, h4, -, h5⟩ := hn
    rcases h5 with ⟨h5, h6, h7⟩ | ⟨h5, rfl⟩
    · by_contra hc
      have hk : s - 1 = k + 1 := by omega
      rw [hk] at h6
      refine hj (Nat.eq_of_testBit_eq fun i => ?_)
      rw [Nat.zero_testBit]
      by_contra hb
      rw [Bool.not_eq_false] at hb
      obtain ⟨h8, h9⟩ := (h6.2 i).2 hb
      have := h.1.2 i h8
      simp_all
    · by_contra hc
      have : a = k + 1 := by omega
      subst this
      rcases h4 with h4 | h4
      · omega
      · rw [Nat.add_sub_cancel] at h4 h5
        rcases h.2 with h6 | h6
        · exact h4 h6
        · exact h5 ⟨by omega, h6⟩
  have hc := (C28_pruning_exact fl g).1 ⟨a, e, hn, by omega⟩
  refine ⟨List.ne_nil_of_mem ((hc ⟨a, e⟩).2 ⟨hn, by simp only; omega⟩), fun s hs => (hc s).1 hs⟩

omit [LinearOrder α] [IsStrictOrderedRing α] in
/-- Samples of a segment whose neighbours differ by `b` are on a line. -/
theorem fr_line (data : Nat → Option α) (b : α) (a n : Nat) (hn : 2 ≤ n)
    (h : ∀ k, k + 1 < n → ∃ u, data (a + k) = some u ∧ data (a + k + 1) = some (u + b)) :
    ∃ c, ∀ k, k < n → data (a + k) = some (c + b * ((k : α) + a)) := by
  obtain ⟨u0, hu0, -⟩ := h 0 (by omega)
  refine ⟨u0 - b * a, fun k => ?_⟩
  induction k with
  | zero =>
    intro _
    rw [hu0]
    congr 1
    push_cast
    ring
  | succ k ih =>
    intro hk
    obtain ⟨u, hu, hu'⟩ := h k (by omega)
    have := ih (by omega)
    rw [hu, Option.some.injEq] at this
    rw [← Nat.add_assoc, hu', this]
    congr 1
    push_cast
    ring

/-- Read-noise variance of a segment of two or more groups. -/
theorem fr_var (cfg : Cfg α) (px : Pix α) (med : Option α) (z0 zf : Bool) (data : Nat → Option α) (s : Seg) (hlen : 2 ≤ s.len)
    (hg : 0 < px.gain) (hr : px.rnoise ≠ 0) (ht : cfg.groupTime ≠ 0) :
    0 < (fitSeg cfg px med z0 zf data s).varR ∧
      (fitSeg cfg px med z0 zf data s).varR ≤ 2 * (px.rnoise / (cfg.groupTime * px.gain)) ^ 2 := by
  have hq : 0 < (px.rnoise / (cfg.groupTime * px.gain)) ^ 2 := by
    have : px.rnoise / (cfg.groupTime * px.gain) ≠ 0 := div_ne_zero hr (mul_ne_zero ht hg.ne')
    positivity
  have key : ∀ n : Nat, 2 ≤ n → 0 < rnoiseVar px n cfg.groupTime ∧
      rnoiseVar px n cfg.groupTime ≤ 2 * (px.rnoise / (cfg.groupTime * px.gain)) ^ 2 := by
    intro n hn
    have h2 : (2 : α) ≤ (n : α) := by exact_mod_cast hn
    have hc : 6 ≤ (n : α) * n * n - n := by
      have : (n : α) * n * n - n = n * (n * n - 1) := by ring
      rw [this]
      have h4 : (4 : α) ≤ n * n := by nlinarith
      nlinarith
    have e : rnoiseVar px n cfg.groupTime = 12 * (px.rnoise / (cfg.groupTime * px.gain)) ^ 2 / ((n : α) * n * n - n) := by
      unfold rnoiseVar
      have h0 : (n : α) * n * n - n ≠ 0 := by linarith
      have := hg.ne'
      field_simp
    rw [e]
    constructor
    · have : 0 < (n : α) * n * n - n := by linarith
      positivity
    · rw [div_le_iff₀ (by linarith)]
      nlinarith
  simp only [fitSeg]
  rw [if_neg (by omega)]
  split
  · exact key 2 le_rfl
  · simp only [not_le.2 hg, if_false]
    exact key _ hlen

/-- The fits that are used for an integration with a steady source. -/
theorem fr_used (fl : Flags) (hf : OlsFlagsOk fl) (hj : fl.jump ≠ 0) (cfg : Cfg α) (hpow : PowOk cfg.powf) (px : Pix α) (hg : 0 < px.gain)
    (hr : px.rnoise ≠ 0) (ht : cfg.groupTime ≠ 0) (med : Option α) (b : α) (x : List (Option α) × List Nat × Option (Option α))
    (hlen : x.1.length = x.2.1.length) (hx : FrFit fl cfg.suppress1g x b) :
    usedFits fl cfg px med x.2.1.length (loadInteg fl cfg.suppress1g x.1 x.2.1 x.2.2) ≠ [] ∧
    ∀ f ∈ usedFits fl cfg px med x.2.1.length (loadInteg fl cfg.suppress1g x.1 x.2.1 x.2.2),
      f.slope = some (b / cfg.groupTime) ∧ 0 < f.varR ∧ f.varR ≤ 2 * (px.rnoise / (cfg.groupTime * px.gain)) ^ 2 := by
  obtain ⟨d, g, z⟩ := x
  obtain ⟨hz, hs, ⟨k, hk⟩, hst⟩ := hx
  simp only at hz hs hk hst hlen ⊢
  obtain ⟨-, hgdq, hdata⟩ := (C72_zero_frame_use_partial fl cfg.suppress1g d g hlen z).2 hz
  have hstat : (loadInteg fl cfg.suppress1g d g z).st = stats fl g := (load_nosub fl _ d g z hz).2.1
  have hu := fr_unflagged fl hf g (k + 1) (Or.inl hk.1)
  have hfull : ¬ ((g.length : Int) = (loadInteg fl cfg.suppress1g d g z).st.cntDnuSat) := by
    rw [hstat, cntDnuSat_full]
    intro h
    have := h (g.getD (k + 1) 0) (by rw [List.getD_eq_getElem _ _ hu.1]; exact List.getElem_mem _)
    exact this.elim hu.2.2 hu.2.1
  have hfs : firstSat fl g = false := by rw [firstSat, hasB_false]; exact hs
  obtain ⟨hne, hseg⟩ := fr_segs fl hj g k hk
  unfold usedFits
  rw [if_neg hfull, hgdq, fitSegs, hfs]
  simp only [Bool.false_eq_true, if_false]
  refine ⟨by simpa using hne, fun f hfm => ?_⟩
  obtain ⟨s, hsm, rfl⟩ := List.mem_map.1 hfm
  obtain ⟨hn, h2⟩ := hseg s hsm
  have hpair : ∀ m, s.start ≤ m → m + 1 < s.stop → FrPair fl g m := fr_natSeg fl g _ _ hn
  obtain ⟨c, hc⟩ := fr_line (fun m => ((loadInteg fl cfg.suppress1g d g z).data[m]?).join) b s.start s.len h2 (by
    intro m hm
    have hp := hpair (s.start + m) (by omega) (by unfold Seg.len at hm; omega)
    obtain ⟨u, e1, e2⟩ := hst _ hp
    have u1 := fr_unflagged fl hf g _ hp.2
    have u2 := fr_unflagged fl hf g _ (Or.inl hp.1)
    refine ⟨u, ?_, ?_⟩
    · simp only [hdata _ u1.1, if_neg u1.2.1]
      simp [List.getD_eq_getElem?_getD, e1]
    · simp only [hdata _ u2.1, if_neg u2.2.1]
      simp [List.getD_eq_getElem?_getD, e2])
  exact ⟨C29_exact_on_lines cfg hpow px hr med _ _ _ s h2 c b hc, fr_var cfg px med _ _ _ s h2 hg hr ht⟩

theorem fr_dead (fl : Flags) (cfg : Cfg α) (px : Pix α) (med : Option α) (x : List (Option α) × List Nat × Option (Option α))
    (hx : DeadInteg fl cfg.suppress1g x.2.1 x.2.2) :
    usedFits fl cfg px med x.2.1.length (loadInteg fl cfg.suppress1g x.1 x.2.1 x.2.2) = [] := by
  obtain ⟨d, g, z⟩ := x
  obtain ⟨hz, h⟩ := hx
  simp only at hz h ⊢
  obtain ⟨hgdq, hstat, -⟩ := load_nosub fl cfg.suppress1g d g z hz
  unfold usedFits
  rcases h with h | h
  · split
    · rfl
    · have : firstSat fl g = true := by rw [firstSat, hasB_iff]; exact h
      rw [hgdq, fitSegs, if_pos this]
      rfl
  · rw [if_pos (by rw [hstat]; exact (cntDnuSat_full fl g).2 h)]

/-- **C128**: when the samples that can be compared differ by `b` in every integration that is used, rate and rateints are `b` per group
time, exactly, whatever the samples of the flagged groups and the levels to which flagged jumps raise the ramp. -/
theorem C128_rate (fl : Flags) (hf : OlsFlagsOk fl) (hj : fl.jump ≠ 0) (cfg : Cfg α) (hpow : PowOk cfg.powf) (ngroups : Nat) (p : PixIn α)
    (hd : ¬ Has (entryDq fl p) fl.dnu) (hst : ¬ Has (entryDq fl p) fl.sat) (hg : 0 < p.px.gain) (hr : p.px.rnoise ≠ 0)
    (ht : cfg.groupTime ≠ 0) (hsmall : 2 * (p.px.rnoise / (cfg.groupTime * p.px.gain)) ^ 2 < 1000000)
    (hlen : ∀ x ∈ p.ints, x.1.length = ngroups ∧ x.2.1.length = ngroups) (b : α)
    (hints : ∀ x ∈ p.ints, FrFit fl cfg.suppress1g x b ∨ DeadInteg fl cfg.suppress1g x.2.1 x.2.2)
    (hone : ∃ x ∈ p.ints, FrFit fl cfg.suppress1g x b) :
    (fitPixel fl cfg ngroups p).2.slope = some (b / cfg.groupTime) ∧
    ∀ (j : Nat) x, p.ints[j]? = some x → FrFit fl cfg.suppress1g x b →
      ((fitPixel fl cfg ngroups p).1[j]?).map (·.slope) = some (some (b / cfg.groupTime)) := by
  set med := medianRate fl cfg ngroups (loadPixel fl cfg p) with hmed
  have hfit : ∀ x ∈ p.ints, FrFit fl cfg.suppress1g x b →
      usedFits fl cfg p.px med ngroups (loadInteg fl cfg.suppress1g x.1 x.2.1 x.2.2) ≠ [] ∧
      ∀ f ∈ usedFits fl cfg p.px med ngroups (loadInteg fl cfg.suppress1g x.1 x.2.1 x.2.2),
        f.slope = some (b / cfg.groupTime) ∧ 0 < f.varR ∧ f.varR ≤ 2 * (p.px.rnoise / (cfg.groupTime * p.px.gain)) ^ 2 := by
    intro x hx hfx
    have := fr_used fl hf hj cfg hpow p.px hg hr ht med b x ((hlen x hx).1.trans (hlen x hx).2.symm) hfx
    rwa [(hlen x hx).2] at this
  have hbound : ∀ (F : List (SegFit α)), F ≠ [] → (∀ f ∈ F, 0 < f.varR ∧ f.varR ≤ 2 * (p.px.rnoise / (cfg.groupTime * p.px.gain)) ^ 2) →
      1 / (F.map fun f => 1 / f.varR).sum < large := by
    intro F hne hF
    obtain ⟨-, -, m3⟩ := wmean_spec F (fun _ => (0 : α)) (fun f => f.varR) hne fun f h => (hF f h).1
    obtain ⟨f0, h0⟩ := List.exists_mem_of_ne_nil _ hne
    refine lt_of_le_of_lt ((m3 f0 h0).trans (hF f0 h0).2) ?_
    simpa [large] using hsmall
  constructor
  · set F := (loadPixel fl cfg p).flatMap (usedFits fl cfg p.px med ngroups) with hF
    have hall : ∀ f ∈ F, f.slope = some (b / cfg.groupTime) ∧ 0 < f.varR ∧
        f.varR ≤ 2 * (p.px.rnoise / (cfg.groupTime * p.px.gain)) ^ 2 := by
      intro f hfm
      obtain ⟨i, hi, hfi⟩ := List.mem_flatMap.1 hfm
      obtain ⟨x, hx, rfl⟩ := List.mem_map.1 hi
      rcases hints x hx with h | h
      · exact (hfit x hx h).2 f hfi
      · have hnil := fr_dead fl cfg p.px med x h
        rw [(hlen x hx).2] at hnil
        rw [hnil] at hfi
        exact absurd hfi List.not_mem_nil
    have hne : F ≠ [] := by
      obtain ⟨x, hx, hfx⟩ := hone
      obtain ⟨f, hfm⟩ := List.exists_mem_of_ne_nil _ (hfit x hx hfx).1
      exact List.ne_nil_of_mem (List.mem_flatMap.2 ⟨_, List.mem_map.2 ⟨x, hx, rfl⟩, hfm⟩)
    obtain ⟨m, h1, -, -, h4, -⟩ := C30_exposure_mean fl hf cfg ngroups p hd hst F hF hne (fun _ => b / cfg.groupTime)
      (fun f h => (hall f h).1) (fun f h => (hall f h).2.1) (hbound F hne fun f h => (hall f h).2)
    obtain ⟨h5, h6⟩ := h4 (b / cfg.groupTime) (b / cfg.groupTime) fun _ _ => ⟨le_rfl, le_rfl⟩
    rw [h1, le_antisymm h6 h5]
  · intro j x hjx hfx
    have hx : x ∈ p.ints := List.mem_of_getElem? hjx
    set i := loadInteg fl cfg.suppress1g x.1 x.2.1 x.2.2 with hi
    obtain ⟨hne, hu⟩ := hfit x hx hfx
    obtain ⟨al1, al2⟩ := usedFits_alive fl cfg p.px med ngroups i hne
    have hsb := statBits_not fl hf i.st
    have hm : metaDq fl p = entryDq fl p := rfl
    have hdq1 : ¬ Has (metaDq fl p ||| statBits fl i.st) fl.dnu := by
      rw [has_or_left, hm]; exact fun h => h.elim hd hsb.1
    have hdq2 : ¬ Has (metaDq fl p ||| statBits fl i.st) fl.sat := by
      rw [has_or_left, hm]; exact fun h => h.elim hst hsb.2
    obtain ⟨m, h1, -, -, h4, -, -⟩ := C30_integration_mean fl cfg _ (metaDq fl p ||| statBits fl i.st) hne
      (fun _ => b / cfg.groupTime) (fun f h => (hu f h).1) (fun f h => (hu f h).2.1) hdq1 hdq2 (hbound _ hne fun f h => (hu f h).2)
    obtain ⟨h5, h6⟩ := h4 (b / cfg.groupTime) (b / cfg.groupTime) fun _ _ => ⟨le_rfl, le_rfl⟩
    have hdq : (fitInteg fl cfg p.px med ngroups i (metaDq fl p ||| statBits fl i.st)).1.dq = metaDq fl p ||| statBits fl i.st := by
      rw [fitInteg_dq, if_neg al1, al2]; rfl
    have hsl : (fitInteg fl cfg p.px med ngroups i (metaDq fl p ||| statBits fl i.st)).1.slope = some (b / cfg.groupTime) := by
      rw [← le_antisymm h6 h5, ← h1]
      have hemp : ((fitSegs fl i.gdq).segs.map (fitSeg cfg p.px med i.is0th i.isZframe fun k => (i.data[k]?).join)).isEmpty = false := by
        have := hne
        rw [usedFits, if_neg al1] at this
        simpa using this
      rw [← hi, usedFits, if_neg al1]
      simp only [fitInteg, if_neg al1, hemp, al2, Bool.false_eq_true, if_false]
    have hpost : (postInteg fl i (fitInteg fl cfg p.px med ngroups i (metaDq fl p ||| statBits fl i.st)).1).1.slope
        = some (b / cfg.groupTime) := by
      simp only [postInteg, hdq, hasB_false.2 hdq1, hasB_false.2 hdq2, Bool.or_self, Bool.false_eq_true, if_false, hsl]
    have hget : (fitPixel fl cfg ngroups p).1[j]?
        = some (postInteg fl i (fitInteg fl cfg p.px med ngroups i (metaDq fl p ||| statBits fl i.st)).1).1 := by
      simp only [fitPixel, pixelInts, loadPixel, List.getElem?_map, hjx, Option.map_some]
      rfl
    rw [hget, Option.map_some, hpost]

/-- Two integrations of a source of 3 per group: the first is raised by 1000 at a flagged jump and has an unusable last group, the second
is dead. -/
def frPixel : PixIn ℚ :=
  ⟨false, exPix, 0, [([some 1, some 4, some 1007, some 1010, some 1013, some (-5)], [0, 0, 4, 0, 0, 1], none),
    ([some 2, some 7, some 90, some 99, none, some 0], [2, 2, 2, 2, 2, 2], none)]⟩

example : (fitPixel exFlags exCfg 6 frPixel).2.slope = some (3 / 10)
    ∧ (fitPixel exFlags exCfg 6 frPixel).1.map (fun r => r.slope) = [some (3 / 10), none] := by decide +kernel

theorem fr_pair_iff (fl : Flags) (g : List Nat) (k : Nat) :
    FrPair fl g k ↔ k + 1 < g.length ∧ goodG fl g (k + 1) ∧ (goodG fl g k ∨ jmpG fl g k) := by
  constructor
  · intro h
    have hk : k + 1 < g.length := h.1.1
    exact ⟨hk, (goodG_iff fl g _ hk).2 h.1, h.2.imp (goodG_iff fl g k (by omega)).2 (jmpG_iff fl g k (by omega)).2⟩
  · rintro ⟨hk, h1, h2⟩
    exact ⟨(goodG_iff fl g _ hk).1 h1, h2.imp (goodG_iff fl g k (by omega)).1 (jmpG_iff fl g k (by omega)).1⟩

/-- The hypotheses of C128 hold for the two integrations of `frPixel`. -/
example : FrFit exFlags exCfg.suppress1g (([some 1, some 4, some 1007, some 1010, some 1013, some (-5)], [0, 0, 4, 0, 0, 1], none) :
    List (Option ℚ) × List Nat × Option (Option ℚ)) 3 := by
  refine ⟨?_, by decide, ⟨2, (fr_pair_iff _ _ _).2 (by decide)⟩, ?_⟩
  · rintro ⟨-, h, -⟩
    exact absurd h (by decide)
  · intro k hk
    rw [fr_pair_iff] at hk
    have h6 : k < 5 := by have := hk.1; simp at this; omega
    rcases (by omega : k = 0 ∨ k = 1 ∨ k = 2 ∨ k = 3 ∨ k = 4) with rfl | rfl | rfl | rfl | rfl
    · exact ⟨1, rfl, by norm_num⟩
    · exact absurd hk (by decide)
    · exact ⟨1007, rfl, by norm_num⟩
    · exact ⟨1010, rfl, by norm_num⟩
    · exact absurd hk (by decide)

example : DeadInteg exFlags exCfg.suppress1g [2, 2, 2, 2, 2, 2] (none : Option (Option ℚ)) :=
  ⟨fun ⟨_, _, _, h, _⟩ => absurd h (by simp), Or.inr (by decide)⟩

end Verif.Thm
