import Verif.Thm.OlsPixel
import Verif.Thm.Chargeloss
import Verif.Thm.OlsUnits

/-! # Losing groups never lowers the read-noise variance of the ordinary fit (C162) -/

namespace Verif.Thm

open Verif.Dq Verif.Ols

set_option linter.unusedSectionVars false

/-- The second list of group words has the flags of the first and possibly more. -/
def LxMore (g g' : List Nat) : Prop :=
  g'.length = g.length ∧ ∀ i b, (g.getD i 0).testBit b = true → (g'.getD i 0).testBit b = true

theorem lx_more_get {g g' : List Nat} (h : LxMore g g') (i : Nat) (hi : i < g.length) (hi' : i < g'.length) (b : Nat)
    (hb : g[i].testBit b = true) : g'[i].testBit b = true := by
  have := h.2 i b
  rw [List.getD_eq_getElem _ _ hi, List.getD_eq_getElem _ _ hi'] at this
  exact this hb

theorem lx_good {pers : Nat} {g g' : List Nat} (h : LxMore g g') {i : Nat} (hg : GoodGroup pers g' i) :
    GoodGroup pers g i := by
  obtain ⟨hi, hu⟩ := hg
  have hi' : i < g.length := by rw [← h.1]; exact hi
  refine ⟨hi', fun b hb => hu b (lx_more_get h i hi' hi b hb)⟩

theorem lx_jump {pers : Nat} {j : Nat} {g g' : List Nat} (h : LxMore g g') {i : Nat}
    (hg : JumpOnly pers (2 ^ j) g' i) : GoodGroup pers g i ∨ JumpOnly pers (2 ^ j) g i := by
  obtain ⟨hi, hu⟩ := hg
  have hi' : i < g.length := by rw [← h.1]; exact hi
  have hj := (hu j).2 (by simp)
  have hx : ∀ b, g[i].testBit b = true → pers.testBit b = false → b = j := by
    intro b hb hp
    have := (hu b).1 ⟨lx_more_get h i hi' hi b hb, hp⟩
    rw [Nat.testBit_two_pow] at this
    exact (of_decide_eq_true this).symm
  cases hc : g[i].testBit j with
  | true =>
    right
    refine ⟨hi', fun b => ⟨fun ⟨h1, h2⟩ => ?_, fun hb => ?_⟩⟩
    · rw [hx b h1 h2]; simp
    · rw [Nat.testBit_two_pow] at hb
      have e : j = b := of_decide_eq_true hb
      subst e
      exact ⟨hc, hj.2⟩
  | false =>
    left
    refine ⟨hi', fun b hb => ?_⟩
    by_contra hp
    rw [Bool.not_eq_true] at hp
    rw [hx b hb hp, hc] at hb
    cases hb

/-- Every natural segment of the ramp with more flags lies inside one of the ramp with fewer. -/
theorem lx_cover {fl : Flags} {j : Nat} (hj : fl.jump = 2 ^ j) {g g' : List Nat} (h : LxMore g g') {a' e' : Nat}
    (hn : NatSeg fl g' a' e') : ∃ a e, NatSeg fl g a e ∧ a ≤ a' ∧ e' ≤ e := by
  obtain ⟨s', h1, h2, h3, -, -, h6⟩ := hn
  have hgs : GoodGroup fl.pers g s' := lx_good h (h3 s' le_rfl h1)
  obtain ⟨a, e, ⟨hna, ha, he⟩, -⟩ := C27_every_good_group_once fl (by rw [hj]; positivity) g s' hgs
  refine ⟨a, e, hna, ?_, ?_⟩
  · obtain ⟨s, k1, k2, k3, k4, k5, k6⟩ := hna
    rcases h6 with ⟨p1, p2, p3⟩ | ⟨-, p⟩
    · rw [hj] at p2
      rcases Nat.lt_or_ge a' s with hs | hs
      · have hss : s = s' := by
          by_contra hne
          have hs1 : s = s' + 1 := by
            rcases k6 with ⟨_, _, q⟩ | ⟨_, q⟩ <;> omega
          rcases k4 with q | q
          · omega
          · rw [hs1, Nat.add_sub_cancel] at q; exact q hgs
        subst hss
        rcases lx_jump h p2 with q | q
        · rcases k4 with r | r
          · omega
          · exact absurd q r
        · rcases k6 with ⟨_, _, r⟩ | ⟨r, _⟩
          · omega
          · rw [hj] at r; exact absurd ⟨p1, q⟩ r
      · rcases k6 with ⟨_, _, r⟩ | ⟨_, r⟩ <;> omega
    · omega
  · obtain ⟨s, k1, k2, k3, k4, k5, k6⟩ := hna
    by_contra hlt
    rcases k5 with q | q
    · rw [h.1] at h2; omega
    · exact q (lx_good h (h3 e (by omega) (by omega)))

/-! ## Information -/

section
variable {α : Type*} [Field α] [LinearOrder α] [IsStrictOrderedRing α]

/-- Weight of `n` groups: `n³ - n`. -/
def lxW (n : Nat) : α := (n : α) ^ 3 - n

theorem lx_w_nonneg (n : Nat) : (0 : α) ≤ lxW n := by
  unfold lxW
  rcases Nat.eq_zero_or_pos n with h | h
  · subst h; simp
  · have : (1 : α) ≤ (n : α) := by exact_mod_cast h
    nlinarith [mul_nonneg (by linarith : (0 : α) ≤ n) (by nlinarith : (0 : α) ≤ (n : α) ^ 2 - 1)]

theorem lx_w_mono {a b : Nat} (h : a ≤ b) : (lxW a : α) ≤ lxW b := by
  induction h with
  | refl => exact le_rfl
  | @step m _ ih =>
    refine ih.trans ?_
    unfold lxW
    have : (0 : α) ≤ (m : α) := Nat.cast_nonneg m
    push_cast
    nlinarith [mul_nonneg this this]

theorem lx_w_add (a b : Nat) : (lxW a : α) + lxW b ≤ lxW (a + b) := by
  unfold lxW
  have ha : (0 : α) ≤ (a : α) := Nat.cast_nonneg a
  have hb : (0 : α) ≤ (b : α) := Nat.cast_nonneg b
  push_cast
  nlinarith [mul_nonneg (mul_nonneg ha hb) (add_nonneg ha hb)]

/-- Disjoint ordered segments inside an interval weigh at most as much as the interval. -/
theorem lx_inside (l : List Seg) (hp : l.Pairwise fun a b => a.stop ≤ b.start) (a b : Nat)
    (hl : ∀ s ∈ l, a ≤ s.start ∧ s.start ≤ s.stop ∧ s.stop ≤ b) :
    (l.map fun s => (lxW s.len : α)).sum ≤ lxW (b - a) := by
  induction l generalizing a with
  | nil => simpa using lx_w_nonneg _
  | cons s l ih =>
    rw [List.map_cons, List.sum_cons]
    have hs := hl s (List.mem_cons_self ..)
    have hp' := List.pairwise_cons.1 hp
    have := ih hp'.2 s.stop fun x hx => by
      have := hl x (List.mem_cons_of_mem _ hx)
      exact ⟨hp'.1 x hx, this.2⟩
    calc (lxW s.len : α) + (l.map fun s => (lxW s.len : α)).sum ≤ lxW s.len + lxW (b - s.stop) := by linarith
      _ ≤ lxW (s.len + (b - s.stop)) := lx_w_add _ _
      _ ≤ lxW (b - a) := lx_w_mono (by unfold Seg.len; omega)

/-- Disjoint ordered segments, each inside a segment of a second list, weigh at most as much as the second list. -/
theorem lx_cover_sum (L l : List Seg) (hp : l.Pairwise fun a b => a.stop ≤ b.start)
    (hl : ∀ s ∈ l, s.start ≤ s.stop ∧ ∃ t ∈ L, t.start ≤ s.start ∧ s.stop ≤ t.stop) :
    (l.map fun s => (lxW s.len : α)).sum ≤ (L.map fun s => (lxW s.len : α)).sum := by
  induction L generalizing l with
  | nil =>
    cases l with
    | nil => simp
    | cons s l => obtain ⟨-, t, ht, -⟩ := hl s (List.mem_cons_self ..); cases ht
  | cons t L ih =>
    rw [List.map_cons, List.sum_cons]
    have hsplit : ∀ m : List Seg, (m.map fun s => (lxW s.len : α)).sum
        = ((m.filter fun s => decide (t.start ≤ s.start ∧ s.stop ≤ t.stop)).map fun s => (lxW s.len : α)).sum
          + ((m.filter fun s => !decide (t.start ≤ s.start ∧ s.stop ≤ t.stop)).map fun s => (lxW s.len : α)).sum := by
      intro m
      induction m with
      | nil => simp
      | cons s m ih' =>
        rw [List.map_cons, List.sum_cons, ih', List.filter_cons, List.filter_cons]
        by_cases hc : t.start ≤ s.start ∧ s.stop ≤ t.stop
        · simp only [hc, and_self, decide_true, if_true, Bool.not_true, Bool.false_eq_true, if_false, List.map_cons,
            List.sum_cons]
          ring
        · simp only [hc, decide_false, Bool.false_eq_true, if_false, Bool.not_false, if_true, List.map_cons,
            List.sum_cons]
          ring
    rw [hsplit l]
    refine add_le_add ?_ ?_
    · refine lx_inside _ (hp.sublist List.filter_sublist) t.start t.stop fun s hs => ?_
      rw [List.mem_filter, decide_eq_true_iff] at hs
      exact ⟨hs.2.1, (hl s hs.1).1, hs.2.2⟩
    · refine ih _ (hp.sublist List.filter_sublist) fun s hs => ?_
      rw [List.mem_filter, Bool.not_eq_true', decide_eq_false_iff_not] at hs
      obtain ⟨h1, q, hq, h2⟩ := hl s hs.1
      rcases List.mem_cons.1 hq with rfl | hq
      · exact absurd h2 hs.2
      · exact ⟨h1, q, hq, h2⟩

/-- The information carried by one read-noise unit: `gain² / (12 rnoise²)`. -/
def lxK (px : Pix α) : α := px.gain ^ 2 / (12 * px.rnoise ^ 2)

theorem lx_info_one (px : Pix α) (hg : 0 < px.gain) (hr : px.rnoise ≠ 0) (n : Nat) (hn : 2 ≤ n) (t : α) (ht : t ≠ 0) :
    1 / rnoiseVar px n t = lxW n * (lxK px * t ^ 2) := by
  have h2 : (2 : α) ≤ (n : α) := by exact_mod_cast hn
  have hpos : (0 : α) < (n : α) ^ 3 - n := by
    have : (n : α) ^ 3 - n = n * (n - 1) * (n + 1) := by ring
    rw [this]; exact mul_pos (mul_pos (by linarith) (by linarith)) (by linarith)
  have e : (n : α) * n * n - n = (n : α) ^ 3 - n := by ring
  unfold rnoiseVar lxW lxK
  rw [e]
  have h1 := hpos.ne'
  have h3 := hg.ne'
  field_simp

theorem lx_info_long (cfg : Cfg α) (px : Pix α) (hg : 0 < px.gain) (hr : px.rnoise ≠ 0) (ht : cfg.groupTime ≠ 0)
    (med : Option α) (z0 zf : Bool) (data : Nat → Option α) (s : Seg) (hs : 2 ≤ s.len) :
    1 / (fitSeg cfg px med z0 zf data s).varR = lxW s.len * (lxK px * cfg.groupTime ^ 2) := by
  rw [fitSeg, if_neg (by omega)]
  split
  · rename_i h; rw [h]; exact lx_info_one px hg hr 2 le_rfl _ ht
  · simp only [if_neg (not_le.2 hg)]; exact lx_info_one px hg hr _ hs _ ht

theorem lx_info_short (cfg : Cfg α) (px : Pix α) (hg : 0 < px.gain) (hr : px.rnoise ≠ 0)
    (med : Option α) (z0 zf : Bool) (ht : len1Timing cfg z0 zf ≠ 0) (data : Nat → Option α) (s : Seg) (hs : s.len = 1) :
    1 / (fitSeg cfg px med z0 zf data s).varR = lxW 2 * (lxK px * len1Timing cfg z0 zf ^ 2) := by
  rw [fitSeg, if_pos hs]
  exact lx_info_one px hg hr 2 le_rfl _ ht

/-- The information of the fitted segments of an integration. -/
def lxInfo (cfg : Cfg α) (px : Pix α) (med : Option α) (z0 zf : Bool) (data : Nat → Option α) (l : List Seg) : α :=
  (l.map fun s => 1 / (fitSeg cfg px med z0 zf data s).varR).sum

theorem lx_k_pos (px : Pix α) (hg : 0 < px.gain) (hr : px.rnoise ≠ 0) : 0 < lxK px := by
  unfold lxK
  have : 0 < px.rnoise ^ 2 := by positivity
  positivity

theorem lx_w_two : (lxW 2 : α) = 6 := by unfold lxW; norm_num

/-- The hypotheses on the detector constants. -/
structure LxOk (cfg : Cfg α) (px : Pix α) : Prop where
  gain : 0 < px.gain
  rnoise : px.rnoise ≠ 0
  frame : 0 < cfg.frameTime
  one : cfg.frameTime ≤ cfg.oneGroupTime
  group : cfg.oneGroupTime ≤ cfg.groupTime

theorem lx_t1 {cfg : Cfg α} {px : Pix α} (hk : LxOk cfg px) (z0 zf : Bool) :
    cfg.frameTime ≤ len1Timing cfg z0 zf ∧ len1Timing cfg z0 zf ≤ cfg.groupTime := by
  have h1 := hk.one
  have h2 := hk.group
  unfold len1Timing
  split
  · exact ⟨h1, h2⟩
  · split
    · exact ⟨le_rfl, h1.trans h2⟩
    · exact ⟨h1.trans h2, le_rfl⟩

theorem lx_mono_t {cfg : Cfg α} {px : Pix α} (hk : LxOk cfg px) {s t : α} (h0 : 0 < s) (h : s ≤ t) (w : α) (hw : 0 ≤ w) :
    w * (lxK px * s ^ 2) ≤ w * (lxK px * t ^ 2) := by
  have := (lx_k_pos px hk.gain hk.rnoise).le
  have : s ^ 2 ≤ t ^ 2 := pow_le_pow_left₀ h0.le h 2
  exact mul_le_mul_of_nonneg_left (mul_le_mul_of_nonneg_left this ‹_›) hw

/-- Information when some natural segment has two groups. -/
theorem lx_long {cfg : Cfg α} {px : Pix α} (hk : LxOk cfg px) (med : Option α) (z0 zf : Bool) (data : Nat → Option α)
    (fl : Flags) (g : List Nat) (h : ∃ a e, NatSeg fl g a e ∧ 2 ≤ e - a) :
    lxInfo cfg px med z0 zf data (computeSegs fl g).segs
      = ((computeSegs fl g).segs.map fun s => (lxW s.len : α)).sum * (lxK px * cfg.groupTime ^ 2)
    ∧ lxW 2 ≤ ((computeSegs fl g).segs.map fun s => (lxW s.len : α)).sum ∧ (computeSegs fl g).segs ≠ [] := by
  have hm := (C28_pruning_exact fl g).1 h
  have ht : cfg.groupTime ≠ 0 := (lt_of_lt_of_le hk.frame (hk.one.trans hk.group)).ne'
  obtain ⟨a, e, hn, hl⟩ := h
  have hmem := (hm ⟨a, e⟩).2 ⟨hn, hl⟩
  refine ⟨?_, ?_, fun h0 => by rw [h0] at hmem; cases hmem⟩
  · unfold lxInfo
    rw [← List.sum_map_mul_right]
    congr 1
    refine List.map_congr_left fun s hs => ?_
    exact lx_info_long cfg px hk.gain hk.rnoise ht med z0 zf data s ((hm s).1 hs).2
  · refine (lx_w_mono (show 2 ≤ (⟨a, e⟩ : Seg).len from hl)).trans ?_
    refine List.single_le_sum (fun x hx => ?_) _ (List.mem_map_of_mem hmem)
    obtain ⟨q, -, rfl⟩ := List.mem_map.1 hx
    exact lx_w_nonneg _

theorem lx_natSeg_pos {fl : Flags} {g : List Nat} {a e : Nat} (h : NatSeg fl g a e) : a < e := by
  obtain ⟨s, k1, _, _, _, _, k6⟩ := h
  rcases k6 with ⟨_, _, r⟩ | ⟨_, r⟩ <;> omega

/-- Information when no natural segment has two groups. -/
theorem lx_short {cfg : Cfg α} {px : Pix α} (hk : LxOk cfg px) (med : Option α) (z0 zf : Bool) (data : Nat → Option α)
    (fl : Flags) (g : List Nat) (h : ¬ ∃ a e, NatSeg fl g a e ∧ 2 ≤ e - a) (hex : ∃ a e, NatSeg fl g a e) :
    lxInfo cfg px med z0 zf data (computeSegs fl g).segs = lxW 2 * (lxK px * len1Timing cfg z0 zf ^ 2)
    ∧ (computeSegs fl g).segs ≠ [] := by
  obtain ⟨s, h1, h2, -⟩ := ((C28_pruning_exact fl g).2 h).2 hex
  have hp := lx_natSeg_pos h2
  have hlen : s.len = 1 := by
    by_contra hc
    exact h ⟨_, _, h2, by unfold Seg.len at hc; omega⟩
  refine ⟨?_, by rw [h1]; simp⟩
  rw [h1, lxInfo, List.map_singleton, List.sum_singleton]
  exact lx_info_short cfg px hk.gain hk.rnoise med z0 zf
    (lt_of_lt_of_le hk.frame (lx_t1 hk z0 zf).1).ne' data s hlen

/-- A ramp with a natural segment carries at least the information of one group over any shorter time. -/
theorem lx_lower {cfg : Cfg α} {px : Pix α} (hk : LxOk cfg px) (med : Option α) (z0 zf : Bool) (data : Nat → Option α)
    (fl : Flags) (g : List Nat) (hex : ∃ a e, NatSeg fl g a e) (t : α) (h0 : 0 < t) (ht : t ≤ len1Timing cfg z0 zf) :
    lxW 2 * (lxK px * t ^ 2) ≤ lxInfo cfg px med z0 zf data (computeSegs fl g).segs
    ∧ (computeSegs fl g).segs ≠ [] := by
  by_cases h : ∃ a e, NatSeg fl g a e ∧ 2 ≤ e - a
  · obtain ⟨h1, h2, h3⟩ := lx_long hk med z0 zf data fl g h
    refine ⟨?_, h3⟩
    rw [h1]
    refine (lx_mono_t hk h0 (ht.trans (lx_t1 hk z0 zf).2) _ (lx_w_nonneg 2)).trans ?_
    refine mul_le_mul_of_nonneg_right h2 ?_
    have := (lx_k_pos px hk.gain hk.rnoise).le
    positivity
  · obtain ⟨h1, h2⟩ := lx_short hk med z0 zf data fl g h hex
    exact ⟨by rw [h1]; exact lx_mono_t hk h0 ht _ (lx_w_nonneg 2), h2⟩

theorem lx_info_pos {cfg : Cfg α} {px : Pix α} (hk : LxOk cfg px) (med : Option α) (z0 zf : Bool)
    (data : Nat → Option α) (fl : Flags) (g : List Nat) (hex : ∃ a e, NatSeg fl g a e) :
    0 < lxInfo cfg px med z0 zf data (computeSegs fl g).segs := by
  refine lt_of_lt_of_le ?_ (lx_lower hk med z0 zf data fl g hex cfg.frameTime hk.frame (lx_t1 hk z0 zf).1).1
  rw [lx_w_two]
  have := lx_k_pos px hk.gain hk.rnoise
  have := hk.frame
  positivity

theorem lx_exists {fl : Flags} {g : List Nat} (h : (computeSegs fl g).segs ≠ []) : ∃ a e, NatSeg fl g a e := by
  by_contra hc
  exact h (((C28_pruning_exact fl g).2 fun ⟨a, e, h, _⟩ => hc ⟨a, e, h⟩).1 hc)

/-- Comparison of the two segment lists. -/
theorem lx_segs_le {cfg : Cfg α} {px : Pix α} (hk : LxOk cfg px) (med med' : Option α) (z0 zf z0' zf' : Bool)
    (data data' : Nat → Option α) {fl : Flags} {j : Nat} (hj : fl.jump = 2 ^ j) {g g' : List Nat} (h : LxMore g g')
    (hne : (computeSegs fl g').segs ≠ [])
    (ht : (¬ ∃ a e, NatSeg fl g a e ∧ 2 ≤ e - a) → len1Timing cfg z0' zf' ≤ len1Timing cfg z0 zf) :
    (computeSegs fl g).segs ≠ []
    ∧ lxInfo cfg px med' z0' zf' data' (computeSegs fl g').segs ≤ lxInfo cfg px med z0 zf data (computeSegs fl g).segs := by
  obtain ⟨a', e', hn'⟩ := lx_exists hne
  obtain ⟨a, e, hn, hle⟩ := lx_cover hj h hn'
  by_cases hl' : ∃ a e, NatSeg fl g' a e ∧ 2 ≤ e - a
  · have hl : ∃ a e, NatSeg fl g a e ∧ 2 ≤ e - a := by
      obtain ⟨b', f', hb, hb2⟩ := hl'
      obtain ⟨b, f, hb3, hb4⟩ := lx_cover hj h hb
      exact ⟨b, f, hb3, by omega⟩
    obtain ⟨i1, -, i3⟩ := lx_long hk med z0 zf data fl g hl
    obtain ⟨i1', -, -⟩ := lx_long hk med' z0' zf' data' fl g' hl'
    refine ⟨i3, ?_⟩
    rw [i1, i1']
    refine mul_le_mul_of_nonneg_right ?_ (by have := (lx_k_pos px hk.gain hk.rnoise).le; positivity)
    refine lx_cover_sum _ _ (C27_segments_sound fl g').1 fun s hs => ?_
    have hs2 := ((C28_pruning_exact fl g').1 hl' s).1 hs
    refine ⟨(lx_natSeg_pos hs2.1).le, ?_⟩
    obtain ⟨b, f, hb3, hb4⟩ := lx_cover hj h hs2.1
    exact ⟨⟨b, f⟩, ((C28_pruning_exact fl g).1 hl ⟨b, f⟩).2 ⟨hb3, by simp only; omega⟩, hb4⟩
  · obtain ⟨i1', -⟩ := lx_short hk med' z0' zf' data' fl g' hl' ⟨a', e', hn'⟩
    rw [i1']
    have hpos : 0 < len1Timing cfg z0' zf' := lt_of_lt_of_le hk.frame (lx_t1 hk z0' zf').1
    by_cases hl : ∃ a e, NatSeg fl g a e ∧ 2 ≤ e - a
    · obtain ⟨i1, i2, i3⟩ := lx_long hk med z0 zf data fl g hl
      refine ⟨i3, ?_⟩
      rw [i1]
      refine (lx_mono_t hk hpos (lx_t1 hk z0' zf').2 _ (lx_w_nonneg 2)).trans ?_
      exact mul_le_mul_of_nonneg_right i2 (by have := (lx_k_pos px hk.gain hk.rnoise).le; positivity)
    · exact (lx_lower hk med z0 zf data fl g ⟨a, e, hn⟩ _ hpos (ht hl)).symm

/-! ## One integration -/

theorem lx_is0th (fl : Flags) (su : Bool) (d : List (Option α)) (g : List Nat) (z : Option (Option α)) :
    (loadInteg fl su d g z).is0th = true ↔ su = false ∧ (stats fl g).cntGood = 1 ∧ g.getD 0 0 = 0 := by
  simp only [loadInteg]
  cases su with
  | true => simp
  | false =>
    simp only [Bool.false_eq_true, if_false, true_and]
    split
    · rename_i h; simpa using h
    · rename_i h
      split
      · rename_i h0
        cases z with
        | none => simpa using h
        | some v =>
          simp only
          split <;> simpa using h
      · simpa using h

theorem lx_zero_of_more {g g' : List Nat} (h : LxMore g g') (hz : ∀ d ∈ g, d ≠ 0) : ∀ d ∈ g', d ≠ 0 := by
  intro d hd h0
  obtain ⟨i, hi, rfl⟩ := List.getElem_of_mem hd
  have hi' : i < g.length := by rw [← h.1]; exact hi
  apply hz _ (List.getElem_mem hi')
  apply Nat.eq_of_testBit_eq
  intro b
  rw [Nat.zero_testBit]
  by_contra hb
  rw [Bool.not_eq_false] at hb
  have := lx_more_get h i hi' hi b hb
  rw [h0, Nat.zero_testBit] at this
  cases this

theorem lx_more_has {g g' : List Nat} (h : LxMore g g') {f i : Nat} (hf : Has (g.getD i 0) f) : Has (g'.getD i 0) f := by
  intro h0
  apply hf
  apply Nat.eq_of_testBit_eq
  intro b
  rw [Nat.zero_testBit, Nat.testBit_and]
  by_contra hb
  rw [Bool.not_eq_false, Bool.and_eq_true] at hb
  have := congrArg (fun n => n.testBit b) h0
  simp only [Nat.testBit_and, Nat.zero_testBit, h.2 i b hb.1, hb.2] at this
  cases this

theorem lx_more_full {fl : Flags} {g g' : List Nat} (h : LxMore g g') (hf : ∀ d ∈ g, Has d fl.dnu ∨ Has d fl.sat) :
    ∀ d ∈ g', Has d fl.dnu ∨ Has d fl.sat := by
  intro d hd
  obtain ⟨i, hi, rfl⟩ := List.getElem_of_mem hd
  have hi' : i < g.length := by rw [← h.1]; exact hi
  have e1 := List.getD_eq_getElem g 0 hi'
  have e2 := List.getD_eq_getElem g' 0 hi
  rw [← e2]
  have := hf _ (List.getElem_mem hi')
  rw [← e1] at this
  exact this.imp (lx_more_has h) (lx_more_has h)

theorem lx_more_set {g g' : List Nat} (h : LxMore g g') : LxMore (g.set 0 0) (g'.set 0 0) := by
  refine ⟨by simp [h.1], fun i b => ?_⟩
  cases i with
  | zero => cases g <;> cases g' <;> simp
  | succ n =>
    have := h.2 (n + 1) b
    cases g <;> cases g' <;> first | (simp; done) | simpa using this

/-- A group that is good although no group carries PERSISTENCE has DQ zero. -/
theorem lx_good_zero {pers : Nat} {g : List Nat} (hp : ∀ d ∈ g, ¬ Has d pers) {i : Nat} (h : GoodGroup pers g i) :
    ∃ hi : i < g.length, g[i] = 0 := by
  obtain ⟨hi, hu⟩ := h
  refine ⟨hi, ?_⟩
  apply Nat.eq_of_testBit_eq
  intro b
  rw [Nat.zero_testBit]
  by_contra hb
  rw [Bool.not_eq_false] at hb
  refine hp _ (List.getElem_mem hi) fun h0 => ?_
  have := congrArg (fun n => n.testBit b) h0
  simp only [Nat.testBit_and, Nat.zero_testBit, hb, hu b hb] at this
  cases this

theorem lx_good_of_zero (pers : Nat) {g : List Nat} {i : Nat} (hi : i < g.length) (h : g[i] = 0) : GoodGroup pers g i :=
  ⟨hi, fun b hb => by rw [h, Nat.zero_testBit] at hb; cases hb⟩

/-- The only good group of a ramp is its first: the same holds with more flags, if any group is left. -/
theorem lx_first {fl : Flags} {g g' : List Nat} (h : LxMore g g') (hp : ∀ d ∈ g', ¬ Has d fl.pers)
    (hc : (stats fl g).cntGood = 1) (h0 : g.getD 0 0 = 0) {i : Nat} (hi : GoodGroup fl.pers g' i) :
    (stats fl g').cntGood = 1 ∧ g'.getD 0 0 = 0 := by
  obtain ⟨hi1, hi2⟩ := lx_good_zero hp hi
  cases g with
  | nil => have := h.1; simp at this; subst this; simp at hi1
  | cons a t =>
    cases g' with
    | nil => simp at hi1
    | cons a' t' =>
      have ha : a = 0 := by simpa using h0
      subst ha
      have ht : (stats fl t).cntGood = 0 := by simpa [stats] using hc
      have hmt : LxMore t t' := ⟨by simpa using h.1, fun k b => by simpa using h.2 (k + 1) b⟩
      have ht' := lx_zero_of_more hmt ((cntGood_zero fl t).1 ht)
      have hct := (cntGood_zero fl t').2 ht'
      have ha' : a' = 0 := by
        cases i with
        | zero => simpa using hi2
        | succ n =>
          have hn : n < t'.length := by simpa using hi1
          exact absurd (by simpa using hi2) (ht' _ (List.getElem_mem hn))
      subst ha'
      exact ⟨by simpa [stats] using hct, by simp⟩

/-- A ramp saturated in its first group has no good group. -/
def LxSat (fl : Flags) (g : List Nat) : Prop := Has (g.getD 0 0) fl.sat → ∀ d ∈ g, d ≠ 0

/-- With more flags, an integration that still contributes to the fit contributes at most as much information. -/
theorem lx_integ {cfg : Cfg α} {px : Pix α} (hk : LxOk cfg px) (med med' : Option α) {fl : Flags} {j : Nat}
    (hj : fl.jump = 2 ^ j) {g g' : List Nat} (h : LxMore g g') (d : List (Option α)) (z : Option (Option α))
    (hp : cfg.suppress1g = true ∨ ∀ x ∈ g', ¬ Has x fl.pers) (hs : LxSat fl g)
    (hne : usedFits fl cfg px med' g.length (loadInteg fl cfg.suppress1g d g' z) ≠ []) :
    usedFits fl cfg px med g.length (loadInteg fl cfg.suppress1g d g z) ≠ []
    ∧ 0 < (accSegs (usedFits fl cfg px med' g.length (loadInteg fl cfg.suppress1g d g' z))).invR
    ∧ (accSegs (usedFits fl cfg px med' g.length (loadInteg fl cfg.suppress1g d g' z))).invR
      ≤ (accSegs (usedFits fl cfg px med g.length (loadInteg fl cfg.suppress1g d g z))).invR := by
  obtain ⟨hal, hfs'⟩ := usedFits_alive _ _ _ _ _ _ hne
  -- the fits of an integration that is alive
  have huse : ∀ (m : Option α) (i : Integ α), (g.length : Int) ≠ i.st.cntDnuSat → firstSat fl i.gdq = false →
      usedFits fl cfg px m g.length i
        = (computeSegs fl i.gdq).segs.map (fitSeg cfg px m i.is0th i.isZframe fun k => (i.data[k]?).join) := by
    intro m i h1 h2
    rw [usedFits, if_neg h1, fitSegs, h2]; rfl
  have hinf : ∀ (m : Option α) (i : Integ α), (g.length : Int) ≠ i.st.cntDnuSat → firstSat fl i.gdq = false →
      (accSegs (usedFits fl cfg px m g.length i)).invR
        = lxInfo cfg px m i.is0th i.isZframe (fun k => (i.data[k]?).join) (computeSegs fl i.gdq).segs := by
    intro m i h1 h2
    rw [huse m i h1 h2, cl_invR, List.map_map]; rfl
  have hsne : (computeSegs fl (loadInteg fl cfg.suppress1g d g' z).gdq).segs ≠ [] := by
    intro h0; apply hne; rw [huse _ _ hal hfs', h0]; rfl
  have hpos := lx_info_pos hk med' (loadInteg fl cfg.suppress1g d g' z).is0th
    (loadInteg fl cfg.suppress1g d g' z).isZframe (fun k => ((loadInteg fl cfg.suppress1g d g' z).data[k]?).join) fl _
    (lx_exists hsne)
  rw [hinf _ _ hal hfs']
  -- the integration with fewer flags is alive
  have hal' : ¬ (¬ ZeroSub cfg.suppress1g g' z ∧ ∀ x ∈ g', Has x fl.dnu ∨ Has x fl.sat) := by
    intro hc
    rw [← h.1] at hal
    exact hal ((load_full fl cfg.suppress1g d g' z).2 hc)
  have hfs2 : ¬ (¬ ZeroSub cfg.suppress1g g' z ∧ Has (g'.getD 0 0) fl.sat) := by
    intro hc
    rw [(load_firstSat fl cfg.suppress1g d g' z).2 hc] at hfs'
    cases hfs'
  have hzz : ZeroSub cfg.suppress1g g z → ZeroSub cfg.suppress1g g' z :=
    fun ⟨a, b, c⟩ => ⟨a, lx_zero_of_more h b, c⟩
  have hex0 : ZeroSub cfg.suppress1g g' z → ¬ ZeroSub cfg.suppress1g g z → ∃ x ∈ g, x = 0 := by
    rintro ⟨a, b, c⟩ h'
    by_contra hc
    push Not at hc
    exact h' ⟨a, hc, c⟩
  have alive : (g.length : Int) ≠ (loadInteg fl cfg.suppress1g d g z).st.cntDnuSat := by
    intro hc
    obtain ⟨c1, c2⟩ := (load_full fl cfg.suppress1g d g z).1 hc
    by_cases hz' : ZeroSub cfg.suppress1g g' z
    · obtain ⟨x, hx, rfl⟩ := hex0 hz' c1
      rcases c2 _ hx with q | q <;> simp [Has] at q
    · exact hal' ⟨hz', lx_more_full h c2⟩
  have nosat : firstSat fl (loadInteg fl cfg.suppress1g d g z).gdq = false := by
    by_contra hc
    rw [Bool.not_eq_false] at hc
    obtain ⟨c1, c2⟩ := (load_firstSat fl cfg.suppress1g d g z).1 hc
    by_cases hz' : ZeroSub cfg.suppress1g g' z
    · obtain ⟨x, hx, rfl⟩ := hex0 hz' c1
      exact hs c2 _ hx rfl
    · exact hfs2 ⟨hz', lx_more_has h c2⟩
  rw [hinf _ _ alive nosat, huse _ _ alive nosat]
  have fin : (computeSegs fl (loadInteg fl cfg.suppress1g d g z).gdq).segs ≠ []
      ∧ lxInfo cfg px med' (loadInteg fl cfg.suppress1g d g' z).is0th (loadInteg fl cfg.suppress1g d g' z).isZframe
          (fun k => ((loadInteg fl cfg.suppress1g d g' z).data[k]?).join)
          (computeSegs fl (loadInteg fl cfg.suppress1g d g' z).gdq).segs
        ≤ lxInfo cfg px med (loadInteg fl cfg.suppress1g d g z).is0th (loadInteg fl cfg.suppress1g d g z).isZframe
          (fun k => ((loadInteg fl cfg.suppress1g d g z).data[k]?).join)
          (computeSegs fl (loadInteg fl cfg.suppress1g d g z).gdq).segs := by
    by_cases hz' : ZeroSub cfg.suppress1g g' z
    · have hsu := hz'.1
      have hp' : ∀ x ∈ g', ¬ Has x fl.pers := by
        rcases hp with q | q
        · rw [hsu] at q; cases q
        · exact q
      have n0' : (loadInteg fl cfg.suppress1g d g' z).is0th = false := by
        by_contra hc
        rw [Bool.not_eq_false] at hc
        have := ((lx_is0th _ _ _ _ _).1 hc).2.1
        have := (cntGood_zero fl g').2 hz'.2.1
        omega
      obtain ⟨l1, -, -, l4⟩ := load_sub fl cfg.suppress1g d g' z hz'
      by_cases hz : ZeroSub cfg.suppress1g g z
      · have n0 : (loadInteg fl cfg.suppress1g d g z).is0th = false := by
          by_contra hc
          rw [Bool.not_eq_false] at hc
          have := ((lx_is0th _ _ _ _ _).1 hc).2.1
          have := (cntGood_zero fl g).2 hz.2.1
          omega
        obtain ⟨k1, -, -, k4⟩ := load_sub fl cfg.suppress1g d g z hz
        rw [l1] at hsne
        rw [l1, l4, k1, k4, n0, n0']
        exact lx_segs_le hk med med' _ _ _ _ _ _ hj (lx_more_set h) hsne fun _ => le_rfl
      · obtain ⟨x, hx, hx0⟩ := hex0 hz' hz
        obtain ⟨i, hi, rfl⟩ := List.getElem_of_mem hx
        obtain ⟨a, e, ⟨hn, -⟩, -⟩ := C27_every_good_group_once fl (by rw [hj]; positivity) g i
          (lx_good_of_zero fl.pers hi hx0)
        rw [(load_nosub fl cfg.suppress1g d g z hz).1]
        have hshort : ¬ ∃ a e, NatSeg fl (g'.set 0 0) a e ∧ 2 ≤ e - a := by
          rintro ⟨a, e, ⟨s, k1, k2, k3, -, -, k6⟩, hl⟩
          have good0 : ∀ m, GoodGroup fl.pers (g'.set 0 0) m → m = 0 := by
            rintro m ⟨hm, hu⟩
            by_contra hm0
            have hm' : m < g'.length := by simpa using hm
            rw [List.getElem_set_ne (by omega)] at hu
            obtain ⟨_, q⟩ := lx_good_zero hp' (i := m) ⟨hm', hu⟩
            exact hz'.2.1 _ (List.getElem_mem hm') q
          have e1 := good0 s (k3 s le_rfl k1)
          have e2 := good0 (e - 1) (k3 (e - 1) (by omega) (by omega))
          rcases k6 with ⟨_, _, r⟩ | ⟨_, r⟩ <;> omega
        rw [l1] at hsne
        rw [l1, (lx_short hk med' _ _ _ fl _ hshort (lx_exists hsne)).1, n0', l4]
        have ht1 : len1Timing cfg false true = cfg.frameTime := by simp [len1Timing, hsu]
        rw [ht1]
        exact (lx_lower hk med _ _ _ fl g ⟨a, e, hn⟩ cfg.frameTime hk.frame (lx_t1 hk _ _).1).symm
    · have hz : ¬ ZeroSub cfg.suppress1g g z := fun q => hz' (hzz q)
      obtain ⟨l1, -, l3⟩ := load_nosub fl cfg.suppress1g d g' z hz'
      obtain ⟨k1, -, k3⟩ := load_nosub fl cfg.suppress1g d g z hz
      rw [l1] at hsne
      rw [l1, l3, k1, k3]
      refine lx_segs_le hk med med' _ _ _ _ _ _ hj h hsne fun _ => ?_
      by_cases h0 : (loadInteg fl cfg.suppress1g d g z).is0th = true
      · obtain ⟨q1, q2, q3⟩ := (lx_is0th _ _ _ _ _).1 h0
        have hp' : ∀ x ∈ g', ¬ Has x fl.pers := by
          rcases hp with q | q
          · rw [q1] at q; cases q
          · exact q
        obtain ⟨a', e', s, r1, -, r3, -⟩ := lx_exists hsne
        have := lx_first h hp' q2 q3 (r3 s le_rfl r1)
        rw [h0, (lx_is0th fl cfg.suppress1g d g' z).2 ⟨q1, this⟩]
      · rw [Bool.not_eq_true] at h0
        rw [h0]
        have : len1Timing cfg false false = cfg.groupTime := by simp [len1Timing]
        rw [this]
        exact (lx_t1 hk _ _).2
  exact ⟨fun hc => fin.1 (List.map_eq_nil_iff.1 hc), hpos, fin.2⟩

/-! ## The products -/

theorem lx_varR (fl : Flags) (cfg : Cfg α) (px : Pix α) (med : Option α) (ng : Nat) (i : Integ α) (dq0 : Nat) :
    ((fitInteg fl cfg px med ng i dq0).1.varR ≠ 0 →
      usedFits fl cfg px med ng i ≠ [] ∧ 1 / (accSegs (usedFits fl cfg px med ng i)).invR < large
      ∧ (fitInteg fl cfg px med ng i dq0).1.varR = 1 / (accSegs (usedFits fl cfg px med ng i)).invR)
    ∧ (usedFits fl cfg px med ng i ≠ [] → 1 / (accSegs (usedFits fl cfg px med ng i)).invR < large →
      (fitInteg fl cfg px med ng i dq0).1.varR = 1 / (accSegs (usedFits fl cfg px med ng i)).invR
      ∨ ((fitInteg fl cfg px med ng i dq0).1.varR = 0
          ∧ Has (fitInteg fl cfg px med ng i dq0).1.dq (fl.dnu ||| fl.sat))) := by
  unfold usedFits
  simp only [fitInteg]
  by_cases h : (ng : Int) = i.st.cntDnuSat
  · simp only [if_pos h]
    exact ⟨fun h' => absurd rfl h', fun h' => absurd rfl h'⟩
  · simp only [if_neg h]
    generalize hF : (fitSegs fl i.gdq).segs.map (fitSeg cfg px med i.is0th i.isZframe fun k => (i.data[k]?).join) = fits
    generalize (if firstSat fl i.gdq then dq0 ||| fl.dnu ||| fl.sat else dq0 : Nat) = dq
    cases hE : fits.isEmpty with
    | true =>
      have : fits = [] := List.isEmpty_iff.1 hE
      subst this
      simp [combineInteg]
    | false =>
      have hne : fits ≠ [] := by rintro rfl; cases hE
      simp only [Bool.false_eq_true, if_false, combineInteg, hE]
      cases hB : hasB dq (fl.dnu ||| fl.sat) with
      | true =>
        simp only [if_true]
        exact ⟨fun h' => absurd rfl h', fun _ _ => Or.inr ⟨trivial, hasB_iff.1 hB⟩⟩
      | false =>
        simp only [Bool.false_eq_true, if_false]
        refine ⟨fun h' => ?_, fun _ h2 => Or.inl (if_neg (not_le.2 h2))⟩
        by_cases hl : large ≤ 1 / (accSegs fits).invR
        · rw [if_pos hl] at h'; exact absurd rfl h'
        · exact ⟨hne, not_le.1 hl, if_neg hl⟩

/-- The information an integration adds to the exposure sum. -/
def lxAdd (fl : Flags) (cfg : Cfg α) (px : Pix α) (med : Option α) (ng : Nat) (i : Integ α) : α :=
  if (usedFits fl cfg px med ng i).isEmpty then 0 else (accSegs (usedFits fl cfg px med ng i)).invR

theorem lx_sum (fl : Flags) (cfg : Cfg α) (px : Pix α) (med : Option α) (ng : Nat) (q : Integ α → Nat)
    (p2 : Integ α → Rate α → Rate α × Bool × Bool) (l : List (Integ α)) :
    (((l.map fun i => (i, p2 i (fitInteg fl cfg px med ng i (q i)).1, (fitInteg fl cfg px med ng i (q i)).2)).filterMap
      fun r => r.2.2).map fun a => a.invR).sum = (l.map (lxAdd fl cfg px med ng)).sum := by
  induction l with
  | nil => rfl
  | cons i l ih =>
    rw [List.map_cons, List.map_cons, List.sum_cons, ← ih, List.filterMap_cons, fitInteg_acc, lxAdd]
    split
    · rename_i h; split at h
      · rename_i h'; rw [if_pos h', zero_add]
      · cases h
    · rename_i a h; split at h
      · cases h
      · rename_i h'; cases h; rw [if_neg h', List.map_cons, List.sum_cons]

theorem lx_forall_sum {β γ : Type*} {R : β → γ → Prop} (f : β → α) (f' : γ → α) (hR : ∀ b c, R b c → f' c ≤ f b)
    {l : List β} {l' : List γ} (h : List.Forall₂ R l l') : (l'.map f').sum ≤ (l.map f).sum := by
  induction h with
  | nil => simp
  | cons h _ ih => simp only [List.map_cons, List.sum_cons]; exact add_le_add (hR _ _ h) ih

/-- The ramps of a pixel with fewer and with more flags: same samples and zero frames, the flags of the second
contain those of the first.  Unless one-group ramps are suppressed no group carries PERSISTENCE.  A ramp whose first
group is saturated has no good group. -/
def LxRamps (fl : Flags) (cfg : Cfg α) (ngroups : Nat) (a b : List (Option α) × List Nat × Option (Option α)) : Prop :=
  b.1 = a.1 ∧ b.2.2 = a.2.2 ∧ a.2.1.length = ngroups ∧ LxMore a.2.1 b.2.1
  ∧ (cfg.suppress1g = true ∨ ∀ x ∈ b.2.1, ¬ Has x fl.pers) ∧ LxSat fl a.2.1

/-- The variance `1/Σ` is monotone. -/
theorem lx_inv {x y : α} (hy : 0 < y) (h : y ≤ x) : 1 / x ≤ 1 / y := one_div_le_one_div_of_le hy h

theorem lx_add_nonneg (fl : Flags) (cfg : Cfg α) (px : Pix α) (med : Option α) (ng : Nat) (i : Integ α) :
    0 ≤ lxAdd fl cfg px med ng i := by
  unfold lxAdd
  split
  · exact le_rfl
  · rename_i h
    unfold usedFits at h ⊢
    split
    · rename_i h'; rw [if_pos h'] at h; exact absurd rfl h
    · exact un_acc_nonneg _ _ _ _ _ _ _

/-- The read-noise variance of the exposure, from the sum of the information. -/
theorem lx_rate (fl : Flags) (cfg : Cfg α) (ng : Nat) (p : PixIn α) (S : α)
    (hS : S = ((loadPixel fl cfg p).map (lxAdd fl cfg p.px (medianRate fl cfg ng (loadPixel fl cfg p)) ng)).sum) :
    ((fitPixel fl cfg ng p).2.varR = 0 ∧ Has (fitPixel fl cfg ng p).2.dq (fl.dnu ||| fl.sat))
    ∨ (fitPixel fl cfg ng p).2.varR = (if large ≤ (if 0 < S then 1 / S else S) then 0 else if 0 < S then 1 / S else S) := by
  have h := lx_sum fl cfg p.px (medianRate fl cfg ng (loadPixel fl cfg p)) ng
    (fun i => metaDq fl p ||| statBits fl i.st) (postInteg fl) (loadPixel fl cfg p)
  rw [← hS] at h
  simp only [fitPixel]
  have hp : pixelInts fl cfg ng p = (loadPixel fl cfg p).map fun i =>
      (i, postInteg fl i (fitInteg fl cfg p.px (medianRate fl cfg ng (loadPixel fl cfg p)) ng i
        (metaDq fl p ||| statBits fl i.st)).1,
        (fitInteg fl cfg p.px (medianRate fl cfg ng (loadPixel fl cfg p)) ng i (metaDq fl p ||| statBits fl i.st)).2) := rfl
  rw [← hp] at h
  rw [h]
  generalize pixelInts fl cfg ng p = rs
  generalize (if (List.countP (fun r => r.2.1.2.2) rs) = rs.length then _ else _ : Nat) = dq
  cases hB : hasB dq (fl.dnu ||| fl.sat) with
  | true =>
    left
    rw [if_pos rfl]
    refine ⟨rfl, ?_⟩
    simp only
    split
    · intro h0
      apply hasB_iff.1 hB
      apply Nat.eq_of_testBit_eq
      intro b
      have := congrArg (fun n => n.testBit b) h0
      simp only [Nat.testBit_and, Nat.testBit_or, Nat.zero_testBit] at this ⊢
      revert this
      generalize dq.testBit b = x
      generalize fl.dnu.testBit b = y
      generalize fl.sat.testBit b = w
      cases x <;> cases y <;> cases w <;> simp
    · exact hasB_iff.1 hB
  | false => right; rfl

/-- Losing groups never lowers the read-noise variance, neither that of an integration nor that of the exposure: a
variance reported with more groups flagged is at least the one reported without these flags, and the latter is not
missing unless the entry is itself flagged. -/
theorem C162_read_noise (fl : Flags) (j : Nat) (hj : fl.jump = 2 ^ j) (cfg : Cfg α) (ngroups : Nat) (p p' : PixIn α)
    (hk : LxOk cfg p.px) (hpx : p'.px = p.px) (hr : List.Forall₂ (LxRamps fl cfg ngroups) p.ints p'.ints) :
    (∀ (k : Nat) r r', (fitPixel fl cfg ngroups p).1[k]? = some r → (fitPixel fl cfg ngroups p').1[k]? = some r' →
      r'.varR ≠ 0 → r.varR ≤ r'.varR ∧ (r.varR = 0 → Has r.dq (fl.dnu ||| fl.sat)))
    ∧ ((fitPixel fl cfg ngroups p').2.varR ≠ 0 →
      (fitPixel fl cfg ngroups p).2.varR ≤ (fitPixel fl cfg ngroups p').2.varR
      ∧ ((fitPixel fl cfg ngroups p).2.varR = 0 → Has (fitPixel fl cfg ngroups p).2.dq (fl.dnu ||| fl.sat))) := by
  generalize hm : medianRate fl cfg ngroups (loadPixel fl cfg p) = med
  generalize hm' : medianRate fl cfg ngroups (loadPixel fl cfg p') = med'
  have key : ∀ a b, LxRamps fl cfg ngroups a b →
      usedFits fl cfg p.px med' ngroups (loadInteg fl cfg.suppress1g b.1 b.2.1 b.2.2) ≠ [] →
      usedFits fl cfg p.px med ngroups (loadInteg fl cfg.suppress1g a.1 a.2.1 a.2.2) ≠ []
      ∧ 0 < (accSegs (usedFits fl cfg p.px med' ngroups (loadInteg fl cfg.suppress1g b.1 b.2.1 b.2.2))).invR
      ∧ (accSegs (usedFits fl cfg p.px med' ngroups (loadInteg fl cfg.suppress1g b.1 b.2.1 b.2.2))).invR
        ≤ (accSegs (usedFits fl cfg p.px med ngroups (loadInteg fl cfg.suppress1g a.1 a.2.1 a.2.2))).invR := by
    rintro ⟨d, g, z⟩ ⟨d', g', z'⟩ ⟨h1, h2, h3, h4, h5, h6⟩ hne
    simp only at h1 h2 h3 h4 h5 h6 hne ⊢
    subst h1 h2 h3
    exact lx_integ hk med med' hj h4 _ _ h5 h6 hne
  have hlp : (0 : α) < large := by unfold large; norm_num
  constructor
  · intro k r r' hr1 hr2 hne
    simp only [fitPixel, pixelInts, loadPixel, List.map_map, List.getElem?_map, Option.map_eq_some_iff] at hr1 hr2
    simp only [loadPixel] at hm hm'
    rw [hm] at hr1
    rw [hm', hpx] at hr2
    obtain ⟨a, ha, rfl⟩ := hr1
    obtain ⟨b, hb, rfl⟩ := hr2
    have hR : LxRamps fl cfg ngroups a b := by
      have h1 := (List.forall₂_iff_get.1 hr).2
      obtain ⟨k1, rfl⟩ := List.getElem?_eq_some_iff.1 ha
      obtain ⟨k2, rfl⟩ := List.getElem?_eq_some_iff.1 hb
      exact h1 k k1 k2
    simp only [Function.comp_apply, postInteg] at hne ⊢
    obtain ⟨u1, u2, u3⟩ := (lx_varR fl cfg p.px med' ngroups _ _).1 hne
    obtain ⟨v1, v2, v3⟩ := key a b hR u1
    have hle := lx_inv v2 v3
    rw [u3]
    rcases (lx_varR fl cfg p.px med ngroups (loadInteg fl cfg.suppress1g a.1 a.2.1 a.2.2)
      (metaDq fl p ||| statBits fl (loadInteg fl cfg.suppress1g a.1 a.2.1 a.2.2).st)).2 v1 (lt_of_le_of_lt hle u2)
      with q | ⟨q1, q2⟩
    · rw [q]
      refine ⟨hle, fun h0 => ?_⟩
      have : 0 < 1 / (accSegs (usedFits fl cfg p.px med ngroups (loadInteg fl cfg.suppress1g a.1 a.2.1 a.2.2))).invR :=
        one_div_pos.2 (lt_of_lt_of_le v2 v3)
      exact absurd h0 this.ne'
    · rw [q1]
      refine ⟨(one_div_pos.2 v2).le, fun _ => ?_⟩
      split
      · intro h0
        apply q2
        apply Nat.eq_of_testBit_eq
        intro b
        have := congrArg (fun n => n.testBit b) h0
        simp only [Nat.testBit_and, Nat.testBit_or, Nat.zero_testBit] at this ⊢
        revert this
        generalize Nat.testBit _ b = x
        generalize fl.dnu.testBit b = y
        generalize fl.sat.testBit b = w
        cases x <;> cases y <;> cases w <;> simp
      · exact q2
  · intro hne
    have hle : ((loadPixel fl cfg p').map (lxAdd fl cfg p.px med' ngroups)).sum
        ≤ ((loadPixel fl cfg p).map (lxAdd fl cfg p.px med ngroups)).sum := by
      simp only [loadPixel, List.map_map]
      refine lx_forall_sum _ _ (fun a b hab => ?_) hr
      simp only [Function.comp_apply, lxAdd, List.isEmpty_iff]
      by_cases h0 : usedFits fl cfg p.px med' ngroups (loadInteg fl cfg.suppress1g b.1 b.2.1 b.2.2) = []
      · rw [if_pos h0]
        simpa only [lxAdd, List.isEmpty_iff] using
          lx_add_nonneg fl cfg p.px med ngroups (loadInteg fl cfg.suppress1g a.1 a.2.1 a.2.2)
      · obtain ⟨v1, v2, v3⟩ := key a b hab h0
        rw [if_neg h0, if_neg v1]; exact v3
    generalize hS : ((loadPixel fl cfg p).map (lxAdd fl cfg p.px med ngroups)).sum = S at hle
    generalize hS' : ((loadPixel fl cfg p').map (lxAdd fl cfg p.px med' ngroups)).sum = S' at hle
    have h1 := lx_rate fl cfg ngroups p S (by rw [hm, hS])
    have h2 := lx_rate fl cfg ngroups p' S' (by rw [hm', hpx, hS'])
    have hS0 : 0 ≤ S' := by
      rw [← hS']
      refine List.sum_nonneg fun x hx => ?_
      obtain ⟨i, -, rfl⟩ := List.mem_map.1 hx
      exact lx_add_nonneg _ _ _ _ _ _
    rcases h2 with ⟨q, -⟩ | q
    · exact absurd q hne
    · have hpos : 0 < S' := by
        by_contra hc
        have : S' = 0 := le_antisymm (not_lt.1 hc) hS0
        rw [this] at q
        apply hne; rw [q]; simp
      rw [if_pos hpos] at q
      have hlt : ¬ large ≤ 1 / S' := by
        intro hc; rw [if_pos hc] at q; exact hne q
      rw [if_neg hlt] at q
      have hi := lx_inv hpos hle
      rcases h1 with ⟨r, r2⟩ | r
      · rw [r, q]; exact ⟨(one_div_pos.2 hpos).le, fun _ => r2⟩
      · rw [if_pos (lt_of_lt_of_le hpos hle), if_neg (fun hc => hlt (hc.trans hi))] at r
        rw [r, q]
        exact ⟨hi, fun h0 => absurd h0 (one_div_pos.2 (lt_of_lt_of_le hpos hle)).ne'⟩

end

/-- Finding: two more PERSISTENCE flags can lower the read-noise variance.  A ramp with one unusable and two good
groups is fitted with its two good groups.  If these get PERSISTENCE (with which the fit still uses them) the ramp counts as
having no good group, the zero frame replaces the unusable first group and the fit runs over three groups with a
quarter of the variance. -/
theorem C162_persistence_lowers_variance :
    (fitPixel exFlags exCfg 3 ⟨false, exPix, 0, [([some 10, some 13, some 16], [1, 0, 0], some (some 1))]⟩).2.varR = 9 / 200
    ∧ (fitPixel exFlags exCfg 3 ⟨false, exPix, 0, [([some 10, some 13, some 16], [1, 16, 16], some (some 1))]⟩).2.varR
      = 9 / 800 := by decide +kernel

/-- Finding: a ramp saturated in its first group only has no rate; if the other groups are lost too, the zero frame
gives it one. -/
theorem C162_zero_frame_revives :
    (fitPixel exFlags exCfg 3 ⟨false, exPix, 0, [([some 10, some 13, some 16], [2, 0, 0], some (some 1))]⟩).2.varR = 0
    ∧ (fitPixel exFlags exCfg 3 ⟨false, exPix, 0, [([some 10, some 13, some 16], [2, 1, 1], some (some 1))]⟩).2.varR
      = 9 / 8 := by decide +kernel

/-- A pixel with an unflagged ramp and one with an unusable group; the second one has a jump, a saturated group and a
lost group more. -/
def lxEx : PixIn ℚ :=
  ⟨false, exPix, 0, [([some 10, some 13, some 16, some 19, some 22, some 25], [0, 0, 0, 0, 0, 0], none),
    ([some 1, some 2, some 3, some 4, some 5, some 6], [1, 0, 0, 0, 0, 0], some (some 3))]⟩
def lxEx' : PixIn ℚ :=
  ⟨false, exPix, 0, [([some 10, some 13, some 16, some 19, some 22, some 25], [0, 0, 4, 0, 0, 2], none),
    ([some 1, some 2, some 3, some 4, some 5, some 6], [1, 1, 0, 0, 0, 0], some (some 3))]⟩

example : LxOk exCfg lxEx.px := by constructor <;> norm_num [exCfg, lxEx, exPix]

theorem lx_more_of (g g' : List Nat) (hl : g'.length = g.length) (h : ∀ i < g.length, g.getD i 0 &&& g'.getD i 0 = g.getD i 0) :
    LxMore g g' := by
  refine ⟨hl, fun i b hb => ?_⟩
  rcases Nat.lt_or_ge i g.length with hi | hi
  · have := h i hi
    rw [← this, Nat.testBit_and, Bool.and_eq_true] at hb
    exact hb.2
  · rw [List.getD_eq_default _ _ hi, Nat.zero_testBit] at hb; cases hb

example : List.Forall₂ (LxRamps exFlags exCfg 6) lxEx.ints lxEx'.ints := by
  refine .cons ⟨rfl, rfl, rfl, lx_more_of _ _ rfl (by decide), Or.inr (by decide), ?_⟩
    (.cons ⟨rfl, rfl, rfl, lx_more_of _ _ rfl (by decide), Or.inr (by decide), ?_⟩ .nil)
  · intro h; exact absurd h (by decide)
  · intro h; exact absurd h (by decide)

example : exFlags.jump = 2 ^ 2 := rfl
example : (fitPixel exFlags exCfg 6 lxEx).2.varR = 9 / 11000 ∧ (fitPixel exFlags exCfg 6 lxEx').2.varR = 9 / 3000 := by
  decide +kernel

end Verif.Thm
