import Verif.Proof.OlsFit
import Verif.Thm.RampDq
import Mathlib.Data.Rat.Defs

/-! # Ordinary-least-squares ramp fitting (C27-C31, C71, C72) -/

namespace Verif.Thm

open Verif.Dq Verif.Ols

set_option linter.unusedSectionVars false

/-! ## Segments (C27, C28) -/

/-- Group `i` exists and has no flag besides PERSISTENCE. -/
def GoodGroup (pers : Nat) (g : List Nat) (i : Nat) : Prop := ∃ h : i < g.length, FitUsable pers g[i]

/-- Group `i` exists and is flagged, apart from PERSISTENCE, exactly as a jump. -/
def JumpOnly (pers jump : Nat) (g : List Nat) (i : Nat) : Prop :=
  ∃ h : i < g.length, ∀ b, (g[i].testBit b = true ∧ pers.testBit b = false) ↔ jump.testBit b = true

theorem goodG_iff (fl : Flags) (g : List Nat) (i : Nat) (h : i < g.length) :
    goodG fl g i ↔ GoodGroup fl.pers g i := by
  unfold goodG GoodGroup
  rw [← fitUsable_iff, List.getD_eq_getElem _ _ h]
  exact ⟨fun h' => ⟨h, h'⟩, fun ⟨_, h'⟩ => h'⟩

theorem jmpG_iff (fl : Flags) (g : List Nat) (i : Nat) (h : i < g.length) :
    jmpG fl g i ↔ JumpOnly fl.pers fl.jump g i := by
  unfold jmpG JumpOnly
  rw [List.getD_eq_getElem _ _ h]
  constructor
  · intro h'
    refine ⟨h, fun b => ?_⟩
    rw [← h', testBit_clear, Bool.and_eq_true]
    simp
  · rintro ⟨_, h'⟩
    apply Nat.eq_of_testBit_eq
    intro b
    have := h' b
    rw [testBit_clear]
    cases h1 : (g[i]).testBit b <;> cases h2 : fl.pers.testBit b <;> cases h3 : fl.jump.testBit b <;> simp_all

/-- The natural segments of a ramp: a maximal run `[s, e)` of good groups, together with the group before it if
that one is flagged only as a jump. -/
def NatSeg (fl : Flags) (g : List Nat) (a e : Nat) : Prop :=
  ∃ s, s < e ∧ e ≤ g.length ∧ (∀ i, s ≤ i → i < e → GoodGroup fl.pers g i)
    ∧ (s = 0 ∨ ¬ GoodGroup fl.pers g (s - 1)) ∧ (e = g.length ∨ ¬ GoodGroup fl.pers g e)
    ∧ ((0 < s ∧ JumpOnly fl.pers fl.jump g (s - 1) ∧ a + 1 = s)
        ∨ (¬ (0 < s ∧ JumpOnly fl.pers fl.jump g (s - 1)) ∧ a = s))

theorem isRun_iff (fl : Flags) (g : List Nat) (s e : Nat) :
    IsRun (goodG fl g) g.length s e ↔ s < e ∧ e ≤ g.length ∧ (∀ i, s ≤ i → i < e → GoodGroup fl.pers g i)
      ∧ (s = 0 ∨ ¬ GoodGroup fl.pers g (s - 1)) ∧ (e = g.length ∨ ¬ GoodGroup fl.pers g e) := by
  unfold IsRun
  constructor
  · rintro ⟨h1, h2, h3, h4, h5⟩
    refine ⟨h1, h2, fun i hi hi' => (goodG_iff fl g i (by omega)).1 (h3 i hi hi'), ?_, ?_⟩
    · rcases h4 with h | h
      · exact Or.inl h
      · exact Or.inr fun h' => h ((goodG_iff fl g _ (by omega)).2 h')
    · rcases h5 with h | h
      · exact Or.inl h
      · exact Or.inr fun h' => h ((goodG_iff fl g _ (h'.1)).2 h')
  · rintro ⟨h1, h2, h3, h4, h5⟩
    refine ⟨h1, h2, fun i hi hi' => (goodG_iff fl g i (by omega)).2 (h3 i hi hi'), ?_, ?_⟩
    · rcases h4 with h | h
      · exact Or.inl h
      · exact Or.inr fun h' => h ((goodG_iff fl g _ (by omega)).1 h')
    · rcases Nat.lt_or_ge e g.length with he | he
      · rcases h5 with h | h
        · omega
        · exact Or.inr fun h' => h ((goodG_iff fl g _ he).1 h')
      · exact Or.inl (by omega)

theorem natSeg_iff (fl : Flags) (g : List Nat) (a e : Nat) :
    NatSeg fl g a e ↔ ∃ s, IsRun (goodG fl g) g.length s e ∧ a = ext (jmpG fl g) s := by
  unfold NatSeg
  refine exists_congr fun s => ?_
  rw [isRun_iff]
  have hx : s < e → e ≤ g.length → (((0 < s ∧ JumpOnly fl.pers fl.jump g (s - 1) ∧ a + 1 = s)
        ∨ (¬ (0 < s ∧ JumpOnly fl.pers fl.jump g (s - 1)) ∧ a = s)) ↔ a = ext (jmpG fl g) s) := by
    intro h1 h2
    unfold ext
    rw [← jmpG_iff fl g (s - 1) (by omega)]
    by_cases h : 0 < s ∧ jmpG fl g (s - 1)
    · rw [if_pos h]
      constructor
      · rintro (⟨-, -, h'⟩ | ⟨h', -⟩)
        · omega
        · exact absurd h h'
      · intro h'; exact Or.inl ⟨h.1, h.2, by omega⟩
    · rw [if_neg h]
      constructor
      · rintro (⟨h1', h2', -⟩ | ⟨-, h'⟩)
        · exact absurd ⟨h1', h2'⟩ h
        · exact h'
      · intro h'; exact Or.inr ⟨h, h'⟩
  constructor
  · rintro ⟨h1, h2, h3, h4, h5, h6⟩; exact ⟨⟨h1, h2, h3, h4, h5⟩, (hx h1 h2).1 h6⟩
  · rintro ⟨⟨h1, h2, h3, h4, h5⟩, h6⟩; exact ⟨h1, h2, h3, h4, h5, (hx h1 h2).2 h6⟩

theorem computeSegs_natural (fl : Flags) (g : List Nat) :
    ∃ raw : List Seg, (∀ sg : Seg, sg ∈ raw ↔ NatSeg fl g sg.start sg.stop)
      ∧ raw.Pairwise (fun a b => a.stop ≤ b.start)
      ∧ ((∃ s ∈ raw, 2 ≤ s.len) → (computeSegs fl g).segs = raw.filter fun s => decide (2 ≤ s.len))
      ∧ ((¬ ∃ s ∈ raw, 2 ≤ s.len) → (computeSegs fl g).segs = raw.take 1) := by
  obtain ⟨hm, hp⟩ := rawSegs_spec (goodG fl g) (jmpG fl g) g.length
  have hm' : ∀ sg : Seg, sg ∈ rawSegs (goodG fl g) (jmpG fl g) g.length ↔ NatSeg fl g sg.start sg.stop := by
    intro sg
    rw [hm, natSeg_iff]
    constructor
    · rintro ⟨s, e, h1, rfl⟩; exact ⟨s, h1, rfl⟩
    · rintro ⟨s, h1, h2⟩
      refine ⟨s, sg.stop, h1, ?_⟩
      rw [← h2]
  refine ⟨_, hm', hp, ?_⟩
  rw [computeSegs_eq]
  refine prune_foldl _ fun s hs => ?_
  obtain ⟨s', h1, h2⟩ := (natSeg_iff _ _ _ _).1 ((hm' s).1 hs)
  have := ext_le (jmpG fl g) s'
  have := h1.1
  unfold Seg.len
  omega

/-- The segments used for the fit are ordered and disjoint, lie inside the ramp, contain only good groups except
possibly a first group flagged only as a jump (which is then followed by a good one), cannot be prolonged to the
right, and are natural segments of the ramp. -/
theorem C27_segments_sound (fl : Flags) (g : List Nat) :
    (computeSegs fl g).segs.Pairwise (fun a b => a.stop ≤ b.start)
    ∧ ∀ s ∈ (computeSegs fl g).segs,
        s.start < s.stop ∧ s.stop ≤ g.length
        ∧ (∀ i, s.start < i → i < s.stop → GoodGroup fl.pers g i)
        ∧ (GoodGroup fl.pers g s.start ∨ (JumpOnly fl.pers fl.jump g s.start ∧ s.start + 1 < s.stop))
        ∧ (s.stop = g.length ∨ ¬ GoodGroup fl.pers g s.stop)
        ∧ NatSeg fl g s.start s.stop := by
  obtain ⟨raw, hm, hp, h2, h1⟩ := computeSegs_natural fl g
  have hsub : (computeSegs fl g).segs.Sublist raw := by
    by_cases h : ∃ s ∈ raw, 2 ≤ s.len
    · rw [h2 h]; exact List.filter_sublist
    · rw [h1 h]; exact List.take_sublist _ _
  refine ⟨hp.sublist hsub, fun s hs => ?_⟩
  have hn := (hm s).1 (hsub.subset hs)
  obtain ⟨r, h3, h4, h5, h6, h7, h8⟩ := hn
  rcases h8 with ⟨h9, h10, h11⟩ | ⟨-, h9⟩
  · have hr : r - 1 = s.start := by omega
    rw [hr] at h10
    refine ⟨by omega, h4, fun i hi hi' => h5 i (by omega) hi', Or.inr ⟨h10, by omega⟩, h7, (hm s).1 (hsub.subset hs)⟩
  · refine ⟨by omega, h4, fun i hi hi' => h5 i (by omega) hi', Or.inl (h5 _ (by omega) (by omega)), h7,
      (hm s).1 (hsub.subset hs)⟩

/-- Before short segments are discarded every good group lies in exactly one natural segment. -/
theorem C27_every_good_group_once (fl : Flags) (hj : fl.jump ≠ 0) (g : List Nat) (i : Nat)
    (hi : GoodGroup fl.pers g i) :
    ∃ a e, (NatSeg fl g a e ∧ a ≤ i ∧ i < e) ∧ ∀ a' e', NatSeg fl g a' e' → a' ≤ i → i < e' → a' = a ∧ e' = e := by
  classical
  have hil := hi.1
  -- start of the run
  have hS : ∃ s, s ≤ i ∧ ∀ k, s ≤ k → k ≤ i → GoodGroup fl.pers g k :=
    ⟨i, le_rfl, fun k h1 h2 => by have : k = i := by omega
                                  subst this; exact hi⟩
  have hsp := Nat.find_spec hS
  have hsmin : ∀ m, m < Nat.find hS → ¬ (m ≤ i ∧ ∀ k, m ≤ k → k ≤ i → GoodGroup fl.pers g k) :=
    fun m hm => Nat.find_min hS hm
  set s := Nat.find hS with hsdef
  clear_value s
  have hE : ∃ e, i < e ∧ (e = g.length ∨ ¬ GoodGroup fl.pers g e) := ⟨g.length, hil, Or.inl rfl⟩
  have hep := Nat.find_spec hE
  have hemin : ∀ m, m < Nat.find hE → ¬ (i < m ∧ (m = g.length ∨ ¬ GoodGroup fl.pers g m)) :=
    fun m hm => Nat.find_min hE hm
  set e := Nat.find hE with hedef
  clear_value e
  have hel : e ≤ g.length := by
    by_contra h
    exact hemin g.length (by omega) ⟨hil, Or.inl rfl⟩
  have hgood : ∀ k, s ≤ k → k < e → GoodGroup fl.pers g k := by
    intro k h1 h2
    rcases Nat.lt_or_ge i k with h | h
    · by_contra hc
      exact hemin k h2 ⟨h, Or.inr hc⟩
    · exact hsp.2 k h1 h
  have hs0 : s = 0 ∨ ¬ GoodGroup fl.pers g (s - 1) := by
    by_cases h : s = 0
    · exact Or.inl h
    · right
      intro hg
      refine hsmin (s - 1) (by omega) ⟨by omega, fun k h1 h2 => ?_⟩
      rcases Nat.lt_or_ge k s with h' | h'
      · have : k = s - 1 := by omega
        subst this; exact hg
      · exact hsp.2 k h' h2
  have hse : s < e := by omega
  have huniq : ∀ a' e', NatSeg fl g a' e' → a' ≤ i → i < e' →
      e' = e ∧ (a' = if 0 < s ∧ JumpOnly fl.pers fl.jump g (s - 1) then s - 1 else s) := by
    rintro a' e' ⟨s', h1, h2, h3, h4, h5, h6⟩ ha he
    -- i itself is in the run, since a jump-only group is not good
    have hs'i : s' ≤ i := by
      rcases h6 with ⟨h7, h8, h9⟩ | ⟨-, h9⟩
      · by_contra hc
        have hia : i = s' - 1 := by omega
        subst hia
        obtain ⟨_, hjo⟩ := h8
        obtain ⟨_, hus⟩ := hi
        obtain ⟨b, hb⟩ := Nat.exists_testBit_of_ne_zero hj
        have h10 := (hjo b).2 hb
        have := hus b h10.1
        rw [h10.2] at this
        exact absurd this (by simp)
      · omega
    have hss : s' = s := by
      rcases Nat.lt_trichotomy s' s with hlt | heq | hgt
      · rcases hs0 with h | h
        · omega
        · exact absurd (h3 (s - 1) (by omega) (by omega)) h
      · exact heq
      · rcases h4 with h | h
        · omega
        · exact absurd (hgood (s' - 1) (by omega) (by omega)) h
    have hee : e' = e := by
      rcases Nat.lt_trichotomy e' e with hlt | heq | hgt
      · rcases h5 with h | h
        · omega
        · exact absurd (hgood e' (by omega) hlt) h
      · exact heq
      · rcases hep.2 with h | h
        · omega
        · exact absurd (h3 e (by omega) hgt) h
    subst hss hee
    refine ⟨rfl, ?_⟩
    rcases h6 with ⟨h7, h8, h9⟩ | ⟨h8, h9⟩
    · rw [if_pos ⟨h7, h8⟩]; omega
    · rw [if_neg h8]; exact h9
  refine ⟨if 0 < s ∧ JumpOnly fl.pers fl.jump g (s - 1) then s - 1 else s, e, ⟨?_, ?_, hep.1⟩, ?_⟩
  · refine ⟨s, hse, hel, hgood, hs0, hep.2, ?_⟩
    by_cases h : 0 < s ∧ JumpOnly fl.pers fl.jump g (s - 1)
    · rw [if_pos h]; exact Or.inl ⟨h.1, h.2, by omega⟩
    · rw [if_neg h]; exact Or.inr ⟨h, rfl⟩
  · split <;> omega
  · intro a' e' h1 h2 h3
    obtain ⟨h4, h5⟩ := huniq a' e' h1 h2 h3
    exact ⟨h5, h4⟩

/-- JWST flag values, for the examples. -/
def exFlags : Flags := ⟨1, 2, 4, 16, 8, 128⟩

example : (computeSegs exFlags [0, 0, 4, 0, 0, 2, 20, 16, 0, 1, 0]).segs = [⟨0, 2⟩, ⟨2, 5⟩, ⟨6, 9⟩] := by decide +kernel
example : GoodGroup exFlags.pers [0, 0, 4, 0] 3 := ⟨by decide, by intro b hb; simp at hb⟩

/-- Pruning: if some natural segment has two or more groups, exactly the natural segments of two or more groups
are fitted; otherwise only the first natural segment is (none if there is none). -/
theorem C28_pruning_exact (fl : Flags) (g : List Nat) :
    ((∃ a e, NatSeg fl g a e ∧ 2 ≤ e - a) →
      ∀ s : Seg, s ∈ (computeSegs fl g).segs ↔ NatSeg fl g s.start s.stop ∧ 2 ≤ s.stop - s.start)
    ∧ ((¬ ∃ a e, NatSeg fl g a e ∧ 2 ≤ e - a) →
      ((¬ ∃ a e, NatSeg fl g a e) → (computeSegs fl g).segs = [])
      ∧ ((∃ a e, NatSeg fl g a e) → ∃ s : Seg, (computeSegs fl g).segs = [s] ∧ NatSeg fl g s.start s.stop
          ∧ ∀ a e, NatSeg fl g a e → s.start ≤ a)) := by
  obtain ⟨raw, hm, hp, h2, h1⟩ := computeSegs_natural fl g
  have hex : (∃ s ∈ raw, 2 ≤ s.len) ↔ ∃ a e, NatSeg fl g a e ∧ 2 ≤ e - a := by
    constructor
    · rintro ⟨s, hs, hl⟩; exact ⟨s.start, s.stop, (hm s).1 hs, hl⟩
    · rintro ⟨a, e, hn, hl⟩; exact ⟨⟨a, e⟩, (hm ⟨a, e⟩).2 hn, hl⟩
  constructor
  · intro h s
    rw [h2 (hex.2 h), List.mem_filter, hm, decide_eq_true_iff]; rfl
  · intro h
    rw [h1 (fun h' => h (hex.1 h'))]
    constructor
    · intro hn
      have : raw = [] := by
        cases raw with
        | nil => rfl
        | cons a t => exact absurd ⟨a.start, a.stop, (hm a).1 (List.mem_cons_self ..)⟩ hn
      rw [this]; rfl
    · rintro ⟨a, e, hn⟩
      have hmem := (hm ⟨a, e⟩).2 hn
      cases raw with
      | nil => simp at hmem
      | cons s t =>
        refine ⟨s, by simp, (hm s).1 (List.mem_cons_self ..), fun a' e' h' => ?_⟩
        rcases List.mem_cons.1 ((hm ⟨a', e'⟩).2 h') with h | h
        · rw [← h]
        · have h4 := (List.pairwise_cons.1 hp).1 _ h
          obtain ⟨s', h5, -, -, -, -, h6⟩ := (hm s).1 (List.mem_cons_self ..)
          simp only at h4
          omega

/-- The pruning function by itself, for every list with correct bookkeeping. -/
theorem C28_prune_list (l : SegList) (hs : l.size = l.segs.length) (hpos : ∀ s ∈ l.segs, 1 ≤ s.len)
    (hmax : ∀ s ∈ l.segs, s.len ≤ l.maxLen) (hatt : l.segs ≠ [] → ∃ s ∈ l.segs, s.len = l.maxLen) :
    ((∃ s ∈ l.segs, 2 ≤ s.len) → (prune l).segs = l.segs.filter fun s => decide (2 ≤ s.len))
    ∧ ((¬ ∃ s ∈ l.segs, 2 ≤ s.len) → (prune l).segs = l.segs.take 1) := by
  have hfc : l.segs.filter (fun s => decide (s.len ≠ 1)) = l.segs.filter fun s => decide (2 ≤ s.len) := by
    apply List.filter_congr
    intro s h
    have := hpos s h
    simp only [decide_eq_decide]
    omega
  constructor
  · rintro ⟨s, h1, h2⟩
    have := hmax s h1
    unfold prune
    by_cases hsz : l.size < 2
    · rw [if_pos hsz]
      obtain ⟨x, hx⟩ : ∃ x, l.segs = [x] := by
        apply List.length_eq_one_iff.1
        have : 0 < l.segs.length := List.length_pos_of_mem h1
        omega
      rw [hx] at h1 ⊢
      rw [List.mem_singleton] at h1; subst h1
      rw [List.filter_cons_of_pos (by simpa using h2), List.filter_nil]
    · rw [if_neg hsz, if_neg (by omega)]; exact hfc
  · intro hn
    unfold prune
    by_cases hsz : l.size < 2
    · rw [if_pos hsz, List.take_of_length_le (by omega)]
    · rw [if_neg hsz]
      have hne : l.segs ≠ [] := by intro h; rw [h] at hs; simp at hs; omega
      obtain ⟨s, h1, h2⟩ := hatt hne
      have : l.maxLen < 2 := by
        by_contra h
        exact hn ⟨s, h1, by omega⟩
      rw [if_pos this]

example : (prune ⟨[⟨0, 1⟩, ⟨2, 4⟩, ⟨5, 6⟩], 3, 2⟩).segs = [⟨2, 4⟩] ∧ (prune ⟨[⟨0, 1⟩, ⟨2, 3⟩], 2, 1⟩).segs = [⟨0, 1⟩] := by
  decide +kernel

/-- Finding: when only one-group segments exist, all but the first are dropped but the recorded number of
segments is not updated (it later determines how many planes the optional product has). -/
theorem C28_size_stale_after_pruning :
    (computeSegs exFlags [0, 1, 0, 1, 0]).segs = [⟨0, 1⟩] ∧ (computeSegs exFlags [0, 1, 0, 1, 0]).size = 3 := by
  decide +kernel

/-! ## Segment fits (C29) -/

section Fit
variable {α : Type*} [Field α] [LinearOrder α] [IsStrictOrderedRing α]

/-- What the theorems use of C's `powf` on the non-negative bases it is called with. -/
def PowOk (powf : α → α → α) : Prop := (∀ p, powf 1 p = 1) ∧ ∀ x p, 0 ≤ powf x p

/-- A segment of two or more groups whose samples follow a line `a + b·group` gets the slope `b` per group time,
for every weight exponent the signal-to-noise ratio selects, every gain and dark current. -/
theorem C29_exact_on_lines (cfg : Cfg α) (hpow : PowOk cfg.powf) (px : Pix α) (hr : px.rnoise ≠ 0) (med : Option α)
    (z0 zf : Bool) (data : Nat → Option α) (s : Seg) (hlen : 2 ≤ s.len) (a b : α)
    (hd : ∀ k, k < s.len → data (s.start + k) = some (a + b * ((k : α) + s.start))) :
    (fitSeg cfg px med z0 zf data s).slope = some (b / cfg.groupTime) := by
  by_cases h2 : s.len = 2
  · have e0 := hd 0 (by omega)
    have e1 := hd 1 (by omega)
    rw [Nat.add_zero] at e0
    simp only [fitSeg, h2, if_true]
    rw [if_neg (by omega)]
    simp only [e0, e1, o2_some, Option.map_some]
    congr 2
    push_cast; ring
  · simp only [fitSeg]
    rw [if_neg (by omega), if_neg h2]
    simp only
    set power := snrPower (segSnr cfg px (data s.start) (data (s.start + s.len - 1))) with hpw
    clear_value power
    set w := optWeight cfg px s.len power with hw
    obtain ⟨w1, w2, w3⟩ := optWeight_ends cfg px s.len hlen power hr hpow.1 hpow.2
    rw [← hw] at w1 w2 w3
    have hden : wden s.len s.start w ≠ 0 := (wden_pos s.len s.start hlen w w1 w2 w3).ne'
    have e : (wls s.len s.start w fun k => (data (s.start + k)).getD 0)
        = wls s.len s.start w fun k => 0 + (a + b * ((k : α) + s.start)) :=
      wls_congr _ _ _ fun k hk => by rw [hd k hk, zero_add]; rfl
    rw [e, wls_slope_affine _ _ _ (fun _ => 0) a b hden, wls_zero, zero_add]

/-- Adding a constant to all samples of a segment of two or more groups changes nothing in its fit (slope and
variances), provided its samples are numbers. -/
theorem C29_pedestal_ignored (cfg : Cfg α) (hpow : PowOk cfg.powf) (px : Pix α) (hr : px.rnoise ≠ 0)
    (med : Option α) (z0 zf : Bool) (data data' : Nat → Option α) (s : Seg) (hlen : 2 ≤ s.len) (c : α)
    (y : Nat → α) (hd : ∀ k, k < s.len → data (s.start + k) = some (y k))
    (hd' : ∀ k, k < s.len → data' (s.start + k) = some (y k + c)) :
    fitSeg cfg px med z0 zf data' s = fitSeg cfg px med z0 zf data s := by
  by_cases h2 : s.len = 2
  · have e0 := hd 0 (by omega)
    have e1 := hd 1 (by omega)
    have e0' := hd' 0 (by omega)
    have e1' := hd' 1 (by omega)
    rw [Nat.add_zero] at e0 e0'
    simp only [fitSeg, h2, if_true]
    rw [if_neg (by omega), if_neg (by omega)]
    simp only [e0, e1, e0', e1', o2_some, Option.map_some]
    congr 3
    ring
  · have hsnr : segSnr cfg px (data' s.start) (data' (s.start + s.len - 1))
        = segSnr cfg px (data s.start) (data (s.start + s.len - 1)) := by
      have e0 := hd 0 (by omega)
      have e0' := hd' 0 (by omega)
      have e1 := hd (s.len - 1) (by omega)
      have e1' := hd' (s.len - 1) (by omega)
      have hx : s.start + (s.len - 1) = s.start + s.len - 1 := by omega
      rw [Nat.add_zero] at e0 e0'
      rw [hx] at e1 e1'
      unfold segSnr
      rw [e0, e0', e1, e1', o2_some, o2_some]
      have : y (s.len - 1) + c - (y 0 + c) = y (s.len - 1) - y 0 := by ring
      rw [this]
    have h1 : s.len ≠ 1 := by omega
    simp only [fitSeg, h1, h2, if_false, hsnr]
    set power := snrPower (segSnr cfg px (data s.start) (data (s.start + s.len - 1))) with hpw
    clear_value power
    set w := optWeight cfg px s.len power with hw
    obtain ⟨w1, w2, w3⟩ := optWeight_ends cfg px s.len hlen power hr hpow.1 hpow.2
    rw [← hw] at w1 w2 w3
    have hden : wden s.len s.start w ≠ 0 := (wden_pos s.len s.start hlen w w1 w2 w3).ne'
    have e : (wls s.len s.start w fun k => (data' (s.start + k)).getD 0)
        = wls s.len s.start w fun k => y k + (c + 0 * ((k : α) + s.start)) :=
      wls_congr _ _ _ fun k hk => by rw [hd' k hk]; simp
    have e' : (wls s.len s.start w fun k => (data (s.start + k)).getD 0) = wls s.len s.start w y :=
      wls_congr _ _ _ fun k hk => by rw [hd k hk]; rfl
    rw [e, e', wls_slope_affine _ _ _ y c 0 hden, add_zero]

/-- Scaling the samples by `k` scales the slope by `k` whenever both signal-to-noise ratios select the same weight
exponent. -/
theorem C29_scaling (cfg : Cfg α) (px : Pix α) (med : Option α) (z0 zf : Bool) (data : Nat → Option α)
    (s : Seg) (k : α)
    (hp : snrPower (segSnr cfg px ((data s.start).map (k * ·)) ((data (s.start + s.len - 1)).map (k * ·)))
      = snrPower (segSnr cfg px (data s.start) (data (s.start + s.len - 1)))) :
    (fitSeg cfg px med z0 zf (fun i => (data i).map (k * ·)) s).slope
      = (fitSeg cfg px med z0 zf data s).slope.map (k * ·) := by
  simp only [fitSeg]
  by_cases h1 : s.len = 1
  · simp only [h1, if_true, Option.map_map]
    congr 1; funext x; simp [mul_div_assoc]
  · by_cases h2 : s.len = 2
    · simp only [h2, if_true]
      rw [if_neg (by omega), if_neg (by omega)]
      cases data (s.start + 1) <;> cases data s.start <;> simp [o2]
      ring
    · rw [if_neg h1, if_neg h2, if_neg h1, if_neg h2]
      simp only [hp, Option.map_some]
      have e : (wls s.len s.start (optWeight cfg px s.len (snrPower (segSnr cfg px (data s.start) (data (s.start + s.len - 1)))))
          fun i => ((data (s.start + i)).map (k * ·)).getD 0)
          = wls s.len s.start (optWeight cfg px s.len (snrPower (segSnr cfg px (data s.start) (data (s.start + s.len - 1)))))
            fun i => k * (data (s.start + i)).getD 0 :=
        wls_congr _ _ _ fun i _ => by cases data (s.start + i) <;> simp
      rw [e, wls_slope_scale, mul_div_assoc]

end Fit

/-- Configuration for the examples: unit weights (`powf` constant one, as for exponent 0). -/
def exCfg : Cfg ℚ := ⟨10, 2, 7, false, id, fun _ _ => 1⟩
def exPix : Pix ℚ := ⟨2, 3, 0⟩

example : PowOk exCfg.powf := ⟨fun _ => rfl, fun _ _ => by simp [exCfg]⟩
example : (fitSeg exCfg exPix (some 1) false false (fun i => some (5 + 3 * (i : ℚ))) ⟨1, 5⟩).slope = some (3 / 10) := by
  decide +kernel

/-- Finding: a sample that is not a number inside an unflagged segment of three or more groups is taken as zero
counts, so the slope of the line `5 + 3·group` is not recovered and depends on the pedestal. -/
theorem C29_nan_sample_counts_as_zero :
    (fitSeg exCfg exPix (some 1) false false (fun i => if i = 2 then none else some (5 + 3 * (i : ℚ))) ⟨1, 5⟩).slope
      ≠ some (3 / 10)
    ∧ (fitSeg exCfg exPix (some 1) false false (fun i => if i = 2 then none else some (5 + 3 * (i : ℚ))) ⟨1, 5⟩).slope
      ≠ (fitSeg exCfg exPix (some 1) false false (fun i => if i = 2 then none else some (105 + 3 * (i : ℚ))) ⟨1, 5⟩).slope := by
  decide +kernel

end Verif.Thm
