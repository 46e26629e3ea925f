import Verif.Proof.Cas22
import Verif.Proof.OlsFit

/-! # Casertano+22 ramp fitting: properties C35-C37, C73-C75 -/

namespace Verif.Thm

open Verif.Cas22

set_option linter.unusedSectionVars false

/-! ## C35: ramp discovery -/

/-- A maximal run of unflagged resultants among the first `n`. -/
def MaxRun (dq : Nat → Nat) (n : Nat) (r : Ramp) : Prop :=
  r.start ≤ r.stop ∧ r.stop < n ∧ (∀ i, r.start ≤ i → i ≤ r.stop → dq i = 0)
    ∧ (r.start = 0 ∨ dq (r.start - 1) ≠ 0) ∧ (r.stop + 1 = n ∨ dq (r.stop + 1) ≠ 0)

theorem maxRun_unique {dq : Nat → Nat} {n : Nat} {a b : Ramp} (ha : MaxRun dq n a) (hb : MaxRun dq n b) (i : Nat)
    (hia : a.start ≤ i ∧ i ≤ a.stop) (hib : b.start ≤ i ∧ i ≤ b.stop) : a = b := by
  obtain ⟨-, a2, a3, a4, a5⟩ := ha
  obtain ⟨-, b2, b3, b4, b5⟩ := hb
  have hs : a.start = b.start := by
    rcases Nat.lt_trichotomy a.start b.start with h | h | h
    · rcases b4 with h0 | h0
      · omega
      · exact absurd (a3 (b.start - 1) (by omega) (by omega)) h0
    · exact h
    · rcases a4 with h0 | h0
      · omega
      · exact absurd (b3 (a.start - 1) (by omega) (by omega)) h0
  have he : a.stop = b.stop := by
    rcases Nat.lt_trichotomy a.stop b.stop with h | h | h
    · rcases a5 with h0 | h0
      · omega
      · exact absurd (b3 (a.stop + 1) (by omega) (by omega)) h0
    · exact h
    · rcases b5 with h0 | h0
      · omega
      · exact absurd (a3 (b.stop + 1) (by omega) (by omega)) h0
  cases a; cases b; simp_all

/-- The ramps found are exactly the maximal runs of unflagged resultants, in order, separated by at least one flagged
resultant; every unflagged resultant is in exactly one of them. -/
theorem C35_ramps_are_maximal_runs (dq : Nat → Nat) (n : Nat) :
    (∀ r, r ∈ initRamps dq n ↔ MaxRun dq n r)
    ∧ (initRamps dq n).Pairwise (fun a b => a.stop + 1 < b.start)
    ∧ ∀ i, i < n → dq i = 0 → ∃! r, r ∈ initRamps dq n ∧ r.start ≤ i ∧ i ≤ r.stop := by
  have inv := initInv dq n
  unfold initRamps
  generalize (List.range n).foldl (initStep dq) (none, []) = st at inv
  obtain ⟨o, l⟩ := st
  obtain ⟨hc, hp, ho, hn, hcov⟩ := inv
  simp only at hc hp ho hn hcov ⊢
  set out : List Ramp := (match (generalizing := false) o with | some s => l ++ [⟨s, n - 1⟩] | none => l) with hout
  have hrun : ∀ r ∈ out, MaxRun dq n r := by
    intro r hr
    have hl : r ∈ l → MaxRun dq n r := by
      intro hr
      obtain ⟨a, b, c, d, e⟩ := hc r hr
      exact ⟨a, by omega, c, d, Or.inr e⟩
    cases o with
    | none => exact hl hr
    | some s =>
      obtain ⟨h1, h2, h3, -⟩ := ho s rfl
      rw [hout, List.mem_append, List.mem_singleton] at hr
      rcases hr with hr | rfl
      · exact hl hr
      · exact ⟨by simp only; omega, by simp only; omega, fun i ha hb => h2 i ha (by simp only at hb; omega), h3,
          Or.inl (by simp only; omega)⟩
  have hcover : ∀ i, i < n → dq i = 0 → ∃ r ∈ out, r.start ≤ i ∧ i ≤ r.stop := by
    intro i hi hz
    rcases hcov i hi hz with ⟨r, hr, h⟩ | ⟨s, hs, h⟩
    · refine ⟨r, ?_, h⟩
      cases o with
      | none => exact hr
      | some s => exact List.mem_append_left _ hr
    · subst hs
      exact ⟨⟨s, n - 1⟩, by rw [hout]; simp, h, by simp only; omega⟩
  refine ⟨fun r => ⟨hrun r, fun h => ?_⟩, ?_, fun i hi hz => ?_⟩
  · obtain ⟨r', hr', h'⟩ := hcover r.start (by have := h.1; have := h.2.1; omega) (h.2.2.1 _ le_rfl h.1)
    have := maxRun_unique h (hrun r' hr') r.start ⟨le_rfl, h.1⟩ h'
    rw [this]; exact hr'
  · cases o with
    | none => exact hp
    | some s =>
      change (l ++ [(⟨s, n - 1⟩ : Ramp)]).Pairwise _
      rw [List.pairwise_append]
      refine ⟨hp, by simp, fun a ha b hb => ?_⟩
      rw [List.mem_singleton] at hb
      subst hb
      exact (ho s rfl).2.2.2 a ha
  · obtain ⟨r, hr, h⟩ := hcover i hi hz
    exact ⟨r, ⟨hr, h⟩, fun r' h' => maxRun_unique (hrun r' h'.1) (hrun r hr) i h'.2 h⟩

example : initRamps (fun i => [0, 0, 4, 0, 1, 1, 0].getD i 0) 7 = [⟨0, 1⟩, ⟨3, 3⟩, ⟨6, 6⟩] := by decide

/-! ## C36: the fit/split loop -/

/-- For every jump test that points inside the ramp it is asked about: the loop ends within `n + 1` rounds (more
rounds change nothing), flagged resultants keep their flag and are in no fitted ramp, and every unflagged resultant is
either in exactly one fitted ramp and stays unflagged, or in none and gets the jump flag. -/
theorem C36_loop (det : Ramp → Option Nat)
    (hdet : ∀ r a, det r = some a → r.start ≤ r.stop → a + r.start + 1 ≤ r.stop) (dq : Nat → Nat) (n : Nat) :
    ∃ s, (∀ fuel, n + 1 ≤ fuel → runLoop det fuel ⟨(initRamps dq n).reverse, dq, []⟩ = some s)
      ∧ s.stack = []
      ∧ (∀ r ∈ s.done, r.start ≤ r.stop ∧ r.stop < n)
      ∧ (∀ i, dq i ≠ 0 → s.dq i = dq i ∧ ∀ r ∈ s.done, ¬ (r.start ≤ i ∧ i ≤ r.stop))
      ∧ (∀ i, i < n → dq i = 0 →
          (s.dq i = 0 ∧ ∃! r, r ∈ s.done ∧ r.start ≤ i ∧ i ≤ r.stop)
          ∨ (s.dq i = 4 ∧ ∀ r ∈ s.done, ¬ (r.start ≤ i ∧ i ≤ r.stop)))
      ∧ ∀ i, n ≤ i → s.dq i = dq i := by
  obtain ⟨h1, h2, h3⟩ := C35_ramps_are_maximal_runs dq n
  have hcost : cost (initRamps dq n).reverse ≤ n + 1 := by
    rw [cost_reverse]
    have := cost_le n (initRamps dq n) 0 (by omega)
      (fun r hr => ⟨((h1 r).1 hr).1, ((h1 r).1 hr).2.1, by omega⟩) h2
    omega
  have inv : LoopInv dq n ⟨(initRamps dq n).reverse, dq, []⟩ := by
    constructor
    · intro r hr
      simp only [List.nil_append, List.mem_reverse] at hr
      exact ⟨((h1 r).1 hr).1, ((h1 r).1 hr).2.1⟩
    · simp only [List.nil_append, List.pairwise_reverse]
      exact h2.imp fun h => Or.inr (by omega)
    · intro i hi
      refine ⟨rfl, fun r hr hc => ?_⟩
      simp only [List.nil_append, List.mem_reverse] at hr
      exact hi (((h1 r).1 hr).2.2.1 i hc.1 hc.2)
    · intro i hi hz
      obtain ⟨r, ⟨hr, hc⟩, -⟩ := h3 i hi hz
      exact Or.inl ⟨hz, r, by simpa using hr, hc⟩
    · intro i _; rfl
  obtain ⟨s, -, e2, e3, e4⟩ := runLoop_spec det hdet dq n (n + 1) _ inv hcost
  obtain ⟨v, d, f, g, o⟩ := e3
  rw [e2, List.append_nil] at v d f g
  refine ⟨s, e4, e2, v, f, fun i hi hz => ?_, o⟩
  rcases g i hi hz with ⟨h, r, hr, hc⟩ | h
  · refine Or.inl ⟨h, r, ⟨hr, hc⟩, ?_⟩
    rintro r' ⟨hr', c1, c2⟩
    by_contra hne
    obtain ⟨c3, c4⟩ := hc
    have hdis : Disj r' r := by
      have hp := d
      rw [List.pairwise_iff_getElem] at hp
      obtain ⟨k, hk, rfl⟩ := List.getElem_of_mem hr
      obtain ⟨k', hk', rfl⟩ := List.getElem_of_mem hr'
      rcases Nat.lt_trichotomy k k' with h | h | h
      · exact (hp k k' hk hk' h).symm
      · subst h; exact absurd rfl hne
      · exact hp k' k hk' hk h
    rcases hdis with h | h <;> omega
  · exact Or.inr h

section
variable {α : Type*} [Field α] [LinearOrder α]

/-- The whole pixel: with the real jump test the fit ends, and every resultant is accounted for. -/
theorem C36_pixel (cfg : Cfg α) (p : Pix α) (dq : Nat → Nat) (n : Nat) :
    ∃ dq' ramps avg, (∀ fuel, n + 1 ≤ fuel → fitPixel cfg p dq n fuel = some (dq', ramps, avg))
      ∧ (∀ r ∈ ramps, r.start ≤ r.stop ∧ r.stop < n)
      ∧ (∀ i, dq i ≠ 0 → dq' i = dq i ∧ ∀ r ∈ ramps, ¬ (r.start ≤ i ∧ i ≤ r.stop))
      ∧ (∀ i, i < n → dq i = 0 →
          (dq' i = 0 ∧ ∃! r, r ∈ ramps ∧ r.start ≤ i ∧ i ≤ r.stop)
          ∨ (dq' i = 4 ∧ ∀ r ∈ ramps, ¬ (r.start ≤ i ∧ i ≤ r.stop))) := by
  obtain ⟨s, h1, -, h3, h4, h5, -⟩ := C36_loop (detect cfg p) (detect_ok cfg p) dq n
  exact ⟨s.dq, s.done, _, fun fuel hf => by rw [fitPixel, h1 fuel hf]; rfl, h3, h4, h5⟩

end

/-- Without jump detection no flag is added and the maximal runs are what is fitted. -/
theorem C36_no_jump_detection (dq : Nat → Nat) (n : Nat) (s : Loop)
    (h : runLoop (fun _ => none) (n + 1) ⟨(initRamps dq n).reverse, dq, []⟩ = some s) :
    s.dq = dq ∧ s.done = (initRamps dq n).reverse := by
  have key : ∀ (fuel : Nat) (st done : List Ramp) (s : Loop),
      runLoop (fun _ => none) fuel ⟨st, dq, done⟩ = some s → s.dq = dq ∧ s.done = done ++ st := by
    intro fuel
    induction fuel with
    | zero =>
      intro st done s h
      cases st with
      | nil => rw [runLoop] at h; simp only [Option.some.injEq] at h; subst h; simp
      | cons r t => rw [runLoop] at h; simp at h
    | succ f ih =>
      intro st done s h
      cases st with
      | nil => rw [runLoop] at h; simp only [Option.some.injEq] at h; subst h; simp
      | cons r t =>
        rw [runLoop, loopBody] at h
        obtain ⟨h1, h2⟩ := ih t (done ++ [r]) s h
        exact ⟨h1, by rw [h2]; simp⟩
  simpa using key _ _ _ _ h

example : (runLoop (fun r => if r.start = 0 ∧ r.stop = 6 then some 2 else none) 8
    ⟨(initRamps (fun _ => 0) 7).reverse, fun _ => 0, []⟩).map (fun s => (s.done, (List.range 7).map s.dq))
    = some ([⟨4, 6⟩, ⟨0, 1⟩], [0, 0, 4, 4, 0, 0, 0]) := by decide

/-! ## C37: the fit of one ramp -/

section
variable {α : Type*} [Field α] [LinearOrder α] [IsStrictOrderedRing α]

/-- `pow` is non-negative on non-negative numbers and `pow 1 x = 1`. -/
def Cas22PowOk (pow : α → α → α) : Prop := (∀ x y, 0 ≤ x → 0 ≤ pow x y) ∧ ∀ y, pow 1 y = 1

theorem getPower_nonneg (s : α) : 0 ≤ getPower s := by
  unfold getPower
  split_ifs <;> positivity

theorem weight_nonneg (cfg : Cfg α) (hp : Cas22PowOk cfg.pow) (p : Pix α) (r : Ramp) (i : Nat) : 0 ≤ weight cfg p r i := by
  unfold weight
  simp only
  have h1 : 0 ≤ rampPower cfg p r := getPower_nonneg _
  have h2 := hp.1 |(p.tbar i - (p.tbar r.start + p.tbar r.stop) / 2)
    / (if (p.tbar r.stop - p.tbar r.start) / 2 = 0 then 1 else (p.tbar r.stop - p.tbar r.start) / 2)|
    (rampPower cfg p r) (abs_nonneg _)
  positivity

theorem weight_end_pos (cfg : Cfg α) (hp : Cas22PowOk cfg.pow) (p : Pix α) (r : Ramp) (i : Nat)
    (ht : p.tbar r.start ≠ p.tbar r.stop) (hi : i = r.start ∨ i = r.stop) (hn : 0 < p.nreads i) :
    0 < weight cfg p r i := by
  unfold weight
  simp only
  have h1 : 0 ≤ rampPower cfg p r := getPower_nonneg _
  have hne : (p.tbar r.stop - p.tbar r.start) / 2 ≠ 0 := by
    intro h; apply ht; linarith
  rw [if_neg hne]
  have habs : |(p.tbar i - (p.tbar r.start + p.tbar r.stop) / 2) / ((p.tbar r.stop - p.tbar r.start) / 2)| = 1 := by
    rcases hi with rfl | rfl
    · have : (p.tbar r.start - (p.tbar r.start + p.tbar r.stop) / 2) / ((p.tbar r.stop - p.tbar r.start) / 2) = -1 := by
        rw [div_eq_iff hne]; ring
      rw [this]; simp
    · have : (p.tbar r.stop - (p.tbar r.start + p.tbar r.stop) / 2) / ((p.tbar r.stop - p.tbar r.start) / 2) = 1 := by
        rw [div_eq_iff hne]; ring
      rw [this]; simp
  rw [habs, hp.2, mul_one]
  have : (0 : α) < (p.nreads i : α) := by exact_mod_cast hn
  positivity

theorem mem_idx {r : Ramp} {i : Nat} : i ∈ r.idx ↔ r.start ≤ i ∧ i ≤ r.stop := by
  unfold Ramp.idx
  rw [List.mem_range'_1]
  omega

/-- A ramp of two or more resultants with positive read counts and different end times is fitted; the slope is a
linear combination of the resultants whose coefficients sum to zero and reproduce the time slope, and the read variance
is the matching sum. -/
theorem fitRamp_some (cfg : Cfg α) (hp : Cas22PowOk cfg.pow) (p : Pix α) (r : Ramp) (hr : r.start < r.stop)
    (ht : p.tbar r.start ≠ p.tbar r.stop) (hn : ∀ i, r.start ≤ i → i ≤ r.stop → 0 < p.nreads i) :
    ∃ c : Nat → α, fitRamp cfg p r = some (r.idx.foldl (fitStep p c) (⟨0, 0, 0⟩, 0)).1
      ∧ (r.idx.map c).sum = 0 ∧ (r.idx.map fun i => c i * p.tbar i).sum = 1
      ∧ ∀ i, c i = ((r.idx.map (weight cfg p r)).sum * p.tbar i - (r.idx.map fun i => weight cfg p r i * p.tbar i).sum)
          * weight cfg p r i / ((r.idx.map fun i => weight cfg p r i * (p.tbar i * p.tbar i)).sum
            * (r.idx.map (weight cfg p r)).sum - (r.idx.map fun i => weight cfg p r i * p.tbar i).sum
            * (r.idx.map fun i => weight cfg p r i * p.tbar i).sum) := by
  have hd := det_pos r.idx (weight cfg p r) p.tbar (fun i _ => weight_nonneg cfg hp p r i) r.start r.stop
    (mem_idx.2 ⟨le_rfl, by omega⟩) (mem_idx.2 ⟨by omega, le_rfl⟩)
    (weight_end_pos cfg hp p r _ ht (Or.inl rfl) (hn _ le_rfl (by omega)))
    (weight_end_pos cfg hp p r _ ht (Or.inr rfl) (hn _ (by omega) le_rfl)) ht
  obtain ⟨m0, m1⟩ := coeff_moments r.idx (weight cfg p r) p.tbar _ _ _ rfl rfl rfl hd.ne'
  refine ⟨_, ?_, m0, m1, fun i => rfl⟩
  unfold fitRamp
  rw [if_neg (by omega)]
  simp only
  rw [if_neg hd.ne']

/-- Resultants on a line `a + b·t̄` give the slope `b`; the read variance is never negative, and positive for a
non-zero read noise. -/
theorem C37_exact_on_lines (cfg : Cfg α) (hp : Cas22PowOk cfg.pow) (p : Pix α) (r : Ramp) (hr : r.start < r.stop)
    (ht : p.tbar r.start ≠ p.tbar r.stop) (hn : ∀ i, r.start ≤ i → i ≤ r.stop → 0 < p.nreads i) :
    ∃ f, fitRamp cfg p r = some f ∧ 0 ≤ f.readVar ∧ (p.readNoise ≠ 0 → 0 < f.readVar)
      ∧ ∀ a b, (∀ i, r.start ≤ i → i ≤ r.stop → p.res i = a + b * p.tbar i) → f.slope = b := by
  obtain ⟨c, h1, h2, h3, -⟩ := fitRamp_some cfg hp p r hr ht hn
  obtain ⟨s1, s2⟩ := foldl_fitStep p c r.idx (⟨0, 0, 0⟩, 0)
  simp only [zero_add] at s1 s2
  have hterm : ∀ i ∈ r.idx, 0 ≤ c i * c i * (p.readNoise * p.readNoise) / (p.nreads i : α) := by
    intro i _
    have := mul_self_nonneg (c i)
    have := mul_self_nonneg p.readNoise
    positivity
  refine ⟨_, h1, by rw [s2]; exact sum_nonneg' _ _ hterm, fun hrn => ?_, fun a b hl => ?_⟩
  · have hex : ∃ i ∈ r.idx, c i ≠ 0 := by
      by_contra hc
      push Not at hc
      have : (r.idx.map fun i => c i * p.tbar i).sum = (r.idx.map fun i => (0 : α) * p.tbar i).sum :=
        sum_map_congr' fun i hi => by rw [hc i hi]
      rw [this, sum_map_mul', zero_mul] at h3
      exact zero_ne_one h3
    obtain ⟨i, hi, hci⟩ := hex
    rw [s2]
    refine lt_of_lt_of_le ?_ (le_sum' r.idx _ hterm i hi)
    obtain ⟨g1, g2⟩ := mem_idx.1 hi
    have hni : (0 : α) < (p.nreads i : α) := by exact_mod_cast hn i g1 g2
    have := mul_self_pos.2 hci
    have := mul_self_pos.2 hrn
    positivity
  · rw [s1]
    have e : (r.idx.map fun i => c i * p.res i).sum = (r.idx.map fun i => a * c i + b * (c i * p.tbar i)).sum :=
      sum_map_congr' fun i hi => by
        obtain ⟨g1, g2⟩ := mem_idx.1 hi
        rw [hl i g1 g2]; ring
    rw [e, sum_map_add', sum_map_mul', sum_map_mul', h2, h3]
    ring

/-- A constant pedestal under the resultants does not change the fit at all. -/
theorem C37_pedestal_ignored (cfg : Cfg α) (hp : Cas22PowOk cfg.pow) (p : Pix α) (r : Ramp) (hr : r.start < r.stop)
    (ht : p.tbar r.start ≠ p.tbar r.stop) (hn : ∀ i, r.start ≤ i → i ≤ r.stop → 0 < p.nreads i) (d : α) :
    fitRamp cfg { p with res := fun i => p.res i + d } r = fitRamp cfg p r := by
  obtain ⟨c, h1, h2, h3, h4⟩ := fitRamp_some cfg hp p r hr ht hn
  obtain ⟨c', h1', h2', h3', h4'⟩ := fitRamp_some cfg hp { p with res := fun i => p.res i + d } r hr ht hn
  have hw : weight cfg { p with res := fun i => p.res i + d } r = weight cfg p r := by
    funext i
    simp only [weight, rampPower]
    have : p.res r.stop + d - (p.res r.start + d) = p.res r.stop - p.res r.start := by ring
    rw [this]
  have hc : c' = c := by
    funext i
    rw [h4, h4', hw]
  subst hc
  rw [h1, h1']
  congr 1
  have key : ∀ (l : List Nat) (a b : Fit α × α), a.1.readVar = b.1.readVar → a.1.poissonVar = b.1.poissonVar →
      a.2 = b.2 →
      ((l.foldl (fitStep { p with res := fun i => p.res i + d } c') a).1.readVar = (l.foldl (fitStep p c') b).1.readVar
      ∧ (l.foldl (fitStep { p with res := fun i => p.res i + d } c') a).1.poissonVar
        = (l.foldl (fitStep p c') b).1.poissonVar) := by
    intro l
    induction l with
    | nil => intro a b h1 h2 _; exact ⟨h1, h2⟩
    | cons k t ih =>
      intro a b h1 h2 h3
      rw [List.foldl_cons, List.foldl_cons]
      exact ih _ _ (by simp only [fitStep, h1]) (by simp only [fitStep, h2, h3]) (by simp only [fitStep, h3])
  obtain ⟨k1, k2⟩ := key r.idx (⟨0, 0, 0⟩, 0) (⟨0, 0, 0⟩, 0) rfl rfl rfl
  have s1 := (foldl_fitStep { p with res := fun i => p.res i + d } c' r.idx (⟨0, 0, 0⟩, 0)).1
  have s2 := (foldl_fitStep p c' r.idx (⟨0, 0, 0⟩, 0)).1
  have hs : (r.idx.foldl (fitStep { p with res := fun i => p.res i + d } c') (⟨0, 0, 0⟩, 0)).1.slope
      = (r.idx.foldl (fitStep p c') (⟨0, 0, 0⟩, 0)).1.slope := by
    rw [s1, s2]
    have : (r.idx.map fun i => c' i * (p.res i + d)).sum = (r.idx.map fun i => c' i * p.res i + d * c' i).sum :=
      sum_map_congr' fun i _ => by ring
    simp only [this]
    rw [sum_map_add', sum_map_mul', h2]
    ring
  generalize (r.idx.foldl (fitStep { p with res := fun i => p.res i + d } c') (⟨0, 0, 0⟩, 0)).1 = x at *
  generalize (r.idx.foldl (fitStep p c') (⟨0, 0, 0⟩, 0)).1 = y at *
  cases x; cases y; simp_all

/-- Ramps of fewer than two resultants give no value. -/
theorem C37_short_ramps (cfg : Cfg α) (p : Pix α) (r : Ramp) : fitRamp cfg p r = none ↔ r.stop ≤ r.start := by
  unfold fitRamp
  constructor
  · intro h
    by_contra hc
    rw [if_neg (by omega)] at h
    simp only at h
    split at h <;> simp at h
  · intro h
    rw [if_pos (by omega)]

end

/-- An example pixel: four single-read resultants at times 1, 2, 3, 4 (read noise 2). -/
def cas22Ex (res : Nat → ℚ) : Pix ℚ := ⟨fun i => (i : ℚ) + 1, fun i => (i : ℚ) + 1, fun _ => 1, res, 2⟩
/-- `pow` replaced by 1 (power 0); `sqrt` and `log10` by stand-ins. -/
def cas22Cfg (useJump : Bool) : Verif.Cas22.Cfg ℚ := ⟨fun x => x, fun _ _ => 1, fun _ => 0, 2, 1, useJump⟩

example : Cas22PowOk (cas22Cfg true).pow := ⟨fun _ _ _ => zero_le_one, fun _ => rfl⟩
example : (fitRamp (cas22Cfg false) (cas22Ex fun i => 7 + 3 * ((i : ℚ) + 1)) ⟨0, 3⟩) = some ⟨3, 4 / 5, 17 / 50⟩ := by
  decide +kernel

/-! ## C73: the average over the ramps of a pixel -/

section
variable {α : Type*} [Field α] [LinearOrder α] [IsStrictOrderedRing α]

/-- With positive read variances the pixel slope is the inverse-variance mean of the fitted ramps: between the least
and greatest of their slopes, its read variance is `1/Σ(1/v)`, at most each `v`; degenerate ramps do not count.  If
there is no fitted ramp, slope and variances are zero. -/
theorem C73_average (fits : List (Option (Fit α))) (F : List (Fit α)) (hF : F = fits.filterMap id)
    (hv : ∀ f ∈ F, 0 < f.readVar) :
    (F = [] → average fits = ⟨0, 0, 0⟩)
    ∧ (F ≠ [] →
      (average fits).slope = (F.map fun f => f.slope / f.readVar).sum / (F.map fun f => 1 / f.readVar).sum
      ∧ (average fits).readVar = 1 / (F.map fun f => 1 / f.readVar).sum
      ∧ (∀ lo hi, (∀ f ∈ F, lo ≤ f.slope ∧ f.slope ≤ hi) → lo ≤ (average fits).slope ∧ (average fits).slope ≤ hi)
      ∧ ∀ f ∈ F, (average fits).readVar ≤ f.readVar) := by
  constructor
  · intro h
    unfold average
    simp only [← hF, h]
    simp
  · intro hne
    obtain ⟨m1, m2, m3⟩ := Verif.Ols.wmean_spec F (fun f => f.slope) (fun f => f.readVar) hne hv
    have hw : F.map (fun f : Fit α => if f.readVar = 0 then 0 else 1 / f.readVar) = F.map fun f => 1 / f.readVar :=
      List.map_congr_left fun f hf => by rw [if_neg (hv f hf).ne']
    have hs : F.map (fun f : Fit α => (if f.readVar = 0 then 0 else 1 / f.readVar) * f.slope)
        = F.map fun f => f.slope / f.readVar :=
      List.map_congr_left fun f hf => by rw [if_neg (hv f hf).ne']; ring
    have hr : F.map (fun f : Fit α => (if f.readVar = 0 then 0 else 1 / f.readVar)
          * (if f.readVar = 0 then 0 else 1 / f.readVar) * f.readVar) = F.map fun f => 1 / f.readVar :=
      List.map_congr_left fun f hf => by
        have := (hv f hf).ne'
        rw [if_neg this]; field_simp
    have hpos : 0 < (F.map fun f => 1 / f.readVar).sum :=
      Verif.Ols.sum_pos_of_mem F _ (fun x hx => by have := hv x hx; positivity) hne
    have e1 : (average fits).slope = (F.map fun f => f.slope / f.readVar).sum / (F.map fun f => 1 / f.readVar).sum := by
      unfold average
      simp only [← hF, hw, hs]
      rw [if_pos hpos.ne']
    have e2 : (average fits).readVar = 1 / (F.map fun f => 1 / f.readVar).sum := by
      unfold average
      simp only [← hF, hw, hr]
      rw [if_pos hpos.ne']
      have := hpos.ne'
      field_simp
    refine ⟨e1, e2, fun lo hi h => ?_, fun f hf => ?_⟩
    · rw [e1, ← mul_one_div]; exact m1 lo hi h
    · rw [e2]; exact m3 f hf

/-- The hypothesis of positive read variances holds for every pixel of `n` resultants with increasing mean times, positive
read counts and non-zero read noise. -/
theorem C73_pixel_variances_positive (cfg : Cfg α) (hp : Cas22PowOk cfg.pow) (p : Pix α) (n : Nat)
    (ht : ∀ i j, i < j → j < n → p.tbar i < p.tbar j) (hn : ∀ i, i < n → 0 < p.nreads i) (hrn : p.readNoise ≠ 0)
    (ramps : List Ramp) (hin : ∀ r ∈ ramps, r.stop < n) :
    ∀ f ∈ (ramps.map (fitRamp cfg p)).filterMap id, 0 < f.readVar := by
  intro f hf
  rw [List.mem_filterMap] at hf
  obtain ⟨o, ho, h⟩ := hf
  obtain ⟨r, hm, rfl⟩ := List.mem_map.1 ho
  have := hin r hm
  by_cases hr : r.stop ≤ r.start
  · rw [(C37_short_ramps cfg p r).2 hr] at h
    simp at h
  · obtain ⟨g, hg, -, h2, -⟩ := C37_exact_on_lines cfg hp p r (by omega) (ht _ _ (by omega) this).ne
      fun i _ hi => hn i (by omega)
    rw [hg] at h
    simp only [id_eq, Option.some.injEq] at h
    subst h
    exact h2 hrn

end

example : average [some ⟨3, 1, 1⟩, none, some (⟨6, 2, 1⟩ : Fit ℚ)] = ⟨4, 2 / 3, 20 / 9⟩ := by decide +kernel

/-! ## C74: the Poisson variance is a variance -/

section
variable {α : Type*} [Field α] [LinearOrder α] [IsStrictOrderedRing α]

/-- Accumulation read by read: variance and covariance sums of single reads `(x, t)`. -/
def readStep (a : α × α) (x : α × α) : α × α := (a.1 + (x.1 * x.1 * x.2 + 2 * x.1 * a.2), a.2 + x.1 * x.2)

theorem readStep_lin (l : List (α × α)) (V S : α) :
    (l.foldl readStep (V, S)).1 = V + 2 * S * (l.map Prod.fst).sum + (l.foldl readStep (0, 0)).1 := by
  induction l generalizing V S with
  | nil => simp
  | cons x t ih =>
    rw [List.foldl_cons, List.foldl_cons, List.map_cons, List.sum_cons]
    simp only [readStep]
    rw [ih, ih (0 + (x.1 * x.1 * x.2 + 2 * x.1 * 0)) (0 + x.1 * x.2)]
    ring

/-- The kernel `min(s,t)` is positive semidefinite. -/
theorem readStep_nonneg (l : List (α × α)) (b : α) (hb : 0 ≤ b) (hl : ∀ x ∈ l, b ≤ x.2)
    (hs : l.Pairwise fun x y => x.2 ≤ y.2) :
    b * ((l.map Prod.fst).sum * (l.map Prod.fst).sum) ≤ (l.foldl readStep (0, 0)).1 := by
  induction l generalizing b with
  | nil => simp
  | cons x t ih =>
    rw [List.pairwise_cons] at hs
    have hbx := hl x (by simp)
    have h := ih x.2 (by linarith) (fun y hy => hs.1 y hy) hs.2
    rw [List.foldl_cons, readStep_lin, List.map_cons, List.sum_cons]
    simp only [readStep]
    set X := (t.map Prod.fst).sum
    have := mul_self_nonneg (x.1 + X)
    nlinarith

/-- `Σ (2(N-k)-1) t_k`, recursively. -/
def tauSum : List α → α
  | [] => 0
  | t :: ts => (2 * ((ts.length : α) + 1) - 1) * t + tauSum ts

theorem tauSum_eq (ts : List α) :
    (∑ k ∈ Finset.range ts.length, (2 * ((ts.length : α) - (k : α)) - 1) * ts.getD k 0) = tauSum ts := by
  induction ts with
  | nil => simp [tauSum]
  | cons t ts ih =>
    rw [List.length_cons, Finset.sum_range_succ', tauSum, ← ih, add_comm]
    congr 1
    · simp
    · refine Finset.sum_congr rfl fun k _ => ?_
      rw [List.getD_cons_succ]
      push_cast
      ring

theorem read_block (x c : α) (ts : List α) (V S : α) :
    (ts.map fun t => (x, c * t)).foldl readStep (V, S)
      = (V + (2 * ((ts.length : α) * x) * S + x * x * (c * tauSum ts)), S + x * (c * ts.sum)) := by
  induction ts generalizing V S with
  | nil => simp [tauSum]
  | cons t ts ih =>
    rw [List.map_cons, List.foldl_cons, readStep, ih]
    simp only [tauSum, List.length_cons, List.sum_cons]
    push_cast
    refine Prod.ext ?_ ?_ <;> simp only <;> ring

/-- The pixel's time tables come, for the resultants `l`, from a read pattern: `reads i` are the read numbers averaged in
resultant `i`. -/
def FromPattern (p : Pix α) (readTime : α) (reads : Nat → List α) (l : List Nat) : Prop :=
  ∀ i ∈ l, reads i ≠ [] ∧ p.nreads i = (reads i).length ∧ p.tbar i = meanTime readTime (reads i)
    ∧ p.tau i = tauTime readTime (reads i)

/-- A read pattern in time order: non-negative read numbers, never decreasing. -/
def PatternOrdered (reads : Nat → List α) (l : List Nat) : Prop :=
  (∀ t ∈ l.flatMap reads, 0 ≤ t) ∧ (l.flatMap reads).Pairwise (· ≤ ·)

theorem fold_blocks (p : Pix α) (readTime : α) (reads : Nat → List α) (c : Nat → α) (l : List Nat)
    (hp : FromPattern p readTime reads l) (a : Fit α × α) :
    ((l.foldl (fitStep p c) a).1.poissonVar, (l.foldl (fitStep p c) a).2)
      = (l.flatMap fun i => (reads i).map fun t => (c i / ((reads i).length : α), readTime * t)).foldl readStep
          (a.1.poissonVar, a.2) := by
  induction l generalizing a with
  | nil => rfl
  | cons k t ih =>
    rw [List.foldl_cons, ih fun i hi => hp i (List.mem_cons_of_mem _ hi), List.flatMap_cons, List.foldl_append, read_block]
    obtain ⟨h1, -, h3, h4⟩ := hp k List.mem_cons_self
    have hlen : ((reads k).length : α) ≠ 0 := by
      rw [Nat.cast_ne_zero]
      exact fun h => h1 (List.length_eq_zero_iff.1 h)
    congr 1
    refine Prod.ext ?_ ?_
    · simp only [fitStep, h4, tauTime, tauSum_eq]
      field_simp
      ring
    · simp only [fitStep, h3, meanTime]
      field_simp

/-- For every ordered read pattern, whatever the weights, the Poisson variance of a fitted ramp is not negative. -/
theorem C74_poisson_variance_nonneg (cfg : Cfg α) (p : Pix α) (readTime : α) (h0 : 0 ≤ readTime)
    (reads : Nat → List α) (r : Ramp) (hp : FromPattern p readTime reads r.idx) (ho : PatternOrdered reads r.idx)
    (f : Fit α) (hf : fitRamp cfg p r = some f) : 0 ≤ f.poissonVar := by
  unfold fitRamp at hf
  split at hf
  · simp at hf
  · simp only at hf
    split at hf
    · simp only [Option.some.injEq] at hf
      subst hf
      exact le_rfl
    · simp only [Option.some.injEq] at hf
      subst hf
      generalize hc : (fun i => ((r.idx.map (weight cfg p r)).sum * p.tbar i
        - (r.idx.map fun i => weight cfg p r i * p.tbar i).sum) * weight cfg p r i
        / ((r.idx.map fun i => weight cfg p r i * (p.tbar i * p.tbar i)).sum * (r.idx.map (weight cfg p r)).sum
          - (r.idx.map fun i => weight cfg p r i * p.tbar i).sum
            * (r.idx.map fun i => weight cfg p r i * p.tbar i).sum)) = c
      have hb := congrArg Prod.fst (fold_blocks p readTime reads c r.idx hp (⟨0, 0, 0⟩, 0))
      simp only at hb
      rw [hb]
      have hmap : (r.idx.flatMap fun i => (reads i).map fun t => (c i / ((reads i).length : α), readTime * t)).map Prod.snd
          = (r.idx.flatMap reads).map fun t => readTime * t := by
        rw [List.map_flatMap, List.map_flatMap]
        simp [Function.comp_def]
      have hpw : ((r.idx.flatMap fun i => (reads i).map fun t => (c i / ((reads i).length : α), readTime * t)).map
          Prod.snd).Pairwise (· ≤ ·) := by
        rw [hmap]
        exact List.Pairwise.map _ (fun a b hab => mul_le_mul_of_nonneg_left hab h0) ho.2
      have := readStep_nonneg (r.idx.flatMap fun i => (reads i).map fun t => (c i / ((reads i).length : α), readTime * t))
        0 le_rfl (fun x hx => ?_) (List.pairwise_map.1 hpw)
      · simpa using this
      · have : x.2 ∈ (r.idx.flatMap reads).map fun t => readTime * t := by
          rw [← hmap]; exact List.mem_map.2 ⟨x, hx, rfl⟩
        obtain ⟨t, ht, he⟩ := List.mem_map.1 this
        rw [← he]
        exact mul_nonneg h0 (ho.1 t ht)

/-- The same for the pixel's averaged Poisson variance. -/
theorem C74_average_poisson_nonneg (fits : List (Option (Fit α)))
    (h : ∀ f, some f ∈ fits → 0 ≤ f.poissonVar) : 0 ≤ (average fits).poissonVar := by
  unfold average
  simp only
  refine mul_nonneg (div_nonneg (List.sum_nonneg ?_) ?_) (le_max_right _ _)
  · intro x hx
    obtain ⟨f, hf, rfl⟩ := List.mem_map.1 hx
    obtain ⟨o, ho, he⟩ := List.mem_filterMap.1 hf
    simp only [id_eq] at he
    subst he
    have := h f ho
    have := mul_self_nonneg (if f.readVar = 0 then 0 else 1 / f.readVar)
    positivity
  · split
    · exact mul_self_nonneg _
    · exact zero_le_one

/-- Non-vacuity: a pattern with averaged reads (read 1; reads 2,3; reads 4,5). -/
def cas22Reads (i : Nat) : List ℚ := if i = 0 then [1] else [2 * (i : ℚ), 2 * (i : ℚ) + 1]

example : FromPattern (⟨fun i => meanTime 3 (cas22Reads i), fun i => tauTime 3 (cas22Reads i),
    fun i => (cas22Reads i).length, fun i => (i : ℚ) * 20, 2⟩ : Pix ℚ) 3 cas22Reads (Ramp.idx ⟨0, 2⟩) := by
  intro i _
  refine ⟨?_, rfl, rfl, rfl⟩
  unfold cas22Reads
  split <;> simp

example : PatternOrdered cas22Reads (Ramp.idx ⟨0, 2⟩) := by unfold PatternOrdered; decide +kernel
example : (fitRamp (cas22Cfg false) ⟨fun i => meanTime 3 (cas22Reads i), fun i => tauTime 3 (cas22Reads i),
    fun i => (cas22Reads i).length, fun i => (i : ℚ) * 20, 2⟩ ⟨0, 2⟩).map (fun f => decide (0 < f.poissonVar))
    = some true := by decide +kernel

end

/-! ## C75: the jump test -/

section
variable {α : Type*} [Field α] [LinearOrder α]

/-- The statistic the code forms at position `k` of a ramp: the single difference at the last position, otherwise the
larger of single and double difference. -/
def posStat (cfg : Cfg α) (p : Pix α) (r : Ramp) (slope : α) (k : Nat) : Ext α :=
  if k + 1 = r.stop - r.start then stat cfg p r slope (r.stop - 1) 1
  else fmax (stat cfg p r slope (r.start + k) 1) (stat cfg p r slope (r.start + k) 2)

theorem gt_trans_false {a b c : Ext α} (hb : b ≠ none) (h1 : gt a b = false) (h2 : gt b c = false) : gt a c = false := by
  cases a <;> cases b <;> cases c <;> simp_all [gt]
  exact le_trans h1 h2

theorem maxStep_spec (f : Nat → Ext α) (l : List Nat) (a : Nat × Ext α) (ha : a.2 ≠ none) :
    (l.foldl (maxStep f) a).2 ≠ none
    ∧ gt a.2 (l.foldl (maxStep f) a).2 = false ∧ (∀ k ∈ l, gt (f k) (l.foldl (maxStep f) a).2 = false)
    ∧ (l.foldl (maxStep f) a = a ∨ ((l.foldl (maxStep f) a).1 ∈ l
        ∧ (l.foldl (maxStep f) a).2 = f (l.foldl (maxStep f) a).1)) := by
  have hrefl : ∀ x : Ext α, gt x x = false := by intro x; cases x <;> simp [gt]
  induction l generalizing a with
  | nil => exact ⟨ha, hrefl _, by simp, Or.inl rfl⟩
  | cons k t ih =>
    rw [List.foldl_cons]
    by_cases hg : gt (f k) a.2 = true
    · have hm : maxStep f a k = (k, f k) := by rw [maxStep, if_pos hg]
      rw [hm]
      have hk : f k ≠ none := by intro h; rw [h] at hg; simp [gt] at hg
      obtain ⟨h0, h1, h2, h3⟩ := ih (k, f k) hk
      simp only at h1
      refine ⟨h0, ?_, ?_, Or.inr ?_⟩
      · refine gt_trans_false hk ?_ h1
        cases hfk : f k <;> cases ha2 : a.2 <;> simp_all [gt]
        exact le_of_lt hg
      · intro j hj
        rcases List.mem_cons.1 hj with rfl | hj
        · exact h1
        · exact h2 j hj
      · rcases h3 with h3 | ⟨h3, h4⟩
        · rw [h3]; simp
        · exact ⟨List.mem_cons_of_mem _ h3, h4⟩
    · rw [Bool.not_eq_true] at hg
      have hm : maxStep f a k = a := by rw [maxStep, hg]; rfl
      rw [hm]
      obtain ⟨h0, h1, h2, h3⟩ := ih a ha
      refine ⟨h0, h1, ?_, ?_⟩
      · intro j hj
        rcases List.mem_cons.1 hj with rfl | hj
        · exact gt_trans_false ha hg h1
        · exact h2 j hj
      · rcases h3 with h3 | ⟨h3, h4⟩
        · exact Or.inl h3
        · exact Or.inr ⟨List.mem_cons_of_mem _ h3, h4⟩

theorem jump_pos (cfg : Cfg α) (p : Pix α) (r : Ramp) (hr : r.start < r.stop) (hj : cfg.useJump = true)
    (f : Fit α) (hf : fitRamp cfg p r = some f) (hlast : posStat cfg p r f.slope (r.stop - r.start - 1) ≠ none) :
    (detect cfg p r = none ↔
      ∀ k, k < r.stop - r.start → gt (posStat cfg p r f.slope k) (fin (threshold cfg f.slope)) = false)
    ∧ ∀ a, detect cfg p r = some a → a < r.stop - r.start
      ∧ gt (posStat cfg p r f.slope a) (fin (threshold cfg f.slope)) = true
      ∧ ∀ k, k < r.stop - r.start → gt (posStat cfg p r f.slope k) (posStat cfg p r f.slope a) = false := by
  have hl0 : posStat cfg p r f.slope (r.stop - r.start - 1) = stat cfg p r f.slope (r.stop - 1) 1 := by
    rw [posStat, if_pos (by omega)]
  rw [hl0] at hlast
  have hin : ∀ k, k < r.stop - 1 - r.start → stat2 cfg p r f.slope (r.start + k) = posStat cfg p r f.slope k := by
    intro k hk
    rw [posStat, if_neg (by omega)]; rfl
  obtain ⟨h0, h1, h2, h3⟩ := maxStep_spec (fun k => stat2 cfg p r f.slope (r.start + k))
    (List.range (r.stop - 1 - r.start)) (r.stop - r.start - 1, stat cfg p r f.slope (r.stop - 1) 1) hlast
  have hfs : fitStatistic cfg p r f.slope = (List.range (r.stop - 1 - r.start)).foldl
      (maxStep fun k => stat2 cfg p r f.slope (r.start + k))
      (r.stop - r.start - 1, stat cfg p r f.slope (r.stop - 1) 1) := by
    rw [fitStatistic, if_neg (by omega)]
  rw [← hfs] at h0 h1 h2 h3
  simp only at h1 h2
  have hpos : (fitStatistic cfg p r f.slope).2 = posStat cfg p r f.slope (fitStatistic cfg p r f.slope).1
      ∧ (fitStatistic cfg p r f.slope).1 < r.stop - r.start := by
    rcases h3 with h3 | ⟨h3, h4⟩
    · rw [h3]
      exact ⟨hl0.symm, by simp only; omega⟩
    · rw [List.mem_range] at h3
      exact ⟨by rw [h4]; exact hin _ h3, by omega⟩
  have hmax : ∀ k, k < r.stop - r.start → gt (posStat cfg p r f.slope k) (fitStatistic cfg p r f.slope).2 = false := by
    intro k hk
    by_cases hk' : k = r.stop - r.start - 1
    · rw [hk', hl0]; exact h1
    · rw [← hin k (by omega)]
      exact h2 k (List.mem_range.2 (by omega))
  have hdet : detect cfg p r = if gt (fitStatistic cfg p r f.slope).2 (fin (threshold cfg f.slope))
      then some (fitStatistic cfg p r f.slope).1 else none := by
    unfold detect
    rw [if_pos hj, hf]
  rw [hdet]
  constructor
  · constructor
    · intro h k hk
      split at h
      · simp at h
      · rename_i hg
        rw [Bool.not_eq_true] at hg
        exact gt_trans_false h0 (hmax k hk) hg
    · intro h
      rw [hpos.1, h _ hpos.2]
      rfl
  · intro a ha
    split at ha
    · rename_i hg
      simp only [Option.some.injEq] at ha
      subst ha
      rw [← hpos.1]
      exact ⟨hpos.2, hg, hmax⟩
    · simp at ha

/-- Both are numbers and the first is larger. -/
def Larger (a b : Ext α) : Prop := ∃ x y, a = some x ∧ b = some y ∧ y < x

instance (a b : Ext α) : Decidable (Larger a b) :=
  match a, b with
  | some x, some y => decidable_of_iff (y < x) (by simp [Larger])
  | none, _ => isFalse (by simp [Larger])
  | some _, none => isFalse (by simp [Larger])

theorem gt_iff_larger {a b : Ext α} : gt a b = true ↔ Larger a b := by
  cases a <;> cases b <;> simp [gt, Larger]

theorem gt_false_iff {a b : Ext α} : gt a b = false ↔ ¬ Larger a b := by
  rw [← gt_iff_larger, Bool.not_eq_true]

theorem fmax_larger {a b c : Ext α} : Larger (fmax a b) c ↔ Larger a c ∨ Larger b c := by
  cases a <;> cases b <;> cases c <;> simp [fmax, Larger]

theorem fmax_mem {a b : Ext α} : fmax a b = a ∨ fmax a b = b := by
  cases a <;> cases b <;> simp [fmax]
  exact le_total _ _

/-- Partial: if the statistic of the last difference is a number, a jump is reported exactly when the statistic of some
single or double difference inside the ramp exceeds the threshold for the fitted slope, and then at the first
resultant of the difference with the largest statistic.  Missing: ramps whose last statistic is NaN (negative
variance estimate), see below. -/
theorem C75_jump_test_partial (cfg : Cfg α) (p : Pix α) (r : Ramp) (hr : r.start < r.stop) (hj : cfg.useJump = true)
    (f : Fit α) (hf : fitRamp cfg p r = some f) (hlast : stat cfg p r f.slope (r.stop - 1) 1 ≠ none) :
    (detect cfg p r = none ↔ ∀ i d, r.start ≤ i → (d = 1 ∨ d = 2) → i + d ≤ r.stop →
      ¬ Larger (stat cfg p r f.slope i d) (fin (threshold cfg f.slope)))
    ∧ ∀ a, detect cfg p r = some a → ∃ d, (d = 1 ∨ d = 2) ∧ r.start + a + d ≤ r.stop
      ∧ Larger (stat cfg p r f.slope (r.start + a) d) (fin (threshold cfg f.slope))
      ∧ ∀ i e, r.start ≤ i → (e = 1 ∨ e = 2) → i + e ≤ r.stop →
        ¬ Larger (stat cfg p r f.slope i e) (stat cfg p r f.slope (r.start + a) d) := by
  have hl0 : posStat cfg p r f.slope (r.stop - r.start - 1) = stat cfg p r f.slope (r.stop - 1) 1 := by
    rw [posStat, if_pos (by omega)]
  obtain ⟨h1, h2⟩ := jump_pos cfg p r hr hj f hf (by rw [hl0]; exact hlast)
  simp only [gt_false_iff, gt_iff_larger] at h1 h2
  -- statistics at a position are those of the differences that start there
  have hpos : ∀ (c : Ext α), (∀ k, k < r.stop - r.start → ¬ Larger (posStat cfg p r f.slope k) c)
      ↔ ∀ i d, r.start ≤ i → (d = 1 ∨ d = 2) → i + d ≤ r.stop → ¬ Larger (stat cfg p r f.slope i d) c := by
    intro c
    constructor
    · intro h i d hi hd hid hL
      have hk := h (i - r.start) (by omega)
      rw [posStat] at hk
      split at hk
      · obtain rfl : d = 1 := by omega
        obtain rfl : i = r.stop - 1 := by omega
        exact hk hL
      · rw [fmax_larger, show r.start + (i - r.start) = i by omega] at hk
        rcases hd with rfl | rfl
        · exact hk (Or.inl hL)
        · exact hk (Or.inr hL)
    · intro h k hk
      rw [posStat]
      split
      · exact h _ _ (by omega) (Or.inl rfl) (by omega)
      · rw [fmax_larger]
        rintro (hL | hL)
        · exact h _ _ (by omega) (Or.inl rfl) (by omega) hL
        · exact h _ _ (by omega) (Or.inr rfl) (by omega) hL
  refine ⟨by rw [h1, hpos], fun a ha => ?_⟩
  obtain ⟨ha1, ha2, ha3⟩ := h2 a ha
  rw [hpos] at ha3
  by_cases hk : a + 1 = r.stop - r.start
  · have he : posStat cfg p r f.slope a = stat cfg p r f.slope (r.start + a) 1 := by
      rw [posStat, if_pos hk, show r.start + a = r.stop - 1 by omega]
    rw [he] at ha2 ha3
    exact ⟨1, Or.inl rfl, by omega, ha2, ha3⟩
  · rcases fmax_mem (a := stat cfg p r f.slope (r.start + a) 1) (b := stat cfg p r f.slope (r.start + a) 2) with he | he
    · rw [posStat, if_neg hk, he] at ha2 ha3
      exact ⟨1, Or.inl rfl, by omega, ha2, ha3⟩
    · rw [posStat, if_neg hk, he] at ha2 ha3
      exact ⟨2, Or.inr rfl, by omega, ha2, ha3⟩

end

example : detect (cas22Cfg true) (cas22Ex fun i => if i < 4 then (i : ℚ) else 40 + i) ⟨0, 7⟩ = some 2 := by
  decide +kernel
example : (fitRamp (cas22Cfg true) (cas22Ex fun i => if i < 4 then (i : ℚ) else 40 + i) ⟨0, 7⟩).map
    (fun f => posStat (cas22Cfg true) (cas22Ex fun i => if i < 4 then (i : ℚ) else 40 + i) ⟨0, 7⟩ f.slope 6)
    = some (fin (-560 / 1131)) := by decide +kernel

/-- Finding: the search starts with the statistic of the last difference, and when that is NaN (its variance estimate is
negative, which a falling ramp makes possible) no comparison succeeds, so no jump is reported although another
statistic of the ramp exceeds the threshold. -/
theorem C75_nan_statistic_hides_jump :
    let t : Nat → ℚ := fun i => [1, 2, 3, 4, 8].getD i 9
    let p : Pix ℚ := ⟨t, t, fun _ => 1, fun i => [0, 30, 20, 10, -47].getD i 0, 2⟩
    let r : Ramp := ⟨0, 4⟩
    detect (cas22Cfg true) p r = none
    ∧ (fitRamp (cas22Cfg true) p r).map (fun f => f.slope) = some (-9)
    ∧ posStat (cas22Cfg true) p r (-9) 3 = none
    ∧ gt (posStat (cas22Cfg true) p r (-9) 0) (fin (threshold (cas22Cfg true) (-9))) = true := by
  decide +kernel

end Verif.Thm
