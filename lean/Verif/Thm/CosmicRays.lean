import Verif.Thm.JumpDriver
import Verif.Thm.OlsFlux

/-!
# C129: jump detection followed by the ramp fit recovers the rate of a source behind cosmic rays
-/

set_option linter.unusedSectionVars false

namespace Verif.Thm

open Verif Verif.Dq Verif.Jump Verif.JumpDriver Verif.Ols

variable {α : Type} [Field α] [LinearOrder α] [IsStrictOrderedRing α]

/-! ## Specification -/

/-- Groups `j` and `j + 1` of integration `i` are neither unusable nor saturated. -/
def crPair (p : Params α) (e : Exposure α) (r c i j : Nat) : Bool :=
  decide (¬ Has (e.gdq i j r c) (p.dnu ||| p.sat)) && decide (¬ Has (e.gdq i (j + 1) r c) (p.dnu ||| p.sat))

/-- Number of pairs of neighbouring groups with a property. -/
def crCount (d : Dims) (f : Nat → Nat → Bool) : Nat :=
  ((List.range d.ni).map fun i => (List.range (d.ng - 1)).countP (f i)).sum

/-- The samples of a pixel: a source of `b` per group, and cosmic rays that arrive before the groups marked by `hit`.  Fewer than half of the
usable differences are hit. -/
structure CrRamp (p : Params α) (e : Exposure α) (r c : Nat) (γ b dt : α) (hit : Nat → Nat → Bool) : Prop where
  gain : e.gain r c = some γ
  gpos : 0 < γ
  time : ∀ j, p.dt j = dt
  dpos : 0 < dt
  num : ∀ i < e.d.ni, ∀ g < e.d.ng, ¬ Has (e.gdq i g r c) (p.dnu ||| p.sat) → ∃ v, e.data i g r c = some v
  steady : ∀ i < e.d.ni, ∀ j, j + 1 < e.d.ng → crPair p e r c i j = true → hit i (j + 1) = false →
    ∀ u v, e.data i j r c = some u → e.data i (j + 1) r c = some v → v = u + b
  many : crCount e.d (crPair p e r c) < 2 * crCount e.d fun i j => crPair p e r c i j && !hit i (j + 1)

/-- Noise of the difference `j` of a source of `b` per group. -/
def crNoise (p : Params α) (sqrt : α → α) (e : Exposure α) (r c : Nat) (γ b dt : α) (j : Nat) : α :=
  sqrt (|b * γ / dt| * dt + e.rnoise r c * γ * (e.rnoise r c * γ) / (1 / 2 * p.nReads j)) / dt

/-- The pixel that is handed to the ramp fit, with group flags `w`. -/
def crPix (e : Exposure α) (r c : Nat) (px : Pix α) (pdq : Nat) (z : Nat → Option (Option α)) (w : Cube Nat) : PixIn α :=
  ⟨false, px, pdq, (List.range e.d.ni).map fun i =>
    ((List.range e.d.ng).map fun g => e.data i g r c, (List.range e.d.ng).map fun g => w i g r c, z i)⟩

/-- Integration `i` can be fitted with the group flags `w`: two neighbouring groups can be compared, the first group is not saturated and the
zero frame is not used. -/
def CrUse (fl : Flags) (su : Bool) (e : Exposure α) (r c : Nat) (z : Nat → Option (Option α)) (w : Cube Nat) (i : Nat) : Prop :=
  ¬ ZeroSub su ((List.range e.d.ng).map fun g => w i g r c) (z i) ∧ ¬ Has (((List.range e.d.ng).map fun g => w i g r c).getD 0 0) fl.sat ∧
    ∃ k, FrPair fl ((List.range e.d.ng).map fun g => w i g r c) k

/-- Flags after detection: unusable and saturated samples are still marked as such, and every sample after a hit is a jump. -/
def CrFound (p : Params α) (e : Exposure α) (r c : Nat) (hit : Nat → Nat → Bool) (w : Cube Nat) : Prop :=
  (∀ i < e.d.ni, ∀ g < e.d.ng, Has (e.gdq i g r c) (p.dnu ||| p.sat) → Has (w i g r c) (p.dnu ||| p.sat)) ∧
  ∀ i < e.d.ni, ∀ j, j + 1 < e.d.ng → crPair p e r c i j = true → hit i (j + 1) = true → Has (w i (j + 1) r c) p.jump

/-! ## The fit after any detection that flags the cosmic rays -/

/-- **C129** (fit): whatever else is flagged, if every hit is flagged, rate and rateints are `b` per group time. -/
theorem C129_rate (fl : Flags) (hf : OlsFlagsOk fl) (hj : fl.jump ≠ 0) (hpj : ¬ Has fl.pers fl.jump) (cfg : Cfg α) (hpow : PowOk cfg.powf)
    (p : Params α) (hfl : fl.jump = p.jump ∧ fl.dnu = p.dnu ∧ fl.sat = p.sat) (e : Exposure α) (r c : Nat) (γ b dt : α)
    (hit : Nat → Nat → Bool) (hramp : CrRamp p e r c γ b dt hit) (w : Cube Nat)
    (hfound : CrFound p e r c hit w)
    (px : Pix α) (pdq : Nat) (z : Nat → Option (Option α)) (hd : ¬ Has pdq fl.dnu) (hst : ¬ Has pdq fl.sat) (hg : 0 < px.gain)
    (hr : px.rnoise ≠ 0) (ht : cfg.groupTime ≠ 0) (hsmall : 2 * (px.rnoise / (cfg.groupTime * px.gain)) ^ 2 < 1000000)
    (hints : ∀ i < e.d.ni, CrUse fl cfg.suppress1g e r c z w i ∨
      DeadInteg fl cfg.suppress1g ((List.range e.d.ng).map fun g => w i g r c) (z i))
    (hone : ∃ i < e.d.ni, CrUse fl cfg.suppress1g e r c z w i) :
    (fitPixel fl cfg e.d.ng (crPix e r c px pdq z w)).2.slope = some (b / cfg.groupTime) ∧
    ∀ i < e.d.ni, CrUse fl cfg.suppress1g e r c z w i →
      ((fitPixel fl cfg e.d.ng (crPix e r c px pdq z w)).1[i]?).map (·.slope) = some (some (b / cfg.groupTime)) := by
  obtain ⟨e1, e2, e3⟩ := hfl
  obtain ⟨hkeep, hhit⟩ := hfound
  have hget : ∀ (f : Nat → Nat) (g : Nat), g < e.d.ng → ((List.range e.d.ng).map f).getD g 0 = f g := by
    intro f g hg
    rw [List.getD_eq_getElem?_getD, List.getElem?_map, List.getElem?_range hg]
    rfl
  have hgetD : ∀ (f : Nat → Option α) (g : Nat), g < e.d.ng → ((List.range e.d.ng).map f)[g]? = some (f g) := by
    intro f g hg
    rw [List.getElem?_map, List.getElem?_range hg]
    rfl
  -- usable integrations satisfy the hypothesis of C128
  have huse : ∀ i < e.d.ni, CrUse fl cfg.suppress1g e r c z w i → FrFit fl cfg.suppress1g
      ((List.range e.d.ng).map fun g => e.data i g r c, (List.range e.d.ng).map fun g => w i g r c, z i) b := by
    intro i hi hu
    refine ⟨hu.1, hu.2.1, hu.2.2, fun k hk => ?_⟩
    simp only at hk ⊢
    have u1 := fr_unflagged fl hf _ k hk.2
    have u2 := fr_unflagged fl hf _ (k + 1) (Or.inl hk.1)
    have hk1 : k + 1 < e.d.ng := by simpa using u2.1
    have hk0 : k < e.d.ng := by omega
    rw [hget _ _ hk0] at u1
    rw [hget _ _ hk1] at u2
    have us : ∀ g, g < e.d.ng → ¬ Has (w i g r c) fl.sat → ¬ Has (w i g r c) fl.dnu → ¬ Has (e.gdq i g r c) (p.dnu ||| p.sat) := by
      intro g hg h1 h2 h
      have := hkeep i hi g hg h
      rw [has_or_right, ← e2, ← e3] at this
      exact this.elim h2 h1
    have p1 := us k hk0 u1.2.1 u1.2.2
    have p2 := us (k + 1) hk1 u2.2.1 u2.2.2
    have hp : crPair p e r c i k = true := by simp [crPair, p1, p2]
    have hnh : hit i (k + 1) = false := by
      by_contra hc
      rw [Bool.not_eq_false] at hc
      have := hhit i hi k hk1 hp hc
      rw [← e1, has_iff] at this
      obtain ⟨m, h1, h2⟩ := this
      obtain ⟨_, h3⟩ := hk.1
      simp only [List.getElem_map, List.getElem_range] at h3
      exact hpj (has_iff.2 ⟨m, h3 m h1, h2⟩)
    obtain ⟨u, hu'⟩ := hramp.num i hi k hk0 p1
    obtain ⟨v, hv'⟩ := hramp.num i hi (k + 1) hk1 p2
    refine ⟨u, by rw [hgetD _ _ hk0, hu'], ?_⟩
    rw [hgetD _ _ hk1, hv', hramp.steady i hi k hk1 hp hnh u v hu' hv']
  have hix : ∀ (i : Nat), i < e.d.ni → (crPix e r c px pdq z w).ints[i]? = some
      ((List.range e.d.ng).map fun g => e.data i g r c, (List.range e.d.ng).map fun g => w i g r c, z i) := by
    intro i hi
    simp only [crPix]
    rw [List.getElem?_map, List.getElem?_range hi]
    rfl
  have hmem : ∀ x ∈ (crPix e r c px pdq z w).ints, ∃ i < e.d.ni, x =
      ((List.range e.d.ng).map fun g => e.data i g r c, (List.range e.d.ng).map fun g => w i g r c, z i) := by
    intro x hx
    obtain ⟨i, hi, rfl⟩ := List.mem_map.1 hx
    exact ⟨i, by simpa using hi, rfl⟩
  have key := C128_rate fl hf hj cfg hpow e.d.ng (crPix e r c px pdq z w) hd hst hg hr ht hsmall
    (fun x hx => by obtain ⟨i, -, rfl⟩ := hmem x hx; simp) b
    (fun x hx => by
      obtain ⟨i, hi, rfl⟩ := hmem x hx
      exact (hints i hi).imp_left (huse i hi))
    (by
      obtain ⟨i, hi, hu⟩ := hone
      exact ⟨_, List.mem_of_getElem? (hix i hi), huse i hi hu⟩)
  exact ⟨key.1, fun i hi hu => key.2 i _ (hix i hi) (huse i hi hu)⟩

/-! ## Differences -/

/-- A value that at least half of the numbers do not exceed, and at least half are not below, is the value of the majority. -/
theorem cr_major (L : List α) (m v : α) (h : L.length < 2 * L.countP fun x => decide (x = m))
    (h1 : L.length ≤ 2 * L.countP fun x => decide (x ≤ v)) (h2 : L.length ≤ 2 * L.countP fun x => decide (v ≤ x)) : v = m := by
  have hsplit : ∀ (q : α → Bool), (∀ x, q x = true → x ≠ m) → L.countP q + L.countP (fun x => decide (x = m)) ≤ L.length := by
    intro q hq
    clear h h1 h2
    induction L with
    | nil => simp
    | cons x L ih =>
      simp only [List.countP_cons, List.length_cons]
      by_cases h1 : q x = true
      · have := hq x h1
        simp only [h1, if_true, this, decide_false, Bool.false_eq_true, if_false]
        omega
      · by_cases h2 : x = m
        · subst h2
          simp only [h1, Bool.false_eq_true, if_false, decide_true, if_true]
          omega
        · simp only [h1, h2, decide_false, Bool.false_eq_true, if_false]
          omega
  rcases lt_trichotomy v m with hlt | heq | hlt
  · have := hsplit (fun x => decide (x ≤ v)) fun x hx => by
      simp only [decide_eq_true_iff] at hx
      exact (lt_of_le_of_lt hx hlt).ne
    omega
  · exact heq
  · have := hsplit (fun x => decide (v ≤ x)) fun x hx => by
      simp only [decide_eq_true_iff] at hx
      exact (lt_of_lt_of_le hlt hx).ne'
    omega

theorem cr_median (l : List (Option α)) (m : α) (h : (finite l).length < 2 * (finite l).countP fun x => decide (x = m)) :
    nanmedian l = some m := by
  cases hm : nanmedian l with
  | none =>
    rw [nanmedian_none_iff] at hm
    rw [hm] at h
    simp at h
  | some v =>
    obtain ⟨h1, h2⟩ := nanmedian_spec l v hm
    rw [cr_major _ m v h h1 h2]

theorem cr_table (q : α → Bool) (f : Nat → Nat → Option α) (m : Nat) (L : List Nat) :
    (finite (L.map fun i => (List.range m).map (f i)).flatten).countP q = (L.map fun i => (List.range m).countP fun j => (f i j).any q).sum := by
  have hrow : ∀ (M : List Nat) (g : Nat → Option α), (finite (M.map g)).countP q = M.countP fun j => (g j).any q := by
    intro M g
    induction M with
    | nil => rfl
    | cons j M ih =>
      rw [List.countP_cons, ← ih]
      cases hg : g j with
      | none => simp [finite, hg]
      | some x => simp [finite, hg, List.countP_cons]
  induction L with
  | nil => rfl
  | cons i L ih =>
    rw [List.map_cons, List.flatten_cons, List.map_cons, List.sum_cons, ← ih, ← hrow]
    unfold finite
    rw [List.filterMap_append, List.countP_append]

section
variable {p : Params α} {e : Exposure α} {r c : Nat} {γ b dt : α} {hit : Nat → Nat → Bool}

/-- The differences of the pixel, in electrons. -/
theorem cr_diff (h : CrRamp p e r c γ b dt hit) (i j : Nat) (hi : i < e.d.ni) (hj : j + 1 < e.d.ng) :
    (crPair p e r c i j = false → jdDiff (stepParams p e) (electrons e) e.gdq i j r c = none) ∧
    (crPair p e r c i j = true → ∃ u v, e.data i j r c = some u ∧ e.data i (j + 1) r c = some v ∧
      jdDiff (stepParams p e) (electrons e) e.gdq i j r c = some ((v - u) * γ / dt)) := by
  have hdt : (stepParams p e).dt j = dt := h.time j
  constructor
  · intro hp
    unfold jdDiff
    apply if_pos
    by_contra hc
    push Not at hc
    have h1 : ¬ Has (e.gdq i j r c) (p.dnu ||| p.sat) := hc.1
    have h2 : ¬ Has (e.gdq i (j + 1) r c) (p.dnu ||| p.sat) := hc.2.1
    simp [crPair, h1, h2] at hp
  · intro hp
    simp only [crPair, Bool.and_eq_true, decide_eq_true_iff] at hp
    obtain ⟨u, hu⟩ := h.num i hi j (by omega) hp.1
    obtain ⟨v, hv⟩ := h.num i hi (j + 1) hj hp.2
    refine ⟨u, v, hu, hv, ?_⟩
    unfold jdDiff
    rw [if_neg (by
      rw [hdt]
      rintro (h1 | h1 | h1)
      · exact hp.1 h1
      · exact hp.2 h1
      · exact h.dpos.ne' h1)]
    simp only [electrons, hu, hv, h.gain, hdt]
    congr 1
    ring

/-- More than half of the differences are those of the source. -/
theorem cr_many (h : CrRamp p e r c γ b dt hit) :
    (finite (jdDiffs (stepParams p e) e.d (electrons e) e.gdq r c).flatten).length <
      2 * (finite (jdDiffs (stepParams p e) e.d (electrons e) e.gdq r c).flatten).countP fun x => decide (x = b * γ / dt) := by
  have e1 : (finite (jdDiffs (stepParams p e) e.d (electrons e) e.gdq r c).flatten).length = crCount e.d (crPair p e r c) := by
    rw [← List.countP_true, jdDiffs, cr_table, crCount]
    congr 1
    apply List.map_congr_left
    intro i hi
    apply List.countP_congr
    intro j hj
    have := cr_diff h i j (by simpa using hi) (by have : j < e.d.ng - 1 := by simpa using hj
                                                  omega)
    cases hp : crPair p e r c i j with
    | false => simp [this.1 hp]
    | true =>
      obtain ⟨u, v, -, -, h3⟩ := this.2 hp
      simp [h3]
  have e2 : crCount e.d (fun i j => crPair p e r c i j && !hit i (j + 1)) ≤
      (finite (jdDiffs (stepParams p e) e.d (electrons e) e.gdq r c).flatten).countP fun x => decide (x = b * γ / dt) := by
    rw [jdDiffs, cr_table, crCount]
    apply List.sum_le_sum
    intro i hi
    apply List.countP_mono_left
    intro j hj hq
    have hi' : i < e.d.ni := by simpa using hi
    have hj' : j + 1 < e.d.ng := by
      have : j < e.d.ng - 1 := by simpa using hj
      omega
    simp only [Bool.and_eq_true, Bool.not_eq_true'] at hq
    obtain ⟨u, v, h1, h2, h3⟩ := (cr_diff h i j hi' hj').2 hq.1
    have := h.steady i hi' j hj' hq.1 hq.2 u v h1 h2
    rw [h3, this]
    simp
  have := h.many
  omega

end

/-! ## Single pass -/

/-- The step with one process keeps what the search has found. -/
theorem cr_kept_one (p : Params α) (sqrt : α → α) (clip : List (Option α) → List Bool) (s : Switch) (e : Exposure α) (mc : List Char) (ncpu : Nat)
    (ja jb jc : Nat) (hf : FlagBits p ja jb jc) (h1 : Slicing.computeNumCores mc e.d.nr ncpu = 1)
    (hfew : ¬ JdTooFew p { s with minGroups := 3 } e.d e.gdq) (i g r c : Nat) (hi : i < e.d.ni) (hg : g < e.d.ng) (hr : r < e.d.nr)
    (hc : c < e.d.nc) :
    let det := detect (stepParams p e) sqrt clip { s with minGroups := 3 } e.d (noiseElectrons e) (electrons e) e.gdq i g r c
    let w' := (twoPoint p sqrt clip s e mc ncpu).1 i g r c
    (Has (e.gdq i g r c) (p.dnu ||| p.sat) → Has w' (p.dnu ||| p.sat)) ∧
    (¬ Has (e.gdq i g r c) (p.dnu ||| p.sat) → Has det p.jump → Has w' p.jump) ∧
    (s.flag4 = false → p.n1 = 0 → p.n2 = 0 → Has w' p.jump → Has det p.jump) := by
  intro det w'
  have hbit : ∀ (u k : Nat), Has u (2 ^ k) ↔ u.testBit k = true := by
    intro u k
    unfold Has
    rw [Nat.and_two_pow]
    cases u.testBit k <;> simp
  obtain ⟨q1, -, -⟩ := C98_step p sqrt clip s e mc ncpu ja jb jc hf (by omega) (by omega) i g r c hi hg hr hc
  have hni : 0 < e.d.ni := by omega
  have hrun := jd_run (stepParams p e) sqrt clip { s with minGroups := 3 } e.d (noiseElectrons e) (electrons e) e.gdq hni hfew
  set v := (findCrs (stepParams p e) sqrt clip { s with minGroups := 3 } e.d (noiseElectrons e) (electrons e) e.gdq).gdq i g r c with hv
  have hw : w' = cleanup p v := by simp only [w', twoPoint, h1, if_true, hv]
  obtain ⟨c1, -⟩ := C23_cleanup p ja jb jc hf v
  obtain ⟨fj, fd, fs, hab, hac⟩ := hf
  refine ⟨?_, ?_, ?_⟩
  · rw [has_or_right, has_or_right, fd, fs, hbit, hbit, hbit, hbit, q1 jb (Ne.symm hab), q1 jc (Ne.symm hac)]
    exact id
  · intro hus hdet
    have hadd : JdAdds p g det v := by
      have a1 := jd_neighbor_adds (stepParams p e) sqrt { s with minGroups := 3 } e.d (noiseElectrons e) (electrons e) e.gdq
        (detect (stepParams p e) sqrt clip { s with minGroups := 3 } e.d (noiseElectrons e) (electrons e) e.gdq) i g r c
      have a2 := jd_transient_adds (stepParams p e) e.d (electrons e) e.gdq (fun i g => (neighborPlane (stepParams p e) sqrt
        { s with minGroups := 3 } e.d (noiseElectrons e) (electrons e) e.gdq (detect (stepParams p e) sqrt clip { s with minGroups := 3 }
          e.d (noiseElectrons e) (electrons e) e.gdq) i g).gdq) i g r c hg hc
      have a3 := jd_adds_trans (stepParams p e) g _ _ _ a1 a2
      have hv' : v = transient (stepParams p e) e.d (electrons e) e.gdq (fun i g => (neighborPlane (stepParams p e) sqrt
        { s with minGroups := 3 } e.d (noiseElectrons e) (electrons e) e.gdq (detect (stepParams p e) sqrt clip { s with minGroups := 3 }
          e.d (noiseElectrons e) (electrons e) e.gdq) i g).gdq) i g r c := by rw [hv, hrun]
      rw [hv']
      exact a3
    rw [hw, c1]
    refine ⟨?_, ?_⟩
    · rcases hadd with h | ⟨h, -, -⟩
      · rw [h]; exact hdet
      · rw [h, has_or_left]; exact Or.inl hdet
    · -- other bits are those of the input
      have hv1 := (C98_only_jump_flags (stepParams p e) sqrt clip { s with minGroups := 3 } e.d (noiseElectrons e) (electrons e) e.gdq ja fj
        i g r c hi hg hc).1
      rw [has_or_right] at hus
      rw [fd, fs] at hus ⊢
      rw [hbit, hbit] at hus ⊢
      rw [← hv] at hv1
      rw [hv1 jb (Ne.symm hab), hv1 jc (Ne.symm hac)]
      push Not at hus
      exact hus
  · intro h4 hn1 hn2 hh
    have hpl := jd_plain (stepParams p e) sqrt clip { s with minGroups := 3 } e.d (noiseElectrons e) (electrons e) e.gdq hni hfew h4 hn1 hn2
    rw [hw, c1] at hh
    have := hh.1
    rw [hv, hpl] at this
    exact this

/-- Specification: one process; or several, if no group is unusable in all rows of one slice only, `minimum_groups` is left at 3 and not both
neighbours and after-jump samples are flagged (the conditions of C99). -/
def CrCores (p : Params α) (s : Switch) (e : Exposure α) (mc : List Char) (ncpu : Nat) : Prop :=
  Slicing.computeNumCores mc e.d.nr ncpu = 1 ∨
  (1 ≤ Slicing.computeNumCores mc e.d.nr ncpu ∧ s.minGroups = 3 ∧ (s.flag4 = false ∨ (p.n1 = 0 ∧ p.n2 = 0)) ∧
    JdNoDeadSlice p e.d e.gdq (Slicing.computeNumCores mc e.d.nr ncpu))

/-- The step keeps what the search has found, whatever the number of processes. -/
theorem cr_kept (p : Params α) (sqrt : α → α) (clip : List (Option α) → List Bool) (s : Switch) (e : Exposure α) (mc : List Char) (ncpu : Nat)
    (ja jb jc : Nat) (hf : FlagBits p ja jb jc) (h1 : CrCores p s e mc ncpu)
    (hfew : ¬ JdTooFew p { s with minGroups := 3 } e.d e.gdq) (hclip : ¬ JdClip p { s with minGroups := 3 } e.d e.gdq) (i g r c : Nat)
    (hi : i < e.d.ni) (hg : g < e.d.ng) (hr : r < e.d.nr) (hc : c < e.d.nc) :
    let det := detect (stepParams p e) sqrt clip { s with minGroups := 3 } e.d (noiseElectrons e) (electrons e) e.gdq i g r c
    let w' := (twoPoint p sqrt clip s e mc ncpu).1 i g r c
    (Has (e.gdq i g r c) (p.dnu ||| p.sat) → Has w' (p.dnu ||| p.sat)) ∧
    (¬ Has (e.gdq i g r c) (p.dnu ||| p.sat) → Has det p.jump → Has w' p.jump) ∧
    (s.flag4 = false → p.n1 = 0 → p.n2 = 0 → Has w' p.jump → Has det p.jump) := by
  rcases h1 with h1 | ⟨hn, h3, hpost, hdead⟩
  · exact cr_kept_one p sqrt clip s e mc ncpu ja jb jc hf h1 hfew i g r c hi hg hr hc
  · have hle : Slicing.computeNumCores mc e.d.nr ncpu ≤ e.d.nr ∧ Slicing.computeNumCores mc e.d.nr ncpu ≤ ncpu := by
      simp only [Slicing.computeNumCores]
      omega
    have hs : ({ s with minGroups := 3 } : Switch) = s := by rw [← h3]
    have hone : Slicing.computeNumCores "none".toList e.d.nr ncpu = 1 := by
      have : Slicing.computeNumCores "none".toList e.d.nr ncpu = min (min e.d.nr 1) ncpu := by
        unfold Slicing.computeNumCores
        rw [if_neg (by decide), if_pos (by decide)]
      omega
    have hsame := (C99_step_partial p sqrt clip s e mc ncpu ja jb jc hf _ rfl hn hle.1 h3 hdead (by rw [hs] at hfew; exact hfew)
      (by rw [hs] at hclip; exact hclip) hpost (by omega) (by omega)).1 i hi g hg r hr c hc
    have := cr_kept_one p sqrt clip s e "none".toList ncpu ja jb jc hf hone hfew i g r c hi hg hr hc
    simp only at this ⊢
    rw [hsame]
    exact this

theorem cr_finish (p : Params α) (sqrt : α → α) (clip : List (Option α) → List Bool) (s : Switch) (e : Exposure α) (mc : List Char)
    (ncpu : Nat) (ja jb jc : Nat) (hf : FlagBits p ja jb jc) (h1 : CrCores p s e mc ncpu)
    (hfew : ¬ JdTooFew p { s with minGroups := 3 } e.d e.gdq) (hclip : ¬ JdClip p { s with minGroups := 3 } e.d e.gdq) (r c : Nat) (hr : r < e.d.nr) (hc : c < e.d.nc) (hit : Nat → Nat → Bool)
    (hdet : ∀ i < e.d.ni, ∀ g < e.d.ng,
      let w := detect (stepParams p e) sqrt clip { s with minGroups := 3 } e.d (noiseElectrons e) (electrons e) e.gdq i g r c;
      ((1 ≤ g ∧ crPair p e r c i (g - 1) = true ∧ hit i g = true) → w = e.gdq i g r c ||| p.jump) ∧
      (¬ (1 ≤ g ∧ crPair p e r c i (g - 1) = true ∧ hit i g = true) → w = e.gdq i g r c)) :
    CrFound p e r c hit (twoPoint p sqrt clip s e mc ncpu).1 ∧
    (s.flag4 = false → p.n1 = 0 → p.n2 = 0 → ∀ i < e.d.ni, ∀ g < e.d.ng, Has ((twoPoint p sqrt clip s e mc ncpu).1 i g r c) p.jump →
      Has (e.gdq i g r c) p.jump ∨ (1 ≤ g ∧ crPair p e r c i (g - 1) = true ∧ hit i g = true)) := by
  have hself : Has p.jump p.jump := by
    unfold Has
    rw [Nat.and_self, hf.1]
    positivity
  refine ⟨⟨fun i hi g hg => (cr_kept p sqrt clip s e mc ncpu ja jb jc hf h1 hfew hclip i g r c hi hg hr hc).1, fun i hi j hj hp hh => ?_⟩,
    fun h4 n1 n2 i hi g hg hh => ?_⟩
  · refine (cr_kept p sqrt clip s e mc ncpu ja jb jc hf h1 hfew hclip i (j + 1) r c hi hj hr hc).2.1 ?_ ?_
    · simp only [crPair, Bool.and_eq_true, decide_eq_true_iff] at hp
      exact hp.2
    · rw [(hdet i hi (j + 1) hj).1 ⟨by omega, hp, hh⟩, has_or_left]
      exact Or.inr hself
  · have := (cr_kept p sqrt clip s e mc ncpu ja jb jc hf h1 hfew hclip i g r c hi hg hr hc).2.2 h4 n1 n2 hh
    by_cases hc' : 1 ≤ g ∧ crPair p e r c i (g - 1) = true ∧ hit i g = true
    · exact Or.inr hc'
    · rw [(hdet i hi g hg).2 hc'] at this
      exact Or.inl this

/-- **C129** (single pass): if cosmic rays raise or lower the signal by more than the threshold times the noise of the source, exactly the samples
after a hit are flagged; with neighbours and after-jump flags more samples may be. -/
theorem C129_single_pass (p : Params α) (sqrt : α → α) (clip : List (Option α) → List Bool) (s : Switch) (e : Exposure α) (mc : List Char)
    (ncpu : Nat) (ja jb jc : Nat) (hf : FlagBits p ja jb jc) (h1 : CrCores p s e mc ncpu)
    (hfew : ¬ JdTooFew p { s with minGroups := 3 } e.d e.gdq) (hclip : ¬ JdClip p { s with minGroups := 3 } e.d e.gdq)
    (hs : ∀ i < e.d.ni, s.minSingle < jdUsable p e.d e.gdq i) (r c : Nat) (hr : r < e.d.nr) (hc : c < e.d.nc)
    (γ b dt : α) (hit : Nat → Nat → Bool) (hramp : CrRamp p e r c γ b dt hit) (hthr : 0 ≤ p.normalThresh)
    (hbig : ∀ i < e.d.ni, ∀ j, j + 1 < e.d.ng → crPair p e r c i j = true → hit i (j + 1) = true → ∀ u v, e.data i j r c = some u →
      e.data i (j + 1) r c = some v → 0 < crNoise p sqrt e r c γ b dt j ∧
        p.normalThresh * crNoise p sqrt e r c γ b dt j < |v - u - b| * γ / dt) :
    CrFound p e r c hit (twoPoint p sqrt clip s e mc ncpu).1 ∧
    (s.flag4 = false → p.n1 = 0 → p.n2 = 0 → ∀ i < e.d.ni, ∀ g < e.d.ng, Has ((twoPoint p sqrt clip s e mc ncpu).1 i g r c) p.jump →
      Has (e.gdq i g r c) p.jump ∨ (1 ≤ g ∧ crPair p e r c i (g - 1) = true ∧ hit i g = true)) := by
  have hmed := cr_median _ _ (cr_many hramp)
  have hno : noiseElectrons e r c = e.rnoise r c * γ := by simp [noiseElectrons, hramp.gain]
  have hout : ∀ i < e.d.ni, ∀ g < e.d.ng, JdOutlier (stepParams p e) sqrt e.d (noiseElectrons e) (electrons e) e.gdq i g r c ↔
      1 ≤ g ∧ crPair p e r c i (g - 1) = true ∧ hit i g = true := by
    intro i hi g hg
    have hdt : (stepParams p e).dt (g - 1) = dt := hramp.time _
    have hsig : sqrt (|b * γ / dt| * (stepParams p e).dt (g - 1) + noiseElectrons e r c * noiseElectrons e r c /
        (1 / 2 * (stepParams p e).nReads (g - 1))) / (stepParams p e).dt (g - 1) = crNoise p sqrt e r c γ b dt (g - 1) := by
      rw [hdt, hno]; rfl
    constructor
    · rintro ⟨hg1, x, m, hx, hm, hs0, hlt⟩
      have hgg : g - 1 + 1 = g := by omega
      obtain ⟨d1, d2⟩ := cr_diff hramp i (g - 1) hi (by omega)
      cases hp : crPair p e r c i (g - 1) with
      | false => rw [d1 hp] at hx; exact absurd hx (by simp)
      | true =>
        refine ⟨hg1, rfl, ?_⟩
        by_contra hh
        rw [Bool.not_eq_true] at hh
        obtain ⟨u, v, hu, hv, hd⟩ := d2 hp
        have := hramp.steady i hi (g - 1) (by omega) hp (by rw [hgg]; exact hh) u v hu hv
        rw [hmed, Option.some.injEq] at hm
        rw [hd, Option.some.injEq, this] at hx
        rw [← hm, ← hx] at hlt
        have : u + b - u = b := by ring
        rw [this, sub_self, abs_zero, zero_div] at hlt
        exact absurd hlt (not_lt.2 hthr)
    · rintro ⟨hg1, hp, hh⟩
      have hgg : g - 1 + 1 = g := by omega
      obtain ⟨u, v, hu, hv, hd⟩ := (cr_diff hramp i (g - 1) hi (by omega)).2 hp
      obtain ⟨b1, b2⟩ := hbig i hi (g - 1) (by omega) hp (by rw [hgg]; exact hh) u v hu hv
      refine ⟨hg1, _, _, hd, hmed, ?_⟩
      rw [hsig]
      refine ⟨b1.ne', ?_⟩
      rw [lt_div_iff₀ b1]
      have : (v - u) * γ / dt - b * γ / dt = (v - u - b) * (γ / dt) := by ring
      rw [this, abs_mul, abs_of_pos (div_pos hramp.gpos hramp.dpos), ← mul_div_assoc]
      exact b2
  have hni : ∀ i < e.d.ni, 0 < e.d.ni := fun i hi => by omega
  have hdet : ∀ i < e.d.ni, ∀ g < e.d.ng,
      let w := detect (stepParams p e) sqrt clip { s with minGroups := 3 } e.d (noiseElectrons e) (electrons e) e.gdq i g r c;
      ((1 ≤ g ∧ crPair p e r c i (g - 1) = true ∧ hit i g = true) → w = e.gdq i g r c ||| p.jump) ∧
      (¬ (1 ≤ g ∧ crPair p e r c i (g - 1) = true ∧ hit i g = true) → w = e.gdq i g r c) := by
    intro i hi g hg
    have hcl : usesClip (stepParams p e) { s with minGroups := 3 } e.d e.gdq = false := by
      rw [← Bool.not_eq_true, jd_usesClip]; exact hclip
    have hsg := (jd_usesSingle (stepParams p e) { s with minGroups := 3 } e.d e.gdq (hni i hi)).mpr hs
    simp only [detect, hcl, hsg, if_true, Bool.false_eq_true, if_false]
    rw [← hout i hi g hg]
    exact jd_single (stepParams p e) sqrt e.d (noiseElectrons e) (electrons e) e.gdq i g r c hi hg
  exact cr_finish p sqrt clip s e mc ncpu ja jb jc hf h1 hfew hclip r c hr hc hit hdet

/-! ## Iterative search -/

/-- The reference level is the difference of the source; if there is a hit there is a reference level. -/
theorem cr_calcMed (l : List (Option α)) (β : α) (hv : ∀ x ∈ finite l, x = β ∨ β < x)
    (hmaj : (finite l).length < 2 * (finite l).countP fun x => decide (x = β)) :
    (∀ m, calcMed l = some m → m = β) ∧ ((∃ x ∈ finite l, β < x) → calcMed l = some β ∧ 3 ≤ (finite l).length) := by
  have hβ : β ∈ finite l := by
    have : 0 < (finite l).countP fun x => decide (x = β) := by omega
    obtain ⟨x, hx, h⟩ := List.countP_pos_iff.1 this
    simp only [decide_eq_true_iff] at h
    exact h ▸ hx
  have hfirst : ∀ m, calcMed l = some m → m = β := by
    intro m hm
    obtain ⟨h1, h2, h3, h4⟩ := C66_reference_level l m hm
    change 2 ≤ (finite l).length at h1
    change (finite l).length = 2 → m ∈ finite l ∧ ∀ x ∈ finite l, m ≤ x at h2
    rcases (by omega : (finite l).length = 2 ∨ (finite l).length = 3 ∨ 4 ≤ (finite l).length) with h | h | h
    · obtain ⟨a1, a2⟩ := h2 h
      rcases hv m a1 with a3 | a3
      · exact a3
      · exact absurd (a2 β hβ) (not_le.2 a3)
    · obtain ⟨a1, a2⟩ := h3 h
      exact cr_major (finite l) β m hmaj (h ▸ a1) (h ▸ a2)
    · obtain ⟨mx, a1, a2, a3, a4, a5⟩ := h4 h
      change mx ∈ finite l at a1
      change ∀ x ∈ finite l, x ≤ mx at a2
      set rest := (finite l).filter (fun x => decide (x ≠ mx)) with hrest
      change rest.length ≤ _ at a3
      change rest.length ≤ _ at a4
      change rest ≠ [] at a5
      have hmx : β < mx := by
        rcases hv mx a1 with b1 | b1
        · exfalso
          obtain ⟨y, hy⟩ := List.exists_mem_of_ne_nil _ a5
          rw [hrest, List.mem_filter, decide_eq_true_iff] at hy
          rcases hv y hy.1 with b2 | b2
          · exact hy.2 (b2.trans b1.symm)
          · exact absurd (a2 y hy.1) (not_le.2 (b1 ▸ b2))
        · exact b1
      refine cr_major rest β m ?_ a3 a4
      have e1 : rest.countP (fun x => decide (x = β)) = (finite l).countP fun x => decide (x = β) := by
        rw [hrest, List.countP_filter]
        apply List.countP_congr
        intro x _
        simp only [Bool.and_eq_true, decide_eq_true_iff]
        constructor
        · exact fun h => h.1
        · intro h
          exact ⟨h, by rw [h]; exact hmx.ne⟩
      have e2 : rest.length ≤ (finite l).length := List.length_filter_le _ _
      omega
  refine ⟨hfirst, ?_⟩
  rintro ⟨x, hx, hlt⟩
  have h3 : 3 ≤ (finite l).length := by
    have : (finite l).countP (fun x => decide (x = β)) < (finite l).length := by
      rw [List.countP_lt_length_iff]
      exact ⟨x, hx, by simpa using hlt.ne'⟩
    omega
  refine ⟨?_, h3⟩
  cases hm : calcMed l with
  | some m => rw [hfirst m hm]
  | none =>
    exfalso
    have hdef : calcMed l = if (finite l).length < 2 then none
      else if (finite l).length = 2 then nanmin l
      else if (finite l).length ≥ 4 then nanmedian (l.map (fun x => if x = nanmax l then none else x))
      else nanmedian l := rfl
    rw [hdef, if_neg (by omega), if_neg (by omega)] at hm
    split at hm
    · rw [nanmedian_none_iff] at hm
      have hmem : ∀ y, y ∈ finite l ↔ some y ∈ l := by intro y; simp [finite, List.mem_filterMap]
      obtain ⟨mx, hmx⟩ := nanmax_exists l x ((hmem x).1 hx)
      have h5 := (nanmax_spec l mx hmx).2 x ((hmem x).1 hx)
      have : β ∈ finite (l.map (fun x => if x = nanmax l then none else x)) := by
        unfold finite
        rw [List.mem_filterMap]
        refine ⟨some β, List.mem_map.2 ⟨some β, (hmem β).1 hβ, ?_⟩, rfl⟩
        rw [if_neg]
        rw [hmx, Option.some.injEq]
        exact (lt_of_lt_of_le hlt h5).ne
      rw [hm] at this
      exact absurd this List.not_mem_nil
    · rw [nanmedian_none_iff] at hm
      rw [hm] at hβ
      exact absurd hβ List.not_mem_nil

theorem cr_maskRow (β : α) (row : List (Option α)) (nb : List Bool) (hlen : row.length = nb.length)
    (h : ∀ j : Nat, nb[j]? = some true → row[j]? ≠ some (some β)) :
    (finite (List.zipWith (fun x b => if b then none else x) row nb)).countP (fun x => decide (x = β))
      = (finite row).countP fun x => decide (x = β) := by
  induction row generalizing nb with
  | nil => simp [finite]
  | cons x row ih =>
    cases nb with
    | nil => simp at hlen
    | cons q nb =>
      have ih' := ih nb (by simpa using hlen) fun j hj => by
        have := h (j + 1) (by simpa using hj)
        simpa using this
      have h0 := h 0
      simp only [List.getElem?_cons_zero, Option.some.injEq] at h0
      unfold finite at ih' ⊢
      cases q with
      | false =>
        cases x with
        | none => simpa using ih'
        | some y => simp [List.countP_cons, ih']
      | true =>
        cases x with
        | none => simpa using ih'
        | some y =>
          have hy : y ≠ β := fun hc => h0 rfl (by rw [hc])
          simp [ih', hy]

theorem cr_mask (β : α) (fa : List (List (Option α))) (new : List (List Bool)) (hsh : SameShape fa new)
    (h : ∀ i j, bat2 new i j = true → at2 fa i j ≠ some β) :
    (finite (maskNew fa new).flatten).countP (fun x => decide (x = β)) = (finite fa.flatten).countP fun x => decide (x = β) := by
  induction fa generalizing new with
  | nil => simp [maskNew, finite]
  | cons row fa ih =>
    cases new with
    | nil => simp [SameShape] at hsh
    | cons nb new =>
      simp only [SameShape, List.map_cons, List.cons.injEq] at hsh
      have ih' := ih new hsh.2 fun i j hb => by
        have := h (i + 1) j (by simpa [bat2] using hb)
        simpa [at2] using this
      have hrow := cr_maskRow β row nb hsh.1 fun j hj => by
        have := h 0 j (by simp [bat2, hj])
        intro hc
        exact this (by simp [at2, hc])
      simp only [maskNew, List.zipWith_cons_cons, List.flatten_cons] at ih' ⊢
      unfold finite at ih' hrow ⊢
      rw [List.filterMap_append, List.filterMap_append, List.countP_append, List.countP_append, hrow, ih']

/-- The loop flags exactly the hits. -/
theorem cr_iter (p : Params α) (sqrt : α → α) (rn2 β : α) (ht : 0 ≤ p.normalThresh ∧ 0 ≤ p.threeThresh ∧ 0 ≤ p.twoThresh) (σ : Nat → α)
    (hσ : ∀ j, σ j = sqrt (|β| * p.dt j + rn2 / (1 / 2 * p.nReads j)) / p.dt j) :
    ∀ (fuel : Nat) (fa : List (List (Option α))) (acc : List (List Bool)), SameShape fa acc → (finite fa.flatten).length ≤ fuel →
      (∀ i j x, at2 fa i j = some x → x = β ∨ (β < x ∧ 0 < σ j ∧ p.normalThresh * σ j < x - β ∧ p.threeThresh * σ j < x - β ∧
        p.twoThresh * σ j < x - β)) →
      (finite fa.flatten).length < 2 * (finite fa.flatten).countP (fun x => decide (x = β)) →
      let res := iterLoop p sqrt rn2 fuel fa acc
      (∀ i j, bat2 res.2 i j = true → bat2 acc i j = true ∨ ∃ x, at2 fa i j = some x ∧ β < x) ∧
      (∀ i j x, at2 fa i j = some x → β < x → bat2 res.2 i j = true) ∧ (∀ i j, bat2 acc i j = true → bat2 res.2 i j = true) := by
  have htpos : ∀ n t, threshold p n = some t → 0 ≤ t := by
    intro n t h
    unfold threshold at h
    split_ifs at h
    · rw [← Option.some.inj h]; exact ht.1
    · rw [← Option.some.inj h]; exact ht.2.1
    · rw [← Option.some.inj h]; exact ht.2.2
  intro fuel
  induction fuel with
  | zero =>
    intro fa acc _ hfuel _ hmaj
    have : (finite fa.flatten).countP (fun x => decide (x = β)) ≤ (finite fa.flatten).length := List.countP_le_length
    omega
  | succ fuel ih =>
    intro fa acc hsh hfuel hval hmaj
    have hmem : ∀ y, y ∈ finite fa.flatten ↔ ∃ i j, at2 fa i j = some y := by
      intro y
      rw [← mem_at2]
      simp [finite, List.mem_filterMap]
    obtain ⟨cm1, cm2⟩ := cr_calcMed fa.flatten β (fun x hx => by
      obtain ⟨i, j, h⟩ := (hmem x).1 hx
      exact (hval i j x h).imp_right fun h => h.1) hmaj
    set new := newCr p sqrt rn2 fa with hnew
    have hnsh : SameShape fa new := sameShape_newCr p sqrt rn2 fa
    -- only hits are new
    have honly : ∀ i j, bat2 new i j = true → ∃ x, at2 fa i j = some x ∧ β < x := by
      intro i j h
      obtain ⟨r, t, hr, hth, hlt, -⟩ := (newCr_bat2 p sqrt rn2 fa i j).mp h
      obtain ⟨d, m, hd, hm, hs0, hrr⟩ := (deviates_iff p sqrt rn2 fa i j r).mp hr
      refine ⟨d, hd, ?_⟩
      rcases hval i j d hd with h1 | h1
      · exfalso
        rw [hrr, cm1 m hm, h1, sub_self, abs_zero, zero_div] at hlt
        exact absurd hlt (not_lt.2 (htpos _ _ hth))
      · exact h1.1
    -- as long as there are hits some are found
    have hsome : (∃ i j x, at2 fa i j = some x ∧ β < x) → ∃ i j, bat2 new i j = true := by
      rintro ⟨i, j, x, hx, hlt⟩
      obtain ⟨hc, h3⟩ := cm2 ⟨x, (hmem x).2 ⟨i, j, hx⟩, hlt⟩
      obtain ⟨-, hs, b1, b2, b3⟩ := (hval i j x hx).resolve_left hlt.ne'
      have hdev : at2 (ratios p sqrt rn2 fa) i j = some (|x - β| / σ j) := by
        rw [deviates_iff]
        refine ⟨x, β, hx, hc, ?_⟩
        simp only [← hσ]
        exact ⟨hs.ne', trivial⟩
      obtain ⟨t, hth⟩ : ∃ t, threshold p (finite fa.flatten).length = some t := by
        unfold threshold
        split_ifs
        · exact ⟨_, rfl⟩
        · exact ⟨_, rfl⟩
        · exact ⟨_, rfl⟩
        · omega
      have htr : t < |x - β| / σ j := by
        rw [lt_div_iff₀ hs, abs_of_pos (sub_pos.2 hlt)]
        unfold threshold at hth
        split_ifs at hth
        · rw [← Option.some.inj hth]; exact b1
        · rw [← Option.some.inj hth]; exact b2
        · rw [← Option.some.inj hth]; exact b3
      obtain ⟨m, hm⟩ := nanmax_exists _ _ ((mem_at2 _ _).mpr ⟨i, j, hdev⟩)
      obtain ⟨hmm, hle⟩ := nanmax_spec _ _ hm
      obtain ⟨i', j', hij⟩ := (mem_at2 _ m).mp hmm
      refine ⟨i', j', (newCr_bat2 p sqrt rn2 fa i' j').mpr ⟨m, t, hij, hth, ?_, ?_⟩⟩
      · exact lt_of_lt_of_le htr (hle _ ((mem_at2 _ _).mpr ⟨i, j, hdev⟩))
      · intro i2 j2 r2 h2
        exact hle r2 ((mem_at2 _ r2).mpr ⟨i2, j2, h2⟩)
    have hdef : iterLoop p sqrt rn2 (fuel + 1) fa acc =
        if new.flatten.any (fun b => b) = false then (fa, acc)
        else iterLoop p sqrt rn2 fuel (maskNew fa new) (orFlags acc new) := rfl
    rw [hdef]
    by_cases hany : new.flatten.any (fun b => b) = false
    · rw [if_pos hany]
      refine ⟨fun i j h => Or.inl h, fun i j x hx hlt => ?_, fun i j h => h⟩
      have := (any_bat2 _).mpr (hsome ⟨i, j, x, hx, hlt⟩)
      rw [hany] at this
      exact absurd this Bool.false_ne_true
    · rw [if_neg hany]
      have hex := (any_bat2 new).mp (by simpa using hany)
      have hanew : SameShape acc new := hsh.symm.trans hnsh
      have hmsh : SameShape fa (maskNew fa new) := sameShape_zipWith _ _ _ hnsh
      have hosh : SameShape acc (orFlags acc new) := sameShape_zipWith _ _ _ hanew
      have hfin : (finite (maskNew fa new).flatten).length < (finite fa.flatten).length := by
        apply (finite_maskNew fa new).2
        obtain ⟨i, j, h⟩ := hex
        obtain ⟨x, hx, -⟩ := honly i j h
        exact ⟨i, j, x, hx, h⟩
      have hcount := cr_mask β fa new hnsh fun i j h hc => by
        obtain ⟨x, hx, hlt⟩ := honly i j h
        rw [hc, Option.some.injEq] at hx
        exact hlt.ne hx
      have hat : ∀ i j x, at2 (maskNew fa new) i j = some x → at2 fa i j = some x := by
        intro i j x h
        rw [maskNew_at2 fa new hnsh] at h
        split at h
        · exact absurd h (by simp)
        · exact h
      obtain ⟨k1, k2, k3⟩ := ih (maskNew fa new) (orFlags acc new) (hmsh.symm.trans (hsh.trans hosh)) (by omega)
        (fun i j x h => hval i j x (hat i j x h)) (by rw [hcount]; omega)
      refine ⟨fun i j h => ?_, fun i j x hx hlt => ?_, fun i j h => k3 i j ?_⟩
      · rcases k1 i j h with h' | ⟨x, hx, hlt⟩
        · rw [orFlags_bat2 acc new hanew, Bool.or_eq_true] at h'
          exact h'.imp id (honly i j)
        · exact Or.inr ⟨x, hat i j x hx, hlt⟩
      · by_cases hb : bat2 new i j = true
        · exact k3 i j (by rw [orFlags_bat2 acc new hanew, hb, Bool.or_true])
        · refine k2 i j x ?_ hlt
          rw [maskNew_at2 fa new hnsh, if_neg hb]
          exact hx
      · rw [orFlags_bat2 acc new hanew, h, Bool.true_or]

/-- **C129** (iterative search): if the source does not fade and cosmic rays raise the signal by more than each threshold times the noise of the
source, exactly the samples after a hit are flagged; with neighbours and after-jump flags more samples may be. -/
theorem C129_iterative (p : Params α) (sqrt : α → α) (clip : List (Option α) → List Bool) (s : Switch) (e : Exposure α) (mc : List Char)
    (ncpu : Nat) (ja jb jc : Nat) (hf : FlagBits p ja jb jc) (h1 : CrCores p s e mc ncpu)
    (hfew : ¬ JdTooFew p { s with minGroups := 3 } e.d e.gdq) (hclip : ¬ JdClip p { s with minGroups := 3 } e.d e.gdq)
    (hs : ∃ i < e.d.ni, jdUsable p e.d e.gdq i ≤ s.minSingle) (r c : Nat) (hr : r < e.d.nr) (hc : c < e.d.nc)
    (γ b dt : α) (hit : Nat → Nat → Bool) (hramp : CrRamp p e r c γ b dt hit) (hb : 0 ≤ b)
    (hthr : 0 ≤ p.normalThresh ∧ 0 ≤ p.threeThresh ∧ 0 ≤ p.twoThresh)
    (hbig : ∀ i < e.d.ni, ∀ j, j + 1 < e.d.ng → crPair p e r c i j = true → hit i (j + 1) = true → ∀ u v, e.data i j r c = some u →
      e.data i (j + 1) r c = some v → u + b < v ∧ 0 < crNoise p sqrt e r c γ b dt j ∧
        p.normalThresh * crNoise p sqrt e r c γ b dt j < (v - u - b) * γ / dt ∧
        p.threeThresh * crNoise p sqrt e r c γ b dt j < (v - u - b) * γ / dt ∧
        p.twoThresh * crNoise p sqrt e r c γ b dt j < (v - u - b) * γ / dt) :
    CrFound p e r c hit (twoPoint p sqrt clip s e mc ncpu).1 ∧
    (s.flag4 = false → p.n1 = 0 → p.n2 = 0 → ∀ i < e.d.ni, ∀ g < e.d.ng, Has ((twoPoint p sqrt clip s e mc ncpu).1 i g r c) p.jump →
      Has (e.gdq i g r c) p.jump ∨ (1 ≤ g ∧ crPair p e r c i (g - 1) = true ∧ hit i g = true)) := by
  set D := jdDiffs (stepParams p e) e.d (electrons e) e.gdq r c with hD
  set β := b * γ / dt with hβ
  have hno : noiseElectrons e r c = e.rnoise r c * γ := by simp [noiseElectrons, hramp.gain]
  have hβ0 : 0 ≤ β := div_nonneg (mul_nonneg hb hramp.gpos.le) hramp.dpos.le
  have hq : 0 < γ / dt := div_pos hramp.gpos hramp.dpos
  have hat : ∀ i j, at2 D i j = if i < e.d.ni ∧ j + 1 < e.d.ng then jdDiff (stepParams p e) (electrons e) e.gdq i j r c else none := by
    intro i j
    rw [← jd_entry, jd_diffs]
    rfl
  -- what the differences are
  have hentry : ∀ i j x, at2 D i j = some x → i < e.d.ni ∧ j + 1 < e.d.ng ∧ crPair p e r c i j = true ∧
      (hit i (j + 1) = false → x = β) ∧ (hit i (j + 1) = true → β < x ∧ 0 < crNoise p sqrt e r c γ b dt j ∧
        p.normalThresh * crNoise p sqrt e r c γ b dt j < x - β ∧ p.threeThresh * crNoise p sqrt e r c γ b dt j < x - β ∧
        p.twoThresh * crNoise p sqrt e r c γ b dt j < x - β) := by
    intro i j x hx
    rw [hat] at hx
    split at hx
    · rename_i hij
      obtain ⟨hi, hj⟩ := hij
      obtain ⟨d1, d2⟩ := cr_diff hramp i j hi hj
      cases hp : crPair p e r c i j with
      | false => rw [d1 hp] at hx; exact absurd hx (by simp)
      | true =>
        obtain ⟨u, v, hu, hv, hd⟩ := d2 hp
        rw [hd, Option.some.injEq] at hx
        refine ⟨hi, hj, rfl, fun hh => ?_, fun hh => ?_⟩
        · rw [← hx, hramp.steady i hi j hj hp hh u v hu hv, hβ]
          ring
        · obtain ⟨b1, b2, b3, b4, b5⟩ := hbig i hi j hj hp hh u v hu hv
          have hxe : x - β = (v - u - b) * γ / dt := by rw [← hx, hβ]; ring
          have hpos : 0 < x - β := by
            rw [hxe, mul_div_assoc]
            exact mul_pos (by linarith) hq
          rw [hxe]
          exact ⟨by linarith, b2, b3, b4, b5⟩
    · exact absurd hx (by simp)
  have hge : ∀ i j x, at2 D i j = some x → β ≤ x := by
    intro i j x hx
    obtain ⟨-, -, -, h4, h5⟩ := hentry i j x hx
    cases hh : hit i (j + 1) with
    | false => exact (h4 hh).ge
    | true => exact (h5 hh).1.le
  have habs : absDiffs D = D := by
    unfold absDiffs
    have : ∀ row ∈ D, (row.map fun x => x.map fun v => |v|) = row := by
      intro row hrow
      have : ∀ y ∈ row, (y.map fun v => |v|) = y := by
        intro y hy
        cases y with
        | none => rfl
        | some v =>
          obtain ⟨i, j, h⟩ := (mem_at2 D v).1 (List.mem_flatten.2 ⟨row, hrow, hy⟩)
          rw [Option.map_some, abs_of_nonneg (hβ0.trans (hge i j v h))]
      conv_rhs => rw [← List.map_id row]
      exact List.map_congr_left this
    conv_rhs => rw [← List.map_id D]
    exact List.map_congr_left this
  have hacc : ∀ i j, bat2 (D.map (fun row => row.map (fun _ => false))) i j = false := by
    intro i j
    unfold bat2
    simp only [List.getElem?_map]
    cases D[i]? with
    | none => simp
    | some row =>
      simp only [Option.map_some, Option.getD_some, List.getElem?_map]
      cases row[j]? <;> simp
  have hiter : iterative (stepParams p e) sqrt (noiseElectrons e r c * noiseElectrons e r c) D =
      iterLoop (stepParams p e) sqrt (noiseElectrons e r c * noiseElectrons e r c) D.flatten.length (absDiffs D)
        (D.map (fun row => row.map (fun _ => false))) := rfl
  rw [habs] at hiter
  obtain ⟨k1, k2, -⟩ := cr_iter (stepParams p e) sqrt (noiseElectrons e r c * noiseElectrons e r c) β hthr
    (crNoise p sqrt e r c γ b dt) (fun j => by
      have hdt : (stepParams p e).dt j = dt := hramp.time j
      rw [hdt, hno]; rfl) D.flatten.length D (D.map (fun row => row.map (fun _ => false)))
    (by simp [SameShape, Function.comp_def]) (List.length_filterMap_le _ _)
    (fun i j x hx => by
      obtain ⟨-, -, -, h4, h5⟩ := hentry i j x hx
      cases hh : hit i (j + 1) with
      | false => exact Or.inl (h4 hh)
      | true => exact Or.inr (h5 hh)) (cr_many hramp)
  rw [← hiter] at k1 k2
  refine cr_finish p sqrt clip s e mc ncpu ja jb jc hf h1 hfew hclip r c hr hc hit ?_
  intro i hi g hg
  obtain ⟨i0, hi0, hu⟩ := hs
  have hni : 0 < e.d.ni := by omega
  have hcl : usesClip (stepParams p e) { s with minGroups := 3 } e.d e.gdq = false := by
    rw [← Bool.not_eq_true, jd_usesClip]; exact hclip
  have hsg : usesSingle (stepParams p e) { s with minGroups := 3 } e.d e.gdq = false := by
    rw [← Bool.not_eq_true, jd_usesSingle (stepParams p e) { s with minGroups := 3 } e.d e.gdq hni]
    intro h
    have h7 : s.minSingle < jdUsable p e.d e.gdq i0 := h i0 hi0
    omega
  simp only [detect, hcl, hsg, Bool.false_eq_true, if_false, iterDetect, jd_bat2, jd_diffs, Bool.and_eq_true, decide_eq_true_iff]
  have hiff : (1 ≤ g ∧ bat2 (iterative (stepParams p e) sqrt (noiseElectrons e r c * noiseElectrons e r c) D).2 i (g - 1) = true) ↔
      (1 ≤ g ∧ crPair p e r c i (g - 1) = true ∧ hit i g = true) := by
    constructor
    · rintro ⟨hg1, hbt⟩
      have hgg : g - 1 + 1 = g := by omega
      rcases k1 i (g - 1) hbt with h | ⟨x, hx, hlt⟩
      · rw [hacc] at h; exact absurd h (by simp)
      · obtain ⟨-, -, h3, h4, -⟩ := hentry i (g - 1) x hx
        refine ⟨hg1, h3, ?_⟩
        by_contra hh
        rw [Bool.not_eq_true] at hh
        rw [hgg] at h4
        exact hlt.ne' (h4 hh)
    · rintro ⟨hg1, hp, hh⟩
      have hgg : g - 1 + 1 = g := by omega
      refine ⟨hg1, ?_⟩
      obtain ⟨u, v, -, -, hd⟩ := (cr_diff hramp i (g - 1) hi (by omega)).2 hp
      have hx : at2 D i (g - 1) = some ((v - u) * γ / dt) := by
        rw [hat, if_pos ⟨hi, by omega⟩, hd]
      obtain ⟨-, -, -, -, h5⟩ := hentry i (g - 1) _ hx
      rw [hgg] at h5
      exact k2 i (g - 1) _ hx (h5 hh).1
  exact ⟨fun h => if_pos (hiff.2 h), fun h => if_neg fun h' => h (hiff.1 h')⟩

/-! ## Example -/

/-- Example: one pixel with gain 2, one integration of nine groups, a source of 1 per group, hits of 100 before group 3 and of 500 before group
6; the last group is saturated. -/
def crExp : Exposure ℚ :=
  ⟨⟨1, 9, 1, 1⟩, fun _ g _ _ => [some 0, some 1, some 2, some 103, some 104, some 105, some 606, some 607, some 700].getD g none,
    fun _ g _ _ => if g = 8 then 2 else 0, fun _ _ => some 2, fun _ _ => 1, fun _ _ => 0, 100000, 100000⟩

/-- Example: where the hits are. -/
def crHit : Nat → Nat → Bool := fun _ g => g == 3 || g == 6

theorem cr_example : CrRamp exJump crExp 0 0 2 1 1 crHit where
  gain := rfl
  gpos := by norm_num
  time := fun _ => rfl
  dpos := by norm_num
  num := by
    have : ∀ g < 9, (crExp.data 0 g 0 0).isSome = true := by decide +kernel
    intro i _ g hg _
    exact Option.isSome_iff_exists.1 (this g hg)
  steady := by
    have : ∀ j < 8, crPair exJump crExp 0 0 0 j = true → crHit 0 (j + 1) = false →
        crExp.data 0 (j + 1) 0 0 = (crExp.data 0 j 0 0).map (· + 1) := by decide +kernel
    intro i hi j hj hp hh u v hu hv
    have hi0 : i = 0 := by
      have : i < 1 := hi
      omega
    subst hi0
    have hj' : j < 8 := by
      have : j + 1 < 9 := hj
      omega
    have := this j hj' hp hh
    rw [hu, hv, Option.map_some, Option.some.injEq] at this
    exact this
  many := by decide +kernel

/-- The hits exceed the thresholds (noise `2 + 4/(1/2)`, with the identity as square root). -/
example : ∀ i < crExp.d.ni, ∀ j, j + 1 < crExp.d.ng → crPair exJump crExp 0 0 i j = true → crHit i (j + 1) = true → ∀ u v,
    crExp.data i j 0 0 = some u → crExp.data i (j + 1) 0 0 = some v → 0 < crNoise exJump id crExp 0 0 2 1 1 j ∧
      exJump.normalThresh * crNoise exJump id crExp 0 0 2 1 1 j < |v - u - 1| * 2 / 1 := by
  have h : ∀ j < 8, crPair exJump crExp 0 0 0 j = true → crHit 0 (j + 1) = true → 0 < crNoise exJump id crExp 0 0 2 1 1 j ∧
      exJump.normalThresh * crNoise exJump id crExp 0 0 2 1 1 j <
        |(crExp.data 0 (j + 1) 0 0).getD 0 - (crExp.data 0 j 0 0).getD 0 - 1| * 2 / 1 := by decide +kernel
  intro i hi j hj hp hh u v hu hv
  have hi0 : i = 0 := by
    have : i < 1 := hi
    omega
  subst hi0
  have hj' : j < 8 := by
    have : j + 1 < 9 := hj
    omega
  have := h j hj' hp hh
  rwa [hu, hv] at this

/-- Example: flags found in a single pass and iteratively, with neighbours and after-jump flags, and the rate. -/
example :
    let w := (twoPoint exJump id jdClipRule jdSw crExp "1".toList 1).1
    let w' := (twoPoint exJump id jdClipRule { jdSw with minSingle := 20 } crExp "1".toList 1).1
    (List.range 9).map (fun g => w 0 g 0 0) = [0, 0, 0, 4, 0, 0, 4, 0, 2] ∧ (List.range 9).map (fun g => w' 0 g 0 0) = [0, 0, 0, 4, 0, 0, 4, 0, 2] ∧
    (fitPixel exFlags exCfg 9 (crPix crExp 0 0 exPix 0 (fun _ => none) w)).2.slope = some (1 / 10) := by decide +kernel

example : ¬ JdTooFew exJump { jdSw with minGroups := 3 } crExp.d crExp.gdq ∧ jdSw.minSingle < jdUsable exJump crExp.d crExp.gdq 0 := by
  decide +kernel

/-- Example: two rows in two processes; the second row is not hit. -/
def crTwo : Exposure ℚ := { crExp with
  d := ⟨1, 9, 2, 1⟩, data := fun _ g r _ => if r = 0 then crExp.data 0 g 0 0 else some (g : ℚ) }

example : CrCores exJump { jdSw with flag4 := false } crTwo "2".toList 4 ∧ Slicing.computeNumCores "2".toList crTwo.d.nr 4 = 2 ∧
    (let w := (twoPoint exJump id jdClipRule { jdSw with flag4 := false } crTwo "2".toList 4).1
     (List.range 9).map (fun g => w 0 g 0 0) = [0, 0, 0, 4, 0, 0, 4, 0, 2]) := by
  have hn : Slicing.computeNumCores "2".toList crTwo.d.nr 4 = 2 := by decide +kernel
  refine ⟨Or.inr ⟨by omega, rfl, Or.inl rfl, ?_⟩, hn, by decide +kernel⟩
  rw [hn]
  intro k hk i hi g hg h
  exfalso
  have : ∀ k < 2, ∀ g < 9, ¬ Dq.Has (crTwo.gdq 0 g (k * (2 / 2) + 0) 0) exJump.dnu := by decide +kernel
  have hi0 : i = 0 := by
    have : i < 1 := hi
    omega
  subst hi0
  exact this k hk g hg (h 0 (by have : k = 0 ∨ k = 1 := by omega
                                rcases this with rfl | rfl <;> decide) 0 (by decide))

/-- Finding: the reference level of the single pass is the median, so half of the differences must not be hit.  Here two of four are; the
level is then half way between the source and the hits, every difference is an outlier, and the pixel is given the rate 0 with no
flag but JUMP_DET. -/
theorem C129_half_hit :
    let e : Exposure ℚ := { crExp with
      d := ⟨1, 5, 1, 1⟩, data := fun _ g _ _ => [some 0, some 1, some 2, some 10002, some 20002].getD g none, gdq := fun _ _ _ _ => 0 }
    let p := { exJump with normalThresh := 1 / 2 }
    let w := (twoPoint p id jdClipRule jdSw e "1".toList 1).1
    (List.range 5).map (fun g => w 0 g 0 0) = [0, 4, 4, 4, 4] ∧
    (fitPixel exFlags exCfg 5 (crPix e 0 0 exPix 0 (fun _ => none) w)).2.slope = some 0 ∧
    (fitPixel exFlags exCfg 5 (crPix e 0 0 exPix 0 (fun _ => none) w)).2.dq = exFlags.jump := by decide +kernel

end Verif.Thm
