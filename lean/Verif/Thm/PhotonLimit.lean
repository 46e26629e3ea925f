import Verif.Thm.LikelyRange
import Verif.Thm.Cas22Var

/-!
# C188: no fit claims a smaller photon noise than counting all photons between the first and the last read would have

Counting the photons of a source of rate `f` for a time `T` gives the rate with the variance `f / T`.  The theorems say that the Poisson
variance reported by a fit is never below this bound, `T` being the time from the first read used to the last one.
-/

set_option linter.unusedSectionVars false

namespace Verif.Thm

variable {α : Type} [Field α] [LinearOrder α] [IsStrictOrderedRing α]

/-! ## The bound for any linear combination of reads -/

theorem qt_add {x y p q l m : α} (hp : 0 ≤ p) (hq : 0 ≤ q) (hl : 0 ≤ l) (hm : 0 ≤ m) (hx : x ^ 2 ≤ p * l) (hy : y ^ 2 ≤ q * m) :
    (x + y) ^ 2 ≤ (p + q) * (l + m) := by
  have h : 2 * (x * y) ≤ p * m + q * l := by
    refine le_trans (le_abs_self _) (abs_le_of_sq_le_sq ?_ (add_nonneg (mul_nonneg hp hm) (mul_nonneg hq hl)))
    have h1 := mul_le_mul hx hy (sq_nonneg y) (mul_nonneg hp hl)
    have h2 := sq_nonneg (p * m - q * l)
    nlinarith
  nlinarith

/-- Cauchy–Schwarz for reads in time order: `l` lists coefficients and times within `[t0, T]`. -/
theorem qt_reads (T : α) (l : List (α × α)) (hs : l.Pairwise fun x y => x.2 ≤ y.2) :
    ∀ t0, t0 ≤ T → (∀ x ∈ l, t0 ≤ x.2 ∧ x.2 ≤ T) → 0 ≤ caPoisson l - t0 * (l.map Prod.fst).sum ^ 2
      ∧ (l.map fun x => x.1 * (x.2 - t0)).sum ^ 2 ≤ (caPoisson l - t0 * (l.map Prod.fst).sum ^ 2) * (T - t0) := by
  induction l with
  | nil => intro t0 _ _; simp [caPoisson]
  | cons x l ih =>
    intro t0 h0 hx
    rw [List.pairwise_cons] at hs
    obtain ⟨x1, x2⟩ := hx x (by simp)
    obtain ⟨i1, i2⟩ := ih hs.2 x.2 x2 fun y hy => ⟨hs.1 y hy, (hx y (by simp [hy])).2⟩
    have e1 : ((x :: l).map fun y => y.1 * (y.2 - t0)).sum
        = (x.2 - t0) * (x.1 + (l.map Prod.fst).sum) + (l.map fun y => y.1 * (y.2 - x.2)).sum := by
      rw [List.map_cons, List.sum_cons]
      have : (l.map fun y => y.1 * (y.2 - t0)).sum
          = (x.2 - t0) * (l.map Prod.fst).sum + (l.map fun y => y.1 * (y.2 - x.2)).sum := by
        clear ih hs hx i1 i2
        induction l with
        | nil => simp
        | cons y l ih => simp only [List.map_cons, List.sum_cons, ih]; ring
      rw [this]; ring
    have e2 : caPoisson (x :: l) - t0 * (((x :: l).map Prod.fst).sum) ^ 2
        = (x.2 - t0) * (x.1 + (l.map Prod.fst).sum) ^ 2 + (caPoisson l - x.2 * (l.map Prod.fst).sum ^ 2) := by
      rw [ca_poisson_cons x l hs.1, List.map_cons, List.sum_cons]; ring
    rw [e1, e2]
    have hd : 0 ≤ x.2 - t0 := by linarith
    have hp : 0 ≤ (x.2 - t0) * (x.1 + (l.map Prod.fst).sum) ^ 2 := mul_nonneg hd (sq_nonneg _)
    refine ⟨add_nonneg hp i1, ?_⟩
    have := qt_add hp i1 hd (by linarith : 0 ≤ T - x.2) (x := (x.2 - t0) * (x.1 + (l.map Prod.fst).sum)) (le_of_eq (by ring)) i2
    refine this.trans (le_of_eq ?_)
    ring

/-- A combination of reads that measures a rate (coefficients of sum zero, one for a line of slope one) has at least the photon noise of
the counts between the first and the last read. -/
theorem qt_limit (l : List (α × α)) (hs : l.Pairwise fun x y => x.2 ≤ y.2) (t0 T : α) (h0 : t0 ≤ T)
    (hx : ∀ x ∈ l, t0 ≤ x.2 ∧ x.2 ≤ T) (hsum : (l.map Prod.fst).sum = 0) (hone : (l.map fun x => x.1 * x.2).sum = 1) :
    1 ≤ caPoisson l * (T - t0) := by
  obtain ⟨-, h⟩ := qt_reads T l hs t0 h0 hx
  have e : (l.map fun x => x.1 * (x.2 - t0)).sum = (l.map fun x => x.1 * x.2).sum - t0 * (l.map Prod.fst).sum := by
    clear hs hx hsum hone h
    induction l with
    | nil => simp
    | cons y l ih => simp only [List.map_cons, List.sum_cons, ih]; ring
  rw [e, hsum, hone] at h
  simpa using h

theorem qt_caReads_fst (rt : α) (reads : Nat → List α) (c : Nat → α) (l : List Nat) (hne : ∀ i ∈ l, reads i ≠ []) :
    ((caReads rt reads c l).map Prod.fst).sum = (l.map c).sum
      ∧ ((caReads rt reads c l).map fun x => x.1 * x.2).sum
        = (l.map fun i => c i * (rt * ((reads i).sum / ((reads i).length : α)))).sum := by
  induction l with
  | nil => simp [caReads]
  | cons k l ih =>
    obtain ⟨i1, i2⟩ := ih fun i hi => hne i (by simp [hi])
    have hk : ((reads k).length : α) ≠ 0 := by exact_mod_cast (List.length_pos_of_ne_nil (hne k (by simp))).ne'
    have e : caReads rt reads c (k :: l)
        = (reads k).map (fun t => (c k / ((reads k).length : α), rt * t)) ++ caReads rt reads c l := by simp [caReads]
    rw [e, List.map_append, List.sum_append, List.map_append, List.sum_append, i1, i2, List.map_cons, List.sum_cons, List.map_cons,
      List.sum_cons]
    constructor
    · congr 1
      rw [List.map_map]
      simp only [Function.comp_def, List.map_const', List.sum_replicate, nsmul_eq_mul]
      field_simp
    · congr 1
      rw [List.map_map]
      have : ∀ s : List α, (s.map ((fun x : α × α => x.1 * x.2) ∘ fun t => (c k / ((reads k).length : α), rt * t))).sum
          = c k / ((reads k).length : α) * rt * s.sum := by
        intro s
        induction s with
        | nil => simp
        | cons y s ih => simp only [List.map_cons, List.sum_cons, ih, Function.comp_apply]; ring
      rw [this]
      field_simp

theorem qt_caReads_mem (rt : α) (h0 : 0 ≤ rt) (reads : Nat → List α) (c : Nat → α) (l : List Nat) (a b : α)
    (h : ∀ i ∈ l, ∀ t ∈ reads i, a ≤ t ∧ t ≤ b) : ∀ x ∈ caReads rt reads c l, rt * a ≤ x.2 ∧ x.2 ≤ rt * b := by
  intro x hx
  simp only [caReads, List.mem_flatMap, List.mem_map] at hx
  obtain ⟨i, hi, t, ht, rfl⟩ := hx
  exact ⟨mul_le_mul_of_nonneg_left (h i hi t ht).1 h0, mul_le_mul_of_nonneg_left (h i hi t ht).2 h0⟩

/-! ## Casertano et al. -/

section Cas22
open Verif.Cas22 Finset

/-- **C188**, one ramp of `fit_ramps_casertano`: the Poisson variance (of a unit rate) times the time between the reads is at least one. -/
theorem C188_ramp (cfg : Cfg α) (hp : Cas22PowOk cfg.pow) (p : Pix α) (readTime : α) (h0 : 0 ≤ readTime)
    (reads : Nat → List α) (r : Ramp) (hpat : FromPattern p readTime reads r.idx) (hr : r.start < r.stop)
    (ho : PatternOrdered reads r.idx) (ht : p.tbar r.start ≠ p.tbar r.stop) (a b : α)
    (hab : ∀ i ∈ r.idx, ∀ t ∈ reads i, a ≤ t ∧ t ≤ b) :
    ∃ f, fitRamp cfg p r = some f ∧ 1 ≤ f.poissonVar * (readTime * (b - a)) := by
  obtain ⟨f, h1, c, -, h3, h4, -, h6⟩ := C93_ramp_variances cfg hp p readTime h0 reads r hpat hr ho ht
  refine ⟨f, h1, ?_⟩
  obtain ⟨q1, q2⟩ := qt_caReads_fst readTime reads c r.idx fun i hi => (hpat i hi).1
  have hk : r.start ∈ r.idx := mem_idx.2 ⟨le_rfl, hr.le⟩
  obtain ⟨t, ht⟩ := List.exists_mem_of_ne_nil _ (hpat r.start hk).1
  have hab' := hab _ hk t ht
  have := qt_limit _ (ca_sorted readTime h0 reads c r.idx ho) (readTime * a) (readTime * b)
    (mul_le_mul_of_nonneg_left (by linarith) h0) (qt_caReads_mem readTime h0 reads c r.idx a b hab)
    (by rw [q1, ca_sum]; exact h3) (by rw [q2, ca_sum]; exact h4)
  rw [h6, mul_sub]
  exact this

/-- Cauchy–Schwarz over the ramps of a pixel. -/
theorem qt_ramps (fit : Ramp → Option (Fit α)) (L : Ramp → α) (w : Fit α → α) (ramps : List Ramp) (hL : ∀ r ∈ ramps, 0 ≤ L r)
    (h : ∀ r ∈ ramps, ∀ f, fit r = some f → 0 ≤ f.poissonVar ∧ 1 ≤ f.poissonVar * L r) :
    0 ≤ (((ramps.map fit).filterMap id).map fun f => w f ^ 2 * f.poissonVar).sum ∧ 0 ≤ (ramps.map L).sum
      ∧ (((ramps.map fit).filterMap id).map w).sum ^ 2
        ≤ (((ramps.map fit).filterMap id).map fun f => w f ^ 2 * f.poissonVar).sum * (ramps.map L).sum := by
  induction ramps with
  | nil => simp
  | cons r ramps ih =>
    obtain ⟨i0, i1, i2⟩ := ih (fun r hr => hL r (by simp [hr])) fun r hr => h r (by simp [hr])
    have hLr := hL r (by simp)
    rw [List.map_cons, List.map_cons, List.sum_cons]
    cases hf : fit r with
    | none =>
      rw [List.filterMap_cons_none (by simp)]
      exact ⟨i0, add_nonneg hLr i1, i2.trans (mul_le_mul_of_nonneg_left (by linarith) i0)⟩
    | some f =>
      obtain ⟨p0, p1⟩ := h r (by simp) f hf
      rw [List.filterMap_cons_some (b := f) (by simp), List.map_cons, List.map_cons, List.sum_cons, List.sum_cons]
      have hw := mul_nonneg (sq_nonneg (w f)) p0
      refine ⟨add_nonneg hw i0, add_nonneg hLr i1, qt_add hw i0 hLr i1 ?_ i2⟩
      have := mul_le_mul_of_nonneg_left p1 (sq_nonneg (w f))
      linarith

/-- Ramps without common resultants cover together no more than the whole. -/
theorem qt_disjoint (hh : Nat → α) (ramps : List Ramp) (s : Finset Nat) (h0 : ∀ i ∈ s, 0 ≤ hh i) (hd : ramps.Pairwise Disj)
    (hs : ∀ r ∈ ramps, Finset.Icc r.start r.stop ⊆ s) :
    (ramps.map fun r => ∑ i ∈ Finset.Icc r.start r.stop, hh i).sum ≤ ∑ i ∈ s, hh i := by
  induction ramps generalizing s with
  | nil => simpa using Finset.sum_nonneg h0
  | cons r ramps ih =>
    rw [List.pairwise_cons] at hd
    rw [List.map_cons, List.sum_cons, ← Finset.sum_sdiff (hs r (by simp)), add_comm]
    refine add_le_add_left (ih _ (fun i hi => h0 i (Finset.mem_sdiff.1 hi).1) hd.2 fun q hq i hi => ?_) _
    refine Finset.mem_sdiff.2 ⟨hs q (by simp [hq]) hi, fun hc => ?_⟩
    rw [Finset.mem_Icc] at hi hc
    rcases hd.1 q hq with h | h <;> omega

theorem qt_telescope (E : Nat → α) (a b : Nat) (h : a ≤ b) : ∑ i ∈ Finset.Icc a b, (E (i + 1) - E i) = E (b + 1) - E a := by
  have : Finset.Icc a b = Finset.Ico a (b + 1) := by ext; simp
  rw [this, Finset.sum_Ico_sub _ (by omega)]

/-- The ramps fitted for a pixel share no resultant. -/
theorem qt_pairwise (cfg : Cfg α) (p : Pix α) (dq dq' : Nat → Nat) (n fuel : Nat) (ramps : List Ramp) (avg : Fit α)
    (h : fitPixel cfg p dq n fuel = some (dq', ramps, avg)) (hf : n + 1 ≤ fuel) : ramps.Pairwise Disj := by
  obtain ⟨h1, h2, h3⟩ := C35_ramps_are_maximal_runs dq n
  have hcost : cost (initRamps dq n).reverse ≤ n + 1 := by
    rw [cost_reverse]
    have := cost_le n (initRamps dq n) 0 (by omega)
      (fun r hr => ⟨((h1 r).1 hr).1, ((h1 r).1 hr).2.1, by omega⟩) h2
    omega
  have inv : LoopInv dq n ⟨(initRamps dq n).reverse, dq, []⟩ := by
    constructor
    · intro r hr
      simp only [List.nil_append, List.mem_reverse] at hr
      exact ⟨((h1 r).1 hr).1, ((h1 r).1 hr).2.1⟩
    · simp only [List.nil_append, List.pairwise_reverse]
      exact h2.imp fun h => Or.inr (by omega)
    · intro i hi
      refine ⟨rfl, fun r hr hc => ?_⟩
      simp only [List.nil_append, List.mem_reverse] at hr
      exact hi (((h1 r).1 hr).2.2.1 i hc.1 hc.2)
    · intro i hi hz
      obtain ⟨r, ⟨hr, hc⟩, -⟩ := h3 i hi hz
      exact Or.inl ⟨hz, r, by simpa using hr, hc⟩
    · intro i _; rfl
  obtain ⟨s, -, e2, e3, e4⟩ := runLoop_spec (detect cfg p) (detect_ok cfg p) dq n (n + 1) _ inv hcost
  have hd := e3.disj
  rw [e2, List.append_nil] at hd
  rw [fitPixel, e4 fuel hf] at h
  simp only [Option.map_some, Option.some.injEq, Prod.mk.injEq] at h
  rw [← h.2.1]
  exact hd

/-- **C188**, one pixel: the Poisson variance is at least that of counting from the first to the last read at the reported rate, whatever
is flagged and wherever jumps are found.  `E i` and `E (i + 1)` enclose the reads of resultant `i`. -/
theorem C188_pixel (cfg : Cfg α) (hp : Cas22PowOk cfg.pow) (p : Pix α) (readTime : α) (h0 : 0 < readTime) (reads : Nat → List α)
    (dq : Nat → Nat) (n : Nat) (hpat : FromPattern p readTime reads (List.range n))
    (ho : ∀ r : Ramp, r.stop < n → PatternOrdered reads r.idx)
    (ht : ∀ i j, i < j → j < n → p.tbar i < p.tbar j) (hrn : p.readNoise ≠ 0) (E : Nat → α)
    (hE : ∀ i < n, ∀ t ∈ reads i, E i ≤ t ∧ t ≤ E (i + 1)) :
    ∃ dq' ramps avg, (∀ fuel, n + 1 ≤ fuel → fitPixel cfg p dq n fuel = some (dq', ramps, avg))
      ∧ (avg = ⟨0, 0, 0⟩ ∨ 0 < avg.readVar ∧ avg.slope ≤ avg.poissonVar * (readTime * (E n - E 0)))
      ∧ 0 ≤ avg.poissonVar := by
  obtain ⟨dq', ramps, avg, h1, h2, h3, -⟩ := C36_pixel cfg p dq n
  have hdis := qt_pairwise cfg p dq dq' n _ ramps avg (h1 _ le_rfl) le_rfl
  refine ⟨dq', ramps, avg, h1, ?_⟩
  have hav : avg = average (ramps.map (fitRamp cfg p)) := by
    have := h1 (n + 1) le_rfl
    unfold fitPixel at this
    cases hl : runLoop (detect cfg p) (n + 1) ⟨(initRamps dq n).reverse, dq, []⟩ with
    | none => rw [hl] at this; simp at this
    | some s =>
      rw [hl] at this
      simp only [Option.map_some, Option.some.injEq, Prod.mk.injEq] at this
      rw [← this.2.2, this.2.1]
  have hn : ∀ i, i < n → 0 < p.nreads i := by
    intro i hi
    obtain ⟨g1, g2, -, -⟩ := hpat i (List.mem_range.2 hi)
    rw [g2]; exact List.length_pos_iff.2 g1
  have hmono : ∀ i < n, E i ≤ E (i + 1) := by
    intro i hi
    obtain ⟨t, ht⟩ := List.exists_mem_of_ne_nil _ (hpat i (List.mem_range.2 hi)).1
    exact (hE i hi t ht).1.trans (hE i hi t ht).2
  have hmono2 : ∀ i j, i ≤ j → j ≤ n → E i ≤ E j := by
    intro i j hij
    induction j, hij using Nat.le_induction with
    | base => intro _; exact le_rfl
    | succ j hj ih => intro hjn; exact (ih (by omega)).trans (hmono j (by omega))
  have hfit : ∀ r ∈ ramps, ∀ f, fitRamp cfg p r = some f →
      0 ≤ f.poissonVar ∧ 1 ≤ f.poissonVar * (readTime * (E (r.stop + 1) - E r.start)) := by
    intro r hr f hf
    have hrn' := (h2 r hr).2
    have hpr : FromPattern p readTime reads r.idx := fun i hi => hpat i (List.mem_range.2 (by have := mem_idx.1 hi; omega))
    refine ⟨C74_poisson_variance_nonneg cfg p readTime h0.le reads r hpr (ho r hrn') f hf, ?_⟩
    by_cases hs : r.stop ≤ r.start
    · rw [(C37_short_ramps cfg p r).2 hs] at hf
      simp at hf
    · obtain ⟨g, hg, hg1⟩ := C188_ramp cfg hp p readTime h0.le reads r hpr (by omega) (ho r hrn')
        (ht _ _ (by omega) hrn').ne (E r.start) (E (r.stop + 1)) fun i hi t hti => by
          obtain ⟨i1, i2⟩ := mem_idx.1 hi
          have := hE i (by omega) t hti
          have := hmono2 r.start i i1 (by omega)
          have := hmono2 (i + 1) (r.stop + 1) (by omega) (by omega)
          constructor <;> linarith
      rw [hg] at hf
      obtain rfl := Option.some.inj hf
      exact hg1
  have hnn : 0 ≤ avg.poissonVar := by
    rw [hav]
    refine C74_average_poisson_nonneg _ fun f hf => ?_
    obtain ⟨r, hr, hfr⟩ := List.mem_map.1 hf
    exact (hfit r hr f hfr).1
  refine ⟨?_, hnn⟩
  have hv := C73_pixel_variances_positive cfg hp p n ht hn hrn ramps fun r hr => (h2 r hr).2
  obtain ⟨a1, a2⟩ := C73_average (ramps.map (fitRamp cfg p)) _ rfl hv
  by_cases hF : (ramps.map (fitRamp cfg p)).filterMap id = []
  · exact Or.inl (hav.trans (a1 hF))
  · obtain ⟨-, b2, -, -⟩ := a2 hF
    have hpos : 0 < (((ramps.map (fitRamp cfg p)).filterMap id).map fun f => 1 / f.readVar).sum :=
      Verif.Ols.sum_pos_of_mem _ _ (fun x hx => by have := hv x hx; positivity) hF
    refine Or.inr ⟨by rw [hav, b2]; exact one_div_pos.2 hpos, ?_⟩
    have hP := C93_pixel_poisson (ramps.map (fitRamp cfg p)) _ rfl hv hF
    rw [← hav] at hP
    obtain ⟨c0, c1, c2⟩ := qt_ramps (fitRamp cfg p) (fun r => readTime * (E (r.stop + 1) - E r.start)) (fun f => 1 / f.readVar) ramps
      (fun r hr => mul_nonneg h0.le (sub_nonneg.2 (hmono2 _ _ (by have := h2 r hr; omega) (by have := h2 r hr; omega)))) hfit
    have htot : (ramps.map fun r => readTime * (E (r.stop + 1) - E r.start)).sum ≤ readTime * (E n - E 0) := by
      rw [List.sum_map_mul_left]
      refine mul_le_mul_of_nonneg_left ?_ h0.le
      have := qt_disjoint (fun i => E (i + 1) - E i) ramps (Finset.range n)
        (fun i hi => sub_nonneg.2 (hmono i (Finset.mem_range.1 hi))) hdis fun r hr i hi => by
          have := h2 r hr
          rw [Finset.mem_Icc] at hi
          exact Finset.mem_range.2 (by omega)
      rw [Finset.sum_range_sub] at this
      refine le_trans (le_of_eq ?_) this
      congr 1
      exact List.map_congr_left fun r hr => (qt_telescope E _ _ (h2 r hr).1).symm
    have c3 := c2.trans (mul_le_mul_of_nonneg_left htot c0)
    have e : (((ramps.map (fitRamp cfg p)).filterMap id).map fun f => (1 / f.readVar) ^ 2 * f.poissonVar).sum
        = (((ramps.map (fitRamp cfg p)).filterMap id).map fun f => f.poissonVar / f.readVar ^ 2).sum := by
      congr 1
      exact List.map_congr_left fun f _ => by ring
    rw [e] at c3
    rw [hP]
    generalize (((ramps.map (fitRamp cfg p)).filterMap id).map fun f => f.poissonVar / f.readVar ^ 2).sum = A at *
    generalize (((ramps.map (fitRamp cfg p)).filterMap id).map fun f => 1 / f.readVar).sum = W at *
    generalize readTime * (E n - E 0) = D at *
    split
    · rename_i hs
      have hW := pow_pos hpos 2
      have : 1 ≤ A * D / W ^ 2 := by rwa [le_div_iff₀ hW, one_mul]
      have := mul_le_mul_of_nonneg_right this hs
      rw [one_mul] at this
      refine this.trans (le_of_eq ?_)
      ring
    · rename_i hs
      rw [mul_zero, zero_mul]
      exact (not_le.1 hs).le

theorem qt_headD (l : List α) (d : α) (h : l ≠ []) : l.headD d ∈ l := by
  cases l with
  | nil => exact absurd rfl h
  | cons x l => simp

/-- **C188**, `fit_ramps_casertano` on an array: the Poisson variance of every pixel is at least its slope divided by the time from the
first to the last read of the read pattern, or slope and variances are all zero. -/
theorem C188_cas22 (cfg : Cfg α) (hp : Cas22PowOk cfg.pow) (readTime : α) (h0 : 0 < readTime) (pattern : List (List α))
    (hn : pattern ≠ []) (hpat : RbPattern pattern) (h1st : ∀ t ∈ pattern.flatten, 0 ≤ t) (shape : List Nat) (hs : shape ≠ [])
    (res : Nat → α) (dq : Nat → Nat) (noise : Verif.Cas22Driver.Noise α) (rn : Nat → α)
    (hrn : Verif.Cas22Driver.spread shape noise = some rn) (hpos : ∀ k, k < shape.prod → rn k ≠ 0)
    (f0 : Verif.Cas22Driver.Fixed α) (s0 : Verif.Cas22Driver.Scratch α) (a b : α) (hab : ∀ t ∈ pattern.flatten, a ≤ t ∧ t ≤ b) :
    ∃ o, Verif.Cas22Driver.casertano cfg readTime pattern pattern.length shape res dq noise none f0 s0 = some o
      ∧ ∀ k, k < shape.prod →
        (o.par[2 * k + 1]? = some 0 ∧ o.var[3 * k]? = some 0 ∧ o.var[3 * k + 1]? = some 0 ∧ o.var[3 * k + 2]? = some 0)
        ∨ ∃ slope v, o.par[2 * k + 1]? = some slope ∧ o.var[3 * k + 1]? = some v ∧ 0 ≤ v
          ∧ slope ≤ v * (readTime * (b - a)) := by
  obtain ⟨o, h1, -, -, -, h2⟩ := C104_array cfg readTime pattern hn shape hs res dq noise rn hrn f0 s0
  refine ⟨o, h1, fun k hk => ?_⟩
  obtain ⟨dq', ramps, avg, g1, -, g3, g4, g5, g6, -⟩ := h2 k hk
  have hlen := List.length_pos_of_ne_nil hn
  have hne : ∀ i < pattern.length, pattern.getD i [] ≠ [] := by
    intro i hi
    rw [List.getD_eq_getElem _ _ hi]
    exact hpat.1 _ (List.getElem_mem hi)
  have hmem : ∀ i < pattern.length, ∀ t ∈ pattern.getD i [], t ∈ pattern.flatten := by
    intro i hi t ht
    rw [List.getD_eq_getElem _ _ hi] at ht
    exact List.mem_flatten.2 ⟨_, List.getElem_mem hi, ht⟩
  obtain ⟨pw1, pw2⟩ := List.pairwise_flatten.1 hpat.2
  set E : Nat → α := fun i => if i = 0 then a else if i < pattern.length then (pattern.getD i []).headD 0 else b with hE
  obtain ⟨dq2, ramps2, avg2, e1, e2, e3⟩ := C188_pixel cfg hp
    (Verif.Cas22Driver.pixelOf readTime pattern (fun k i => res (i * shape.prod + k)) rn k) readTime h0
    (fun i => pattern.getD i []) (fun i => dq (i * shape.prod + k)) pattern.length
    (fun i hi => ⟨hne i (List.mem_range.1 hi), rfl, rfl, rfl⟩)
    (fun r hr => by
      have hsub : (r.idx.flatMap fun i => pattern.getD i []).Sublist pattern.flatten := by
        have e : (r.idx.map fun i => pattern.getD i []) = (pattern.drop r.start).take r.idx.length := by
          refine List.ext_getElem? fun m => ?_
          have hl : r.idx.length = r.stop + 1 - r.start := by simp [Ramp.idx]
          rw [List.getElem?_map, List.getElem?_take, List.getElem?_drop]
          by_cases hm : m < r.idx.length
          · rw [if_pos hm, List.getElem?_eq_getElem hm]
            have hv : r.idx[m] = r.start + m := by simp [Ramp.idx]
            have hlt : r.start + m < pattern.length := by omega
            rw [Option.map_some, hv, List.getD_eq_getElem _ _ hlt, List.getElem?_eq_getElem hlt]
          · rw [if_neg hm, List.getElem?_eq_none (by omega)]
            rfl
        rw [List.flatMap_def, e]
        exact ((List.take_sublist _ _).trans (List.drop_sublist _ _)).flatten
      exact ⟨fun t ht => h1st t (hsub.subset ht), (hpat.2.sublist hsub).imp le_of_lt⟩)
    (fun i j hij hj => rb_times readTime h0 pattern hpat i j hij hj) (hpos k hk) E
    (fun i hi t ht => by
      constructor
      · simp only [hE]
        split
        · exact (hab t (hmem i hi t ht)).1
        · have hp1 := pw1 _ (List.getElem_mem hi)
          rw [List.getD_eq_getElem _ _ hi] at ht ⊢
          cases hl : pattern[i] with
          | nil => rw [hl] at ht; simp at ht
          | cons x l =>
            rw [hl] at ht hp1
            rcases List.mem_cons.1 ht with rfl | ht
            · simp
            · simpa using (List.rel_of_pairwise_cons hp1 ht).le
      · simp only [hE]
        rw [if_neg (by omega)]
        split
        · rename_i hi1
          have hp2 := List.pairwise_iff_getElem.1 pw2 i (i + 1) hi hi1 (by omega)
          have hx := qt_headD (pattern.getD (i + 1) []) 0 (hne _ hi1)
          rw [List.getD_eq_getElem _ _ hi] at ht
          have hx' : (pattern.getD (i + 1) []).headD 0 ∈ pattern[i + 1] := by
            rwa [List.getD_eq_getElem _ _ hi1] at hx ⊢
          exact (hp2 t ht _ hx').le
        · exact (hab t (hmem i hi t ht)).2)
  rw [e1 _ le_rfl] at g1
  simp only [Option.some.injEq, Prod.mk.injEq] at g1
  obtain ⟨-, -, rfl⟩ := g1
  have hEn : E pattern.length = b := by simp only [hE]; rw [if_neg (by omega), if_neg (by omega)]
  have hE0 : E 0 = a := by simp [hE]
  rw [hEn, hE0] at e2
  rcases e2 with e2 | ⟨_, c⟩
  · subst e2
    exact Or.inl ⟨g3, g4, g5, by rw [g6]; simp⟩
  · exact Or.inr ⟨_, _, g3, g5, e3, c⟩

end Cas22

/-! ## Likelihood -/

section Likely
open Verif.Likely Verif.LikelyDriver Finset

theorem qt_abel (X t ta : Nat → α) (h0 : X 0 = 0) (p : Verif.Cas22.Pix α) (m : Nat)
    (ht : ∀ i < m, p.tbar i = t i) (hta : ∀ i < m, p.tau i = ta i) :
    ((List.range m).foldl (Verif.Cas22.fitStep p fun j => X j - X (j + 1)) (⟨0, 0, 0⟩, 0)).1.poissonVar
        = (∑ k ∈ range m, (t (k + 1) - t k) * X (k + 1) ^ 2) - (∑ j ∈ range m, (t j - ta j) * (X j - X (j + 1)) ^ 2)
          + X m ^ 2 * t m - 2 * X m * ∑ k ∈ range m, X (k + 1) * (t (k + 1) - t k)
      ∧ ((List.range m).foldl (Verif.Cas22.fitStep p fun j => X j - X (j + 1)) (⟨0, 0, 0⟩, 0)).2
        = (∑ k ∈ range m, X (k + 1) * (t (k + 1) - t k)) - X m * t m := by
  induction m with
  | zero => simp [h0]
  | succ m ih =>
    obtain ⟨i1, i2⟩ := ih (fun i hi => ht i (by omega)) fun i hi => hta i (by omega)
    rw [List.range_succ, List.foldl_append, List.foldl_cons, List.foldl_nil]
    simp only [Verif.Cas22.fitStep, i1, i2, ht m (by omega), hta m (by omega), sum_range_succ]
    constructor <;> ring

theorem qt_square (X δ : Nat → α) (h0 : X 0 = 0) (m : Nat) :
    ∑ j ∈ range (m + 1), δ j * (X j - X (j + 1)) ^ 2
      = (∑ i ∈ range m, (δ i + δ (i + 1)) * X (i + 1) ^ 2) + δ m * X (m + 1) ^ 2
        - 2 * ∑ i ∈ range m, δ (i + 1) * (X (i + 1) * X (i + 2)) := by
  induction m with
  | zero => simp [h0]
  | succ m ih =>
    rw [sum_range_succ, ih, sum_range_succ (fun i => (δ i + δ (i + 1)) * X (i + 1) ^ 2),
      sum_range_succ fun i => δ (i + 1) * (X (i + 1) * X (i + 2))]
    ring

theorem qt_tau (l : List α) : Verif.Cas22.tauTime 1 l = tauT l := by
  unfold Verif.Cas22.tauTime tauT
  rw [mul_one]
  congr 1
  exact sum_congr rfl fun k _ => by ring

theorem qt_flat (n : Nat) (times : Nat → List α) (h : LkPattern n times) (m : Nat) (hm : m ≤ n) :
    ((List.range (m + 1)).flatMap times).Pairwise (· ≤ ·)
      ∧ ∀ s ∈ (List.range (m + 1)).flatMap times, ∃ t ∈ times m, s ≤ t := by
  induction m with
  | zero =>
    have e : (List.range 1).flatMap times = times 0 := by simp [List.range_succ]
    rw [e]
    exact ⟨(h.1 0 (by omega)).2, fun s hs => ⟨s, hs, le_rfl⟩⟩
  | succ m ih =>
    obtain ⟨i1, i2⟩ := ih (by omega)
    have e : (List.range (m + 1 + 1)).flatMap times = (List.range (m + 1)).flatMap times ++ times (m + 1) := by
      rw [List.range_succ (n := m + 1), List.flatMap_append]; simp
    rw [e]
    refine ⟨List.pairwise_append.2 ⟨i1, (h.1 _ hm).2, fun s hs t ht => ?_⟩, fun s hs => ?_⟩
    · obtain ⟨s', hs', hle⟩ := i2 s hs
      exact hle.trans (h.2 m (by omega) s' hs' t ht).le
    · rcases List.mem_append.1 hs with hs | hs
      · obtain ⟨s', hs', hle⟩ := i2 s hs
        obtain ⟨t, ht⟩ := List.exists_mem_of_ne_nil _ (h.1 (m + 1) hm).1
        exact ⟨t, ht, hle.trans (h.2 m (by omega) s' hs' t ht).le⟩
      · exact ⟨s, hs, le_rfl⟩

/-- The photon part of the variance of a combination of differences with weights of sum one. -/
theorem qt_bil {n : Nat} {times : Nat → List α} (h : LkPattern n times) (F : α) (hF : 0 ≤ F) (w : Nat → α)
    (hw : ∑ i ∈ range n, w i = 1) (a b : α) (hab : ∀ j ≤ n, ∀ t ∈ times j, a ≤ t ∧ t ≤ b) :
    F ≤ ((∑ i ∈ range n, w i * w i * (F * (covar times).alphaP i))
      + 2 * ∑ i ∈ range (n - 1), w (i + 1) * w i * (F * (covar times).betaP i)) * (b - a) := by
  have hn : n ≠ 0 := by rintro rfl; simp at hw
  obtain ⟨n, rfl⟩ : ∃ m, n = m + 1 := ⟨n - 1, by omega⟩
  set N := n + 1 with hN
  have hdt : ∀ i < N, 0 < meanT (times (i + 1)) - meanT (times i) := fun i hi => h.ordered.delta_pos hi
  set t : Nat → α := fun i => meanT (times i) with ht
  set ta : Nat → α := fun i => tauT (times i) with hta
  set X : Nat → α := fun i => if i = 0 then 0 else if i ≤ N then w (i - 1) / (t i - t (i - 1)) else 0 with hX
  have hX0 : X 0 = 0 := by simp [hX]
  have hXN : X (N + 1) = 0 := by simp [hX]
  have hXs : ∀ i < N, w i = X (i + 1) * (t (i + 1) - t i) := by
    intro i hi
    have := (hdt i hi).ne'
    simp only [hX]
    rw [if_neg (by omega), if_pos (by omega), Nat.add_sub_cancel, div_mul_cancel₀ _ this]
  set p : Verif.Cas22.Pix α := ⟨fun i => Verif.Cas22.meanTime 1 (times i), fun i => Verif.Cas22.tauTime 1 (times i),
    fun i => (times i).length, fun _ => 0, 0⟩ with hp
  have hsum1 : ∑ i ∈ range N, X (i + 1) * (t (i + 1) - t i) = 1 := by
    rw [← hw]
    exact sum_congr rfl fun i hi => (hXs i (mem_range.1 hi)).symm
  obtain ⟨v1, v2⟩ := qt_abel X t ta hX0 p (N + 1) (fun i _ => by simp [hp, ht, Verif.Cas22.meanTime, meanT])
    (fun i _ => by simp only [hp, hta]; exact qt_tau _)
  have hpat : FromPattern p 1 times (List.range (N + 1)) := fun i hi =>
    ⟨(h.1 i (by have := List.mem_range.1 hi; omega)).1, rfl, rfl, rfl⟩
  have hb := fold_blocks p 1 times (fun j => X j - X (j + 1)) (List.range (N + 1)) hpat (⟨0, 0, 0⟩, 0)
  have hsort : (caReads 1 times (fun j => X j - X (j + 1)) (List.range (N + 1))).Pairwise fun x y => x.2 ≤ y.2 := by
    have hmap : (caReads 1 times (fun j => X j - X (j + 1)) (List.range (N + 1))).map Prod.snd
        = ((List.range (N + 1)).flatMap times) := by
      rw [caReads, List.map_flatMap]
      simp [Function.comp_def]
    rw [← List.pairwise_map (R := (· ≤ ·)) (f := Prod.snd), hmap]
    exact (qt_flat N times h N le_rfl).1
  have hV := ca_readStep _ hsort
  have hV2 : caPoisson (caReads 1 times (fun j => X j - X (j + 1)) (List.range (N + 1)))
      = (∑ k ∈ range N, (t (k + 1) - t k) * X (k + 1) ^ 2) - ∑ j ∈ range (N + 1), (t j - ta j) * (X j - X (j + 1)) ^ 2 := by
    rw [← hV]
    have := congrArg Prod.fst hb
    simp only at this
    rw [show (caReads 1 times (fun j => X j - X (j + 1)) (List.range (N + 1)))
      = ((List.range (N + 1)).flatMap fun i => (times i).map fun t => ((X i - X (i + 1)) / ((times i).length : α), 1 * t)) from rfl,
      ← this, v1, sum_range_succ (fun k => (t (k + 1) - t k) * X (k + 1) ^ 2), hXN]
    ring
  obtain ⟨q1, q2⟩ := qt_caReads_fst 1 times (fun j => X j - X (j + 1)) (List.range (N + 1)) fun i hi => (hpat i hi).1
  obtain ⟨t0, ht0⟩ := List.exists_mem_of_ne_nil _ (h.1 0 (by omega)).1
  have hab0 := hab 0 (by omega) t0 ht0
  have hlim := qt_limit _ hsort a b (by linarith)
    (fun x hx => by
      have := qt_caReads_mem 1 zero_le_one times (fun j => X j - X (j + 1)) (List.range (N + 1)) a b
        (fun i hi => hab i (by have := List.mem_range.1 hi; omega)) x hx
      simpa using this)
    (by rw [q1, rt_listSum, sum_range_sub', hX0, hXN]; simp)
    (by
      rw [q2, rt_listSum]
      have e : ∀ m, ∑ j ∈ range m, (X j - X (j + 1)) * (1 * ((times j).sum / ((times j).length : α)))
          = (∑ k ∈ range m, X (k + 1) * (t (k + 1) - t k)) - X m * t m := by
        intro m
        induction m with
        | zero => simp [hX0]
        | succ m ih =>
          rw [sum_range_succ, sum_range_succ, ih]
          simp only [ht, meanT]
          ring
      rw [e, sum_range_succ, hXN, hsum1]
      ring)
  have hsq := qt_square X (fun j => t j - ta j) hX0 N
  have hlast : ∑ i ∈ range N, (t (i + 1) - ta (i + 1)) * (X (i + 1) * X (i + 2))
      = ∑ i ∈ range n, (t (i + 1) - ta (i + 1)) * (X (i + 1) * X (i + 2)) := by
    rw [hN, sum_range_succ, ← hN]
    have : X (n + 2) = 0 := hXN
    rw [this]; ring
  rw [hXN, hlast] at hsq
  have eA : ∑ i ∈ range N, w i * w i * (F * (covar times).alphaP i)
      = F * ∑ i ∈ range N, ((t (i + 1) - t i) * X (i + 1) ^ 2 - ((t i - ta i) + (t (i + 1) - ta (i + 1))) * X (i + 1) ^ 2) := by
    rw [mul_sum]
    refine sum_congr rfl fun i hi => ?_
    have d0 := (hdt i (mem_range.1 hi)).ne'
    rw [hXs i (mem_range.1 hi)]
    simp only [covar]
    simp only [ht, hta] at d0 ⊢
    field_simp
    ring
  have eB : ∑ i ∈ range (N - 1), w (i + 1) * w i * (F * (covar times).betaP i)
      = F * ∑ i ∈ range n, (t (i + 1) - ta (i + 1)) * (X (i + 1) * X (i + 2)) := by
    rw [mul_sum, hN, Nat.add_sub_cancel]
    refine sum_congr rfl fun i hi => ?_
    have hi := mem_range.1 hi
    have d0 := (hdt i (by omega)).ne'
    have d1 := (hdt (i + 1) (by omega)).ne'
    rw [hXs i (by omega), hXs (i + 1) (by omega)]
    simp only [covar]
    simp only [ht, hta] at d0 d1 ⊢
    generalize meanT (times (i + 1 + 1)) - meanT (times (i + 1)) = A at *
    generalize meanT (times (i + 1)) - meanT (times i) = B at *
    generalize meanT (times (i + 1)) - tauT (times (i + 1)) = C at *
    field_simp
  rw [eA, eB, sum_sub_distrib]
  rw [hV2, hsq] at hlim
  have := mul_le_mul_of_nonneg_left hlim hF
  rw [mul_one] at this
  refine this.trans (le_of_eq ?_)
  ring

/-- **C188**, one likelihood fit, for every read pattern, mask and data: the Poisson variance is at least the rate assumed for the photon
noise, divided by the gain and by the time from the first to the last read. -/
theorem C188_likely_fit {n : Nat} {u : Nat → Bool} {times : Nat → List α} {q : Noise α} {s : α} (h : LkPattern n times)
    (hq : LkNoiseOk q) (hs : 0 < s) (hu : ∃ i < n, u i = true) (diffs : Nat → α) (a b : α)
    (hab : ∀ j ≤ n, ∀ t ∈ times j, a ≤ t ∧ t ≤ b) :
    ∃ r, fitWith n (covar times) q s diffs (num u) = some r ∧ q.guess / q.gain ≤ r.varP * (b - a) := by
  obtain ⟨r, e1, -, -, -, -, -, -, e8, -⟩ := C38_generalised_least_squares h hq hs hu diffs
  refine ⟨r, e1, ?_⟩
  obtain ⟨m, hm, hC, hf⟩ := lkFit_eq h hq hs hu diffs
  rw [e1] at hf
  have hr := Option.some.inj hf
  have := qt_bil h (q.guess / q.gain) (div_nonneg hq.1 hq.2.1.le) r.weights e8 a b hab
  rw [hr] at this ⊢
  exact this

/-- **C188**, likelihood fitting of a pixel: the Poisson variance of every integration with a rate is at least `(v + dark) / gain` divided
by the time from the first to the last read, where `v` is the rate found by the search for jumps (zero if negative); in particular it is at
least that of the dark current.  Whatever is flagged and wherever jumps are found, with and without snowball expansion. -/
theorem C188_likely {root : α → Nat → α} (hr : RootOk root) (fl : LikelyDriver.Flags) (ng nframes : Nat) (hng : 4 ≤ ng)
    (pattern : Option (List (List α))) (default : List (List α)) (hT : LdTimes ng (pattern.getD default)) (c : Cfg α) (hg : 0 < c.gain)
    (hrn : c.rnoise ≠ 0) (hdk : 0 ≤ c.dark) (grow : Nat → Option ((Nat → Nat) → Nat → Nat)) (pixeldq : Nat) (ints : List (IntIn α))
    (a b : α) (hab : ∀ l ∈ pattern.getD default, ∀ t ∈ l, a ≤ t ∧ t ≤ b) :
    ∃ outs img, likelyPixel root fl ng nframes pattern default false c grow pixeldq ints = some (outs, img)
      ∧ ∀ (j : Nat) o r, outs[j]? = some o → o.fit = some r →
        c.dark / c.gain ≤ r.varP * (b - a)
        ∧ ∃ e v, ints[j]? = some e
          ∧ (masked root (ng - 1) (covar fun i => (pattern.getD default).getD i []) c e.gdq fun i =>
            (diffsOf (covar fun i => (pattern.getD default).getD i []) e.data i).getD 0).rate = some v
          ∧ (max v 0 + c.dark) / c.gain ≤ r.varP * (b - a) := by
  refine ⟨_, _, by unfold likelyPixel; rw [if_neg (by omega)], ?_⟩
  intro j o r ho hor
  simp only [List.getElem?_map, List.getElem?_zipIdx, Option.map_eq_some_iff] at ho
  obtain ⟨y, ⟨e, he, rfl⟩, rfl⟩ := ho
  have hP := ld_times hT (by omega)
  have hab' : ∀ j ≤ ng - 1, ∀ t ∈ (pattern.getD default).getD j [], a ≤ t ∧ t ≤ b := by
    intro i hi
    have hl : i < (pattern.getD default).length := by have := hT.1; omega
    rw [List.getD_eq_getElem _ _ hl]
    exact hab _ (List.getElem_mem hl)
  unfold fitInt at hor
  change (pixelFitE root (ng - 1) (covar fun j => (pattern.getD default).getD j []) c fl.jump _ e.gdq
    (diffsOf (covar fun j => (pattern.getD default).getD j []) e.data)).2.2 = some r at hor
  unfold pixelFitE at hor
  split at hor
  · set times : Nat → List α := fun j => (pattern.getD default).getD j [] with htimes
    set d : Nat → α := fun i => (diffsOf (covar times) e.data i).getD 0 with hd
    dsimp only at hor
    generalize expandMask fl.jump _ _ _ = u at hor
    cases hv : (masked root (ng - 1) (covar times) c e.gdq d).rate with
    | none => rw [hv] at hor; cases hor
    | some v =>
      rw [hv] at hor
      simp only [finalFit] at hor
      have hq : LkNoiseOk (⟨pos v + c.dark, c.gain, c.rnoise⟩ : Noise α) := ⟨add_nonneg (ld_pos _) hdk, hg, hrn⟩
      have hsc := (C38_rescaled_determinant hr hP hq (by omega)).1
      by_cases hex : ∃ i < ng - 1, u i = true
      · obtain ⟨r', f1, f2⟩ := C188_likely_fit hP hq hsc hex d a b hab'
        rw [f1] at hor
        obtain rfl := Option.some.inj hor
        have hpos : pos v = max v 0 := by
          unfold pos
          rcases le_total v 0 with h | h
          · rw [max_eq_right h]; split <;> [linarith; rfl]
          · rw [max_eq_left h]; split <;> [rfl; linarith]
        simp only [hpos] at f2
        refine ⟨le_trans (div_le_div_of_nonneg_right ?_ hg.le) f2, e, v, he, hv, f2⟩
        have := le_max_right v 0
        linarith
      · rw [C38_no_used_difference _ _ _ _ fun i hi => by
          rw [← Bool.not_eq_true]
          exact fun hc => hex ⟨i, hi, hc⟩] at hor
        cases hor
  · cases hor

end Likely

/-! ## Least squares of the C extension -/

section Ols
open Verif.Ols Verif.Dq

theorem qt_invP (fits : List (SegFit α)) : (accSegs fits).invP = (fits.map fun f => if 0 < f.varP then 1 / f.varP else 0).sum := by
  have key : ∀ (l : List (SegFit α)) (a0 : Acc α), (l.foldl (fun (a : Acc α) (f : SegFit α) =>
      { invR := a.invR + 1 / f.varR
        invP := if 0 < f.varP then a.invP + 1 / f.varP else a.invP
        invE := a.invE + 1 / (f.varP + f.varR)
        num := o2 (· + ·) a.num (f.slope.map fun s => s / f.varR) }) a0).invP
      = a0.invP + (l.map fun f => if 0 < f.varP then 1 / f.varP else 0).sum := by
    intro l
    induction l with
    | nil => intro a0; simp
    | cons f l ih =>
      intro a0
      rw [List.foldl_cons, ih, List.map_cons, List.sum_cons]
      by_cases h : 0 < f.varP
      · simp only [if_pos h]; ring
      · simp only [if_neg h]; ring
  rw [accSegs, key, zero_add]

theorem qt_num (px : Verif.Ols.Pix α) (med : Option α) : poissonNum px med = ovRate px med := by
  cases med with
  | none => simp [poissonNum, ovRate]
  | some m =>
    simp only [poissonNum, ovRate, Option.getD_some]
    by_cases h : 0 < m
    · rw [if_pos h, max_eq_left h.le]
    · rw [if_neg h, max_eq_right (not_lt.1 h), zero_add]

/-- Segments of two or more groups that follow each other from group `a` on: their time steps fit into the ramp. -/
theorem qt_steps (segs : List Seg) (n a : Nat) (hp : segs.Pairwise fun a b => a.stop ≤ b.start)
    (h : ∀ s ∈ segs, s.start < s.stop ∧ s.stop ≤ n ∧ a ≤ s.start) : (segs.map fun s => s.len - 1).sum ≤ n - 1 - a := by
  induction segs generalizing a with
  | nil => simp
  | cons s segs ih =>
    rw [List.pairwise_cons] at hp
    obtain ⟨h1, h2, h3⟩ := h s (by simp)
    rw [List.map_cons, List.sum_cons]
    by_cases hs : segs = []
    · subst hs
      simp only [List.map_nil, List.sum_nil, Seg.len]
      omega
    · have := ih s.stop hp.2 fun x hx => ⟨(h x (by simp [hx])).1, (h x (by simp [hx])).2.1, hp.1 x hx⟩
      unfold Seg.len at *
      omega

/-- The inverse Poisson variances of the segments of an integration have at most the sum of an exposure of the time `B`. -/
theorem qt_integ (fl : Verif.Ols.Flags) (cfg : Verif.Ols.Cfg α) (px : Verif.Ols.Pix α) (hg : 0 < px.gain) (ht : 0 < cfg.groupTime)
    (med : Option α) (hR : 0 < ovRate px med) (z0 zf : Bool) (data : Nat → Option α) (g : List Nat) (B : α)
    (h1 : cfg.groupTime ≤ B) (h2 : cfg.frameTime ≤ B) (h3 : cfg.oneGroupTime ≤ B)
    (h4 : cfg.groupTime * ((g.length : α) - 1) ≤ B) :
    (accSegs ((fitSegs fl g).segs.map (fitSeg cfg px med z0 zf data))).invP * ovRate px med ≤ px.gain * B := by
  have hB : 0 < B := lt_of_lt_of_le ht h1
  rw [qt_invP, List.map_map]
  by_cases hfs : firstSat fl g = true
  · simp only [fitSegs, hfs, if_true]
    have : (SegList.empty).segs = [] := rfl
    rw [this]
    simpa using (mul_pos hg hB).le
  · simp only [fitSegs, hfs, Bool.false_eq_true, if_false]
    obtain ⟨raw, hm, hp, k2, k1⟩ := computeSegs_natural fl g
    obtain ⟨c1, c2⟩ := C27_segments_sound fl g
    set R := ovRate px med with hRd
    have hnum : poissonNum px med = R := qt_num px med
    have hone : ∀ T : α, T ≤ B → (if 0 < R / (T * px.gain) then 1 / (R / (T * px.gain)) else 0) * R ≤ px.gain * B := by
      intro T hT
      split
      · rename_i hpos
        have hTp : 0 < T * px.gain := (div_pos_iff_of_pos_left hR).1 hpos
        rw [one_div_div, div_mul_cancel₀ _ hR.ne', mul_comm]
        exact mul_le_mul_of_nonneg_left hT hg.le
      · rw [zero_mul]; exact (mul_pos hg hB).le
    by_cases hlong : ∃ s ∈ raw, 2 ≤ s.len
    · have hlen : ∀ s ∈ (computeSegs fl g).segs, 2 ≤ s.len := by
        intro s hs
        rw [k2 hlong, List.mem_filter] at hs
        simpa using hs.2
      have e : (computeSegs fl g).segs.map ((fun f : SegFit α => if 0 < f.varP then 1 / f.varP else 0) ∘ fitSeg cfg px med z0 zf data)
          = (computeSegs fl g).segs.map fun s => cfg.groupTime * px.gain / R * ((s.len - 1 : Nat) : α) := by
        refine List.map_congr_left fun s hs => ?_
        have hl := hlen s hs
        have hl1 : (0 : α) < ((s.len - 1 : Nat) : α) := by
          have : 0 < s.len - 1 := by omega
          exact_mod_cast this
        have hv : (fitSeg cfg px med z0 zf data s).varP = R / (cfg.groupTime * px.gain * ((s.len - 1 : Nat) : α)) := by
          rw [fitSeg, if_neg (by omega)]
          split
          · rename_i h2'
            simp only [hnum, h2']
            simp
          · simp only [hnum]
            rw [Nat.cast_sub (by omega), Nat.cast_one]
        have hpos : 0 < R / (cfg.groupTime * px.gain * ((s.len - 1 : Nat) : α)) := by positivity
        simp only [Function.comp_apply, hv, if_pos hpos]
        rw [one_div_div]
        ring
      rw [e, List.sum_map_mul_left]
      have hs := qt_steps (computeSegs fl g).segs g.length 0 c1 fun s hs => ⟨(c2 s hs).1, (c2 s hs).2.1, Nat.zero_le _⟩
      have hs' : (((computeSegs fl g).segs.map fun s => ((s.len - 1 : Nat) : α))).sum ≤ ((g.length - 1 : Nat) : α) := by
        have e2 : (((computeSegs fl g).segs.map fun s => ((s.len - 1 : Nat) : α))).sum
            = (((((computeSegs fl g).segs.map fun s => s.len - 1)).sum : Nat) : α) := by
          rw [Nat.cast_list_sum, List.map_map]; rfl
        rw [e2]
        exact_mod_cast hs
      have hgl : ((g.length - 1 : Nat) : α) = (g.length : α) - 1 := by
        have hne : (computeSegs fl g).segs ≠ [] := by
          obtain ⟨s', hs', hl'⟩ := hlong
          rw [k2 ⟨s', hs', hl'⟩]
          exact List.ne_nil_of_mem (List.mem_filter.2 ⟨hs', by simpa using hl'⟩)
        obtain ⟨s2, hs2⟩ := List.exists_mem_of_ne_nil _ hne
        have := c2 s2 hs2
        rw [Nat.cast_sub (by omega), Nat.cast_one]
      rw [hgl] at hs'
      have := mul_le_mul_of_nonneg_left hs' ht.le
      have := mul_le_mul_of_nonneg_left (this.trans h4) hg.le
      refine le_trans (le_of_eq ?_) this
      have := hR.ne'
      field_simp
    · rw [k1 hlong]
      have hshort : ∀ s ∈ (computeSegs fl g).segs, s.len = 1 := by
        intro s hs
        have h1' := (c2 s hs).1
        rw [k1 hlong] at hs
        have : ¬ 2 ≤ s.len := fun hc => hlong ⟨s, List.mem_of_mem_take hs, hc⟩
        unfold Seg.len at *
        omega
      rw [k1 hlong] at hshort
      cases raw with
      | nil => simpa using (mul_pos hg hB).le
      | cons s raw =>
        have hs1 := hshort s (by simp)
        simp only [List.take_succ_cons, List.take_zero, List.map_cons, List.map_nil, List.sum_cons, List.sum_nil, add_zero,
          Function.comp_apply]
        rw [fitSeg, if_pos hs1]
        simp only [hnum]
        refine hone _ ?_
        unfold len1Timing
        split
        · exact h3
        · split
          · exact h2
          · exact h1

theorem qt_gdq (fl : Verif.Ols.Flags) (b : Bool) (d : List (Option α)) (g : List Nat) (z : Option (Option α)) :
    (loadInteg fl b d g z).gdq.length = g.length := by
  unfold loadInteg
  dsimp only
  split
  · rfl
  · split
    · rfl
    · split
      · cases z with
        | none => rfl
        | some z =>
          dsimp only
          split
          · rfl
          · simp
      · rfl

theorem qt_accP (fits : List (SegFit α)) : 0 ≤ (accSegs fits).invP := by
  rw [qt_invP]
  refine List.sum_nonneg fun x hx => ?_
  obtain ⟨f, -, rfl⟩ := List.mem_map.1 hx
  split
  · rename_i h; exact (one_div_pos.2 h).le
  · exact le_rfl


theorem qt_combine (fl : Verif.Ols.Flags) (cfg : Verif.Ols.Cfg α) (fits : List (SegFit α)) (dq : Nat) (a : Acc α)
    (h : (combineInteg fl cfg fits dq).2 = some a) : a = accSegs fits := by
  unfold combineInteg at h
  split at h
  · cases h
  · dsimp only at h
    split at h <;> exact (Option.some.inj h).symm

theorem qt_combineP (fl : Verif.Ols.Flags) (cfg : Verif.Ols.Cfg α) (fits : List (SegFit α)) (dq : Nat) :
    (combineInteg fl cfg fits dq).1.varP = 0 ∨ (combineInteg fl cfg fits dq).2 = some (accSegs fits) ∧ 0 < (accSegs fits).invP
      ∧ (combineInteg fl cfg fits dq).1.varP = 1 / (accSegs fits).invP := by
  unfold combineInteg
  split
  · exact Or.inl rfl
  · dsimp only
    split
    · exact Or.inl rfl
    · by_cases h : 0 < (accSegs fits).invP
      · simp only [if_pos h]
        split
        · exact Or.inl rfl
        · exact Or.inr ⟨trivial, h, rfl⟩
      · simp only [if_neg h]
        left
        split <;> rfl

/-- **C188**, ramp fitting of the C extension: the Poisson variance of an integration is zero (unusable, no photons expected, or above the
limit of a million) or at least the rate used for the photon noise (`ovRate`: median rate of the pixel, if positive, plus dark current),
divided by the gain and by the length `B` of an integration; that of the exposure likewise with the length of all integrations. -/
theorem C188_ols (fl : Verif.Ols.Flags) (cfg : Verif.Ols.Cfg α) (ngroups : Nat) (p : PixIn α) (hg : 0 < p.px.gain)
    (ht : 0 < cfg.groupTime) (hlen : ∀ x ∈ p.ints, x.2.1.length = ngroups) (B : α) (h1 : cfg.groupTime ≤ B) (h2 : cfg.frameTime ≤ B)
    (h3 : cfg.oneGroupTime ≤ B) (h4 : cfg.groupTime * ((ngroups : α) - 1) ≤ B) (f : α)
    (hf : f = ovRate p.px (medianRate fl cfg ngroups (loadPixel fl cfg p))) (hf0 : 0 < f) :
    (∀ r ∈ (fitPixel fl cfg ngroups p).1, r.varP = 0 ∨ f / p.px.gain ≤ r.varP * B)
    ∧ ((fitPixel fl cfg ngroups p).2.varP = 0
      ∨ f / p.px.gain ≤ (fitPixel fl cfg ngroups p).2.varP * ((p.ints.length : α) * B)) := by
  set med := medianRate fl cfg ngroups (loadPixel fl cfg p) with hmed
  have hB : 0 < B := lt_of_lt_of_le ht h1
  have hacc : ∀ x ∈ p.ints, ∀ a, (fitInteg fl cfg p.px med ngroups (loadInteg fl cfg.suppress1g x.1 x.2.1 x.2.2)
      (metaDq fl p ||| statBits fl (loadInteg fl cfg.suppress1g x.1 x.2.1 x.2.2).st)).2 = some a → 0 ≤ a.invP ∧ a.invP * f ≤ p.px.gain * B := by
    intro x hx a ha
    unfold fitInteg at ha
    dsimp only at ha
    split at ha
    · cases ha
    · have e := qt_combine _ _ _ _ _ ha
      rw [e]
      refine ⟨qt_accP _, ?_⟩
      rw [hf]
      refine qt_integ fl cfg p.px hg ht med (hf ▸ hf0) _ _ _ _ B h1 h2 h3 ?_
      rw [qt_gdq, hlen x hx]
      exact h4
  have hfin : ∀ s D : α, 0 < s → s * f ≤ p.px.gain * D → f / p.px.gain ≤ 1 / s * D := by
    intro s D hs h
    rw [div_le_iff₀ hg, one_div, inv_mul_eq_div, div_mul_eq_mul_div, le_div_iff₀ hs]
    linarith
  constructor
  · intro r hr
    simp only [Verif.Ols.fitPixel, pixelInts, loadPixel, List.map_map] at hr
    obtain ⟨x, hx, rfl⟩ := List.mem_map.1 hr
    simp only [Function.comp_apply, postInteg]
    have hax := hacc x hx
    change (fitInteg fl cfg p.px med ngroups (loadInteg fl cfg.suppress1g x.1 x.2.1 x.2.2)
      (metaDq fl p ||| statBits fl (loadInteg fl cfg.suppress1g x.1 x.2.1 x.2.2).st)).1.varP = 0
      ∨ f / p.px.gain ≤ (fitInteg fl cfg p.px med ngroups (loadInteg fl cfg.suppress1g x.1 x.2.1 x.2.2)
      (metaDq fl p ||| statBits fl (loadInteg fl cfg.suppress1g x.1 x.2.1 x.2.2).st)).1.varP * B
    generalize (loadInteg fl cfg.suppress1g x.1 x.2.1 x.2.2) = i at *
    generalize (metaDq fl p ||| statBits fl i.st) = d at *
    unfold fitInteg at hax ⊢
    dsimp only at hax ⊢
    split
    · exact Or.inl rfl
    · rename_i hc
      rw [if_neg hc] at hax
      have hv : ∀ (b : Prop) [Decidable b] (r : Rate α) (x : Option α), (if b then { r with slope := x } else r).varP = r.varP := by
        intro b _ r x
        split <;> rfl
      rw [hv]
      rcases qt_combineP fl cfg ((fitSegs fl i.gdq).segs.map (fitSeg cfg p.px med i.is0th i.isZframe fun k => (i.data[k]?).join))
        (if firstSat fl i.gdq then d ||| fl.dnu ||| fl.sat else d) with h | ⟨ha, hb, hc⟩
      · exact Or.inl h
      · right
        rw [hc]
        exact hfin _ _ hb (hax _ ha).2
  · have hsum : ∀ l : List (List (Option α) × List Nat × Option (Option α)), (∀ x ∈ l, x ∈ p.ints) →
        ((((l.map fun x => (fitInteg fl cfg p.px med ngroups (loadInteg fl cfg.suppress1g x.1 x.2.1 x.2.2)
          (metaDq fl p ||| statBits fl (loadInteg fl cfg.suppress1g x.1 x.2.1 x.2.2).st)).2).filterMap id).map
            fun a => if 0 < a.invP then a.invP else 0).sum) * f ≤ p.px.gain * ((l.length : α) * B) := by
      intro l
      induction l with
      | nil => intro _; simp
      | cons x l ih =>
        intro hl
        have i1 := ih fun y hy => hl y (by simp [hy])
        have hax := hacc x (hl x (by simp))
        rw [List.map_cons, List.length_cons]
        push_cast
        have hgB := mul_pos hg hB
        cases hc : (fitInteg fl cfg p.px med ngroups (loadInteg fl cfg.suppress1g x.1 x.2.1 x.2.2)
          (metaDq fl p ||| statBits fl (loadInteg fl cfg.suppress1g x.1 x.2.1 x.2.2).st)).2 with
        | none =>
          rw [List.filterMap_cons_none (by simp)]
          linarith
        | some a =>
          rw [List.filterMap_cons_some (b := a) (by simp), List.map_cons, List.sum_cons]
          obtain ⟨a1, a2⟩ := hax a hc
          have : (if 0 < a.invP then a.invP else 0) * f ≤ p.px.gain * B := by
            split
            · exact a2
            · rw [zero_mul]; exact hgB.le
          linarith
    have hs := hsum p.ints fun x hx => hx
    have hacceq : (pixelInts fl cfg ngroups p).filterMap (fun r => r.2.2)
        = ((p.ints.map fun x => (fitInteg fl cfg p.px med ngroups (loadInteg fl cfg.suppress1g x.1 x.2.1 x.2.2)
        (metaDq fl p ||| statBits fl (loadInteg fl cfg.suppress1g x.1 x.2.1 x.2.2).st)).2).filterMap id) := by
      simp only [pixelInts, loadPixel, List.map_map, List.filterMap_map]
      rfl
    have key1 : ∀ (b : Prop) [Decidable b] (r1 r2 : Rate α), (if b then r1 else r2).varP = if b then r1.varP else r2.varP := by
      intro b _ r1 r2
      split <;> rfl
    have key2 : ∀ (b : Prop) [Decidable b] (x D c : α), (x = 0 ∨ c ≤ x * D) →
        ((if b then 0 else x) = 0 ∨ c ≤ (if b then 0 else x) * D) := by
      intro b _ x D c h
      split
      · exact Or.inl rfl
      · exact h
    unfold Verif.Ols.fitPixel
    dsimp only
    rw [key1]
    refine key2 _ _ _ _ ?_
    rw [hacceq]
    generalize ((((p.ints.map fun x => (fitInteg fl cfg p.px med ngroups (loadInteg fl cfg.suppress1g x.1 x.2.1 x.2.2)
      (metaDq fl p ||| statBits fl (loadInteg fl cfg.suppress1g x.1 x.2.1 x.2.2).st)).2).filterMap id).map
        fun a => if 0 < a.invP then a.invP else 0).sum) = S at *
    by_cases hpos : 0 < S
    · simp only [if_pos hpos]
      exact key2 _ _ _ _ (Or.inr (hfin _ _ hpos hs))
    · simp only [if_neg hpos]
      left
      split
      · rfl
      · rename_i hc
        push Not at hc
        exact le_antisymm (not_lt.1 hpos) hc.2

end Ols

/-! ## Examples -/

section Examples
open Verif.Likely Verif.LikelyDriver

/-- Non-vacuity of `qt_limit`: the reads 1 and 4 and the average of reads 2 and 3, weighted as in a straight-line fit. -/
example : (([(-1 / 3, 1), (0, 2), (0, 3), (1 / 3, 4)] : List (ℚ × ℚ)).map Prod.fst).sum = 0
    ∧ (([(-1 / 3, 1), (0, 2), (0, 3), (1 / 3, 4)] : List (ℚ × ℚ)).map fun x => x.1 * x.2).sum = 1
    ∧ caPoisson ([(-1 / 3, 1), (0, 2), (0, 3), (1 / 3, 4)] : List (ℚ × ℚ)) * (4 - 1) = 1 := by
  decide +kernel

/-- A combination of the same reads for which the bound is not reached. -/
example : (([(-1, 1), (1, 2)] : List (ℚ × ℚ)).map Prod.fst).sum = 0
    ∧ (([(-1, 1), (1, 2)] : List (ℚ × ℚ)).map fun x => x.1 * x.2).sum = 1
    ∧ caPoisson ([(-1, 1), (1, 2)] : List (ℚ × ℚ)) * (4 - 1) = 3 := by
  decide +kernel

/-- Non-vacuity of `C188_cas22`. -/
example : RbPattern ([[1], [2, 3], [4, 5]] : List (List ℚ)) ∧ (∀ t ∈ ([[1], [2, 3], [4, 5]] : List (List ℚ)).flatten, 0 ≤ t)
    ∧ ∀ t ∈ ([[1], [2, 3], [4, 5]] : List (List ℚ)).flatten, 1 ≤ t ∧ t ≤ 5 := by
  unfold RbPattern; decide +kernel

/-- Non-vacuity of `C188_likely`: the reads from 10 to 140; the rate found by the search is 1/3, and the last two groups are flagged. -/
example : (∀ l ∈ rtTimes, ∀ t ∈ l, 10 ≤ t ∧ t ≤ 140)
    ∧ ((likelyPixel (fun _ _ => 1) ⟨1, 2, 4⟩ 5 2 none rtTimes false ⟨1, 1, 0, 16, 20⟩ (fun _ => none) 0 [rtInt]).map
      fun o => o.1.all fun i => i.fit.all fun r => decide (1 / 3 ≤ r.varP * (140 - 10)) && decide (r.varP * 60 < 1 / 3 * (11 / 10)))
      = some true := by
  decide +kernel

/-- Non-vacuity of `C188_ols`: six groups, a jump in the third and the last one unusable; the segments are 3 time steps long. -/
example : 0 < ovRate exPix (Verif.Ols.medianRate exFlags exCfg 6
      (Verif.Ols.loadPixel exFlags exCfg ⟨false, exPix, 0,
        [([some 1, some 4, some 1007, some 1012, some 1014, some (-5)], [0, 0, 4, 0, 0, 1], none)]⟩))
    ∧ (Verif.Ols.fitPixel exFlags exCfg 6 ⟨false, exPix, 0,
        [([some 1, some 4, some 1007, some 1012, some 1014, some (-5)], [0, 0, 4, 0, 0, 1], none)]⟩).2.varP ≠ 0 := by
  decide +kernel

end Examples

end Verif.Thm
