import Verif.Proof.Cas22Driver
import Verif.Thm.Cas22

/-! # Casertano+22 ramp fitting, tables and drivers: properties C103, C104 -/

namespace Verif.Thm

open Verif.Cas22 Verif.Cas22Driver

set_option linter.unusedSectionVars false

/-! ## C103: tables and pixels -/

section
variable {α : Type*} [Field α] [LinearOrder α]

/-- Whatever the array held before, row by row the values listed in the documentation of `fill_fixed_values`; the double
differences that would need a resultant after the last are NaN. -/
theorem C103_fixed_table (tbar tau : Nat → α) (nreads : Nat → Nat) (n : Nat) (f0 : Fixed α) (i : Nat) (hi : i + 1 < n) :
    fillFixed tbar tau nreads n f0 .diff false i = some (tbar (i + 1) - tbar i)
    ∧ fillFixed tbar tau nreads n f0 .diffSqr false i = some ((tbar (i + 1) - tbar i) ^ 2)
    ∧ fillFixed tbar tau nreads n f0 .recip false i = some (1 / (nreads (i + 1) : α) + 1 / (nreads i : α))
    ∧ fillFixed tbar tau nreads n f0 .varSlope false i = some (tau (i + 1) + tau i - 2 * min (tbar (i + 1)) (tbar i))
    ∧ (i + 2 < n →
      fillFixed tbar tau nreads n f0 .diff true i = some (tbar (i + 2) - tbar i)
      ∧ fillFixed tbar tau nreads n f0 .diffSqr true i = some ((tbar (i + 2) - tbar i) ^ 2)
      ∧ fillFixed tbar tau nreads n f0 .recip true i = some (1 / (nreads (i + 2) : α) + 1 / (nreads i : α))
      ∧ fillFixed tbar tau nreads n f0 .varSlope true i = some (tau (i + 2) + tau i - 2 * min (tbar (i + 2)) (tbar i)))
    ∧ (i + 2 = n → ∀ e, fillFixed tbar tau nreads n f0 e true i = none) := by
  have h : i < n - 1 := by omega
  refine ⟨?_, ?_, ?_, ?_, fun h2 => ⟨?_, ?_, ?_, ?_⟩, fun h2 e => ?_⟩
  all_goals first
    | simp [fillFixed_eq, fixedVal, h, h2]
    | simp [fillFixed_eq, fixedVal, h, hi]

/-- Whatever the scratch array held before (the values of the previous pixel), slopes and read variances of the single and
double differences of this pixel. -/
theorem C103_pixel_table (tbar tau : Nat → α) (nreads : Nat → Nat) (res : Nat → α) (rn : α) (n : Nat) (f0 : Fixed α)
    (s0 : Scratch α) (i : Nat) (hi : i + 1 < n) (F : Fixed α) (hF : F = fillFixed tbar tau nreads n f0) :
    fillPixel res F rn n s0 .slope false i = some ((res (i + 1) - res i) / (tbar (i + 1) - tbar i))
    ∧ fillPixel res F rn n s0 .var false i = some (rn ^ 2 * (1 / (nreads (i + 1) : α) + 1 / (nreads i : α)))
    ∧ (i + 2 < n →
      fillPixel res F rn n s0 .slope true i = some ((res (i + 2) - res i) / (tbar (i + 2) - tbar i))
      ∧ fillPixel res F rn n s0 .var true i = some (rn ^ 2 * (1 / (nreads (i + 2) : α) + 1 / (nreads i : α))))
    ∧ (i + 2 = n → ∀ e, fillPixel res F rn n s0 e true i = none) := by
  subst hF
  have h : i < n - 1 := by omega
  refine ⟨?_, ?_, fun h2 => ⟨?_, ?_⟩, fun h2 e => ?_⟩
  all_goals first
    | simp [fillPixel_eq, pixelVal, fillFixed_eq, fixedVal, h, h2]
    | simp [fillPixel_eq, pixelVal, fillFixed_eq, fixedVal, h, hi]

theorem cd_fitJumps (cfg : Cfg α) (fixed0 : Fixed α) (n : Nat) (s : Scratch α) (p q : Pix α) (dq : Nat → Nat)
    (h1 : q.tbar = p.tbar) (h2 : q.tau = p.tau) (h3 : q.nreads = p.nreads) :
    (fitJumps cfg (if cfg.useJump then fillFixed q.tbar q.tau q.nreads n fixed0 else fixed0) n s p dq).2
      = (fitPixel cfg p dq n (n + 1)).map fun x => (x.1, x.2.2) := by
  rw [h1, h2, h3]
  have key : runLoop (detectT cfg p
        (if cfg.useJump then fillPixel p.res (if cfg.useJump then fillFixed p.tbar p.tau p.nreads n fixed0 else fixed0)
          p.readNoise n s else s)
        (if cfg.useJump then fillFixed p.tbar p.tau p.nreads n fixed0 else fixed0)) (n + 1)
        ⟨(initRamps dq n).reverse, dq, []⟩
      = runLoop (detect cfg p) (n + 1) ⟨(initRamps dq n).reverse, dq, []⟩ := by
    refine runLoop_congr (fun r => r.start ≤ r.stop ∧ r.stop < n) _ _ (fun r hr => ?_) (fun r a hr ha => ?_) _ _ ?_
    · by_cases hj : cfg.useJump = true
      · simp only [hj, if_true]
        exact detectT_eq cfg p n fixed0 s r hr.1 hr.2
      · simp only [detectT, detect, hj, if_false, Bool.false_eq_true]
    · have := detect_ok cfg p r a ha hr.1
      exact ⟨fun h => ⟨by simp only; omega, by simp only; omega⟩, fun h => ⟨by simp only; omega, hr.2⟩⟩
    · intro r hr
      have := ((C35_ramps_are_maximal_runs dq n).1 r).1 (by simpa using hr)
      exact ⟨this.1, this.2.1⟩
  simp only [fitJumps, fitPixel]
  rw [key, Option.map_map]
  rfl

theorem cd_mapM {β : Type*} (l : List β) : (l.map some).mapM id = some l := by
  induction l with
  | nil => rfl
  | cons a t ih => simp [ih]

theorem cd_fold (cfg : Cfg α) (fixed : Fixed α) (n : Nat) (pix : Nat → Pix α) (dq : Nat → Nat → Nat)
    (R : Nat → Option ((Nat → Nat) × Fit α)) (h : ∀ k s, (fitJumps cfg fixed n s (pix k) (dq k)).2 = R k)
    (s0 : Scratch α) (m : Nat) :
    ((List.range m).foldl (rampsStep cfg fixed n pix dq) (s0, [])).2
      = (List.range m).map fun k => (R k).map fun o =>
        (⟨0, o.2.slope, o.2.readVar, o.2.poissonVar, o.2.readVar + o.2.poissonVar, o.1⟩ : PixOut α) := by
  induction m with
  | zero => rfl
  | succ m ih =>
    rw [List.range_succ, List.foldl_append, List.foldl_cons, List.foldl_nil, List.map_append, ← ih]
    simp only [rampsStep, h, List.map_cons, List.map_nil]

/-- `fit_ramps` fits every pixel by itself: with a read pattern of the right length it ends, and what it returns for pixel `k`
is the fit of that pixel, whatever the arrays from `np.empty` held and whatever the other pixels are. -/
theorem C103_every_pixel (cfg : Cfg α) (readTime : α) (pattern : List (List α)) (npix : Nat) (res : Nat → Nat → α)
    (dq : Nat → Nat → Nat) (rn : Nat → α) (f0 : Fixed α) (s0 : Scratch α) :
    ∃ outs, fitRamps cfg readTime pattern pattern.length npix res dq rn f0 s0 = some outs ∧ outs.length = npix
      ∧ ∀ k, k < npix → ∃ dq' ramps avg,
        fitPixel cfg (pixelOf readTime pattern res rn k) (dq k) pattern.length (pattern.length + 1) = some (dq', ramps, avg)
        ∧ outs[k]? = some ⟨0, avg.slope, avg.readVar, avg.poissonVar, avg.readVar + avg.poissonVar, dq'⟩ := by
  have hp : ∀ k, ∃ x, fitPixel cfg (pixelOf readTime pattern res rn k) (dq k) pattern.length (pattern.length + 1) = some x := by
    intro k
    obtain ⟨d, r, a, h, -⟩ := C36_pixel cfg (pixelOf readTime pattern res rn k) (dq k) pattern.length
    exact ⟨_, h _ le_rfl⟩
  choose X hX using hp
  refine ⟨(List.range npix).map fun k => ⟨0, (X k).2.2.slope, (X k).2.2.readVar, (X k).2.2.poissonVar,
    (X k).2.2.readVar + (X k).2.2.poissonVar, (X k).1⟩, ?_, by simp, fun k hk => ⟨_, _, _, hX k, by simp [hk]⟩⟩
  simp only [fitRamps, ne_eq, not_true_eq_false, if_false]
  rw [cd_fold cfg _ _ _ _ (fun k => some ((X k).1, (X k).2.2)) (fun k s => by
    rw [cd_fitJumps cfg f0 _ s (pixelOf readTime pattern res rn k) (pixelOf readTime pattern res rn 0) (dq k) rfl rfl rfl, hX k]
    rfl)]
  have e : ((List.range npix).map fun k => (some ((X k).1, (X k).2.2)).map fun o =>
      (⟨0, o.2.slope, o.2.readVar, o.2.poissonVar, o.2.readVar + o.2.poissonVar, o.1⟩ : PixOut α))
      = ((List.range npix).map fun k => (⟨0, (X k).2.2.slope, (X k).2.2.readVar, (X k).2.2.poissonVar,
        (X k).2.2.readVar + (X k).2.2.poissonVar, (X k).1⟩ : PixOut α)).map some := by
    rw [List.map_map]; rfl
  rw [e, cd_mapM]

/-- The result of a pixel depends on that pixel only: two calls that agree on the data, flags and read noise of one pixel
return the same for it. -/
theorem C103_pixel_independent (cfg : Cfg α) (readTime : α) (pattern : List (List α)) (npix npix' : Nat)
    (res res' : Nat → Nat → α) (dq dq' : Nat → Nat → Nat) (rn rn' : Nat → α) (f0 f0' : Fixed α) (s0 s0' : Scratch α)
    (k k' : Nat) (hk : k < npix) (hk' : k' < npix') (h1 : res k = res' k') (h2 : dq k = dq' k') (h3 : rn k = rn' k')
    (outs outs' : List (PixOut α)) (ho : fitRamps cfg readTime pattern pattern.length npix res dq rn f0 s0 = some outs)
    (ho' : fitRamps cfg readTime pattern pattern.length npix' res' dq' rn' f0' s0' = some outs') :
    outs[k]? = outs'[k']? := by
  obtain ⟨o, e, -, h⟩ := C103_every_pixel cfg readTime pattern npix res dq rn f0 s0
  obtain ⟨o', e', -, h'⟩ := C103_every_pixel cfg readTime pattern npix' res' dq' rn' f0' s0'
  rw [ho, Option.some.injEq] at e
  rw [ho', Option.some.injEq] at e'
  subst e; subst e'
  obtain ⟨d, r, a, g1, g2⟩ := h k hk
  obtain ⟨d', r', a', g1', g2'⟩ := h' k' hk'
  have hp : pixelOf readTime pattern res rn k = pixelOf readTime pattern res' rn' k' := by
    simp only [pixelOf, h1, h3]
  rw [hp, h2, g1', Option.some.injEq, Prod.mk.injEq, Prod.mk.injEq] at g1
  obtain ⟨rfl, rfl, rfl⟩ := g1
  rw [g2, g2']

end

/-! ## C104: `fit_ramps_casertano` -/

section
variable {α : Type*} [Field α] [LinearOrder α] [IsStrictOrderedRing α]

/-- Mean time of the reads of resultant `i`. -/
def cdTime (readTime : α) (pattern : List (List α)) (i : Nat) : α :=
  readTime * ((pattern.getD i []).sum / ((pattern.getD i []).length : α))

/-- The jump threshold is not negative for any slope between 1 and 10 000 (outside, the ends of the interval count). -/
def CdThreshold (cfg : Cfg α) : Prop := ∀ s, 1 ≤ s → s ≤ 10000 → cfg.constant * cfg.log10 s ≤ cfg.intercept

theorem cd_threshold (cfg : Cfg α) (h : CdThreshold cfg) (slope : α) : 0 ≤ threshold cfg slope := by
  simp only [threshold]
  refine sub_nonneg.2 (h _ ?_ ?_)
  · split_ifs with h1 h2 h2
    · exact h1.le
    · norm_num
    · exact le_rfl
    · norm_num
  · split_ifs with h1 h2 h2
    · exact h2.le
    · exact le_rfl
    · exact h2.le
    · exact le_rfl

/-- A statistic that exceeds no non-negative threshold. -/
def CdFlat (x : Ext α) : Prop := x = none ∨ x = fin 0

theorem cd_stat (cfg : Cfg α) (p : Pix α) (r : Ramp) (slope : α) (i j : Nat)
    (h : (p.res (i + j) - p.res i) / (p.tbar (i + j) - p.tbar i) = slope) : CdFlat (stat cfg p r slope i j) := by
  simp only [stat, h, sub_self, lt_irrefl, if_false, zero_div]
  unfold CdFlat
  split_ifs <;> simp

theorem cd_fmax {a b : Ext α} (ha : CdFlat a) (hb : CdFlat b) : CdFlat (fmax a b) := by
  rcases ha with rfl | rfl <;> rcases hb with rfl | rfl <;> simp [CdFlat, fmax, fin]

theorem cd_fold_flat (f : Nat → Ext α) (l : List Nat) (h : ∀ k ∈ l, CdFlat (f k)) (a : Nat × Ext α) (ha : CdFlat a.2) :
    CdFlat (l.foldl (maxStep f) a).2 := by
  induction l generalizing a with
  | nil => exact ha
  | cons k t ih =>
    rw [List.foldl_cons]
    refine ih (fun q hq => h q (by simp [hq])) _ ?_
    unfold maxStep
    split
    · exact h k (by simp)
    · exact ha

/-- No jump is found in resultants on a line. -/
theorem cd_detect (cfg : Cfg α) (hp : Cas22PowOk cfg.pow) (ht : CdThreshold cfg) (p : Pix α) (n : Nat)
    (htb : ∀ i j, i < j → j < n → p.tbar i < p.tbar j) (hn : ∀ i, i < n → 0 < p.nreads i) (r : Ramp) (h1 : r.start ≤ r.stop)
    (h2 : r.stop < n) (a b : α) (hl : ∀ i, r.start ≤ i → i ≤ r.stop → p.res i = a + b * p.tbar i) :
    detect cfg p r = none := by
  unfold detect
  split
  swap
  · rfl
  by_cases he : r.start = r.stop
  · rw [(C37_short_ramps cfg p r).2 (by omega)]
  obtain ⟨f, hf, -, -, hs⟩ := C37_exact_on_lines cfg hp p r (by omega) (htb _ _ (by omega) h2).ne
    fun i _ hi => hn i (by omega)
  have hb := hs a b hl
  have hst : ∀ i j, 0 < j → r.start ≤ i → i + j ≤ r.stop → CdFlat (stat cfg p r f.slope i j) := by
    intro i j hj hi hij
    refine cd_stat cfg p r _ i j ?_
    rw [hl i hi (by omega), hl (i + j) (by omega) hij, hb]
    have : p.tbar (i + j) - p.tbar i ≠ 0 := (sub_pos.2 (htb i (i + j) (by omega) (by omega))).ne'
    field_simp
    ring
  have hflat : CdFlat (fitStatistic cfg p r f.slope).2 := by
    rw [fitStatistic, if_neg he]
    refine cd_fold_flat _ _ (fun k hk => ?_) _ (hst _ _ (by omega) (by omega) (by omega))
    rw [List.mem_range] at hk
    exact cd_fmax (hst _ _ (by omega) (by omega) (by omega)) (hst _ _ (by omega) (by omega) (by omega))
  rw [hf]
  simp only
  rw [if_neg]
  rw [gt_iff_larger]
  rintro ⟨x, y, e1, e2, hlt⟩
  rcases hflat with h | h
  · rw [h] at e1; simp at e1
  · rw [h] at e1
    simp only [fin, Option.some.injEq] at e1 e2
    subst e1; subst e2
    have := cd_threshold cfg ht f.slope
    rw [WithBot.coe_lt_coe, WithTop.coe_lt_coe] at hlt
    exact absurd hlt (not_lt.2 this)

/-- One pixel whose unflagged resultants are on a line. -/
theorem cd_straight (cfg : Cfg α) (hp : Cas22PowOk cfg.pow) (ht : CdThreshold cfg) (p : Pix α) (dq : Nat → Nat) (n : Nat)
    (htb : ∀ i j, i < j → j < n → p.tbar i < p.tbar j) (hn : ∀ i, i < n → 0 < p.nreads i) (hrn : p.readNoise ≠ 0) (a b : α)
    (hl : ∀ i, i < n → dq i = 0 → p.res i = a + b * p.tbar i) :
    ∃ ramps avg, fitPixel cfg p dq n (n + 1) = some (dq, ramps, avg)
      ∧ ((∃ i, i + 1 < n ∧ dq i = 0 ∧ dq (i + 1) = 0) → avg.slope = b ∧ 0 < avg.readVar)
      ∧ ((¬ ∃ i, i + 1 < n ∧ dq i = 0 ∧ dq (i + 1) = 0) → avg = ⟨0, 0, 0⟩) := by
  obtain ⟨r1, -, r3⟩ := C35_ramps_are_maximal_runs dq n
  have hloop : runLoop (detect cfg p) (n + 1) ⟨(initRamps dq n).reverse, dq, []⟩
      = runLoop (fun _ => none) (n + 1) ⟨(initRamps dq n).reverse, dq, []⟩ := by
    refine runLoop_congr (fun r => r.start ≤ r.stop ∧ r.stop < n ∧ ∀ i, r.start ≤ i → i ≤ r.stop → dq i = 0) _ _
      (fun r hr => ?_) (fun r a _ h => by simp at h) _ _ fun r hr => ?_
    · exact cd_detect cfg hp ht p n htb hn r hr.1 hr.2.1 a b fun i h1 h2 => hl i (by omega) (hr.2.2 i h1 h2)
    · have := (r1 r).1 (by simpa using hr)
      exact ⟨this.1, this.2.1, this.2.2.1⟩
  obtain ⟨s, hs, -⟩ := C36_loop (fun _ => none) (by simp) dq n
  have hs := hs (n + 1) le_rfl
  obtain ⟨d1, d2⟩ := C36_no_jump_detection dq n s hs
  refine ⟨s.done, average (s.done.map (fitRamp cfg p)), by rw [fitPixel, hloop, hs, ← d1]; rfl, ?_⟩
  have hmem : ∀ r ∈ s.done, MaxRun dq n r := fun r hr => (r1 r).1 (by rw [d2] at hr; simpa using hr)
  have hfit : ∀ f ∈ (s.done.map (fitRamp cfg p)).filterMap id, 0 < f.readVar ∧ f.slope = b := by
    intro f hf
    rw [List.mem_filterMap] at hf
    obtain ⟨o, ho, h⟩ := hf
    obtain ⟨r, hr, rfl⟩ := List.mem_map.1 ho
    obtain ⟨m1, m2, m3, -⟩ := hmem r hr
    by_cases hlt : r.stop ≤ r.start
    · rw [(C37_short_ramps cfg p r).2 hlt] at h
      simp at h
    · obtain ⟨g, hg, -, h2, h3⟩ := C37_exact_on_lines cfg hp p r (by omega) (htb _ _ (by omega) m2).ne
        fun i _ hi => hn i (by omega)
      rw [hg] at h
      simp only [id_eq, Option.some.injEq] at h
      subst h
      exact ⟨h2 hrn, h3 a b fun i g1 g2 => hl i (by omega) (m3 i g1 g2)⟩
  obtain ⟨c1, c2⟩ := C73_average (s.done.map (fitRamp cfg p)) _ rfl fun f hf => (hfit f hf).1
  constructor
  · rintro ⟨i, hi, z0, z1⟩
    have hne : (s.done.map (fitRamp cfg p)).filterMap id ≠ [] := by
      obtain ⟨r, ⟨hr, ha, hb⟩, -⟩ := r3 i (by omega) z0
      obtain ⟨m1, m2, m3, m4, m5⟩ := (r1 r).1 hr
      have hstop : i + 1 ≤ r.stop := by
        by_contra hc
        have : i = r.stop := by omega
        subst this
        rcases m5 with h | h
        · omega
        · exact h z1
      obtain ⟨g, hg, -⟩ := C37_exact_on_lines cfg hp p r (by omega) (htb _ _ (by omega) m2).ne
        fun i _ hi => hn i (by omega)
      refine List.ne_nil_of_mem (a := g) (List.mem_filterMap.2 ⟨some g, List.mem_map.2 ⟨r, ?_, hg⟩, rfl⟩)
      rw [d2]; simpa using hr
    obtain ⟨-, e2, e3, -⟩ := c2 hne
    have := e3 b b fun f hf => ⟨(hfit f hf).2.ge, (hfit f hf).2.le⟩
    refine ⟨le_antisymm this.2 this.1, ?_⟩
    rw [e2]
    exact one_div_pos.2 (Verif.Ols.sum_pos_of_mem _ _ (fun f hf => one_div_pos.2 (hfit f hf).1) hne)
  · intro hno
    refine c1 (List.eq_nil_iff_forall_not_mem.2 fun f hf => hno ?_)
    rw [List.mem_filterMap] at hf
    obtain ⟨o, ho, h⟩ := hf
    obtain ⟨r, hr, rfl⟩ := List.mem_map.1 ho
    obtain ⟨m1, m2, m3, -⟩ := hmem r hr
    by_cases hlt : r.stop ≤ r.start
    · rw [(C37_short_ramps cfg p r).2 hlt] at h
      simp at h
    · exact ⟨r.start, by omega, m3 _ le_rfl m1, m3 _ (by omega) (by omega)⟩

theorem cd_flat2 {β γ : Type*} (f g : β → γ) (l : List β) (k : Nat) :
    (l.flatMap fun o => [f o, g o])[2 * k]? = l[k]?.map f ∧ (l.flatMap fun o => [f o, g o])[2 * k + 1]? = l[k]?.map g := by
  induction l generalizing k with
  | nil => simp
  | cons o t ih =>
    cases k with
    | zero => simp
    | succ k =>
      have e1 : 2 * (k + 1) = 2 * k + 1 + 1 := by ring
      rw [e1]
      simpa using ih k

theorem cd_flat3 {β γ : Type*} (f g h : β → γ) (l : List β) (k : Nat) :
    (l.flatMap fun o => [f o, g o, h o])[3 * k]? = l[k]?.map f
    ∧ (l.flatMap fun o => [f o, g o, h o])[3 * k + 1]? = l[k]?.map g
    ∧ (l.flatMap fun o => [f o, g o, h o])[3 * k + 2]? = l[k]?.map h := by
  induction l generalizing k with
  | nil => simp
  | cons o t ih =>
    cases k with
    | zero => simp
    | succ k =>
      have e1 : 3 * (k + 1) = 3 * k + 1 + 1 + 1 := by ring
      rw [e1]
      simpa using ih k

/-- An array of pixels: shapes of the output, and for pixel `k` (flat index) the intercept 0, the slope, the three variances
and the flags of the fit of that pixel. -/
theorem C104_array (cfg : Cfg α) (readTime : α) (pattern : List (List α)) (hn : pattern ≠ []) (shape : List Nat)
    (hs : shape ≠ []) (res : Nat → α) (dq : Nat → Nat) (noise : Noise α) (rn : Nat → α) (hrn : spread shape noise = some rn)
    (f0 : Fixed α) (s0 : Scratch α) :
    ∃ o, casertano cfg readTime pattern pattern.length shape res dq noise none f0 s0 = some o
      ∧ o.parShape = shape ++ [2] ∧ o.varShape = shape ++ [3] ∧ o.unit = none
      ∧ ∀ k, k < shape.prod → ∃ dq' ramps avg,
        fitPixel cfg (pixelOf readTime pattern (fun k i => res (i * shape.prod + k)) rn k) (fun i => dq (i * shape.prod + k))
          pattern.length (pattern.length + 1) = some (dq', ramps, avg)
        ∧ o.par[2 * k]? = some 0 ∧ o.par[2 * k + 1]? = some avg.slope
        ∧ o.var[3 * k]? = some avg.readVar ∧ o.var[3 * k + 1]? = some avg.poissonVar
        ∧ o.var[3 * k + 2]? = some (avg.readVar + avg.poissonVar)
        ∧ ∀ i, o.dq (i * shape.prod + k) = dq' i := by
  obtain ⟨outs, e, -, h⟩ := C103_every_pixel cfg readTime pattern shape.prod (fun k i => res (i * shape.prod + k))
    (fun k i => dq (i * shape.prod + k)) rn f0 s0
  have hl : pattern.length ≠ 0 := by simpa using hn
  refine ⟨_, by simp only [casertano, hl, if_false, hrn, e, hs]; rfl, rfl, rfl, rfl, fun k hk => ?_⟩
  obtain ⟨dq', ramps, avg, g1, g2⟩ := h k hk
  obtain ⟨a1, a2⟩ := cd_flat2 (fun o : PixOut α => o.intercept) (fun o => o.slope) outs k
  obtain ⟨b1, b2, b3⟩ := cd_flat3 (fun o : PixOut α => o.readVar) (fun o => o.poissonVar) (fun o => o.totalVar) outs k
  refine ⟨dq', ramps, avg, g1, by rw [a1, g2]; rfl, by rw [a2, g2]; rfl, by rw [b1, g2]; rfl, by rw [b2, g2]; rfl,
    by rw [b3, g2]; rfl, fun i => ?_⟩
  have hm : (i * shape.prod + k) % shape.prod = k := by
    rw [Nat.add_comm, Nat.add_mul_mod_self_right, Nat.mod_eq_of_lt hk]
  have hd : (i * shape.prod + k) / shape.prod = i := by
    rw [Nat.add_comm, Nat.add_mul_div_right _ _ (by omega), Nat.div_eq_of_lt hk, Nat.zero_add]
  simp only [hm, hd, g2, Option.map_some, Option.getD_some]

/-- C74 for an array: with a read pattern in time order (non-negative read numbers, no empty resultant) the Poisson variance
of every pixel is not negative, whatever resultants and flags. -/
theorem C74_array (cfg : Cfg α) (readTime : α) (h0 : 0 ≤ readTime) (pattern : List (List α))
    (hn : pattern ≠ []) (hne : ∀ l ∈ pattern, l ≠ []) (hpos : ∀ t ∈ pattern.flatten, 0 ≤ t)
    (hpw : pattern.flatten.Pairwise (· ≤ ·)) (shape : List Nat) (hs : shape ≠ []) (res : Nat → α) (dq : Nat → Nat)
    (noise : Noise α) (rn : Nat → α) (hrn : spread shape noise = some rn) (f0 : Fixed α) (s0 : Scratch α) :
    ∃ o, casertano cfg readTime pattern pattern.length shape res dq noise none f0 s0 = some o
      ∧ ∀ k, k < shape.prod → ∃ v, o.var[3 * k + 1]? = some v ∧ 0 ≤ v := by
  obtain ⟨o, h1, -, -, -, h2⟩ := C104_array cfg readTime pattern hn shape hs res dq noise rn hrn f0 s0
  refine ⟨o, h1, fun k hk => ?_⟩
  obtain ⟨dq', ramps, avg, g1, -, -, -, g5, -⟩ := h2 k hk
  refine ⟨_, g5, ?_⟩
  set p := pixelOf readTime pattern (fun k i => res (i * shape.prod + k)) rn k with hp
  obtain ⟨dq2, ramps2, avg2, c1, c2, -⟩ := C36_pixel cfg p (fun i => dq (i * shape.prod + k)) pattern.length
  have c1 := c1 _ le_rfl
  rw [g1] at c1
  simp only [Option.some.injEq, Prod.mk.injEq] at c1
  obtain ⟨-, rfl, -⟩ := c1
  have hav : avg = average (ramps.map (fitRamp cfg p)) := by
    unfold fitPixel at g1
    cases hl : runLoop (detect cfg p) (pattern.length + 1)
        ⟨(initRamps (fun i => dq (i * shape.prod + k)) pattern.length).reverse, fun i => dq (i * shape.prod + k), []⟩ with
    | none => rw [hl] at g1; simp at g1
    | some s =>
      rw [hl] at g1
      simp only [Option.map_some, Option.some.injEq, Prod.mk.injEq] at g1
      rw [← g1.2.2, g1.2.1]
  rw [hav]
  refine C74_average_poisson_nonneg _ fun f hf => ?_
  obtain ⟨r, hr, hfr⟩ := List.mem_map.1 hf
  obtain ⟨-, hstop⟩ := c2 r hr
  have hget : ∀ i, i ∈ r.idx → ∃ hi : i < pattern.length, pattern.getD i [] = pattern[i] := by
    intro i hi
    obtain ⟨-, i2⟩ := mem_idx.1 hi
    exact ⟨by omega, List.getD_eq_getElem _ _ (by omega)⟩
  have hsub : (r.idx.flatMap fun i => pattern.getD i []).Sublist pattern.flatten := by
    have e : (r.idx.map fun i => pattern.getD i []) = (pattern.drop r.start).take r.idx.length := by
      refine List.ext_getElem? fun m => ?_
      have hl : r.idx.length = r.stop + 1 - r.start := by simp [Ramp.idx]
      rw [List.getElem?_map, List.getElem?_take, List.getElem?_drop]
      by_cases hm : m < r.idx.length
      · rw [if_pos hm, List.getElem?_eq_getElem hm]
        have hv : r.idx[m] = r.start + m := by simp [Ramp.idx]
        have hlt : r.start + m < pattern.length := by omega
        rw [Option.map_some, hv, List.getD_eq_getElem _ _ hlt, List.getElem?_eq_getElem hlt]
      · rw [if_neg hm, List.getElem?_eq_none (by omega)]
        rfl
    rw [List.flatMap_def, e]
    exact ((List.take_sublist _ _).trans (List.drop_sublist _ _)).flatten
  refine C74_poisson_variance_nonneg cfg p readTime h0 (fun i => pattern.getD i []) r ?_ ?_ f hfr
  · intro i hi
    obtain ⟨hlt, e⟩ := hget i hi
    exact ⟨by dsimp only; rw [e]; exact hne _ (List.getElem_mem hlt), rfl, rfl, rfl⟩
  · exact ⟨fun t ht => hpos t (hsub.subset ht), hpw.sublist hsub⟩

/-- A single ramp (one-dimensional input): the "parameters" returned are the number 0, whatever the data, and the "variances"
the read variance alone; the fitted slope is not in the output. -/
theorem C104_single_ramp_loses_slope (cfg : Cfg α) (readTime : α) (pattern : List (List α)) (hn : pattern ≠ [])
    (res : Nat → α) (dq : Nat → Nat) (x : α) (f0 : Fixed α) (s0 : Scratch α) :
    ∃ o ramps avg dq', casertano cfg readTime pattern pattern.length [] res dq (.scalar x) none f0 s0 = some o
      ∧ fitPixel cfg (pixelOf readTime pattern (fun _ => res) (fun _ => x) 0) dq pattern.length (pattern.length + 1)
        = some (dq', ramps, avg)
      ∧ o.parShape = [] ∧ o.par = [0] ∧ o.varShape = [] ∧ o.var = [avg.readVar] ∧ ∀ i, o.dq i = dq' i := by
  obtain ⟨outs, e, hlen, h⟩ := C103_every_pixel cfg readTime pattern 1 (fun k i => res (i * 1 + k))
    (fun k i => dq (i * 1 + k)) (fun _ => x) f0 s0
  have hl : pattern.length ≠ 0 := by simpa using hn
  obtain ⟨dq', ramps, avg, g1, g2⟩ := h 0 (by omega)
  obtain ⟨w, rfl⟩ := List.length_eq_one_iff.1 hlen
  simp only [List.getElem?_cons_zero, Option.some.injEq] at g2
  subst g2
  refine ⟨_, ramps, avg, dq', by simp only [casertano, hl, if_false, spread, List.prod_nil, e]; rfl,
    by simpa [pixelOf] using g1, rfl, rfl, rfl, rfl, fun i => ?_⟩
  simp [Nat.mod_one]

/-- Resultants with a unit of `u` electrons: the numbers are those of the resultants in electrons, but they carry the unit of the
input. -/
theorem C104_units (cfg : Cfg α) (readTime : α) (pattern : List (List α)) (n : Nat) (shape : List Nat) (res : Nat → α)
    (dq : Nat → Nat) (noise : Noise α) (u : α) (f0 : Fixed α) (s0 : Scratch α) :
    casertano cfg readTime pattern n shape res dq noise (some u) f0 s0
      = (casertano cfg readTime pattern n shape (fun i => res i * u) dq noise none f0 s0).map
        fun o => { o with unit := some u } := by
  simp only [casertano]
  split
  · rfl
  split
  · rfl
  split <;> rfl

/-- Read noise given as a number, as a line along the last axis, or for every pixel, is the noise of the pixel in that column, or
of that pixel; a line of another length than one or the last axis is refused, unless that axis has length one. -/
theorem C104_noise (s : List Nat) (c len : Nat) (f : Nat → α) (x : α) :
    (∃ g, spread (s ++ [c]) (.scalar x) = some g ∧ ∀ k, g k = x) ∧
    (∃ g, spread (s ++ [c]) (.full f) = some g ∧ ∀ k, g k = f k) ∧
    (∃ g, spread (s ++ [c]) (.line c f) = some g ∧ ∀ i j, j < c → g (i * c + j) = f j) ∧
    (∃ g, spread (s ++ [c]) (.line 1 f) = some g ∧ ∀ k, g k = f 0) ∧
    (len ≠ 1 → len ≠ c → c ≠ 1 → spread (s ++ [c]) (.line len f) = none) := by
  have hl : (s ++ [c]).getLast? = some c := by simp
  refine ⟨⟨_, rfl, fun _ => rfl⟩, ⟨_, rfl, fun _ => rfl⟩, ?_, ?_, ?_⟩
  · simp only [spread, hl]
    by_cases h1 : c = 1
    · subst h1
      refine ⟨_, rfl, fun i j hj => ?_⟩
      rw [show j = 0 by omega]
    · rw [if_neg h1, if_pos (Or.inl trivial)]
      refine ⟨_, rfl, fun i j hj => ?_⟩
      rw [Nat.add_comm, Nat.add_mul_mod_self_right, Nat.mod_eq_of_lt hj]
  · simp only [spread, hl, if_true]
    exact ⟨_, rfl, fun _ => rfl⟩
  · intro h1 h2 h3
    simp only [spread, hl, if_neg h1]
    rw [if_neg (by tauto)]

/-- A read pattern of another length than the resultants is refused. -/
theorem C104_pattern_length (cfg : Cfg α) (readTime : α) (pattern : List (List α)) (n : Nat) (hn : n ≠ pattern.length)
    (shape : List Nat) (res : Nat → α) (dq : Nat → Nat) (noise : Noise α) (unit : Option α) (f0 : Fixed α) (s0 : Scratch α) :
    casertano cfg readTime pattern n shape res dq noise unit f0 s0 = none := by
  simp only [casertano, fitRamps, hn, ne_eq, not_false_eq_true, if_true]
  split
  · rfl
  split <;> rfl

/-- The unflagged resultants of a pixel on a line `a + b·t̄`: with jump detection on or off nothing is flagged, and the slope is
exactly `b` if two consecutive resultants are good; otherwise slope and variances are zero. -/
theorem C104_straight_ramp (cfg : Cfg α) (hp : Cas22PowOk cfg.pow) (ht : CdThreshold cfg) (readTime : α)
    (pattern : List (List α)) (hn : pattern ≠ []) (hreads : ∀ l ∈ pattern, l ≠ [])
    (htime : ∀ i j, i < j → j < pattern.length → cdTime readTime pattern i < cdTime readTime pattern j) (shape : List Nat)
    (hs : shape ≠ []) (res : Nat → α) (dq : Nat → Nat) (noise : Noise α) (rn : Nat → α) (hrn : spread shape noise = some rn)
    (f0 : Fixed α) (s0 : Scratch α) (k : Nat) (hk : k < shape.prod) (hk0 : rn k ≠ 0) (a b : α)
    (hl : ∀ i, i < pattern.length → dq (i * shape.prod + k) = 0 →
      res (i * shape.prod + k) = a + b * cdTime readTime pattern i) :
    ∃ o, casertano cfg readTime pattern pattern.length shape res dq noise none f0 s0 = some o
      ∧ (∀ i, o.dq (i * shape.prod + k) = dq (i * shape.prod + k))
      ∧ ((∃ i, i + 1 < pattern.length ∧ dq (i * shape.prod + k) = 0 ∧ dq ((i + 1) * shape.prod + k) = 0) →
        o.par[2 * k + 1]? = some b ∧ ∃ v, 0 < v ∧ o.var[3 * k]? = some v)
      ∧ ((¬ ∃ i, i + 1 < pattern.length ∧ dq (i * shape.prod + k) = 0 ∧ dq ((i + 1) * shape.prod + k) = 0) →
        o.par[2 * k + 1]? = some 0 ∧ o.var[3 * k]? = some 0 ∧ o.var[3 * k + 1]? = some 0) := by
  obtain ⟨o, ho, -, -, -, h⟩ := C104_array cfg readTime pattern hn shape hs res dq noise rn hrn f0 s0
  obtain ⟨dq', ramps, avg, g1, -, g3, g4, g5, -, g7⟩ := h k hk
  obtain ⟨ramps', avg', e, s1, s2⟩ := cd_straight cfg hp ht
    (pixelOf readTime pattern (fun k i => res (i * shape.prod + k)) rn k) (fun i => dq (i * shape.prod + k)) pattern.length
    htime (fun i hi => by
      have : pattern.getD i [] ∈ pattern := by
        rw [List.getD_eq_getElem?_getD, List.getElem?_eq_getElem hi]; exact List.getElem_mem hi
      exact List.length_pos_of_ne_nil (hreads _ this)) hk0 a b hl
  rw [g1, Option.some.injEq, Prod.mk.injEq, Prod.mk.injEq] at e
  obtain ⟨rfl, rfl, rfl⟩ := e
  refine ⟨o, ho, g7, fun hx => ?_, fun hx => ?_⟩
  · obtain ⟨t1, t2⟩ := s1 hx
    exact ⟨by rw [g3, t1], _, t2, g4⟩
  · rw [g3, g4, g5, s2 hx]
    exact ⟨rfl, rfl, rfl⟩

end

/-! Four resultants of 1, 2, 1 and 1 reads (mean times 3, 15/2, 12, 15), two pixels: the first on `1 + 2·t̄` except for its
third resultant, which is flagged; the second with a jump between its second and third resultants. -/

def cdPattern : List (List ℚ) := [[1], [2, 3], [4], [5]]
def cdRes : Nat → ℚ := fun m => [7, 0, 16, 1, 999, 5000, 31, 5001].getD m 0
def cdDq : Nat → Nat := fun m => [0, 0, 0, 0, 1, 0, 0, 0].getD m 0
def cdOut : Option (Out ℚ) :=
  casertano (cas22Cfg true) 3 cdPattern 4 [2] cdRes cdDq (.line 2 fun _ => 2) none (fun _ _ _ => some 77) fun _ _ _ => some 55
def cdSingle (unit : Option ℚ) : Option (Out ℚ) :=
  casertano (cas22Cfg true) 3 cdPattern 4 [] (fun i => 1 + 2 * cdTime 3 cdPattern i) (fun _ => 0) (.scalar 2) unit
    (fun _ _ _ => none) fun _ _ _ => none

example : Cas22PowOk (cas22Cfg true).pow ∧ CdThreshold (cas22Cfg true) :=
  ⟨⟨fun _ _ _ => zero_le_one, fun _ => rfl⟩, fun _ _ _ => by simp [cas22Cfg]⟩
example : ∀ j < 4, ∀ i < j, cdTime 3 cdPattern i < cdTime 3 cdPattern j := by decide +kernel
example : ∀ i < 4, cdDq (i * 2 + 0) = 0 → cdRes (i * 2 + 0) = 1 + 2 * cdTime 3 cdPattern i := by decide +kernel
example : (spread [2] (.line 2 fun _ => (2 : ℚ))).map (fun f => f 0) = some 2 := by decide +kernel
example : cdOut.map (fun o => (o.parShape, o.par[0]?, o.par[1]?, (List.range 8).map o.dq))
    = some ([2, 2], some 0, some 2, [0, 0, 0, 4, 1, 4, 0, 0]) := by decide +kernel
example : (cdSingle none).map (fun o => (o.parShape, o.par)) = some ([], [0]) := by decide +kernel
example : (cdSingle (some 3)).map (fun o => o.unit) = some (some 3) := by decide +kernel

end Verif.Thm
