import Verif.Model.LikelyDriver
import Verif.Thm.LikelyMask
import Verif.Thm.RampDq

/-!
# The driver of the likelihood fit: properties C100-C102
-/

namespace Verif.Thm

open Verif Verif.Likely Verif.LikelyDriver Finset Matrix

set_option linter.unusedSectionVars false

variable {α : Type} [Field α] [LinearOrder α] [IsStrictOrderedRing α]

/-! ## Exact data -/

/-- All used differences equal: the fit returns the common value and chi-square zero. -/
theorem ld_exact {n : Nat} {u : Nat → Bool} {times : Nat → List α} {q : Noise α} {s : α} (h : LkPattern n times)
    (hq : LkNoiseOk q) (hs : 0 < s) (hu : ∃ i < n, u i = true) (diffs : Nat → α) (b : α)
    (hb : ∀ i < n, u i = true → diffs i = b) :
    ∃ r, fitWith n (covar times) q s diffs (num u) = some r ∧ r.countrate = b ∧ r.chisq = 0 := by
  obtain ⟨r, hr, -, -, h3, -, -, h6, h7, h8, -⟩ := C38_generalised_least_squares h hq hs hu diffs
  have hc : r.countrate = b := by
    rw [h8, ← one_mul b, ← h7, sum_mul]
    refine sum_congr rfl fun i hi => ?_
    rcases hx : u i with _ | _
    · rw [h6 i hx]; ring
    · rw [hb i (mem_range.1 hi) hx]
  refine ⟨r, hr, hc, ?_⟩
  rw [h3, hc]
  unfold lkChi2
  have : (fun i : { i : Fin n // u i.1 = true } => diffs i.1.1 - b) = 0 := by
    funext i
    rw [hb i.1.1 i.1.2 i.2]
    simp
  rw [this]
  simp

/-- On such data no difference is an improvement to leave out. -/
theorem ld_one {n : Nat} {v : Nat → Bool} {times : Nat → List α} {q : Noise α} {s : α} (h : LkPattern n times)
    (hq : LkNoiseOk q) (hs : 0 < s) (diffs : Nat → α) (b : α) (hb : ∀ i < n, v i = true → diffs i = b)
    (i : Nat) (hi : i < n) (hvi : v i = true) (g : α) (hg : (search n (covar times) q s diffs).one v i = some g) :
    g = 0 := by
  by_cases hne : ∃ j < n, v j = true ∧ j ≠ i
  · obtain ⟨r, r', h1, h2, h3, -, -⟩ := C76_one_omitted h hq hs diffs i hi hvi hne
    obtain ⟨r1, e1, -, c1⟩ := ld_exact h hq hs ⟨i, hi, hvi⟩ diffs b hb
    obtain ⟨j, hj, hvj, hji⟩ := hne
    obtain ⟨r2, e2, -, c2⟩ := ld_exact (u := fun j => v j && decide (j ≠ i)) h hq hs ⟨j, hj, by simp [hvj, hji]⟩ diffs b
      (fun k hk hv => hb k hk (by
        simp only [Bool.and_eq_true] at hv
        exact hv.1))
    rw [h1] at e1
    rw [h2] at e2
    obtain rfl := Option.some.inj e1
    obtain rfl := Option.some.inj e2
    rw [h3] at hg
    have := Option.some.inj hg
    rw [← this, c1, c2, sub_zero]
  · push Not at hne
    have := (C76_masked_or_last h hq hs diffs i hi ⟨i, hi, hvi⟩).2 hvi hne
    rw [this] at hg
    cases hg

theorem ld_two {n : Nat} {v : Nat → Bool} {times : Nat → List α} {q : Noise α} {s : α} (h : LkPattern n times)
    (hq : LkNoiseOk q) (hs : 0 < s) (diffs : Nat → α) (b : α) (hb : ∀ i < n, v i = true → diffs i = b)
    (i : Nat) (hi : i + 1 < n) (hvi : v i = true ∨ v (i + 1) = true) (g : α)
    (hg : (search n (covar times) q s diffs).two v i = some g) : g = 0 := by
  rcases h1 : v i with _ | _
  · have hv2 : v (i + 1) = true := by simpa [h1] using hvi
    refine ld_one h hq hs diffs b hb (i + 1) hi hv2 g ?_
    rw [← hg]
    simp only [search, h1, if_true]
  · rcases h2 : v (i + 1) with _ | _
    · refine ld_one h hq hs diffs b hb i (by omega) h1 g ?_
      rw [← hg]
      simp only [search, h1, h2, if_true]
      simp
    · obtain ⟨r, r', e1, e2, e3, -⟩ := C76_two_omitted h hq hs diffs i hi h1 h2 g hg
      by_cases hne : ∃ j < n, (v j && decide (j ≠ i) && decide (j ≠ i + 1)) = true
      · obtain ⟨r1, f1, -, c1⟩ := ld_exact h hq hs ⟨i, by omega, h1⟩ diffs b hb
        obtain ⟨r2, f2, -, c2⟩ := ld_exact (u := fun j => v j && decide (j ≠ i) && decide (j ≠ i + 1)) h hq hs hne diffs b
          (fun k hk hv => hb k hk (by
            simp only [Bool.and_eq_true] at hv
            exact hv.1.1))
        rw [e1] at f1
        rw [e2] at f2
        obtain rfl := Option.some.inj f1
        obtain rfl := Option.some.inj f2
        rw [e3, c1, c2, sub_zero]
      · push Not at hne
        rw [C38_no_used_difference _ _ _ _ (fun j hj => by simpa using hne j hj)] at e2
        cases e2

theorem ld_pos (x : α) : 0 ≤ pos x := by
  unfold pos
  split
  · rename_i h; exact h.le
  · exact le_refl _

/-- A pixel without expansion is fitted as in `Likely.pixelFitO`. -/
theorem ld_fitE (root : α → Nat → α) (n : Nat) (cv : Covar α) (c : Cfg α) (jump : Nat) (gdq : Nat → Nat)
    (diffs : Nat → Option α) : pixelFitE root n cv c jump none gdq diffs = pixelFitO root n cv c jump gdq diffs := by
  unfold pixelFitE pixelFitO
  split
  · rfl
  · rfl

/-- Exact data: nothing is masked, nothing is flagged. -/
theorem ld_pixel {root : α → Nat → α} (hr : RootOk root) {n : Nat} (hn : 1 ≤ n) {times : Nat → List α}
    (h : LkPattern n times) (c : Cfg α) (hg : 0 < c.gain) (hrn : c.rnoise ≠ 0) (hdk : 0 ≤ c.dark) (ht1 : 0 ≤ c.t1)
    (ht2 : 0 ≤ c.t2) (jump : Nat) (gdq : Nat → Nat) (diffs : Nat → α) (b : α)
    (hb : ∀ i < n, diffs2use gdq i = true → diffs i = b) :
    let p := pixelFit root n (covar times) c jump gdq diffs
    (∀ i < n, p.1 i = diffs2use gdq i) ∧ (∀ g ≤ n, p.2.1 g = gdq g) ∧
      ((∃ i < n, diffs2use gdq i = true) → ∃ r, p.2.2 = some r ∧ r.countrate = b ∧ r.chisq = 0 ∧ 0 ≤ r.varP ∧ 0 < r.varR) ∧
      ((∀ i < n, diffs2use gdq i = false) → p.2.2 = none) := by
  intro p
  set q0 : Noise α := ⟨pos ((Verif.Jump.nanmedian ((List.range n).map fun i => some (diffs i))).getD 0), c.gain, c.rnoise⟩
    with hq0
  have hq : LkNoiseOk q0 := ⟨ld_pos _, hg, hrn⟩
  have hs := (C38_rescaled_determinant hr h hq hn).1
  have hp1 : p.1 = (passes n (fun i => decide (1 < (covar times).nreads (i + 1))) c.t1 c.t2
      (search n (covar times) q0 (scaleOf root n (covar times) q0) diffs) (diffs2use gdq) n).use := by
    rw [← maskJumps_eq]
    rfl
  have hspec := passes_spec n (fun i => decide (1 < (covar times).nreads (i + 1))) c.t1 c.t2 _
    (search_maskedZero n (covar times) q0 (scaleOf root n (covar times) q0) diffs) (diffs2use gdq) n
  rw [← hp1] at hspec
  have hmask : ∀ i < n, p.1 i = diffs2use gdq i := by
    intro i hi
    rcases hx : diffs2use gdq i with _ | _
    · rcases hy : p.1 i with _ | _
      · rfl
      · have := hspec.1 i hy
        rw [hx] at this
        cases this
    · rcases hy : p.1 i with _ | _
      · obtain ⟨v, hv, hvi, hcase⟩ := hspec.2.2.2.2 i hx hy
        have hb' : ∀ k < n, v k = true → diffs k = b := fun k hk hvk => hb k hk (hv k hvk)
        rcases hcase with ⟨g, e1, e2⟩ | ⟨hi1, g, e1, e2⟩ | ⟨k, rfl, hi1, g, e1, e2⟩
        · rw [ld_one h hq hs diffs b hb' i hi hvi g e1] at e2
          exact absurd e2 (not_lt.2 ht1)
        · rw [ld_two h hq hs diffs b hb' i hi1 (Or.inl hvi) g e1] at e2
          exact absurd e2 (not_lt.2 ht2)
        · rw [ld_two h hq hs diffs b hb' k hi1 (Or.inr hvi) g e1] at e2
          exact absurd e2 (not_lt.2 ht2)
      · rfl
  obtain ⟨f1, f2⟩ := C38_pixel hr hn h c hg hrn hdk jump gdq diffs
  refine ⟨hmask, ?_, ?_, ?_⟩
  · intro g hgn
    have e : p.2.1 = flagJumps jump gdq (diffs2use gdq) p.1 := rfl
    rw [e]
    unfold flagJumps
    split
    · rename_i h0; rw [h0]
    · rw [hmask (g - 1) (by omega)]
      simp
  · rintro ⟨i, hi, hx⟩
    obtain ⟨guess, hgs, r, e1, -, -, e4, -, e6, e7, e8, -, e10, e11⟩ := f2 ⟨i, hi, by rw [hmask i hi]; exact hx⟩
    have hc : r.countrate = b := by
      rw [e6, ← one_mul b, ← e7, sum_mul]
      refine sum_congr rfl fun k hk => ?_
      rcases hy : p.1 k with _ | _
      · rw [e8 k hy]; ring
      · rw [hb k (mem_range.1 hk) (by rw [← hmask k (mem_range.1 hk)]; exact hy)]
    refine ⟨r, e1, hc, ?_, e10, e11⟩
    rw [e4, hc]
    unfold lkChi2
    have : (fun i : { i : Fin n // p.1 i.1 = true } => diffs i.1.1 - b) = 0 := by
      funext i
      rw [hb i.1.1 i.1.2 (by rw [← hmask i.1.1 i.1.2]; exact i.2)]
      simp
    rw [this]
    simp
  · intro hx
    exact f1 fun i hi => by rw [hmask i hi]; exact hx i hi

/-! ## C100 -/

/-- Specification: none of the lowest eight flags is set (the fit looks at no others, see
`C39_high_flags_are_ignored`). -/
def LdClean (w : Nat) : Prop := w % 256 = 0

instance (w : Nat) : Decidable (LdClean w) := by unfold LdClean; infer_instance

/-- Specification: the reads of group `g` lie on the line `a + b t`, and the group is their mean; the zero frame is the
first read.  Flagged groups hold any numbers. -/
def LdStraight (ng : Nat) (times : List (List α)) (a b : α) (zero : Bool) (e : IntIn α) : Prop :=
  (∀ g < ng, ∃ x, e.data g = some x ∧
    (LdClean (e.gdq g) → x = (((times.getD g []).map fun t => a + b * t).sum / ((times.getD g []).length : α)))) ∧
  (zero = true → ∃ z, e.zf = some z ∧ (LdClean (e.gdq 0) → z = a + b * (times.getD 0 []).headD 0))

/-- Specification: there is something to fit: two neighbouring clean groups, or a clean first group and a zero frame. -/
def LdUsable (ng : Nat) (zero : Bool) (e : IntIn α) : Prop :=
  (∃ g, g + 1 < ng ∧ LdClean (e.gdq g) ∧ LdClean (e.gdq (g + 1))) ∨ (zero = true ∧ LdClean (e.gdq 0))

/-- Specification: a read pattern: `ng` groups of at least one read, read times increasing. -/
def LdTimes (ng : Nat) (times : List (List α)) : Prop :=
  times.length = ng ∧ (∀ l ∈ times, l ≠ []) ∧ times.flatten.Pairwise (· < ·)

/-- Specification: settings that make sense. -/
def LdCfg (c : Cfg α) : Prop := 0 < c.gain ∧ c.rnoise ≠ 0 ∧ 0 ≤ c.dark ∧ 0 ≤ c.t1 ∧ 0 ≤ c.t2

theorem ld_times {ng : Nat} {times : List (List α)} (h : LdTimes ng times) (hn : 1 ≤ ng) :
    LkPattern (ng - 1) fun j => times.getD j [] := by
  obtain ⟨h1, h2, h3⟩ := h
  rw [List.pairwise_flatten] at h3
  obtain ⟨h3, h4⟩ := h3
  have hget : ∀ j, j < ng → ∃ hj : j < times.length, times.getD j [] = times[j] := by
    intro j hj
    exact ⟨by omega, by simp [List.getD_eq_getElem?_getD, show j < times.length by omega]⟩
  refine ⟨fun j hj => ?_, fun j hj s hs t ht => ?_⟩
  · obtain ⟨hj', e⟩ := hget j (by omega)
    dsimp only
    rw [e]
    exact ⟨h2 _ (List.getElem_mem hj'), (h3 _ (List.getElem_mem hj')).imp fun h => h.le⟩
  · obtain ⟨hj', e⟩ := hget j (by omega)
    obtain ⟨hk', e'⟩ := hget (j + 1) (by omega)
    dsimp only at hs ht
    rw [e] at hs
    rw [e'] at ht
    exact (List.pairwise_iff_getElem.1 h4) j (j + 1) hj' hk' (by omega) s hs t ht

theorem ld_mean (a b : α) (l : List α) (hl : l ≠ []) :
    (l.map fun t => a + b * t).sum / (l.length : α) = a + b * meanT l := by
  have hs : (l.map fun t => a + b * t).sum = (l.length : α) * a + b * l.sum := by
    clear hl
    induction l with
    | nil => simp
    | cons x l ih =>
      simp only [List.map_cons, List.sum_cons, ih, List.length_cons]
      push_cast
      ring
  have h0 : (l.length : α) ≠ 0 := by
    have := List.length_pos_of_ne_nil hl
    positivity
  rw [hs]
  unfold meanT
  field_simp

/-- Samples on a line give equal differences. -/
theorem ld_diff {n : Nat} {times : Nat → List α} (h : LkPattern n times) (a b : α) (data : Nat → Option α) (i : Nat)
    (hi : i < n) (h0 : data i = some (a + b * meanT (times i)))
    (h1 : data (i + 1) = some (a + b * meanT (times (i + 1)))) : diffsOf (covar times) data i = some b := by
  have hd : 0 < meanT (times (i + 1)) - meanT (times i) := h.ordered.delta_pos hi
  simp only [diffsOf, h0, h1, covar]
  congr 1
  rw [div_eq_iff hd.ne']
  ring

theorem ld_use (gdq : Nat → Nat) (i : Nat) :
    diffs2use gdq i = true ↔ LdClean (gdq i) ∧ LdClean (gdq (i + 1)) := by
  simp only [diffs2use, Bool.and_eq_true, decide_eq_true_eq, LdClean]
  tauto

/-- The fit of prepared samples on a line. -/
theorem ld_rows {root : α → Nat → α} (hr : RootOk root) {rows : Nat} (hn : 2 ≤ rows) {times : Nat → List α}
    (h : LkPattern (rows - 1) times) (c : Cfg α) (hc : LdCfg c) (jump : Nat) (a b : α) (data : Nat → Option α)
    (gdq : Nat → Nat) (hx : ∀ g < rows, ∃ x, data g = some x ∧ (LdClean (gdq g) → x = a + b * meanT (times g))) :
    let p := pixelFitE root (rows - 1) (covar times) c jump none gdq (diffsOf (covar times) data)
    (∀ g < rows, p.2.1 g = gdq g) ∧
    ((∃ g, g + 1 < rows ∧ LdClean (gdq g) ∧ LdClean (gdq (g + 1))) →
      ∃ r, p.2.2 = some r ∧ r.countrate = b ∧ r.chisq = 0 ∧ 0 ≤ r.varP ∧ 0 < r.varR) ∧
    (¬ (∃ g, g + 1 < rows ∧ LdClean (gdq g) ∧ LdClean (gdq (g + 1))) → p.2.2 = none) := by
  intro p
  have hsome : ∀ i < rows - 1, (diffsOf (covar times) data i).isSome = true := by
    intro i hi
    obtain ⟨x, e, -⟩ := hx i (by omega)
    obtain ⟨y, e', -⟩ := hx (i + 1) (by omega)
    simp [diffsOf, e, e']
  have hp : p = pixelFit root (rows - 1) (covar times) c jump gdq fun i => (diffsOf (covar times) data i).getD 0 := by
    show pixelFitE _ _ _ _ _ _ _ _ = _
    rw [ld_fitE, pixelFitO, if_pos]
    simp only [List.all_eq_true, List.mem_range]
    exact hsome
  obtain ⟨c1, c2, c3, c4, c5⟩ := hc
  have key := ld_pixel hr (by omega) h c c1 c2 c3 c4 c5 jump gdq (fun i => (diffsOf (covar times) data i).getD 0) b
    (fun i hi hu => by
      obtain ⟨u1, u2⟩ := (ld_use gdq i).1 hu
      obtain ⟨x, e, ex⟩ := hx i (by omega)
      obtain ⟨y, e', ey⟩ := hx (i + 1) (by omega)
      rw [ex u1] at e
      rw [ey u2] at e'
      rw [ld_diff h a b data i hi e e']
      rfl)
  rw [← hp] at key
  obtain ⟨-, k2, k3, k4⟩ := key
  refine ⟨fun g hg => k2 g (by omega), ?_, ?_⟩
  · rintro ⟨g, hg, h1, h2⟩
    exact k3 ⟨g, by omega, (ld_use gdq g).2 ⟨h1, h2⟩⟩
  · intro hno
    refine k4 fun i hi => ?_
    rw [← Bool.not_eq_true, ld_use]
    rintro ⟨h1, h2⟩
    exact hno ⟨i, by omega, h1, h2⟩

/-- C100 (zero frame).  If the first group is the mean of `nframes` reads and the zero frame is the first of them, then
what the fit puts in place of the first group is the mean of the other reads. -/
theorem C100_zero_frame_taken_out (r0 r1 : α) (rs : List α) (data : Nat → Option α)
    (h : data 0 = some ((r0 :: r1 :: rs).sum / ((r0 :: r1 :: rs).length : α))) :
    splitZero (r0 :: r1 :: rs).length (some r0) data 0 = some r0 ∧
    splitZero (r0 :: r1 :: rs).length (some r0) data 1 = some ((r1 :: rs).sum / ((r1 :: rs).length : α)) ∧
    ∀ g, 1 ≤ g → splitZero (r0 :: r1 :: rs).length (some r0) data (g + 1) = data g := by
  refine ⟨rfl, ?_, ?_⟩
  · simp only [splitZero, h]
    rw [if_neg (by simp)]
    congr 1
    have h1 : ((rs.length : α) + 1 + 1) ≠ 0 := by positivity
    have h2 : ((rs.length : α) + 1) ≠ 0 := by positivity
    simp only [List.sum_cons, List.length_cons]
    push_cast
    rw [add_sub_cancel_right, div_mul_cancel₀ _ h1]
    congr 1
    ring
  · intro g hg
    obtain ⟨k, rfl⟩ : ∃ k, g = k + 1 := ⟨g - 1, by omega⟩
    rfl

/-- Read times with the zero frame in front. -/
theorem ld_times_zero {ng : Nat} {t0 t1 : α} {ts : List α} {rest : List (List α)}
    (h : LdTimes ng ((t0 :: t1 :: ts) :: rest)) : LdTimes (ng + 1) ([t0] :: (t1 :: ts) :: rest) := by
  obtain ⟨h1, h2, h3⟩ := h
  refine ⟨by simpa using h1, ?_, by simpa using h3⟩
  intro l hl
  simp only [List.mem_cons] at hl
  rcases hl with rfl | rfl | hl
  · simp
  · simp
  · exact h2 l (List.mem_cons_of_mem _ hl)

/-- The prepared samples of a straight ramp lie on its line, at the prepared times. -/
theorem ld_prepared (ng nframes : Nat) (pattern : Option (List (List α))) (default : List (List α)) (hasZero : Bool)
    (hng : 4 ≤ ng) (p : List (List α)) (hp : pattern.getD default = p) (ht : LdTimes ng p)
    (hfr : hasZero = true → (p.getD 0 []).length = nframes) (a b : α) (e : IntIn α)
    (hs : LdStraight ng p a b hasZero e) :
    let rt := readTimes pattern default hasZero
    rt.2.2 = (hasZero && decide (2 ≤ (p.getD 0 []).length)) ∧
    LkPattern (ng + (if rt.2.2 then 1 else 0) - 1) (fun j => rt.2.1.getD j []) ∧
    ∀ g < ng + (if rt.2.2 then 1 else 0), ∃ x, (if rt.2.2 then splitZero nframes e.zf e.data else e.data) g = some x ∧
      (LdClean ((if rt.2.2 then shiftDq e.gdq else e.gdq) g) → x = a + b * meanT (rt.2.1.getD g [])) := by
  intro rt
  have hmt : ∀ g < ng, ∀ x, x = ((p.getD g []).map fun t => a + b * t).sum / ((p.getD g []).length : α) →
      x = a + b * meanT (p.getD g []) := by
    intro g hg x hx
    rw [hx, ld_mean]
    have : g < p.length := by rw [ht.1]; exact hg
    have e : p.getD g [] = p[g] := by simp [List.getD_eq_getElem?_getD, this]
    rw [e]
    exact ht.2.1 _ (List.getElem_mem this)
  by_cases hz : (hasZero && decide (2 ≤ (p.getD 0 []).length)) = true
  · -- the zero frame joins
    rw [hz]
    simp only [Bool.and_eq_true, decide_eq_true_eq] at hz
    obtain ⟨hz1, hz2⟩ := hz
    obtain ⟨t0, t1, ts, rest, rfl⟩ : ∃ t0 t1 ts rest, p = (t0 :: t1 :: ts) :: rest := by
      match p, hz2 with
      | [], h => simp at h
      | [] :: _, h => simp at h
      | [_] :: _, h => simp at h
      | (t0 :: t1 :: ts) :: rest, _ => exact ⟨t0, t1, ts, rest, rfl⟩
    have hrt : rt.2 = ([t0] :: (t1 :: ts) :: rest, true) := by
      simp only [rt, readTimes, hp, hz1, if_true]
    rw [hrt]
    have hfr' : nframes = ts.length + 2 := by simpa using (hfr hz1).symm
    refine ⟨rfl, ld_times (ld_times_zero ht) (by omega), ?_⟩
    simp only [if_true]
    obtain ⟨s1, s2⟩ := hs
    obtain ⟨z, ez, hzc⟩ := s2 hz1
    intro g hg
    match g with
    | 0 =>
      refine ⟨z, by simp [splitZero, ez], fun hcl => ?_⟩
      rw [hzc hcl]
      simp [meanT]
    | 1 =>
      obtain ⟨x, ex, hxc⟩ := s1 0 (by omega)
      have hne : nframes ≠ 1 := by omega
      refine ⟨_, by simp only [splitZero, ex, ez]; rw [if_neg hne], fun hcl => ?_⟩
      have e1 := hxc hcl
      have e2 := hzc hcl
      show _ = a + b * meanT (t1 :: ts)
      rw [← ld_mean a b (t1 :: ts) (by simp)]
      have h1 : ((ts.length : α) + 2) ≠ 0 := by positivity
      have h2 : ((ts.length : α) + 1) ≠ 0 := by positivity
      rw [e1, e2, hfr']
      simp only [List.getD_cons_zero, List.map_cons, List.sum_cons, List.length_cons, List.headD_cons]
      push_cast
      rw [show ((ts.length : α) + 1 + 1) = (ts.length : α) + 2 by ring, div_mul_cancel₀ _ h1]
      congr 1
      · ring
      · ring
    | g + 2 =>
      obtain ⟨x, ex, hxc⟩ := s1 (g + 1) (by omega)
      exact ⟨x, ex, fun hcl => hmt (g + 1) (by omega) x (hxc hcl)⟩
  · -- no zero frame, or a first group of one read
    have hz' : (hasZero && decide (2 ≤ (p.getD 0 []).length)) = false := by simpa using hz
    have hrt : rt.2 = (p, false) := by
      simp only [Bool.and_eq_false_iff, decide_eq_false_iff_not] at hz'
      simp only [rt, readTimes, hp]
      rcases hz' with h | h
      · simp [h]
      · cases hasZero with
        | false => simp
        | true =>
          simp only [if_true]
          match p, h with
          | [], _ => rfl
          | [] :: _, _ => rfl
          | [_] :: _, _ => rfl
          | (t0 :: t1 :: ts) :: rest, h => simp at h
    rw [hrt, hz']
    refine ⟨rfl, by simpa using ld_times ht (by omega), ?_⟩
    simp only [Bool.false_eq_true, if_false, Nat.add_zero]
    intro g hg
    obtain ⟨x, ex, hxc⟩ := hs.1 g hg
    exact ⟨x, ex, fun hcl => hmt g hg x (hxc hcl)⟩

/-- C100 (one integration).  Straight ramps are fitted exactly, and nothing is flagged. -/
theorem ld_int {root : α → Nat → α} (hr : RootOk root) (fl : LikelyDriver.Flags) (ng nframes : Nat)
    (pattern : Option (List (List α))) (default : List (List α)) (hasZero : Bool) (c : Cfg α) (hc : LdCfg c) (pixeldq : Nat)
    (hng : 4 ≤ ng) (p : List (List α)) (hp : pattern.getD default = p) (ht : LdTimes ng p)
    (hfr : hasZero = true → (p.getD 0 []).length = nframes) (a b : α) (e : IntIn α)
    (hs : LdStraight ng p a b hasZero e) :
    let zero := hasZero && decide (2 ≤ (p.getD 0 []).length)
    let o := fitInt root fl ng nframes (readTimes pattern default hasZero).2.2 (readTimes pattern default hasZero).2.1 c none
      pixeldq e
    (∀ g < ng, o.gdq g = e.gdq g) ∧
    (LdUsable ng zero e → ∃ r, o.fit = some r ∧ r.countrate = b ∧ r.chisq = 0 ∧ 0 ≤ r.varP ∧ 0 < r.varR) ∧
    (¬ LdUsable ng zero e → o.fit = none) := by
  intro zero o
  obtain ⟨hz, hT, hx⟩ := ld_prepared ng nframes pattern default hasZero hng p hp ht hfr a b e hs
  have ho : o = fitInt root fl ng nframes (readTimes pattern default hasZero).2.2
    (readTimes pattern default hasZero).2.1 c none pixeldq e := rfl
  rw [hz] at ho hT hx
  change (_ : Bool) = zero at hz
  change LkPattern (ng + (if zero then 1 else 0) - 1) _ at hT
  obtain ⟨k1, k2, k3⟩ := ld_rows hr (by omega) hT c hc fl.jump a b _ _ hx
  have hiff : LdUsable ng zero e ↔ ∃ g, g + 1 < ng + (if zero then 1 else 0) ∧
      LdClean ((if zero then shiftDq e.gdq else e.gdq) g) ∧ LdClean ((if zero then shiftDq e.gdq else e.gdq) (g + 1)) := by
    cases hzz : zero with
    | true =>
      simp only [if_true]
      constructor
      · rintro (⟨g, hg, h1, h2⟩ | ⟨-, h⟩)
        · exact ⟨g + 1, by omega, h1, h2⟩
        · exact ⟨0, by omega, h, h⟩
      · rintro ⟨g, hg, h1, h2⟩
        match g with
        | 0 => exact Or.inr ⟨rfl, h1⟩
        | g + 1 => exact Or.inl ⟨g, by omega, h1, h2⟩
    | false =>
      simp only [Bool.false_eq_true, if_false, Nat.add_zero]
      constructor
      · rintro (h | ⟨h, -⟩)
        · exact h
        · cases h
      · exact Or.inl
  rw [hiff]
  refine ⟨?_, ?_, ?_⟩
  · intro g hg
    rw [ho]
    refine (congrArg (e.gdq g ||| ·) (k1 (g + if zero then 1 else 0) (by omega))).trans ?_
    change e.gdq g ||| (if zero then shiftDq e.gdq else e.gdq) (g + if zero then 1 else 0) = e.gdq g
    cases zero <;> exact Nat.or_self _
  · intro hu
    rw [ho]
    exact k2 hu
  · intro hu
    rw [ho]
    exact k3 hu

/-- C100.  The likelihood fit is exact on straight ramps: if in every integration of a pixel the reads of the unflagged
groups, and the zero frame, lie on a line of slope `b` (offsets may differ between integrations, flagged groups hold any
numbers), then every integration with something to fit has rate `b` and chi-square zero, the others have none, no group is
flagged, and the rate of the exposure is `b` if any integration has one. -/
theorem C100_straight_ramps {root : α → Nat → α} (hr : RootOk root) (fl : LikelyDriver.Flags) (ng nframes : Nat)
    (pattern : Option (List (List α))) (default : List (List α)) (hasZero : Bool) (c : Cfg α) (hc : LdCfg c) (pixeldq : Nat)
    (hng : 4 ≤ ng) (ht : LdTimes ng (pattern.getD default))
    (hfr : hasZero = true → ((pattern.getD default).getD 0 []).length = nframes) (b : α) (ints : List (IntIn α))
    (hs : ∀ e ∈ ints, ∃ a, LdStraight ng (pattern.getD default) a b hasZero e) :
    let zero := hasZero && decide (2 ≤ ((pattern.getD default).getD 0 []).length)
    ∃ outs img, likelyPixel root fl ng nframes pattern default hasZero c (fun _ => none) pixeldq ints = some (outs, img) ∧
      outs.length = ints.length ∧
      (∀ (k : Nat) e o, ints[k]? = some e → outs[k]? = some o →
        (∀ g < ng, o.gdq g = e.gdq g) ∧
        (LdUsable ng zero e → ∃ r, o.fit = some r ∧ r.countrate = b ∧ r.chisq = 0) ∧
        (¬ LdUsable ng zero e → o.fit = none)) ∧
      ((∃ e ∈ ints, LdUsable ng zero e) → img.comb.data = some b) := by
  intro zero
  have hint := fun e (he : e ∈ ints) => ld_int hr fl ng nframes pattern default hasZero c hc pixeldq hng _ rfl ht hfr
    (Classical.choose (hs e he)) b e (Classical.choose_spec (hs e he))
  set F : IntIn α → IntOut α := fun e => fitInt root fl ng nframes (readTimes pattern default hasZero).2.2
    (readTimes pattern default hasZero).2.1 c none pixeldq e with hF
  have houts : likelyPixel root fl ng nframes pattern default hasZero c (fun _ => none) pixeldq ints
      = some (ints.map F, imageInfo fl (ints.map F)) := by
    unfold likelyPixel
    rw [if_neg (by omega)]
    have : (ints.zipIdx.map fun e => fitInt root fl ng nframes (readTimes pattern default hasZero).2.2
        (readTimes pattern default hasZero).2.1 c none pixeldq e.1) = ints.map F := by
      rw [show (fun e : IntIn α × Nat => fitInt root fl ng nframes (readTimes pattern default hasZero).2.2
        (readTimes pattern default hasZero).2.1 c none pixeldq e.1) = F ∘ Prod.fst from rfl, ← List.map_map,
        List.zipIdx_map_fst]
    simp only [this]
  refine ⟨ints.map F, imageInfo fl (ints.map F), houts, by simp, ?_, ?_⟩
  · intro k e o he ho
    rw [List.getElem?_map, he] at ho
    obtain rfl := Option.some.inj ho
    obtain ⟨k1, k2, k3⟩ := hint e (List.mem_of_getElem? he)
    refine ⟨k1, fun hu => ?_, k3⟩
    obtain ⟨r, r1, r2, r3, -⟩ := k2 hu
    exact ⟨r, r1, r2, r3⟩
  · rintro ⟨e, he, hu⟩
    -- the values handed to `combine`
    have hcases : ∀ i ∈ (ints.map F).map toInt1, (i.data = none ∧ i.varP = none ∧ i.varR = none)
        ∨ ∃ p r, i.data = some b ∧ i.varP = some p ∧ i.varR = some r ∧ 0 ≤ p ∧ 0 < r := by
      intro i hi
      simp only [List.map_map, List.mem_map, Function.comp] at hi
      obtain ⟨e', he', rfl⟩ := hi
      obtain ⟨-, k2, k3⟩ := hint e' he'
      by_cases hu' : LdUsable ng zero e'
      · obtain ⟨r, r1, r2, -, r4, r5⟩ := k2 hu'
        have : (F e').fit = some r := r1
        exact Or.inr ⟨r.varP, r.varR, by simp [toInt1, this, r2], by simp [toInt1, this], by simp [toInt1, this], r4, r5⟩
      · have : (F e').fit = none := k3 hu'
        exact Or.inl ⟨by simp [toInt1, this], by simp [toInt1, this], by simp [toInt1, this]⟩
    have hl : LkInts ((ints.map F).map toInt1) := by
      intro i hi
      rcases hcases i hi with h | ⟨p, r, h1, h2, h3, h4, h5⟩
      · exact Or.inl h
      · exact Or.inr ⟨b, p, r, h1, h2, h3, h4, h5⟩
    have hcomb : (imageInfo fl (ints.map F)).comb = combine ((ints.map F).map toInt1) := by
      unfold imageInfo
      split
      · rename_i o ho
        rw [ho]
        rfl
      · rfl
    rw [hcomb]
    obtain ⟨w1, w2⟩ := C41_weighted_mean _ hl
    cases hv : (combine ((ints.map F).map toInt1)).data with
    | none =>
      have := w1.1 hv (toInt1 (F e)) (List.mem_map_of_mem (List.mem_map_of_mem he))
      obtain ⟨r, r1, -⟩ := (hint e he).2.1 hu
      have hF' : (F e).fit = some r := r1
      simp [toInt1, hF'] at this
    | some v =>
      obtain ⟨-, -, -, -, -, -, -, hb, -, -⟩ := w2 v hv
      obtain ⟨h1, h2⟩ := hb b b fun i hi d hd => by
        rcases hcases i hi with ⟨h, -, -⟩ | ⟨p, r, h, -⟩
        · rw [h] at hd; cases hd
        · rw [h] at hd
          obtain rfl := Option.some.inj hd
          exact ⟨le_refl _, le_refl _⟩
      rw [le_antisymm h2 h1]

/-! ## C101 -/

/-- The group DQ of one integration after the fit, without expansion. -/
theorem ld_gdq (root : α → Nat → α) (n : Nat) (cv : Covar α) (c : Cfg α) (jump : Nat) (gdq : Nat → Nat)
    (diffs : Nat → Option α) :
    let p := pixelFitE root n cv c jump none gdq diffs
    p.2.1 0 = gdq 0 ∧ ∀ i, p.2.1 (i + 1) = gdq (i + 1) ∨
      (p.2.1 (i + 1) = gdq (i + 1) ||| jump ∧ LdClean (gdq i) ∧ LdClean (gdq (i + 1))) := by
  intro p
  have hp : p = pixelFitO root n cv c jump gdq diffs := ld_fitE ..
  have h := fun b => C39_jump_flags root n cv c jump gdq diffs b
  rw [← hp] at h
  refine ⟨(h 0).1, fun i => ?_⟩
  by_cases hd : diffs2use gdq i = true ∧ p.1 i = false
  · refine Or.inr ⟨?_, (ld_use gdq i).1 hd.1⟩
    refine Nat.eq_of_testBit_eq fun b => ?_
    rw [Bool.eq_iff_iff, (h b).2 i, Nat.testBit_or, Bool.or_eq_true]
    simp only [hd.1, hd.2, and_true]
  · refine Or.inl (Nat.eq_of_testBit_eq fun b => ?_)
    rw [Bool.eq_iff_iff, (h b).2 i]
    tauto

/-- C101.  The only thing the likelihood fit does to the group DQ of the caller is to set JUMP_DET, and only in a clean
group after a clean group, or, if the zero frame is used, in a clean first group. -/
theorem C101_group_dq (root : α → Nat → α) (fl : LikelyDriver.Flags) (ng nframes : Nat) (useZero : Bool)
    (times : List (List α)) (c : Cfg α) (pixeldq : Nat) (e : IntIn α) (g : Nat) :
    let o := fitInt root fl ng nframes useZero times c none pixeldq e
    o.gdq g = e.gdq g ∨ (o.gdq g = e.gdq g ||| fl.jump ∧ LdClean (e.gdq g) ∧
      ((g = 0 ∧ useZero = true) ∨ ∃ k, g = k + 1 ∧ LdClean (e.gdq k))) := by
  intro o
  cases useZero with
  | true =>
    obtain ⟨-, h⟩ := ld_gdq root (ng + 1 - 1) (covar fun j => times.getD j []) c fl.jump (shiftDq e.gdq)
      (diffsOf (covar fun j => times.getD j []) (splitZero nframes e.zf e.data))
    have ho : o.gdq g = e.gdq g ||| (pixelFitE root (ng + 1 - 1) (covar fun j => times.getD j []) c fl.jump none
      (shiftDq e.gdq) (diffsOf (covar fun j => times.getD j []) (splitZero nframes e.zf e.data))).2.1 (g + 1) := rfl
    rcases h g with h | ⟨h, h1, h2⟩
    · left
      rw [ho, h]
      exact Nat.or_self _
    · right
      refine ⟨?_, h2, ?_⟩
      · rw [ho, h]
        show e.gdq g ||| (e.gdq g ||| _) = _
        rw [← Nat.or_assoc, Nat.or_self]
      · match g, h1 with
        | 0, _ => exact Or.inl ⟨rfl, rfl⟩
        | k + 1, h1 => exact Or.inr ⟨k, rfl, h1⟩
  | false =>
    obtain ⟨h0, h⟩ := ld_gdq root (ng - 1) (covar fun j => times.getD j []) c fl.jump e.gdq
      (diffsOf (covar fun j => times.getD j []) e.data)
    have ho : o.gdq g = e.gdq g ||| (pixelFitE root (ng - 1) (covar fun j => times.getD j []) c fl.jump none
      e.gdq (diffsOf (covar fun j => times.getD j []) e.data)).2.1 g := rfl
    match g, ho with
    | 0, ho =>
      left
      rw [ho, h0]
      exact Nat.or_self _
    | k + 1, ho =>
      rcases h k with h | ⟨h, h1, h2⟩
      · left
        rw [ho, h]
        exact Nat.or_self _
      · right
        refine ⟨?_, h2, Or.inr ⟨k, rfl, h1⟩⟩
        rw [ho, h, ← Nat.or_assoc, Nat.or_self]

/-- C101.  The DQ of an integration tells about the returned group DQ, whether or not the zero frame was used: DO_NOT_USE
if every group is saturated or not to be used, SATURATED and JUMP_DET if some group has it, besides the flags of the pixel. -/
theorem C101_integration_dq (root : α → Nat → α) (fl : LikelyDriver.Flags) (ng nframes : Nat) (useZero : Bool)
    (times : List (List α)) (c : Cfg α) (pixeldq : Nat) (e : IntIn α) (hng : 1 ≤ ng) (hjs : ¬ Dq.Has fl.jump fl.sat)
    (hjd : ¬ Dq.Has fl.jump fl.dnu) (i : Nat) :
    let o := fitInt root fl ng nframes useZero times c none pixeldq e
    o.dq.testBit i = true ↔ pixeldq.testBit i = true
      ∨ (fl.dnu.testBit i = true ∧ ∀ g < ng, Dq.Has (o.gdq g) fl.sat ∨ Dq.Has (o.gdq g) fl.dnu)
      ∨ (fl.sat.testBit i = true ∧ ∃ g < ng, Dq.Has (o.gdq g) fl.sat)
      ∨ (fl.jump.testBit i = true ∧ ∃ g < ng, Dq.Has (o.gdq g) fl.jump) := by
  intro o
  cases useZero with
  | true =>
    set G := (pixelFitE root (ng + 1 - 1) (covar fun j => times.getD j []) c fl.jump none (shiftDq e.gdq)
      (diffsOf (covar fun j => times.getD j []) (splitZero nframes e.zf e.data))).2.1 with hG
    obtain ⟨h0, h⟩ := ld_gdq root (ng + 1 - 1) (covar fun j => times.getD j []) c fl.jump (shiftDq e.gdq)
      (diffsOf (covar fun j => times.getD j []) (splitZero nframes e.zf e.data))
    rw [← hG] at h0 h
    have ho : ∀ g, o.gdq g = G (g + 1) := by
      intro g
      show e.gdq g ||| G (g + 1) = _
      have hs : shiftDq e.gdq (g + 1) = e.gdq g := rfl
      rcases h g with h | ⟨h, -, -⟩
      · rw [h, hs]
        exact Nat.or_self _
      · rw [h, hs, ← Nat.or_assoc, Nat.or_self]
    have hdq : o.dq = RampDq.compressSect fl.dnu fl.sat fl.jump ((List.range (ng + 1)).map G) pixeldq := rfl
    rw [hdq, C32_compress_integration]
    simp only [List.mem_map, List.mem_range, ho]
    -- row 0 is the DQ of the first group before the fit
    have hG0 : G 0 = e.gdq 0 := h0
    have h01 : G 1 = G 0 ∨ G 1 = G 0 ||| fl.jump := by
      rw [hG0]
      rcases h 0 with h | ⟨h, -, -⟩
      · exact Or.inl h
      · exact Or.inr h
    have hsat : Dq.Has (G 0) fl.sat ↔ Dq.Has (G 1) fl.sat := by
      rcases h01 with h | h
      · rw [h]
      · rw [h, Dq.has_or_left]; tauto
    have hdnu : Dq.Has (G 0) fl.dnu ↔ Dq.Has (G 1) fl.dnu := by
      rcases h01 with h | h
      · rw [h]
      · rw [h, Dq.has_or_left]; tauto
    have hjump : Dq.Has (G 0) fl.jump → Dq.Has (G 1) fl.jump := by
      rcases h01 with h | h
      · rw [h]; exact id
      · rw [h, Dq.has_or_left]; exact Or.inl
    refine or_congr Iff.rfl (or_congr (and_congr Iff.rfl ?_) (or_congr (and_congr Iff.rfl ?_) (and_congr Iff.rfl ?_)))
    · constructor
      · intro h g hg
        exact h _ ⟨g + 1, by omega, rfl⟩
      · rintro h _ ⟨g, hg, rfl⟩
        match g with
        | 0 => rw [hsat, hdnu]; exact h 0 (by omega)
        | g + 1 => exact h g (by omega)
    · constructor
      · rintro ⟨_, ⟨g, hg, rfl⟩, hh⟩
        match g with
        | 0 => exact ⟨0, by omega, hsat.1 hh⟩
        | g + 1 => exact ⟨g, by omega, hh⟩
      · rintro ⟨g, hg, hh⟩
        exact ⟨_, ⟨g + 1, by omega, rfl⟩, hh⟩
    · constructor
      · rintro ⟨_, ⟨g, hg, rfl⟩, hh⟩
        match g with
        | 0 => exact ⟨0, by omega, hjump hh⟩
        | g + 1 => exact ⟨g, by omega, hh⟩
      · rintro ⟨g, hg, hh⟩
        exact ⟨_, ⟨g + 1, by omega, rfl⟩, hh⟩
  | false =>
    set G := (pixelFitE root (ng - 1) (covar fun j => times.getD j []) c fl.jump none e.gdq
      (diffsOf (covar fun j => times.getD j []) e.data)).2.1 with hG
    obtain ⟨h0, h⟩ := ld_gdq root (ng - 1) (covar fun j => times.getD j []) c fl.jump e.gdq
      (diffsOf (covar fun j => times.getD j []) e.data)
    rw [← hG] at h0 h
    have ho : ∀ g, o.gdq g = G g := by
      intro g
      show e.gdq g ||| G g = _
      match g with
      | 0 => rw [h0]; exact Nat.or_self _
      | g + 1 =>
        rcases h g with h | ⟨h, -, -⟩
        · rw [h]
          exact Nat.or_self _
        · rw [h, ← Nat.or_assoc, Nat.or_self]
    have hdq : o.dq = RampDq.compressSect fl.dnu fl.sat fl.jump ((List.range ng).map G) pixeldq := rfl
    rw [hdq, C32_compress_integration]
    simp only [List.mem_map, List.mem_range, ho]
    refine or_congr Iff.rfl (or_congr (and_congr Iff.rfl ?_) (or_congr (and_congr Iff.rfl ?_) (and_congr Iff.rfl ?_)))
    · exact ⟨fun h g hg => h _ ⟨g, hg, rfl⟩, fun h _ ⟨g, hg, e⟩ => e ▸ h g hg⟩
    · exact ⟨fun ⟨_, ⟨g, hg, e⟩, hh⟩ => ⟨g, hg, e ▸ hh⟩, fun ⟨g, hg, hh⟩ => ⟨_, ⟨g, hg, rfl⟩, hh⟩⟩
    · exact ⟨fun ⟨_, ⟨g, hg, e⟩, hh⟩ => ⟨g, hg, e ▸ hh⟩, fun ⟨g, hg, hh⟩ => ⟨_, ⟨g, hg, rfl⟩, hh⟩⟩

/-- C101.  Without two neighbouring clean groups, and without a zero frame before a clean first group, there is no slope,
whatever the samples. -/
theorem C101_nothing_to_fit (root : α → Nat → α) (fl : LikelyDriver.Flags) (ng nframes : Nat) (useZero : Bool)
    (times : List (List α)) (c : Cfg α) (grow : Option ((Nat → Nat) → Nat → Nat)) (pixeldq : Nat) (e : IntIn α)
    (hno : ¬ LdUsable ng useZero e) :
    (fitInt root fl ng nframes useZero times c grow pixeldq e).fit = none := by
  set cv := covar fun j => times.getD j []
  set gdq := if useZero then shiftDq e.gdq else e.gdq with hgdq
  set data := if useZero then splitZero nframes e.zf e.data else e.data
  have hu : ∀ i < ng + (if useZero then 1 else 0) - 1, diffs2use gdq i = false := by
    intro i hi
    rw [← Bool.not_eq_true, ld_use]
    rintro ⟨h1, h2⟩
    refine hno ?_
    cases useZero with
    | true =>
      simp only [if_true] at hi hgdq
      rw [hgdq] at h1 h2
      match i with
      | 0 => exact Or.inr ⟨rfl, h1⟩
      | g + 1 => exact Or.inl ⟨g, by omega, h1, h2⟩
    | false =>
      simp only [Bool.false_eq_true, if_false] at hi hgdq
      rw [hgdq] at h1 h2
      exact Or.inl ⟨i, by omega, h1, h2⟩
  show (pixelFitE root (ng + (if useZero then 1 else 0) - 1) cv c fl.jump grow gdq (diffsOf cv data)).2.2 = none
  clear_value gdq data
  generalize ng + (if useZero then 1 else 0) - 1 = n at *
  unfold pixelFitE
  split
  · set s := masked root n cv c gdq fun i => (diffsOf cv data i).getD 0
    have hsub : ∀ i, s.use i = true → diffs2use gdq i = true := by
      intro i hi
      have : s = maskJumps _ _ _ _ _ _ := rfl
      rw [this, maskJumps_eq] at hi
      exact (passes_spec _ _ _ _ _ (search_maskedZero ..) _ _).1 i hi
    show finalFit root _ cv c s.rate _ (expandMask fl.jump grow _ s.use) = none
    unfold finalFit
    split
    · rfl
    · refine C38_no_used_difference _ _ _ _ fun i hi => ?_
      rw [← Bool.not_eq_true]
      intro hx
      have hx' : s.use i = true := by
        cases grow with
        | none => exact hx
        | some f =>
          simp only [expandMask, Bool.and_eq_true] at hx
          exact hx.1
      have := hsub i hx'
      rw [hu i hi] at this
      cases this
  · rfl

/-- C101 (finding).  A pixel can come out without a slope and without DO_NOT_USE: here every second group was flagged as
a jump before the fit, so that there is no difference to fit, and the DQ is JUMP_DET. -/
theorem C101_no_slope_no_flag :
    ∃ e : IntIn ℚ, (∀ g, e.data g = some (g : ℚ)) ∧
      (fitInt (fun _ _ => 1) ⟨1, 2, 4⟩ 4 1 false [[1], [2], [3], [4]] ⟨1, 1, 0, 16, 20⟩ none 0 e).fit = none ∧
      (fitInt (fun _ _ => 1) ⟨1, 2, 4⟩ 4 1 false [[1], [2], [3], [4]] ⟨1, 1, 0, 16, 20⟩ none 0 e).dq = 4 := by
  refine ⟨⟨fun g => some (g : ℚ), fun g => if g % 2 = 1 then 4 else 0, none⟩, fun _ => rfl, ?_, by decide +kernel⟩
  refine C101_nothing_to_fit _ _ _ _ _ _ _ _ _ _ ?_
  rintro (⟨g, -, h1, h2⟩ | ⟨h, -⟩)
  · have : g % 2 = 1 ∨ (g + 1) % 2 = 1 := by omega
    rcases this with h | h
    · simp [h, LdClean] at h1
    · simp [h, LdClean] at h2
  · cases h

/-! ## C102 -/

/-- C102.  The snowball expansion removes from the fit exactly the differences that end in a group which has JUMP_DET
afterwards; what is left is fitted by generalised least squares with the rate guess of the jump detection. -/
theorem C102_expansion {root : α → Nat → α} (hr : RootOk root) {n : Nat} (hn : 1 ≤ n) {times : Nat → List α}
    (h : LkPattern n times) (c : Cfg α) (hg : 0 < c.gain) (hrn : c.rnoise ≠ 0) (hdk : 0 ≤ c.dark) (jump : Nat)
    (f : (Nat → Nat) → Nat → Nat) (gdq : Nat → Nat) (diffs : Nat → α) :
    let before := pixelFitE root n (covar times) c jump none gdq fun i => some (diffs i)
    let p := pixelFitE root n (covar times) c jump (some f) gdq fun i => some (diffs i)
    p.2.1 = f before.2.1 ∧
    (∀ i, p.1 i = true ↔ before.1 i = true ∧ ¬ Dq.Has (p.2.1 (i + 1)) jump) ∧
    ((∀ i < n, p.1 i = false) → p.2.2 = none) ∧
    ((∃ i < n, p.1 i = true) → ∃ guess ≥ 0, ∃ r, p.2.2 = some r
      ∧ (∀ x, lkChi2 n p.1 times ⟨guess, c.gain, c.rnoise⟩ diffs r.countrate
          ≤ lkChi2 n p.1 times ⟨guess, c.gain, c.rnoise⟩ diffs x)
      ∧ r.chisq = lkChi2 n p.1 times ⟨guess, c.gain, c.rnoise⟩ diffs r.countrate
      ∧ r.countrate = ∑ i ∈ range n, r.weights i * diffs i ∧ (∑ i ∈ range n, r.weights i) = 1
      ∧ (∀ i, p.1 i = false → r.weights i = 0)
      ∧ r.varP + r.varR = r.uncert2 ∧ 0 ≤ r.varP ∧ 0 < r.varR) := by
  intro before p
  have hall : ((List.range n).all fun i => (some (diffs i)).isSome) = true := by simp
  set s := masked root n (covar times) c gdq diffs with hs
  have hb : before = (s.use, flagJumps jump gdq (diffs2use gdq) s.use, finalFit root n (covar times) c s.rate diffs s.use) := by
    show pixelFitE _ _ _ _ _ _ _ _ = _
    unfold pixelFitE
    rw [if_pos hall]
    rfl
  set G := flagJumps jump gdq (diffs2use gdq) s.use with hG
  have hp : p = (fun i => s.use i && decide (f G (i + 1) &&& jump = 0), f G, finalFit root n (covar times) c s.rate diffs
      fun i => s.use i && decide (f G (i + 1) &&& jump = 0)) := by
    show pixelFitE _ _ _ _ _ _ _ _ = _
    unfold pixelFitE
    rw [if_pos hall]
    rfl
  set u : Nat → Bool := fun i => s.use i && decide (f G (i + 1) &&& jump = 0) with hu
  have hp1 : p.1 = u := by rw [hp]
  have hp2 : p.2.1 = f G := by rw [hp]
  have hp3 : p.2.2 = finalFit root n (covar times) c s.rate diffs u := by rw [hp]
  refine ⟨by rw [hp2, hb], fun i => ?_, ?_, ?_⟩
  · rw [hp1, hp2, hb]
    simp only [hu, Bool.and_eq_true, decide_eq_true_eq, Dq.Has, not_not]
  · intro hno
    rw [hp1] at hno
    rw [hp3]
    unfold finalFit
    split
    · rfl
    · exact C38_no_used_difference _ _ _ _ hno
  · rintro ⟨i, hi, hui⟩
    rw [hp1] at hui ⊢
    have husi : s.use i = true := by
      simp only [hu, Bool.and_eq_true] at hui
      exact hui.1
    -- there is a rate guess
    obtain ⟨-, f2⟩ := C38_pixel hr hn h c hg hrn hdk jump gdq diffs
    obtain ⟨-, -, r0, hr0, -⟩ := f2 ⟨i, hi, husi⟩
    have hrate : ∃ v, s.rate = some v := by
      have : finalFit root n (covar times) c s.rate diffs s.use = some r0 := hr0
      unfold finalFit at this
      cases hv : s.rate with
      | none => rw [hv] at this; cases this
      | some v => exact ⟨v, rfl⟩
    obtain ⟨v, hv⟩ := hrate
    have hq : LkNoiseOk (⟨pos v + c.dark, c.gain, c.rnoise⟩ : Noise α) := ⟨add_nonneg (ld_pos _) hdk, hg, hrn⟩
    have hsc := (C38_rescaled_determinant hr h hq hn).1
    obtain ⟨r, e1, e2, -, e4, -, -, e7, e8, e9, -, e11, e12, e13, -⟩ :=
      C38_generalised_least_squares h hq hsc ⟨i, hi, hui⟩ diffs
    refine ⟨pos v + c.dark, add_nonneg (ld_pos _) hdk, r, ?_, e2, e4, e9, e8, e7, e11, e12, e13⟩
    rw [hp3, hv]
    exact e1

/-- C102.  Only JUMP_DET counts: an expansion that does not change which groups have JUMP_DET does not change the fit.
In particular, one that finds nothing changes nothing; but the groups that the expansion marks as SATURATED are used in the
fit all the same. -/
theorem C102_only_jumps_count (root : α → Nat → α) (n : Nat) (cv : Covar α) (c : Cfg α) (jump : Nat) (hj : jump < 256)
    (f : (Nat → Nat) → Nat → Nat) (gdq : Nat → Nat) (diffs : Nat → Option α)
    (hf : ∀ g, Dq.Has (f (pixelFitE root n cv c jump none gdq diffs).2.1 g) jump ↔
      Dq.Has ((pixelFitE root n cv c jump none gdq diffs).2.1 g) jump) :
    (pixelFitE root n cv c jump (some f) gdq diffs).1 = (pixelFitE root n cv c jump none gdq diffs).1 ∧
    (pixelFitE root n cv c jump (some f) gdq diffs).2.2 = (pixelFitE root n cv c jump none gdq diffs).2.2 := by
  have hclean : ∀ w, LdClean w → ¬ Dq.Has w jump := by
    intro w hw
    have h1 : jump = jump &&& (2 ^ 8 - 1) := by
      rw [Nat.and_two_pow_sub_one_eq_mod]
      exact (Nat.mod_eq_of_lt hj).symm
    have h2 : w &&& (2 ^ 8 - 1) = 0 := by
      rw [Nat.and_two_pow_sub_one_eq_mod]
      exact hw
    unfold Dq.Has
    rw [h1, Nat.and_comm jump, ← Nat.and_assoc, h2, Nat.zero_and]
    exact not_not.2 rfl
  unfold pixelFitE at hf ⊢
  split
  · rename_i hall
    rw [if_pos hall] at hf
    set s := masked root n cv c gdq fun i => (diffs i).getD 0
    set G := flagJumps jump gdq (diffs2use gdq) s.use with hG
    have hf' : ∀ g, Dq.Has (f G g) jump ↔ Dq.Has (G g) jump := hf
    have hsub : ∀ i, s.use i = true → diffs2use gdq i = true := by
      intro i hi
      have : s = maskJumps _ _ _ _ _ _ := rfl
      rw [this, maskJumps_eq] at hi
      exact (passes_spec _ _ _ _ _ (search_maskedZero ..) _ _).1 i hi
    have hu : (fun i => s.use i && decide (f G (i + 1) &&& jump = 0)) = s.use := by
      funext i
      cases hi : s.use i with
      | false => rfl
      | true =>
        have hd := hsub i hi
        have : G (i + 1) = gdq (i + 1) := by
          rw [hG]
          simp [flagJumps, hi, hd]
        have hno := hclean _ ((ld_use gdq i).1 hd).2
        rw [← this, ← hf', Dq.Has, not_not] at hno
        rw [hno]
        rfl
    refine ⟨hu, ?_⟩
    show finalFit root n cv c s.rate _ (fun i => s.use i && decide (f G (i + 1) &&& jump = 0)) = _
    rw [hu]
    rfl
  · rename_i hall
    rw [if_neg hall] at hf
    have hf' : ∀ g, Dq.Has (f gdq g) jump ↔ Dq.Has (gdq g) jump := hf
    refine ⟨?_, rfl⟩
    funext i
    show (diffs2use gdq i && decide (f gdq (i + 1) &&& jump = 0)) = diffs2use gdq i
    cases hd : diffs2use gdq i with
    | false => rfl
    | true =>
      have hno := hclean _ ((ld_use gdq i).1 hd).2
      rw [← hf', Dq.Has, not_not] at hno
      rw [hno]
      rfl

/-- C102.  Whatever the expansion flags, a straight ramp never gets another slope. -/
theorem C102_straight_ramp {root : α → Nat → α} (hr : RootOk root) (fl : LikelyDriver.Flags) (ng nframes : Nat)
    (pattern : Option (List (List α))) (default : List (List α)) (hasZero : Bool) (c : Cfg α) (hc : LdCfg c) (pixeldq : Nat)
    (hng : 4 ≤ ng) (ht : LdTimes ng (pattern.getD default))
    (hfr : hasZero = true → ((pattern.getD default).getD 0 []).length = nframes) (b : α)
    (grow : Nat → Option ((Nat → Nat) → Nat → Nat)) (ints : List (IntIn α))
    (hs : ∀ e ∈ ints, ∃ a, LdStraight ng (pattern.getD default) a b hasZero e) (outs : List (IntOut α))
    (img : LikelyDriver.PixOut α)
    (ho : likelyPixel root fl ng nframes pattern default hasZero c grow pixeldq ints = some (outs, img)) :
    ∀ o ∈ outs, ∀ r, o.fit = some r → r.countrate = b := by
  unfold likelyPixel at ho
  rw [if_neg (by omega)] at ho
  obtain ⟨h1, -⟩ := Prod.mk.inj (Option.some.inj ho)
  rw [← h1]
  intro o hmem r hfit
  obtain ⟨⟨e, k⟩, hek, rfl⟩ := List.mem_map.1 hmem
  obtain ⟨a, ha⟩ := hs e (by simpa using List.mem_of_getElem? (List.mem_zipIdx_iff_getElem?.1 hek))
  obtain ⟨-, hT, hx⟩ := ld_prepared ng nframes pattern default hasZero hng _ rfl ht hfr a b e ha
  set useZero := (readTimes pattern default hasZero).2.2
  set times := (readTimes pattern default hasZero).2.1
  set cv := covar fun j => times.getD j [] with hcv
  set data := if useZero then splitZero nframes e.zf e.data else e.data with hdata
  set gdq := if useZero then shiftDq e.gdq else e.gdq with hgdq
  set rows := ng + (if useZero then 1 else 0) with hrows
  have hfit' : (pixelFitE root (rows - 1) cv c fl.jump (grow k) gdq (diffsOf cv data)).2.2 = some r := hfit
  have hsome : ∀ i < rows - 1, ∃ d, diffsOf cv data i = some d := by
    intro i hi
    obtain ⟨x, e1, -⟩ := hx i (by omega)
    obtain ⟨y, e2, -⟩ := hx (i + 1) (by omega)
    exact ⟨(y - x) / cv.delta i, by simp [diffsOf, e1, e2]⟩
  set diffs : Nat → α := fun i => (diffsOf cv data i).getD 0 with hdiffs
  have hall : ((List.range (rows - 1)).all fun i => (diffsOf cv data i).isSome) = true := by
    simp only [List.all_eq_true, List.mem_range]
    intro i hi
    obtain ⟨d, hd⟩ := hsome i hi
    rw [hd]
    rfl
  -- the fit only looks at the first differences
  have hsame : ∀ gr, pixelFitE root (rows - 1) cv c fl.jump gr gdq (diffsOf cv data)
      = pixelFitE root (rows - 1) cv c fl.jump gr gdq fun i => some (diffs i) := by
    intro gr
    unfold pixelFitE
    rw [if_pos hall, if_pos (by simp)]
    rfl
  have hline : ∀ i < rows - 1, diffs2use gdq i = true → diffs i = b := by
    intro i hi hu
    obtain ⟨u1, u2⟩ := (ld_use gdq i).1 hu
    obtain ⟨x, e1, ex⟩ := hx i (by omega)
    obtain ⟨y, e2, ey⟩ := hx (i + 1) (by omega)
    rw [ex u1] at e1
    rw [ey u2] at e2
    rw [hdiffs]
    dsimp only
    rw [ld_diff hT a b data i hi e1 e2]
    rfl
  obtain ⟨c1, c2, c3, c4, c5⟩ := hc
  obtain ⟨hb1, -, hb3, hb4⟩ := ld_pixel hr (by omega) hT c c1 c2 c3 c4 c5 fl.jump gdq diffs b hline
  cases hgr : grow k with
  | none =>
    rw [hgr, hsame, ld_fitE] at hfit'
    have hO : pixelFitO root (rows - 1) cv c fl.jump gdq (fun i => some (diffs i))
        = pixelFit root (rows - 1) cv c fl.jump gdq diffs := by
      unfold pixelFitO
      rw [if_pos (by simp)]
      rfl
    rw [hO] at hfit'
    by_cases hu : ∃ i < rows - 1, diffs2use gdq i = true
    · obtain ⟨r', e1, e2, -⟩ := hb3 hu
      have := e1.symm.trans hfit'
      obtain rfl := Option.some.inj this
      exact e2
    · have := hb4 fun i hi => by
        rw [← Bool.not_eq_true]
        exact fun hh => hu ⟨i, hi, hh⟩
      rw [show (pixelFit root (rows - 1) cv c fl.jump gdq diffs).2.2 = none from this] at hfit'
      cases hfit'
  | some f =>
    rw [hgr, hsame] at hfit'
    obtain ⟨-, k2, k3, k4⟩ := C102_expansion hr (by omega) hT c c1 c2 c3 fl.jump f gdq diffs
    by_cases hu : ∃ i < rows - 1,
        (pixelFitE root (rows - 1) cv c fl.jump (some f) gdq fun i => some (diffs i)).1 i = true
    · obtain ⟨-, -, r', e1, -, -, e4, e5, e6, -⟩ := k4 hu
      obtain rfl := Option.some.inj (e1.symm.trans hfit')
      rw [e4, ← one_mul b, ← e5, sum_mul]
      refine sum_congr rfl fun i hi => ?_
      have hi := mem_range.1 hi
      cases hui : (pixelFitE root (rows - 1) cv c fl.jump (some f) gdq fun i => some (diffs i)).1 i with
      | false => rw [e6 i hui]; ring
      | true =>
        have hbi := ((k2 i).1 hui).1
        have : (pixelFitE root (rows - 1) cv c fl.jump none gdq fun i => some (diffs i)).1 i = diffs2use gdq i := by
          rw [← hb1 i hi, ld_fitE]
          unfold pixelFitO
          rw [if_pos (by simp)]
          rfl
        rw [hline i hi (this ▸ hbi)]
    · have := k3 fun i hi => by
        rw [← Bool.not_eq_true]
        exact fun hh => hu ⟨i, hi, hh⟩
      rw [show (pixelFitE root (rows - 1) cv c fl.jump (some f) gdq fun i => some (diffs i)).2.2 = none from this] at hfit'
      cases hfit'

/-! ## Findings and examples -/

/-- C100 (finding).  The zero frame is taken out of the first group with `nframes`, whatever the read pattern says: with
three reads per group in the pattern and `nframes = 2`, a straight ramp of slope one is not given slope one. -/
theorem C100_nframes_mismatch :
    ∃ e : IntIn ℚ, LdStraight 4 [[1, 2, 3], [4, 5, 6], [7, 8, 9], [10, 11, 12]] 0 1 true e ∧ (∀ g, e.gdq g = 0) ∧
      (fitInt (fun _ _ => 1) ⟨1, 2, 4⟩ 4 2 true [[1], [2, 3], [4, 5, 6], [7, 8, 9], [10, 11, 12]] ⟨1, 1, 0, 16, 20⟩ none 0
        e).fit.map (fun r => decide (r.countrate = 1)) = some false := by
  refine ⟨⟨fun g => some (3 * (g : ℚ) + 2), fun _ => 0, some 1⟩, ⟨?_, ?_⟩, fun _ => rfl, by decide +kernel⟩
  · intro g hg
    refine ⟨3 * (g : ℚ) + 2, rfl, fun _ => ?_⟩
    interval_cases g <;> norm_num
  · intro _
    exact ⟨1, rfl, fun _ => by norm_num⟩

/-- A ramp of slope two with a zero frame; the third group is flagged and far off. -/
def ldEx : IntIn ℚ := ⟨fun g => some (if g = 2 then 1000 else 6 * (g : ℚ) + 9), fun g => if g = 2 then 1 else 0, some 7⟩

example : LdStraight 6 ((List.range 6).map fun g => [3 * (g : ℚ) + 1, 3 * (g : ℚ) + 3]) 5 2 true ldEx := by
  refine ⟨fun g hg => ⟨_, rfl, fun hcl => ?_⟩, fun _ => ⟨7, rfl, fun _ => by norm_num [List.range, List.range.loop]⟩⟩
  interval_cases g <;> simp [List.range, List.range.loop, ldEx, LdClean] at hcl ⊢ <;> norm_num

example : LdTimes 6 ((List.range 6).map fun g => [3 * (g : ℚ) + 1, 3 * (g : ℚ) + 3]) := by
  refine ⟨rfl, by decide +kernel, by decide +kernel⟩

example : LdCfg (⟨1, 1, 0, 16, 20⟩ : Cfg ℚ) := by refine ⟨?_, ?_, ?_, ?_, ?_⟩ <;> norm_num

example : LdUsable 6 true ldEx := Or.inr ⟨rfl, rfl⟩

example : (likelyPixel (fun _ _ => 1) ⟨1, 2, 4⟩ 6 2 (some ((List.range 6).map fun g => [3 * (g : ℚ) + 1, 3 * (g : ℚ) + 3])) []
    true ⟨1, 1, 0, 16, 20⟩ (fun _ => none) 0 [ldEx, ldEx]).map (fun r => r.2.comb.data) = some (some 2) := by
  decide +kernel

/-- An expansion that flags the last group as a jump and the one before as saturated: the former is not used, the latter
is. -/
example : (fitInt (fun _ _ => 1) ⟨1, 2, 4⟩ 5 1 false [[1], [2], [3], [4], [5]] (⟨1, 1, 0, 1000, 2000⟩ : Cfg ℚ)
    (some fun g k => if k = 4 then g k ||| 4 else if k = 3 then g k ||| 2 else g k) 0
    ⟨fun g => some (if g = 4 then 20 else if g = 3 then 8 else (g : ℚ)), fun _ => 0, none⟩).fit.map
      (fun r => (decide (r.weights 2 = 0), decide (r.weights 3 = 0))) = some (false, true) := by
  decide +kernel

end Verif.Thm
