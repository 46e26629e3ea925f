import Verif.Model.ResampleScale
import Mathlib.Tactic.Ring
import Mathlib.Tactic.FieldSimp
import Mathlib.Tactic.Linarith
import Mathlib.Tactic.Positivity
import Mathlib.Tactic.NormNum

/-!
# C108-C109: pixel scales, shapes, keys and errors of `Resample`
-/

namespace Verif.Thm

open Verif.ResampleScale

/-! ## C108 -/

/-- Specification: the pixel area of a model is the nominal one if positive, else the mean one if that is positive. -/
def RaArea (m : InModel) (a : ℝ) : Prop :=
  0 < a ∧ (m.nominal = some a ∨ (∀ x, m.nominal = some x → x ≤ 0) ∧ m.mean = some a)

/-- Specification: the models accepted in a history of calls; none after finalizing until the arrays are reset. -/
def raAdded : Bool → List Op → List InModel
  | _, [] => []
  | false, .add m :: l => m :: raAdded false l
  | true, .add _ :: l => raAdded true l
  | _, .finalize :: l => raAdded true l
  | _, .reset :: l => raAdded false l

/-- The state after a history. -/
noncomputable def raRun (s : St) (ops : List Op) : St := ops.foldl step s

theorem ra_inputArea (m : InModel) (a : ℝ) : (inputArea m false = some a ∧ 0 < a) ↔ RaArea m a := by
  have key : inputArea m false = if unknown m.nominal then m.mean else m.nominal := by simp [inputArea]
  rw [key]
  unfold RaArea
  cases hn : m.nominal with
  | none => simp [unknown]; tauto
  | some x =>
    by_cases hx : x ≤ 0
    · simp only [unknown, hx, decide_true, if_true, Option.some.injEq]
      constructor
      · rintro ⟨h1, h2⟩
        exact ⟨h2, Or.inr ⟨fun y hy => hy ▸ hx, h1⟩⟩
      · rintro ⟨h1, rfl | ⟨_, h2⟩⟩
        · exact absurd h1 (not_lt.mpr hx)
        · exact ⟨h2, h1⟩
    · simp only [unknown, hx, decide_false, Bool.false_eq_true, if_false, Option.some.injEq]
      constructor
      · rintro ⟨rfl, h2⟩
        exact ⟨h2, Or.inl rfl⟩
      · rintro ⟨h1, rfl | ⟨h2, _⟩⟩
        · exact ⟨rfl, h1⟩
        · exact absurd (h2 x rfl) hx

theorem ra_unique (m : InModel) (a b : ℝ) (h : RaArea m a) (h' : RaArea m b) : a = b := by
  have h1 := ((ra_inputArea m a).mpr h).1
  have h2 := ((ra_inputArea m b).mpr h').1
  rw [h1] at h2
  exact Option.some.inj h2

/-- One call: what happens to the ratio. -/
theorem ra_compute (s : St) (m : InModel) (hr : s.reported = s.ratio) :
    (computeRatio s m).scale = s.scale ∧ (computeRatio s m).finalized = s.finalized ∧
    (computeRatio s m).reported = (computeRatio s m).ratio ∧
    (∀ q, s.ratio = some q → (computeRatio s m).ratio = some q) ∧
    (s.ratio = none → (¬ (m.imaging = true ∧ ∃ a, RaArea m a)) → (computeRatio s m).ratio = none) ∧
    (s.ratio = none → m.imaging = true → ∀ a, RaArea m a → (computeRatio s m).ratio = some (s.scale / arcsec a)) := by
  have hA := ra_inputArea m
  simp only [computeRatio]
  by_cases hc : s.ratio = none ∧ m.imaging = true
  · rw [if_pos hc]
    cases hi : inputArea m false with
    | none =>
      simp only
      refine ⟨by trivial, by trivial, hr, fun q h => h, fun h _ => h, fun _ _ a ha => ?_⟩
      have := ((hA a).mpr ha).1
      rw [hi] at this
      exact absurd this (by simp)
    | some a =>
      by_cases ha : a ≤ 0
      · simp only [if_pos ha]
        refine ⟨by trivial, by trivial, hr, fun q h => h, fun h _ => h, fun _ _ b hb => ?_⟩
        have := (hA b).mpr hb
        rw [hi] at this
        obtain ⟨h1, h2⟩ := this
        simp only [Option.some.injEq] at h1
        linarith
      · simp only [if_neg ha]
        have har : RaArea m a := (hA a).mp ⟨hi, not_le.mp ha⟩
        refine ⟨by trivial, by trivial, ?_, ?_, ?_, ?_⟩
        · rw [hr, hc.1]
        · intro q h
          rw [hc.1] at h
          exact absurd h (by simp)
        · intro _ h
          exact absurd ⟨hc.2, a, har⟩ h
        · intro _ _ b hb
          rw [ra_unique m a b har hb]
  · rw [if_neg hc]
    refine ⟨rfl, rfl, hr, fun q h => h, fun h _ => h, fun h1 h2 => absurd ⟨h1, h2⟩ hc⟩

/-- C108 (the ratio).  Whatever is called, the ratio reported in the output model is the one used and the output scale does not
change.  A ratio given by the caller is kept.  Otherwise the ratio belongs to the first accepted imaging model whose pixel area
is known, for good, also after the arrays are reset; as long as there is none, there is no ratio. -/
theorem C108_ratio (s : St) (hr : s.reported = s.ratio) (ops : List Op) :
    (raRun s ops).reported = (raRun s ops).ratio ∧ (raRun s ops).scale = s.scale ∧
    (∀ q, s.ratio = some q → (raRun s ops).ratio = some q) ∧
    (s.ratio = none →
      ((∀ m ∈ raAdded s.finalized ops, ¬ (m.imaging = true ∧ ∃ a, RaArea m a)) → (raRun s ops).ratio = none) ∧
      ∀ pre m post a, raAdded s.finalized ops = pre ++ m :: post →
        (∀ m' ∈ pre, ¬ (m'.imaging = true ∧ ∃ a, RaArea m' a)) → m.imaging = true → RaArea m a →
        (raRun s ops).ratio = some (s.scale / (3600 * (Real.sqrt a * (180 / Real.pi))))) := by
  induction ops generalizing s with
  | nil =>
    refine ⟨hr, rfl, fun q h => h, fun h => ⟨fun _ => h, fun pre m post a hl => ?_⟩⟩
    simp [raAdded] at hl
  | cons op ops ih =>
    have hrun : raRun s (op :: ops) = raRun (step s op) ops := rfl
    rw [hrun]
    cases op with
    | finalize =>
      have := ih (step s .finalize) hr
      simp only [step] at this ⊢
      have e : raAdded s.finalized (.finalize :: ops) = raAdded true ops := by cases s.finalized <;> rfl
      rw [e]; exact this
    | reset =>
      have hr' : (step s .reset).reported = (step s .reset).ratio := by
        simp only [step]
        split
        · rfl
        · exact hr
      have := ih (step s .reset) hr'
      have e : raAdded s.finalized (.reset :: ops) = raAdded false ops := by cases s.finalized <;> rfl
      rw [e]; exact this
    | add m =>
      by_cases hf : s.finalized = true
      · have hs : step s (.add m) = s := by simp [step, hf]
        rw [hs]
        have e : raAdded s.finalized (.add m :: ops) = raAdded s.finalized ops := by rw [hf]; rfl
        rw [e]; exact ih s hr
      · have hs : step s (.add m) = computeRatio s m := by simp [step, hf]
        have hf' : s.finalized = false := by simpa using hf
        have e : raAdded s.finalized (.add m :: ops) = m :: raAdded s.finalized ops := by rw [hf']; rfl
        rw [hs, e]
        obtain ⟨c1, c2, c3, c4, c5, c6⟩ := ra_compute s m hr
        obtain ⟨i1, i2, i3, i4⟩ := ih (computeRatio s m) c3
        rw [c2, c1] at i4
        refine ⟨i1, i2.trans c1, fun q h => i3 q (c4 q h), fun hn => ⟨fun h => ?_, ?_⟩⟩
        · exact (i4 (c5 hn (h m (List.mem_cons_self ..)))).1 fun m' hm' => h m' (List.mem_cons_of_mem _ hm')
        · intro pre m' post a hl hpre him ha
          cases pre with
          | nil =>
            simp only [List.nil_append, List.cons.injEq] at hl
            obtain ⟨rfl, -⟩ := hl
            exact i3 _ (c6 hn him a ha)
          | cons p pre =>
            simp only [List.cons_append, List.cons.injEq] at hl
            obtain ⟨rfl, hl⟩ := hl
            exact (i4 (c5 hn (hpre _ (List.mem_cons_self ..)))).2 pre m' post a hl
              (fun x hx => hpre x (List.mem_cons_of_mem _ hx)) him ha

/-- C108 (areas).  An object made without a scale from an output WCS of pixel area `A`, and a first model of area `a`: the ratio
is positive and its square is the ratio of the areas. -/
theorem C108_area_ratio (A a : ℝ) (s : St) (hs : init none none (some A) = some s) (m : InModel) (hm : m.imaging = true)
    (ha : RaArea m a) : ∃ q, (computeRatio s m).ratio = some q ∧ 0 < q ∧ q ^ 2 * a = A := by
  simp only [init] at hs
  split at hs
  · exact absurd hs (by simp)
  rename_i hA
  simp only [Option.some.injEq] at hs
  subst hs
  have hA' : 0 < A := not_le.mp hA
  have h := (ra_compute ⟨none, arcsec A, none, false⟩ m rfl).2.2.2.2.2 rfl hm a ha
  have hpi := Real.pi_pos
  have h1 : 0 < Real.sqrt A := Real.sqrt_pos.mpr hA'
  have h2 : 0 < Real.sqrt a := Real.sqrt_pos.mpr ha.1
  refine ⟨_, h, ?_, ?_⟩
  · simp only [arcsec]; positivity
  · simp only [arcsec]
    have e : (3600 * (Real.sqrt A * (180 / Real.pi)) / (3600 * (Real.sqrt a * (180 / Real.pi)))) = Real.sqrt A / Real.sqrt a := by
      field_simp
    rw [e, div_pow, Real.sq_sqrt hA'.le, Real.sq_sqrt ha.1.le]
    field_simp [ha.1.ne']

/-- C108 (intensities).  Adding a model scales its data by 1, or, for spectral data in units of flux density with a nominal
area that is set and not zero, by the inverse of the ratio; it fails exactly if the product is finalized or that inverse is
needed and does not exist. -/
theorem C108_intensity (s : St) (m : InModel) :
    let scaled : Prop := m.nominal ≠ none ∧ m.nominal ≠ some 0 ∧ m.spectral = true ∧ m.fluxDensity = true
    (add s m = none ↔ s.finalized = true ∨
      (scaled ∧ ((computeRatio s m).ratio = none ∨ (computeRatio s m).ratio = some 0))) ∧
    ∀ s' i, add s m = some (s', i) → s' = computeRatio s m ∧ (¬ scaled → i = 1) ∧
      (scaled → ∃ q, (computeRatio s m).ratio = some q ∧ i * q = 1) := by
  intro scaled
  have hcond : ((m.nominal ≠ none ∧ m.nominal ≠ some 0) ∧ m.spectral = true ∧ m.fluxDensity = true) ↔ scaled := by
    simp only [scaled]; tauto
  by_cases hf : s.finalized = true
  · simp [add, hf]
  by_cases hc : scaled
  · cases hr : (computeRatio s m).ratio with
    | none => simp [add, hf, intensity, hcond, hc, hr]
    | some q =>
      by_cases hq : q = 0
      · simp [add, hf, intensity, hcond, hc, hr, hq]
      · simp only [add, hf, intensity, hcond, hc, hr, hq, if_true, if_false, Option.map_some]
        refine ⟨by simp [hq], ?_⟩
        rintro s' i h
        simp only [Option.some.injEq, Prod.mk.injEq, Bool.false_eq_true, if_false] at h
        obtain ⟨rfl, rfl⟩ := h
        exact ⟨rfl, fun h => absurd trivial h, fun _ => ⟨q, rfl, by field_simp⟩⟩
  · simp only [add, hf, intensity, hcond, hc, if_false, Option.map_some]
    refine ⟨by simp, ?_⟩
    rintro s' i h
    simp only [Option.some.injEq, Prod.mk.injEq, Bool.false_eq_true, if_false] at h
    obtain ⟨rfl, rfl⟩ := h
    exact ⟨rfl, fun _ => rfl, fun h => h.elim⟩

/-- Finding (resample.py:568-626): spectral data in units of flux density cannot be added to an object made without a ratio. -/
theorem C108_spectral_needs_ratio (s : St) (hs : s.ratio = none) (m : InModel) (hi : m.imaging = false)
    (hm : m.spectral = true ∧ m.fluxDensity = true) (a : ℝ) (ha : m.nominal = some a) (h0 : a ≠ 0) : add s m = none := by
  rw [(C108_intensity s m).1]
  refine Or.inr ⟨⟨by simp [ha], by simpa [ha] using h0, hm.1, hm.2⟩, Or.inl ?_⟩
  simp [computeRatio, hi, hs]

/-- Finding (resample.py:372-379): if the mean area is preferred and cannot be computed, the nominal area is announced as
replacement but not returned. -/
theorem C108_mean_has_no_fallback (m : InModel) (a : ℝ) (_ : m.nominal = some a) (_ : 0 < a) (hm : m.mean = none) :
    inputArea m true = none := by simp [inputArea, hm]

/-- C108 (reported).  Adding a model does not replace a ratio that the output model already reports, also when none was in use. -/
theorem C108_reported_kept (s : St) (y : ℝ) (h : s.reported = some y) (m : InModel) : (step s (.add m)).reported = some y := by
  simp only [step, computeRatio]
  split
  · exact h
  · split
    · split
      · exact h
      · split
        · exact h
        · simp [h]
    · exact h

/-- C108 (shape).  An output WCS with two axes and no shape gets one from its bounding box: a row or column belongs to the image
exactly if its far edge is inside the box (to rounding); for the box of an image, that is the shape of the image. -/
theorem C108_shape (b : ℝ × ℝ) :
    (∃ ny nx : Int, checkOutput 2 false none (some b) = .shape (some (ny, nx)) ∧
      (∀ k : Nat, (k : Int) < ny ↔ (k : ℝ) + 1 / 2 ≤ b.2 + eps) ∧ (∀ k : Nat, (k : Int) < nx ↔ (k : ℝ) + 1 / 2 ≤ b.1 + eps)) ∧
    ∀ nx ny : Nat, checkOutput 2 false none (some ((nx : ℝ) - 1 / 2, (ny : ℝ) - 1 / 2)) = .shape (some ((ny : Int), (nx : Int))) := by
  have he : 0 < eps ∧ eps < 1 := by simp only [eps]; norm_num
  have key : ∀ (x : ℝ) (k : Nat), (k : Int) < truncate (x + (1 / 2 + eps)) ↔ (k : ℝ) + 1 / 2 ≤ x + eps := by
    intro x k
    simp only [truncate]
    split
    · rw [← Int.add_one_le_iff, Int.le_floor]
      push_cast
      constructor <;> intro h <;> linarith
    · rename_i hx
      have h1 : ⌈x + (1 / 2 + eps)⌉ ≤ 0 := by
        rw [Int.ceil_le]; push_cast; linarith
      constructor
      · intro h; omega
      · intro h
        have : (0 : ℝ) ≤ k := Nat.cast_nonneg k
        linarith
  refine ⟨⟨_, _, rfl, key b.2, key b.1⟩, ?_⟩
  intro nx ny
  have hn : ∀ n : Nat, truncate ((n : ℝ) - 1 / 2 + (1 / 2 + eps)) = n := by
    intro n
    have h0 : (0 : ℝ) ≤ n := Nat.cast_nonneg n
    simp only [truncate]
    rw [if_pos (by linarith), Int.floor_eq_iff]
    push_cast
    constructor <;> linarith
  simp only [checkOutput, Bool.false_eq_true, if_false, ne_eq, not_true_eq_false]
  rw [hn, hn]

/-! ## C109 -/

/-- C109 (keys).  The check of an input model passes exactly if it has all of: the thirteen keys always needed, the unit for
spectral data, the variances if they are resampled, the error if it is, and the read noise variance for weights by inverse
variance; and then `add_model` finds every key it reads. -/
theorem C109_keys (o : Opts) (spectral : Bool) (keys : List String) :
    (validates o spectral keys = true ↔
      (∀ k ∈ ["data", "dq", "filename", "group_id", "wcs", "exposure_time", "start_time", "end_time", "duration",
        "measurement_time", "pixelarea_steradians", "level", "subtracted"], k ∈ keys) ∧
      (spectral = true → "bunit_data" ∈ keys) ∧ (o.enableVar = true → ∀ n ∈ o.names, n ∈ keys) ∧
      (o.drizErr = true → "err" ∈ keys) ∧
      (o.enableVar = false → o.weight.startsWith "ivm" = true → "var_rnoise" ∈ keys)) ∧
    (validates o spectral keys = true → ∀ nominal propagateDq, ∀ k ∈ accessed o spectral nominal propagateDq keys, k ∈ keys) := by
  have main : validates o spectral keys = true ↔
      (∀ k ∈ ["data", "dq", "filename", "group_id", "wcs", "exposure_time", "start_time", "end_time", "duration",
        "measurement_time", "pixelarea_steradians", "level", "subtracted"], k ∈ keys) ∧
      (spectral = true → "bunit_data" ∈ keys) ∧ (o.enableVar = true → ∀ n ∈ o.names, n ∈ keys) ∧
      (o.drizErr = true → "err" ∈ keys) ∧
      (o.enableVar = false → o.weight.startsWith "ivm" = true → "var_rnoise" ∈ keys) := by
    unfold validates required
    cases spectral <;> cases hv : o.enableVar <;> cases hd : o.drizErr <;> cases hw : o.weight.startsWith "ivm" <;>
      simp <;> tauto
  refine ⟨main, ?_⟩
  rw [main]
  rintro ⟨h1, h2, h3, h4, h5⟩ nominal pd k hk
  unfold accessed at hk
  simp only [List.mem_append] at hk
  rcases hk with (((((hk | hk) | hk) | hk) | hk) | hk) | hk
  · apply h1
    simp only [List.mem_cons, List.not_mem_nil, or_false] at hk ⊢
    rcases hk with h | h | h | h | h | h | h | h | h | h | h <;> subst h <;> simp
  · split at hk
    · rename_i h
      simp only [Bool.and_eq_true] at h
      simp only [List.mem_singleton] at hk
      rw [hk]; exact h2 h.1
    · simp at hk
  · split at hk
    · simp only [List.mem_singleton] at hk
      rw [hk]; apply h1; simp
    · simp at hk
  · split at hk
    · rename_i h
      simp only [Bool.and_eq_true, List.contains_iff_mem] at h
      simp only [List.mem_singleton] at hk
      rw [hk]; exact h.2
    · simp at hk
  · split at hk
    · rename_i h
      simp only [Bool.and_eq_true, List.contains_iff_mem] at h
      simp only [List.mem_singleton] at hk
      rw [hk]; exact h.2
    · simp at hk
  · split at hk
    · rename_i h
      simp only [List.contains_iff_mem] at h
      simp only [List.mem_singleton] at hk
      rw [hk]; exact h
    · simp at hk
  · split at hk
    · rename_i h
      simp only [List.mem_singleton] at hk
      rw [hk]; exact h4 h
    · simp at hk

/-- C109 (errors).  With errors from variances, the error of a pixel is the root of the sum of those of its variances that are
not NaN, and NaN exactly if all are; with resampled errors, it is the resampled error divided by the ratio for images, and
multiplied by the root of the ratio for spectra; without a ratio it is as resampled. -/
theorem C109_error (ratio : Option ℝ) (imaging : Bool) (vars : List (Option ℝ)) (hv : ∀ x, some x ∈ vars → 0 ≤ x)
    (drizzled : Option ℝ) (enableVar : Bool) :
    (∃ e, finalErr .fromVar true ratio imaging vars drizzled = .value e ∧ (e = none ↔ ∀ x ∈ vars, x = none) ∧
      ∀ y, e = some y → 0 ≤ y ∧ y ^ 2 = (vars.filterMap id).sum) ∧
    (∃ e, finalErr .drizErr enableVar ratio imaging vars drizzled = .value e ∧ (e = none ↔ drizzled = none) ∧
      ∀ y x, e = some y → drizzled = some x →
        (ratio = none → y = x) ∧
        (∀ q, ratio = some q → 0 < q → (imaging = true → y * q = x) ∧ (imaging = false → y = x * Real.sqrt q))) ∧
    finalErr .off enableVar ratio imaging vars drizzled = .absent := by
  have hsum : ∀ l : List (Option ℝ), nansum l = (l.filterMap id).sum := by
    intro l
    induction l with
    | nil => simp [nansum]
    | cons x l ih =>
      simp only [nansum, List.map_cons, List.sum_cons] at ih ⊢
      rw [ih]
      cases x <;> simp
  have hnn : 0 ≤ nansum vars := by
    rw [hsum]
    apply List.sum_nonneg
    intro x hx
    rw [List.mem_filterMap] at hx
    obtain ⟨a, ha, rfl⟩ := hx
    exact hv x ha
  have hall : vars.all Option.isNone = true ↔ ∀ x ∈ vars, x = none := by
    rw [List.all_eq_true]
    constructor <;> intro h x hx <;> have := h x hx <;> cases x <;> simp_all
  refine ⟨⟨_, rfl, ?_, ?_⟩, ⟨_, rfl, by cases drizzled <;> simp, ?_⟩, rfl⟩
  · rw [← hall]
    split
    · rename_i h; simp [h]
    · rename_i h; simp [h, not_lt.mpr hnn]
  · intro y hy
    split at hy
    · exact absurd hy (by simp)
    · rw [if_neg (not_lt.mpr hnn)] at hy
      simp only [Option.some.injEq] at hy
      rw [← hy, ← hsum]
      exact ⟨Real.sqrt_nonneg _, Real.sq_sqrt hnn⟩
  · intro y x hy hx
    rw [hx] at hy
    simp only [Option.map_some, Option.some.injEq] at hy
    subst hy
    refine ⟨?_, ?_⟩
    · intro h
      simp [errScale, h]
    · intro q h hq
      refine ⟨?_, ?_⟩
      · intro hi
        simp only [errScale, h, hi, if_true]
        field_simp
      · intro hi
        simp [errScale, h, hi]

/-- Finding (resample.py:185-187, 1024): the documentation says that errors from variances imply that variances are resampled, but
without `enable_var` the error stays `None`. -/
theorem C109_from_var_needs_enable_var (ratio : Option ℝ) (imaging : Bool) (vars : List (Option ℝ)) (drizzled : Option ℝ) :
    finalErr .fromVar false ratio imaging vars drizzled = .null := rfl

/-- Finding (resample.py:287-290; utils.py:311-338): the constructor accepts weight types with which no model can be added, since
only the beginning `ivm` is looked at. -/
theorem C109_weight_type_accepted_too_early (w : String) (h : w.startsWith "ivm" = true) (h1 : w ≠ "ivm") (h2 : w ≠ "ivm-sky")
    (h3 : w ≠ "exptime") : acceptsWeight w = true ∧ buildsWeight w = false := by
  simp [acceptsWeight, buildsWeight, h, h1, h2, h3]

/-! Examples. -/

def raModel : InModel := ⟨true, false, some 4, some 5, false⟩
def raBlind : InModel := ⟨true, false, some 0, none, false⟩
def raSpec : InModel := ⟨false, true, some 4, none, true⟩

example : RaArea raModel 4 ∧ ¬ ∃ a, RaArea raBlind a := by
  refine ⟨⟨by norm_num, Or.inl rfl⟩, ?_⟩
  rintro ⟨a, h0, h | ⟨_, h⟩⟩
  · simp only [raBlind, Option.some.injEq] at h; linarith
  · simp [raBlind] at h
example : raAdded false [.add raBlind, .finalize, .add raSpec, .reset, .add raModel] = [raBlind] ++ raModel :: [] := rfl
example : ∃ s, init none none (some 9) = some s ∧ s.reported = s.ratio ∧ s.ratio = none := by
  refine ⟨⟨none, arcsec 9, none, false⟩, ?_, rfl, rfl⟩
  simp [init]
example : raSpec.spectral = true ∧ raSpec.fluxDensity = true ∧ raSpec.nominal = some 4 ∧ raSpec.imaging = false := ⟨rfl, rfl, rfl, rfl⟩
example : ("ivm-flat".startsWith "ivm" = true) ∧ "ivm-flat" ≠ "ivm" ∧ "ivm-flat" ≠ "ivm-sky" ∧ "ivm-flat" ≠ "exptime" := by
  decide +kernel
example : validates ⟨false, true, "ivm", ["var_flat"]⟩ false ["data", "dq", "filename", "group_id", "wcs", "exposure_time", "start_time",
    "end_time", "duration", "measurement_time", "pixelarea_steradians", "level", "subtracted", "err", "var_rnoise"] = true := by
  decide +kernel
example : ∀ x : ℝ, some x ∈ [some 1, none, some (3 : ℝ)] → 0 ≤ x := by
  intro x hx
  simp only [List.mem_cons, Option.some.injEq, reduceCtorEq, List.not_mem_nil, or_false, false_or] at hx
  rcases hx with rfl | rfl <;> norm_num

end Verif.Thm
