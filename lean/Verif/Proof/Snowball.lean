import Verif.Model.Snowball
import Mathlib.Tactic.Ring
import Mathlib.Tactic.Linarith
import Mathlib.Tactic.FieldSimp
import Mathlib.Tactic.Positivity

/-! Helper lemmas about the snowball and shower model. -/

set_option linter.unusedSectionVars false

namespace Verif.Snowball

open Verif.Jump (Img)

variable {α : Type} [Field α] [LinearOrder α]

/-- Adding words without a common bit is combining them. -/
theorem add_eq_or (a : Nat) : ∀ b, a &&& b = 0 → a + b = a ||| b := by
  induction a using Nat.strongRecOn with
  | _ a ih =>
    intro b h
    by_cases ha : a = 0
    · subst ha; simp
    have h2 : a / 2 &&& b / 2 = 0 := by rw [← Nat.and_div_two, h]
    have ih2 := ih (a / 2) (by omega) (b / 2) h2
    have hd : (a ||| b) / 2 = a / 2 ||| b / 2 := Nat.or_div_two
    have hm : (a ||| b) % 2 = 1 ↔ a % 2 = 1 ∨ b % 2 = 1 := Nat.or_mod_two_eq_one
    have hn : (a &&& b) % 2 = 1 ↔ a % 2 = 1 ∧ b % 2 = 1 := Nat.and_mod_two_eq_one
    rw [h] at hn
    omega

/-! ### geometry -/

/-- A point of a rotated ellipse is closer to the centre than the longer semi-axis. -/
theorem inEllipse_bound [IsStrictOrderedRing α] (a b M : α) (ha : 0 < a) (hb : 0 < b)
    (haM : a ≤ M) (hbM : b ≤ M) (cs sn dr dc : α) (hcs : cs ^ 2 + sn ^ 2 = 1)
    (h : inEllipse a b cs sn dr dc = true) : dr ^ 2 + dc ^ 2 < M ^ 2 := by
  unfold inEllipse at h
  simp only [decide_eq_true_eq] at h
  set u := dr * cs + dc * sn with hu
  set v := dr * sn - dc * cs with hv
  have huv : u ^ 2 + v ^ 2 = dr ^ 2 + dc ^ 2 := by
    have : u ^ 2 + v ^ 2 = (dr ^ 2 + dc ^ 2) * (cs ^ 2 + sn ^ 2) := by rw [hu, hv]; ring
    rw [this, hcs, mul_one]
  have hM : 0 < M := lt_of_lt_of_le ha haM
  have h1 : u ^ 2 / M ^ 2 ≤ (u / a) ^ 2 := by
    rw [div_pow]
    apply div_le_div_of_nonneg_left (sq_nonneg u) (by positivity)
    exact pow_le_pow_left₀ ha.le haM 2
  have h2 : v ^ 2 / M ^ 2 ≤ (v / b) ^ 2 := by
    rw [div_pow]
    apply div_le_div_of_nonneg_left (sq_nonneg v) (by positivity)
    exact pow_le_pow_left₀ hb.le hbM 2
  have h3 : u ^ 2 / M ^ 2 + v ^ 2 / M ^ 2 < 1 := lt_of_le_of_lt (add_le_add h1 h2) h
  rw [← add_div, huv, div_lt_one (by positivity)] at h3
  exact h3

/-- A rotated ellipse lies in its bounding rectangle. -/
theorem inEllipse_box [IsStrictOrderedRing α] (a b : α) (ha : 0 < a) (hb : 0 < b)
    (cs sn dr dc : α) (hcs : cs ^ 2 + sn ^ 2 = 1) (h : inEllipse a b cs sn dr dc = true) :
    inBox a b cs sn dr dc = true := by
  unfold inEllipse at h
  simp only [decide_eq_true_eq] at h
  set u := (dr * cs + dc * sn) / a with hu
  set v := (dr * sn - dc * cs) / b with hv
  have hau : a * u = dr * cs + dc * sn := by rw [hu]; field_simp
  have hbv : b * v = dr * sn - dc * cs := by rw [hv]; field_simp
  have h1 : |u| ≤ 1 := by
    rw [← abs_one (α := α)]
    exact (sq_le_sq).mp (by nlinarith [sq_nonneg v])
  have h2 : |v| ≤ 1 := by
    rw [← abs_one (α := α)]
    exact (sq_le_sq).mp (by nlinarith [sq_nonneg u])
  have hr : dr = (a * cs) * u + b * (sn * v) := by
    have : dr = dr * (cs ^ 2 + sn ^ 2) := by rw [hcs, mul_one]
    calc dr = dr * (cs ^ 2 + sn ^ 2) := this
      _ = (dr * cs + dc * sn) * cs + (dr * sn - dc * cs) * sn := by ring
      _ = _ := by rw [← hau, ← hbv]; ring
  have hc : dc = a * (sn * u) + -((b * cs) * v) := by
    have : dc = dc * (cs ^ 2 + sn ^ 2) := by rw [hcs, mul_one]
    calc dc = dc * (cs ^ 2 + sn ^ 2) := this
      _ = (dr * cs + dc * sn) * sn - (dr * sn - dc * cs) * cs := by ring
      _ = _ := by rw [← hau, ← hbv]; ring
  have hmul : ∀ x y : α, |y| ≤ 1 → |x * y| ≤ |x| := by
    intro x y hy
    rw [abs_mul]
    exact mul_le_of_le_one_right (abs_nonneg x) hy
  unfold inBox
  rw [Bool.and_eq_true, decide_eq_true_iff, decide_eq_true_iff]
  constructor
  · rw [hr]
    refine (abs_add_le _ _).trans (add_le_add (hmul _ _ h1) ?_)
    rw [abs_mul, abs_of_pos hb]
    exact mul_le_mul_of_nonneg_left (hmul _ _ h2) hb.le
  · rw [hc]
    refine (abs_add_le _ _).trans (add_le_add ?_ ?_)
    · rw [abs_mul, abs_of_pos ha]
      exact mul_le_mul_of_nonneg_left (hmul _ _ h1) ha.le
    · rw [abs_neg]
      exact hmul _ _ h2

/-- Integer offsets inside an ellipse with integer semi-axes. -/
theorem inEllipse_int [IsStrictOrderedRing α] (a b : Int) (ha : 0 < a) (hb : 0 < b)
    (cs sn : α) (hcs : cs ^ 2 + sn ^ 2 = 1) (dr dc : Int)
    (h : inEllipse (a : α) (b : α) cs sn (dr : α) (dc : α) = true) :
    |dr| < max a b ∧ |dc| < max a b := by
  have hb1 := inEllipse_bound (a : α) (b : α) ((max a b : Int) : α) (by exact_mod_cast ha)
    (by exact_mod_cast hb) (by exact_mod_cast le_max_left a b) (by exact_mod_cast le_max_right a b)
    cs sn dr dc hcs h
  have hb2 : dr ^ 2 + dc ^ 2 < (max a b) ^ 2 := by exact_mod_cast hb1
  have hpos : 0 < max a b := lt_of_lt_of_le ha (le_max_left _ _)
  constructor
  · apply abs_lt_of_sq_lt_sq _ hpos.le
    nlinarith [sq_nonneg dc]
  · apply abs_lt_of_sq_lt_sq _ hpos.le
    nlinarith [sq_nonneg dr]

/-! ### expansion of jumps -/

theorem extend_fold (e : Env α) (grp : Nat)
    (mask : Img Bool) (gdq : Cube) (n : Nat) :
    (∀ g r c, ((List.range' grp n).foldl (extendStep e) (gdq, mask)).1 g r c =
      if (grp ≤ g ∧ g < grp + n) ∧ mask r c = true ∧
        (∀ g', grp ≤ g' → g' ≤ g → gdq g' r c &&& e.sat ≠ e.sat)
      then gdq g r c ||| e.jump else gdq g r c) ∧
    (∀ r c, ((List.range' grp n).foldl (extendStep e) (gdq, mask)).2 r c = true ↔
      mask r c = true ∧ ∀ g', grp ≤ g' → g' < grp + n → gdq g' r c &&& e.sat ≠ e.sat) := by
  classical
  induction n with
  | zero =>
    constructor
    · intro g r c
      simp only [List.range'_zero, List.foldl_nil]
      rw [if_neg (by omega)]
    · intro r c
      simp only [List.range'_zero, List.foldl_nil]
      constructor
      · intro h; exact ⟨h, fun g' h1 h2 => by omega⟩
      · exact fun h => h.1
  | succ n ih =>
    obtain ⟨ih1, ih2⟩ := ih
    rw [List.range'_concat, List.foldl_append]
    simp only [List.foldl_cons, List.foldl_nil, one_mul]
    set s := (List.range' grp n).foldl (extendStep e) (gdq, mask) with hs
    -- the word of the new group is still the original one
    have hcur : ∀ r c, s.1 (grp + n) r c = gdq (grp + n) r c := by
      intro r c; rw [ih1]; rw [if_neg (by omega)]
    have hje : ∀ r c, (extendStep e s (grp + n)).2 r c = true ↔
        mask r c = true ∧ ∀ g', grp ≤ g' → g' < grp + (n + 1) → gdq g' r c &&& e.sat ≠ e.sat := by
      intro r c
      simp only [extendStep, Bool.and_eq_true, decide_eq_true_eq, ih2, hcur]
      constructor
      · rintro ⟨⟨h1, h2⟩, h3⟩
        refine ⟨h1, fun g' a b => ?_⟩
        rcases Nat.lt_or_ge g' (grp + n) with hl | hl
        · exact h2 g' a hl
        · have : g' = grp + n := by omega
          rw [this]; exact h3
      · rintro ⟨h1, h2⟩
        exact ⟨⟨h1, fun g' a b => h2 g' a (by omega)⟩, h2 _ (by omega) (by omega)⟩
    refine ⟨?_, hje⟩
    intro g r c
    have hval : (extendStep e s (grp + n)).1 g r c =
        if g = grp + n ∧ (extendStep e s (grp + n)).2 r c = true then s.1 g r c ||| e.jump
        else s.1 g r c := rfl
    rw [hval]
    by_cases hg : g = grp + n
    · subst hg
      rw [hcur]
      simp only [true_and, hje]
      apply if_congr _ rfl rfl
      constructor
      · rintro ⟨h1, h2⟩
        exact ⟨⟨by omega, by omega⟩, h1, fun g' a b => h2 g' a (by omega)⟩
      · rintro ⟨_, h1, h2⟩
        exact ⟨h1, fun g' a b => h2 g' a (by omega)⟩
    · rw [if_neg (fun h => hg h.1), ih1]
      apply if_congr _ rfl rfl
      constructor
      · rintro ⟨h0, h1⟩; exact ⟨⟨h0.1, by omega⟩, h1⟩
      · rintro ⟨h0, h1⟩; exact ⟨⟨h0.1, by omega⟩, h1⟩

theorem extendMask_eq (e : Env α) (ngroups grp num : Nat)
    (mask : Img Bool) (gdq : Cube) (g r c : Nat) :
    extendMask e ngroups grp num mask gdq g r c =
      if (grp ≤ g ∧ g ≤ grp + num ∧ g < ngroups) ∧ mask r c = true ∧
        (∀ g', grp ≤ g' → g' ≤ g → gdq g' r c &&& e.sat ≠ e.sat)
      then gdq g r c ||| e.jump else gdq g r c := by
  classical
  unfold extendMask
  rw [(extend_fold e grp mask gdq _).1]
  apply if_congr _ rfl rfl
  constructor
  · rintro ⟨h0, h1⟩; exact ⟨by omega, h1⟩
  · rintro ⟨h0, h1⟩; exact ⟨by omega, h1⟩

theorem or_jump_and_sat (e : Env α) (hjs : e.jump &&& e.sat = 0) (w : Nat) :
    (w ||| e.jump) &&& e.sat = w &&& e.sat := by
  rw [Nat.and_or_distrib_right, hjs, Nat.or_zero]

/-- Flagging a list of masks. -/
theorem extendMasks_eq (e : Env α) (hjs : e.jump &&& e.sat = 0) (ngroups grp num : Nat)
    (masks : List (Img Bool)) (gdq : Cube) (g r c : Nat) :
    (masks.foldl (fun q m => extendMask e ngroups grp num m q) gdq) g r c =
      if (grp ≤ g ∧ g ≤ grp + num ∧ g < ngroups) ∧ (∃ m ∈ masks, m r c = true) ∧
        (∀ g', grp ≤ g' → g' ≤ g → gdq g' r c &&& e.sat ≠ e.sat)
      then gdq g r c ||| e.jump else gdq g r c := by
  classical
  induction masks generalizing gdq with
  | nil => simp
  | cons m ms ih =>
    simp only [List.foldl_cons]
    rw [ih]
    have hsat : ∀ g', extendMask e ngroups grp num m gdq g' r c &&& e.sat = gdq g' r c &&& e.sat := by
      intro g'
      rw [extendMask_eq e]
      split
      · exact or_jump_and_sat e hjs _
      · rfl
    simp only [hsat]
    rw [extendMask_eq e]
    by_cases h1 : (grp ≤ g ∧ g ≤ grp + num ∧ g < ngroups)
    · by_cases h3 : (∀ g', grp ≤ g' → g' ≤ g → gdq g' r c &&& e.sat ≠ e.sat)
      · by_cases hm : m r c = true
        · simp only [h1, hm, and_self, true_and, List.mem_cons, exists_eq_or_imp, true_or]
          split
          · rw [Nat.or_assoc, Nat.or_self]
          · rfl
        · simp only [hm, false_and, and_false, if_false, List.mem_cons, exists_eq_or_imp, false_or,
            Bool.false_eq_true]
      · simp only [h3, and_false, if_false]
    · simp only [h1, false_and, if_false]

theorem extendEllipses_eq (e : Env α) (hjs : e.jump &&& e.sat = 0)
    (ngroups nrows ncols grp num : Nat) (byRatio : Bool) (expansion : α)
    (els : List (Ellipse α)) (gdq : Cube) (g r c : Nat) :
    extendEllipses e ngroups nrows ncols grp num byRatio expansion els gdq g r c =
      if (grp ≤ g ∧ g ≤ grp + num ∧ g < ngroups) ∧
        (∃ el ∈ els, drawn e el (((computeAxes e byRatio el expansion).1 : α) * 2)
          (((computeAxes e byRatio el expansion).2 : α) * 2) nrows ncols r c = true) ∧
        (∀ g', grp ≤ g' → g' ≤ g → gdq g' r c &&& e.sat ≠ e.sat)
      then gdq g r c ||| e.jump else gdq g r c := by
  classical
  have h : extendEllipses e ngroups nrows ncols grp num byRatio expansion els gdq =
      (els.map (fun el => drawn e el (((computeAxes e byRatio el expansion).1 : α) * 2)
          (((computeAxes e byRatio el expansion).2 : α) * 2) nrows ncols)).foldl
        (fun q m => extendMask e ngroups grp num m q) gdq := by
    rw [List.foldl_map]; rfl
  rw [h, extendMasks_eq e hjs]
  simp only [List.mem_map, exists_exists_and_eq_and]

/-! ### expansion of saturation -/

/-- What `extend_saturation` does: pixels of an expanded core get exactly the
saturation flag from group `grp` on. -/
theorem extendSaturation_eq (e : Env α) (nrows ncols grp : Nat) (els : List (Ellipse α))
    (gdq : Cube) (persist : Img Nat) :
    (∀ g r c, (extendSaturation e nrows ncols grp els gdq persist).1 g r c =
      if grp ≤ g ∧ ∃ el ∈ els, min el.ax1 el.ax0 > e.minSatRadius ∧
        drawn e el (min (el.ax0 + e.satExpand) e.maxWidth) (min (el.ax1 + e.satExpand) e.maxWidth)
          nrows ncols r c = true
      then e.sat else gdq g r c) ∧
    (∀ r c, (extendSaturation e nrows ncols grp els gdq persist).2 r c =
      if ∃ el ∈ els, min el.ax1 el.ax0 > e.minSatRadius ∧
        drawn e el el.ax0 el.ax1 nrows ncols r c = true
      then e.jump else persist r c) := by
  classical
  unfold extendSaturation
  induction els generalizing gdq persist with
  | nil => simp
  | cons el els ih =>
    simp only [List.foldl_cons]
    by_cases hm : min el.ax1 el.ax0 > e.minSatRadius
    · have hstep : extendSatOne e nrows ncols grp (gdq, persist) el =
        (fun g r c => if grp ≤ g ∧ drawn e el (min (el.ax0 + e.satExpand) e.maxWidth)
            (min (el.ax1 + e.satExpand) e.maxWidth) nrows ncols r c = true then e.sat
            else gdq g r c,
         fun r c => if drawn e el el.ax0 el.ax1 nrows ncols r c = true then e.jump
            else persist r c) := by
        unfold extendSatOne; rw [if_pos hm]
      rw [hstep]
      obtain ⟨i1, i2⟩ := ih (fun g r c => if grp ≤ g ∧ drawn e el (min (el.ax0 + e.satExpand) e.maxWidth)
            (min (el.ax1 + e.satExpand) e.maxWidth) nrows ncols r c = true then e.sat
            else gdq g r c) (fun r c => if drawn e el el.ax0 el.ax1 nrows ncols r c = true then e.jump
            else persist r c)
      constructor
      · intro g r c
        rw [i1]
        simp only [List.mem_cons, exists_eq_or_imp, hm, true_and]
        by_cases ha : grp ≤ g
        · by_cases hb : ∃ a ∈ els, min a.ax1 a.ax0 > e.minSatRadius ∧
            drawn e a (min (a.ax0 + e.satExpand) e.maxWidth)
              (min (a.ax1 + e.satExpand) e.maxWidth) nrows ncols r c = true
          · rw [if_pos ⟨ha, hb⟩, if_pos ⟨ha, Or.inr hb⟩]
          · rw [if_neg (fun h => hb h.2)]
            apply if_congr _ rfl rfl
            constructor
            · rintro ⟨_, h⟩; exact ⟨ha, Or.inl h⟩
            · rintro ⟨_, h | h⟩
              · exact ⟨ha, h⟩
              · exact absurd h hb
        · rw [if_neg (fun h => ha h.1), if_neg (fun h => ha h.1), if_neg (fun h => ha h.1)]
      · intro r c
        rw [i2]
        simp only [List.mem_cons, exists_eq_or_imp, hm, true_and]
        by_cases hb : ∃ a ∈ els, min a.ax1 a.ax0 > e.minSatRadius ∧
            drawn e a a.ax0 a.ax1 nrows ncols r c = true
        · rw [if_pos hb, if_pos (Or.inr hb)]
        · rw [if_neg hb]
          apply if_congr _ rfl rfl
          constructor
          · exact Or.inl
          · rintro (h | h)
            · exact h
            · exact absurd h hb
    · have hstep : extendSatOne e nrows ncols grp (gdq, persist) el = (gdq, persist) := by
        unfold extendSatOne; rw [if_neg hm]
      rw [hstep]
      obtain ⟨i1, i2⟩ := ih gdq persist
      constructor
      · intro g r c; rw [i1]; simp only [List.mem_cons, exists_eq_or_imp, hm, false_and, false_or]
      · intro r c; rw [i2]; simp only [List.mem_cons, exists_eq_or_imp, hm, false_and, false_or]

/-! ### snowball selection -/

theorem mem_addIfCore (e : Env α) (j x : Ellipse α) (sats : List (Ellipse α)) :
    ∀ acc, x ∈ sats.foldl (addIfCore e j) acc ↔
      x ∈ acc ∨ (x = j ∧ ∃ s ∈ sats, pointInside e s.cx s.cy j = true) := by
  induction sats with
  | nil => simp
  | cons s sats ih =>
    intro acc
    simp only [List.foldl_cons]
    rw [ih]
    simp only [List.mem_cons, exists_eq_or_imp, addIfCore]
    by_cases hp : pointInside e s.cx s.cy j = true
    · by_cases hm : j ∈ acc
      · simp only [hp, hm, not_true_eq_false, decide_false, Bool.and_false, Bool.false_eq_true,
          if_false, true_or, and_true]
        constructor
        · rintro (h | ⟨rfl, _⟩)
          · exact Or.inl h
          · exact Or.inr rfl
        · rintro (h | rfl)
          · exact Or.inl h
          · exact Or.inl hm
      · simp only [hp, hm, not_false_eq_true, decide_true, Bool.and_self, if_true,
          List.mem_append, List.mem_singleton, true_or, and_true]
        tauto
    · simp only [hp, Bool.false_and, Bool.false_eq_true, if_false, false_or]

theorem mem_selectSnowballs (e : Env α) (nrows ngroups group : Nat)
    (jumps sats nextSats : List (Ellipse α)) (x : Ellipse α) :
    x ∈ selectSnowballs e nrows ngroups group jumps sats nextSats ↔
      x ∈ jumps ∧ (nearEdge e nrows x = true ∨
        (∃ s ∈ sats, pointInside e s.cx s.cy x = true) ∨
        (group < ngroups - 1 ∧ ∃ s ∈ nextSats, pointInside e s.cx s.cy x = true)) := by
  unfold selectSnowballs
  have key : ∀ acc : List (Ellipse α), x ∈ jumps.foldl (fun acc j =>
      if nearEdge e nrows j then acc ++ [j]
      else
        let acc1 := sats.foldl (addIfCore e j) acc
        if group < ngroups - 1 then nextSats.foldl (addIfCore e j) acc1 else acc1) acc ↔
      x ∈ acc ∨ (x ∈ jumps ∧ (nearEdge e nrows x = true ∨
        (∃ s ∈ sats, pointInside e s.cx s.cy x = true) ∨
        (group < ngroups - 1 ∧ ∃ s ∈ nextSats, pointInside e s.cx s.cy x = true))) := by
    induction jumps with
    | nil => simp
    | cons j jumps ih =>
      intro acc
      simp only [List.foldl_cons]
      rw [ih]
      simp only [List.mem_cons]
      by_cases hn : nearEdge e nrows j = true
      · rw [if_pos hn]
        simp only [List.mem_append, List.mem_singleton]
        constructor
        · rintro ((h | rfl) | h)
          · exact Or.inl h
          · exact Or.inr ⟨Or.inl rfl, Or.inl hn⟩
          · exact Or.inr ⟨Or.inr h.1, h.2⟩
        · rintro (h | ⟨rfl | h, h2⟩)
          · exact Or.inl (Or.inl h)
          · exact Or.inl (Or.inr rfl)
          · exact Or.inr ⟨h, h2⟩
      · rw [if_neg hn]
        by_cases hg : group < ngroups - 1
        · simp only [if_pos hg, mem_addIfCore]
          constructor
          · rintro (((h | ⟨rfl, h⟩) | ⟨rfl, h⟩) | h)
            · exact Or.inl h
            · exact Or.inr ⟨Or.inl rfl, Or.inr (Or.inl h)⟩
            · exact Or.inr ⟨Or.inl rfl, Or.inr (Or.inr ⟨hg, h⟩)⟩
            · exact Or.inr ⟨Or.inr h.1, h.2⟩
          · rintro (h | ⟨rfl | h, h2⟩)
            · exact Or.inl (Or.inl (Or.inl h))
            · rcases h2 with h2 | h2 | h2
              · exact absurd h2 hn
              · exact Or.inl (Or.inl (Or.inr ⟨rfl, h2⟩))
              · exact Or.inl (Or.inr ⟨rfl, h2.2⟩)
            · exact Or.inr ⟨h, h2⟩
        · simp only [if_neg hg, mem_addIfCore]
          constructor
          · rintro ((h | ⟨rfl, h⟩) | h)
            · exact Or.inl h
            · exact Or.inr ⟨Or.inl rfl, Or.inr (Or.inl h)⟩
            · exact Or.inr ⟨Or.inr h.1, h.2⟩
          · rintro (h | ⟨rfl | h, h2⟩)
            · exact Or.inl (Or.inl h)
            · rcases h2 with h2 | h2 | h2
              · exact absurd h2 hn
              · exact Or.inl (Or.inr ⟨rfl, h2⟩)
              · exact absurd h2.1 hg
            · exact Or.inr ⟨h, h2⟩
  have := key []
  simpa using this

/-! ### the whole pass -/

/-- How a word may change: SATURATED is never lost, and only JUMP_DET and SATURATED
bits may appear. -/
def Grow (e : Env α) (old new : Nat) : Prop :=
  (old &&& e.sat ≠ 0 → new &&& e.sat ≠ 0) ∧
    ∀ i, new.testBit i = true → old.testBit i = true ∨ e.jump.testBit i = true ∨
      e.sat.testBit i = true

theorem Grow.refl (e : Env α) (w : Nat) : Grow e w w := ⟨fun h => h, fun _ h => Or.inl h⟩

theorem Grow.trans {e : Env α} {a b c : Nat} (h1 : Grow e a b) (h2 : Grow e b c) : Grow e a c := by
  refine ⟨fun h => h2.1 (h1.1 h), fun i h => ?_⟩
  rcases h2.2 i h with h | h | h
  · exact h1.2 i h
  · exact Or.inr (Or.inl h)
  · exact Or.inr (Or.inr h)

theorem grow_or (e : Env α) (w f : Nat) (hf : ∀ i, f.testBit i = true → e.jump.testBit i = true) :
    Grow e w (w ||| f) := by
  constructor
  · intro h
    rw [Nat.and_or_distrib_right]
    intro h0
    exact h (Nat.or_eq_zero_iff.mp h0).1
  · intro i h
    rw [Nat.testBit_or, Bool.or_eq_true] at h
    rcases h with h | h
    · exact Or.inl h
    · exact Or.inr (Or.inl (hf i h))

theorem grow_sat (e : Env α) (hsat : e.sat ≠ 0) (w : Nat) : Grow e w e.sat := by
  refine ⟨fun _ => by rwa [Nat.and_self], fun i h => Or.inr (Or.inr h)⟩

/-- Invariant of the loop of `flag_large_events` relative to the input. -/
def Inv (e : Env α) (gdq : Cube4) (s : St) : Prop :=
  (∀ i g r c, Grow e (gdq i g r c) (s.gdq i g r c)) ∧
  (∀ i r c, s.gdq i 0 r c = gdq i 0 r c) ∧
  (∀ i r c, s.persist i r c = 0 ∨ s.persist i r c = e.jump)

theorem flagGroup_inv (e : Env α) (hsat : e.sat ≠ 0) (hjs : e.jump &&& e.sat = 0)
    (ngrps nrows ncols intg group : Nat) (hgrp : 1 ≤ group) (gdq : Cube4) (s s' : St)
    (hinv : Inv e gdq s) (h : flagGroup e ngrps nrows ncols intg group s = some s') :
    Inv e gdq s' ∧ s'.next.isSome = true := by
  classical
  obtain ⟨h1, h2, h3⟩ := hinv
  simp only [flagGroup] at h
  split at h
  · exact absurd h (by simp)
  rename_i nextNew hnx
  simp only [Option.some.injEq] at h
  -- the state after the optional saturation step
  set R : Cube × Img Nat × List (Ellipse α) := (if e.satRequired then
        let snow := selectSnowballs e nrows ngrps group
          (e.findJump (fun r c => s.gdq intg group r c &&& e.jump))
          (e.findSat (fun r c => newSat e (s.gdq intg group) (s.gdq intg (group - 1)) r c &&& e.sat))
          (e.findSat (fun r c => nextNew r c &&& e.sat))
        let x := extendSaturation e nrows ncols group
          (e.findSat (fun r c => newSat e (s.gdq intg group) (s.gdq intg (group - 1)) r c &&& e.sat))
          (s.gdq intg) (s.persist intg)
        (x.1, x.2, snow)
      else (s.gdq intg, s.persist intg, e.findJump (fun r c => s.gdq intg group r c &&& e.jump)))
    with hR
  have hRg : ∀ g r c, Grow e (s.gdq intg g r c) (R.1 g r c) := by
    intro g r c
    rw [hR]
    split
    · simp only
      rw [(extendSaturation_eq e nrows ncols group _ _ _).1]
      split
      · exact grow_sat e hsat _
      · exact Grow.refl e _
    · exact Grow.refl e _
  have hR0 : ∀ r c, R.1 0 r c = s.gdq intg 0 r c := by
    intro r c
    rw [hR]
    split
    · simp only
      rw [(extendSaturation_eq e nrows ncols group _ _ _).1, if_neg (by omega)]
    · rfl
  have hRp : ∀ r c, R.2.1 r c = 0 ∨ R.2.1 r c = e.jump := by
    intro r c
    rw [hR]
    split
    · simp only
      rw [(extendSaturation_eq e nrows ncols group _ _ _).2]
      split
      · exact Or.inr rfl
      · exact h3 intg r c
    · exact h3 intg r c
  clear_value R
  subst h
  refine ⟨⟨?_, ?_, ?_⟩, by simp [hnx]⟩
  · intro i g r c
    simp only
    split
    · rename_i hi
      subst hi
      refine (h1 i g r c).trans ((hRg g r c).trans ?_)
      rw [extendEllipses_eq e hjs]
      split
      · exact grow_or e _ _ (fun _ h => h)
      · exact Grow.refl e _
    · exact h1 i g r c
  · intro i r c
    simp only
    split
    · rename_i hi
      subst hi
      rw [extendEllipses_eq e hjs, if_neg (by omega), hR0, h2]
    · exact h2 i r c
  · intro i r c
    simp only
    split
    · exact hRp r c
    · exact h3 i r c

theorem flagLoop_inv (e : Env α) (hsat : e.sat ≠ 0) (hjs : e.jump &&& e.sat = 0)
    (ngrps nrows ncols : Nat) (gdq : Cube4) (qs : List (Nat × Nat)) (hq : ∀ q ∈ qs, 1 ≤ q.2) :
    ∀ s s', Inv e gdq s → flagLoop e ngrps nrows ncols qs s = some s' → Inv e gdq s' := by
  induction qs with
  | nil =>
    intro s s' hs h
    simp only [flagLoop, Option.some.injEq] at h
    subst h; exact hs
  | cons q qs ih =>
    intro s s' hs h
    simp only [flagLoop] at h
    split at h
    · exact absurd h (by simp)
    · rename_i s1 h1
      exact ih (fun q hq' => hq q (List.mem_cons_of_mem _ hq')) s1 s'
        (flagGroup_inv e hsat hjs ngrps nrows ncols q.1 q.2 (hq q (List.mem_cons_self ..)) gdq s s1 hs h1).1 h

theorem flagGroup_some (e : Env α) (ngrps nrows ncols intg group : Nat) (s : St)
    (h : s.next.isSome = true ∨ group < ngrps - 1) :
    ∃ s', flagGroup e ngrps nrows ncols intg group s = some s' ∧ s'.next.isSome = true := by
  simp only [flagGroup]
  split
  · rename_i hn
    exfalso
    rcases h with h | h
    · split at hn
      · simp at hn
      · rw [hn] at h; simp at h
    · rw [if_pos h] at hn; simp at hn
  · rename_i x hx
    exact ⟨_, rfl, by simp [hx]⟩

theorem flagLoop_some (e : Env α) (ngrps nrows ncols : Nat) (qs : List (Nat × Nat)) :
    ∀ s : St, s.next.isSome = true → (flagLoop e ngrps nrows ncols qs s).isSome = true := by
  induction qs with
  | nil => intro s _; rfl
  | cons q qs ih =>
    intro s hs
    obtain ⟨s', h1, h2⟩ := flagGroup_some e ngrps nrows ncols q.1 q.2 s (Or.inl hs)
    simp only [flagLoop, h1]
    exact ih s' h2

end Verif.Snowball
