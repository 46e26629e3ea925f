import Verif.Thm.LikelyUnits

/-! # Sums of signals in the likelihood fit with a given rate guess (C191) -/

namespace Verif.Thm

open Finset Matrix Verif.Likely

set_option linter.unusedSectionVars false

variable {α : Type} [Field α] [LinearOrder α] [IsStrictOrderedRing α]

theorem am_thetaD (b th d e : Nat → α) (x y : α) :
    ∀ i, bigThetaD b th (fun i => x * d i + y * e i) i = x * bigThetaD b th d i + y * bigThetaD b th e i
  | 0 => by simp [bigThetaD]
  | 1 => by simp only [bigThetaD]; ring
  | i + 2 => by simp only [bigThetaD, am_thetaD b th d e x y (i + 1)]; ring

theorem am_B (n : Nat) (a b d e u : Nat → α) (x y : α) :
    (matrix n a b (fun i => x * d i + y * e i) u).B = x * (matrix n a b d u).B + y * (matrix n a b e u).B := by
  simp only [matrix, mul_sum, ← sum_add_distrib]
  exact sum_congr rfl fun i _ => by ring

theorem am_A (n : Nat) (a b d e u : Nat → α) :
    (matrix n a b (fun i => 1 * d i + 1 * e i) u).A + (matrix n a b (fun i => 1 * d i + -1 * e i) u).A =
      2 * (matrix n a b d u).A + 2 * (matrix n a b e u).A := by
  simp only [matrix, am_thetaD, mul_sum, mul_add, ← sum_add_distrib]
  exact sum_congr rfl fun i _ => by ring

theorem am_masked (d e u : Nat → α) (x y : α) :
    (fun i => (x * d i + y * e i) * u i) = fun i => x * (d i * u i) + y * (e i * u i) := by
  funext i; ring

/-- **C191**, sums: with the same rate guess the fit of any combination `x d + y e` of two signals exists when that of one of them does;
its rate is the same combination of the two rates; weights, uncertainty and both variances are those of either signal. -/
theorem C191_sum (n : Nat) (cv : Covar α) (q : Noise α) (s : α) (u : Nat → Bool) (d e : Nat → α) (x y : α) (r : Result α)
    (hr : fitWith n cv q s d (num u) = some r) :
    ∃ r' r'', fitWith n cv q s e (num u) = some r' ∧ fitWith n cv q s (fun i => x * d i + y * e i) (num u) = some r''
      ∧ r''.countrate = x * r.countrate + y * r'.countrate
      ∧ (r''.weights = r.weights ∧ r''.uncert2 = r.uncert2 ∧ r''.varP = r.varP ∧ r''.varR = r.varR)
      ∧ r'.weights = r.weights ∧ r'.uncert2 = r.uncert2 ∧ r'.varP = r.varP ∧ r'.varR = r.varR := by
  simp only [fitWith] at hr ⊢
  by_cases hC : (fitMatrix n cv q s d (num u)).C = 0
  · rw [if_pos hC] at hr; cases hr
  rw [if_neg hC, Option.some.injEq] at hr
  have h1 : ¬ (fitMatrix n cv q s e (num u)).C = 0 := hC
  have h2 : ¬ (fitMatrix n cv q s (fun i => x * d i + y * e i) (num u)).C = 0 := hC
  rw [if_neg h1, if_neg h2]
  subst hr
  refine ⟨_, _, rfl, rfl, ?_, ⟨rfl, rfl, rfl, rfl⟩, rfl, rfl, rfl, rfl⟩
  have hB : (fitMatrix n cv q s (fun i => x * d i + y * e i) (num u)).B =
      x * (fitMatrix n cv q s d (num u)).B + y * (fitMatrix n cv q s e (num u)).B := by
    simp only [fitMatrix, am_masked, am_B]
  show (fitMatrix n cv q s (fun i => x * d i + y * e i) (num u)).B * (1 / (fitMatrix n cv q s d (num u)).C) =
    x * ((fitMatrix n cv q s d (num u)).B * (1 / (fitMatrix n cv q s d (num u)).C)) +
      y * ((fitMatrix n cv q s e (num u)).B * (1 / (fitMatrix n cv q s d (num u)).C))
  rw [hB]
  ring

/-- **C191**, chi-square: the values of the sum and of the difference of two signals add up to twice those of the signals (the rule of the
parallelogram), so chi-square is a quadratic form in the data. -/
theorem C191_chisq (n : Nat) (cv : Covar α) (q : Noise α) (s : α) (u : Nat → Bool) (d e : Nat → α) (r r' p m : Result α)
    (hr : fitWith n cv q s d (num u) = some r) (hr' : fitWith n cv q s e (num u) = some r')
    (hp : fitWith n cv q s (fun i => d i + e i) (num u) = some p) (hm : fitWith n cv q s (fun i => d i - e i) (num u) = some m) :
    p.chisq + m.chisq = 2 * r.chisq + 2 * r'.chisq := by
  have ep : (fun i => d i + e i) = fun i => 1 * d i + 1 * e i := by funext i; ring
  have em : (fun i => d i - e i) = fun i => 1 * d i + -1 * e i := by funext i; ring
  rw [ep] at hp
  rw [em] at hm
  simp only [fitWith] at hr hr' hp hm
  by_cases hC : (fitMatrix n cv q s d (num u)).C = 0
  · rw [if_pos hC] at hr; cases hr
  rw [if_neg hC, Option.some.injEq] at hr
  rw [if_neg (show ¬ (fitMatrix n cv q s e (num u)).C = 0 from hC), Option.some.injEq] at hr'
  rw [if_neg (show ¬ (fitMatrix n cv q s (fun i => 1 * d i + 1 * e i) (num u)).C = 0 from hC), Option.some.injEq] at hp
  rw [if_neg (show ¬ (fitMatrix n cv q s (fun i => 1 * d i + -1 * e i) (num u)).C = 0 from hC), Option.some.injEq] at hm
  subst hr hr' hp hm
  have hB : ∀ x y : α, (fitMatrix n cv q s (fun i => x * d i + y * e i) (num u)).B =
      x * (fitMatrix n cv q s d (num u)).B + y * (fitMatrix n cv q s e (num u)).B := by
    intro x y
    simp only [fitMatrix, am_masked, am_B]
  have hA : (fitMatrix n cv q s (fun i => 1 * d i + 1 * e i) (num u)).A + (fitMatrix n cv q s (fun i => 1 * d i + -1 * e i) (num u)).A =
      2 * (fitMatrix n cv q s d (num u)).A + 2 * (fitMatrix n cv q s e (num u)).A := by
    simp only [fitMatrix, am_masked, am_A]
  have c1 : (fitMatrix n cv q s e (num u)).C = (fitMatrix n cv q s d (num u)).C := rfl
  have c2 : (fitMatrix n cv q s (fun i => 1 * d i + 1 * e i) (num u)).C = (fitMatrix n cv q s d (num u)).C := rfl
  have c3 : (fitMatrix n cv q s (fun i => 1 * d i + -1 * e i) (num u)).C = (fitMatrix n cv q s d (num u)).C := rfl
  have hA' := eq_sub_of_add_eq hA
  dsimp only
  rw [c1, c2, c3, hB, hB, hA']
  ring

/-! ## A steady signal -/

section
variable {n : Nat} {times : Nat → List α} {q : Noise α} {s : α}

/-- **C191**, steady signal: with the same rate guess, adding a steady signal raises the rate by exactly that signal and changes nothing
else: chi-square, weights, uncertainty and variances stay. -/
theorem C191_steady {u : Nat → Bool} (h : LkPattern n times) (hq : LkNoiseOk q) (hs : 0 < s) (hu : ∃ i < n, u i = true) (d : Nat → α) (c : α) :
    ∃ r r', fitWith n (covar times) q s d (num u) = some r ∧ fitWith n (covar times) q s (fun i => d i + c) (num u) = some r'
      ∧ r'.countrate = r.countrate + c ∧ r'.chisq = r.chisq ∧ r'.weights = r.weights ∧ r'.uncert2 = r.uncert2 ∧ r'.varP = r.varP
      ∧ r'.varR = r.varR := by
  obtain ⟨r, hf, hmin, huniq, hchi, -⟩ := C38_generalised_least_squares h hq hs hu d
  obtain ⟨r', hf', hmin', huniq', hchi', -⟩ := C38_generalised_least_squares h hq hs hu fun i => d i + c
  obtain ⟨_, p, _, hp, -, ⟨w1, w2, w3, w4⟩, -⟩ := C191_sum n (covar times) q s u d (fun _ => c) 1 1 r hf
  have e : (fun i => 1 * d i + 1 * (fun _ => c) i) = fun i => d i + c := by funext i; ring
  rw [e, hf', Option.some.injEq] at hp
  subst hp
  have hshift : ∀ x, lkChi2 n u times q (fun i => d i + c) x = lkChi2 n u times q d (x - c) := by
    intro x
    have : (fun i : { i : Fin n // u i.1 = true } => d i.1.1 + c - x) = fun i => d i.1.1 - (x - c) := by funext i; ring
    simp only [lkChi2, this]
  have hle : lkChi2 n u times q d (r'.countrate - c) ≤ lkChi2 n u times q d r.countrate := by
    have := hmin' (r.countrate + c)
    rwa [hshift, hshift, add_sub_cancel_right] at this
  have heq := le_antisymm hle (hmin _)
  refine ⟨r, r', hf, hf', ?_, ?_, w1, w2, w3, w4⟩
  · rw [← huniq _ heq]; ring
  · rw [hchi', hshift, heq, hchi]

theorem am_empty (cv : Covar α) {u : Nat → Bool} (hu : ∀ i < n, u i = false) (d : Nat → α) (i : Nat) :
    (search n cv q s d).one u i = none ∧ (search n cv q s d).two u i = none := by
  simp only [search]
  rw [lkFitMatrix, if_pos (C_zero d hu)]
  exact ⟨rfl, rfl⟩

theorem am_two_left (cv : Covar α) {u : Nat → Bool} (d : Nat → α) (i : Nat) (h : u i = false) :
    (search n cv q s d).two u i = (search n cv q s d).one u (i + 1) := by
  rw [lu_search_eq n cv q s d _ _ _ rfl rfl rfl]
  dsimp only
  congr 1
  simp only [luTwo]
  rw [if_pos h]

theorem am_two_right (cv : Covar α) {u : Nat → Bool} (d : Nat → α) (i : Nat) (h : u i = true) (h' : u (i + 1) = false) :
    (search n cv q s d).two u i = (search n cv q s d).one u i := by
  rw [lu_search_eq n cv q s d _ _ _ rfl rfl rfl]
  dsimp only
  congr 1
  simp only [luTwo]
  rw [if_neg (by simp [h]), if_pos h']

theorem am_gain_none (M M' : (Nat → Bool) → Mat α) (cd co : (Nat → Bool) → Nat → α) (u : Nat → Bool) (i : Nat) (h : u i = true)
    (h' : u (i + 1) = true) (hC : (M' u).C = (M u).C) (hdC : (M' u).dC = (M u).dC)
    (hn : luGain M s u (luTwo M cd co u i) = none) : luGain M' s u (luTwo M' cd co u i) = none := by
  have h1 : luFull M u = none ∨ luTwo M cd co u i = none := by
    simp only [luGain] at hn
    split at hn
    · cases hn
    · next hh =>
      rcases h3 : luFull M u with _ | f
      · exact Or.inl rfl
      · rcases h4 : luTwo M cd co u i with _ | g
        · exact Or.inr rfl
        · exact absurd h4 (hh f g h3)
  simp only [luGain]
  rcases h1 with h1 | h1
  · have : luFull M' u = none := by
      simp only [luFull, hC] at h1 ⊢
      split at h1
      · next hz => rw [if_pos hz]
      · cases h1
    rw [this]
  · have : luTwo M' cd co u i = none := by
      simp only [luTwo, hC, hdC] at h1 ⊢
      rw [if_neg (by simp [h]), if_neg (by simp [h'])] at h1 ⊢
      split at h1
      · next hz => rw [if_pos hz]
      · cases h1
    rw [this]
    cases luFull M' u <;> rfl

theorem am_two_none (cv : Covar α) {u : Nat → Bool} (d e : Nat → α) (i : Nat) (h : u i = true) (h' : u (i + 1) = true)
    (hn : (search n cv q s d).two u i = none) : (search n cv q s e).two u i = none := by
  rw [lu_search_eq n cv q s d _ _ _ rfl rfl rfl] at hn
  rw [lu_search_eq n cv q s e _ _ _ rfl rfl rfl]
  exact am_gain_none _ _ _ _ u i h h' rfl rfl hn

theorem am_one {u : Nat → Bool} (h : LkPattern n times) (hq : LkNoiseOk q) (hs : 0 < s) (d : Nat → α) (c : α) (i : Nat) (hi : i < n) :
    (search n (covar times) q s (fun i => d i + c)).one u i = (search n (covar times) q s d).one u i := by
  by_cases hu : ∃ j < n, u j = true
  · rcases hui : u i with _ | _
    · rw [(C76_masked_or_last h hq hs d i hi hu).1 hui, (C76_masked_or_last h hq hs _ i hi hu).1 hui]
    · by_cases hne : ∃ j < n, u j = true ∧ j ≠ i
      · obtain ⟨r, r', f1, f2, e1, -⟩ := C76_one_omitted h hq hs d i hi hui hne
        obtain ⟨p, p', g1, g2, e2, -⟩ := C76_one_omitted h hq hs (fun i => d i + c) i hi hui hne
        obtain ⟨a, a', h1, h2, -, h3, -⟩ := C191_steady h hq hs hu d c
        have hu' : ∃ j < n, (fun j => u j && decide (j ≠ i)) j = true := by
          obtain ⟨j, hj, k1, k2⟩ := hne
          exact ⟨j, hj, by simp [k1, k2]⟩
        obtain ⟨b, b', h4, h5, -, h6, -⟩ := C191_steady h hq hs hu' d c
        rw [f1, Option.some.injEq] at h1
        rw [f2, Option.some.injEq] at h4
        rw [g1, Option.some.injEq] at h2
        rw [g2, Option.some.injEq] at h5
        subst h1 h2 h4 h5
        rw [e1, e2, h3, h6]
      · push Not at hne
        rw [(C76_masked_or_last h hq hs d i hi hu).2 hui hne, (C76_masked_or_last h hq hs _ i hi hu).2 hui hne]
  · push Not at hu
    have hu' : ∀ j < n, u j = false := fun j hj => by simpa using hu j hj
    rw [(am_empty (covar times) hu' d i).1, (am_empty (covar times) hu' _ i).1]

/-- **C191**, the jump search: with the same rate guess, a steady signal changes none of the improvements in chi-square that decide about
jumps, for one difference or two neighbouring ones left out, under any mask; the rates found without them rise by the signal. -/
theorem C191_search {u : Nat → Bool} (h : LkPattern n times) (hq : LkNoiseOk q) (hs : 0 < s) (d : Nat → α) (c : α) :
    let o := search n (covar times) q s d
    let o' := search n (covar times) q s fun i => d i + c
    (∀ i < n, o'.one u i = o.one u i) ∧ (∀ i, i + 1 < n → o'.two u i = o.two u i)
      ∧ (∀ i < n, u i = true → (∃ j < n, u j = true ∧ j ≠ i) → ∃ x, o.rateOne u i = some x ∧ o'.rateOne u i = some (x + c))
      ∧ ∀ i, i + 1 < n → u i = true → u (i + 1) = true → ∀ g, o.two u i = some g →
          ∃ x, o.rateTwo u i = some x ∧ o'.rateTwo u i = some (x + c) := by
  have htwo : ∀ i, i + 1 < n → u i = true → u (i + 1) = true → ∀ g, (search n (covar times) q s d).two u i = some g →
      (search n (covar times) q s fun i => d i + c).two u i = some g ∧
        ∃ x, (search n (covar times) q s d).rateTwo u i = some x ∧ (search n (covar times) q s fun i => d i + c).rateTwo u i = some (x + c) := by
    intro i hi hui hui' g hg
    rcases hg' : (search n (covar times) q s fun i => d i + c).two u i with _ | g'
    · rw [am_two_none (covar times) _ d i hui hui' hg'] at hg
      cases hg
    · obtain ⟨r, r', f1, f2, e1, t1⟩ := C76_two_omitted h hq hs d i hi hui hui' g hg
      obtain ⟨p, p', g1, g2, e2, t2⟩ := C76_two_omitted h hq hs (fun i => d i + c) i hi hui hui' g' hg'
      obtain ⟨a, a', h1, h2, -, h3, -⟩ := C191_steady h hq hs ⟨i, by omega, hui⟩ d c
      have hu' : ∃ j < n, (fun j => u j && decide (j ≠ i) && decide (j ≠ i + 1)) j = true := by
        by_contra hno
        push Not at hno
        rw [C38_no_used_difference _ _ _ _ fun j hj => by simpa using hno j hj] at f2
        cases f2
      obtain ⟨b, b', h4, h5, h7, h6, -⟩ := C191_steady h hq hs hu' d c
      rw [f1, Option.some.injEq] at h1
      rw [f2, Option.some.injEq] at h4
      rw [g1, Option.some.injEq] at h2
      rw [g2, Option.some.injEq] at h5
      subst h1 h2 h4 h5
      exact ⟨by rw [e1, e2, h3, h6], _, t1, by rw [t2, h7]⟩
  refine ⟨fun i hi => am_one h hq hs d c i hi, fun i hi => ?_, fun i hi hui hne => ?_, fun i hi h1 h2 g hg => (htwo i hi h1 h2 g hg).2⟩
  · rcases h1 : u i with _ | _
    · rw [am_two_left _ _ _ h1, am_two_left _ _ _ h1, am_one h hq hs d c _ hi]
    · rcases h2 : u (i + 1) with _ | _
      · rw [am_two_right _ _ _ h1 h2, am_two_right _ _ _ h1 h2, am_one h hq hs d c _ (by omega)]
      · rcases hg : (search n (covar times) q s d).two u i with _ | g
        · exact am_two_none _ d _ i h1 h2 hg
        · exact (htwo i hi h1 h2 g hg).1
  · obtain ⟨r, r', -, f2, -, e1, -⟩ := C76_one_omitted h hq hs d i hi hui hne
    obtain ⟨p, p', -, g2, -, e2, -⟩ := C76_one_omitted h hq hs (fun i => d i + c) i hi hui hne
    have hu' : ∃ j < n, (fun j => u j && decide (j ≠ i)) j = true := by
      obtain ⟨j, hj, k1, k2⟩ := hne
      exact ⟨j, hj, by simp [k1, k2]⟩
    obtain ⟨b, b', h4, h5, h6, -⟩ := C191_steady h hq hs hu' d c
    rw [f2, Option.some.injEq] at h4
    rw [g2, Option.some.injEq] at h5
    subst h4 h5
    exact ⟨_, e1, by rw [e2, h6]⟩

/-! ## Faint pixels -/

theorem am_amax (f g : Nat → α) (hn : 1 ≤ n) (hfg : ∀ i < n, f i = g i) : amax n f = amax n g := by
  simp only [amax]
  rw [hfg 0 (by omega)]
  generalize g 0 = m
  have : ∀ (l : List Nat) (m : α), (∀ i ∈ l, i + 1 < n) →
      l.foldl (fun m i => max m (f (i + 1))) m = l.foldl (fun m i => max m (g (i + 1))) m := by
    intro l
    induction l with
    | nil => intros; rfl
    | cons i l ih =>
      intro m hl
      simp only [List.foldl_cons]
      rw [hfg (i + 1) (hl i (by simp)), ih _ fun j hj => hl j (by simp [hj])]
  exact this _ _ fun i hi => by have := List.mem_range.1 hi; omega

theorem am_drops (hn : 2 ≤ n) (okTwo : Nat → Bool) (t1 t2 : α) (one two one' two' : Nat → α) (h1 : ∀ i < n, one i = one' i)
    (h2 : ∀ i, i + 1 < n → two i = two' i) : drops n okTwo t1 t2 one two = drops n okTwo t1 t2 one' two' := by
  have a1 : amax n one = amax n one' := am_amax _ _ (by omega) h1
  have a2 : amax (n - 1) (fun i => if okTwo i then two i else 0) = amax (n - 1) fun i => if okTwo i then two' i else 0 :=
    am_amax _ _ (by omega) fun i hi => by rw [h2 i (by omega)]
  simp only [drops]
  rw [a1, a2]
  have b1 : ∀ (b : α) i, (i < n ∧ one i = b) ↔ (i < n ∧ one' i = b) := fun b i => and_congr_right fun hi => by rw [h1 i hi]
  have b2 : ∀ (b : α) i, (i + 1 < n ∧ two i = b) ↔ (i + 1 < n ∧ two' i = b) := fun b i => and_congr_right fun hi => by rw [h2 i hi]
  simp only [b1, b2]

theorem am_dropsO (hn : 2 ≤ n) (okTwo : Nat → Bool) (t1 t2 : α) (one two one' two' : Nat → Option α) (h1 : ∀ i < n, one i = one' i)
    (h2 : ∀ i, i + 1 < n → two i = two' i) : dropsO n okTwo t1 t2 one two = dropsO n okTwo t1 t2 one' two' := by
  have c1 : (List.range n).all (fun i => (one i).isSome) = (List.range n).all fun i => (one' i).isSome := by
    rw [Bool.eq_iff_iff]
    simp only [List.all_eq_true, List.mem_range]
    exact forall₂_congr fun i hi => by rw [h1 i hi]
  have c2 : (List.range (n - 1)).all (fun i => (two i).isSome) = (List.range (n - 1)).all fun i => (two' i).isSome := by
    rw [Bool.eq_iff_iff]
    simp only [List.all_eq_true, List.mem_range]
    exact forall₂_congr fun i hi => by rw [h2 i (by omega)]
  simp only [dropsO]
  rw [c1, c2, am_drops hn okTwo t1 t2 (fun i => (one i).getD 0) (fun i => (two i).getD 0) (fun i => (one' i).getD 0) (fun i => (two' i).getD 0)
    (fun i hi => by rw [h1 i hi]) fun i hi => by rw [h2 i hi]]

theorem am_mask (hn : 2 ≤ n) (okTwo : Nat → Bool) (t1 t2 : α) (o o' : Search α)
    (h : ∀ u, (∀ i < n, o'.one u i = o.one u i) ∧ ∀ i, i + 1 < n → o'.two u i = o.two u i) (l : List Nat) (a b : MaskState α)
    (hab : a.use = b.use ∧ a.recheck = b.recheck) :
    (l.foldl (maskPass n okTwo t1 t2 o) a).use = (l.foldl (maskPass n okTwo t1 t2 o') b).use := by
  induction l generalizing a b with
  | nil => exact hab.1
  | cons i l ih =>
    simp only [List.foldl_cons]
    refine ih _ _ ?_
    obtain ⟨ua, ra, xa⟩ := a
    obtain ⟨ub, rb, xb⟩ := b
    obtain ⟨h1, h2⟩ := hab
    simp only at h1 h2
    subst h1 h2
    simp only [maskPass]
    rw [am_dropsO hn okTwo t1 t2 (o'.one ua) (o'.two ua) (o.one ua) (o.two ua) (h ua).1 (h ua).2]
    split
    · split
      · exact ⟨rfl, rfl⟩
      · exact ⟨rfl, rfl⟩
    · exact ⟨rfl, rfl⟩

/-- **C191**, faint pixels: where the median difference is not positive, before and after a steady signal is added (dark pixels with a
residual of the dark subtraction, of either sign), the likelihood fit masks the same differences and sets the same jump flags. -/
theorem C191_faint {root : α → Nat → α} (hr : RootOk root) (h : LkPattern n times) (hn : 2 ≤ n) (cf : Cfg α) (hg : 0 < cf.gain)
    (hrn : cf.rnoise ≠ 0) (jump : Nat) (gdq : Nat → Nat) (d : Nat → α) (c : α)
    (hd : ∀ m, Verif.Jump.nanmedian ((List.range n).map fun i => some (d i)) = some m → m ≤ 0)
    (hd' : ∀ m, Verif.Jump.nanmedian ((List.range n).map fun i => some (d i + c)) = some m → m ≤ 0) :
    let o := pixelFit root n (covar times) cf jump gdq d
    let o' := pixelFit root n (covar times) cf jump gdq fun i => d i + c
    o'.1 = o.1 ∧ o'.2.1 = o.2.1 := by
  have h0 : ∀ x : Option α, (∀ m, x = some m → m ≤ 0) → pos (x.getD 0) = 0 := by
    intro x hx
    simp only [pos]
    rcases x with _ | m
    · simp
    · rw [if_neg (by have := hx m rfl; simpa using this)]
  have hq : LkNoiseOk (⟨0, cf.gain, cf.rnoise⟩ : Noise α) := ⟨le_refl _, hg, hrn⟩
  have hs := (C38_rescaled_determinant hr h hq (by omega)).1
  have key := am_mask hn (fun i => decide (1 < (covar times).nreads (i + 1))) cf.t1 cf.t2
    (search n (covar times) ⟨0, cf.gain, cf.rnoise⟩ (scaleOf root n (covar times) ⟨0, cf.gain, cf.rnoise⟩) d)
    (search n (covar times) ⟨0, cf.gain, cf.rnoise⟩ (scaleOf root n (covar times) ⟨0, cf.gain, cf.rnoise⟩) fun i => d i + c)
    (fun u => ⟨(C191_search (u := u) h hq hs d c).1, (C191_search (u := u) h hq hs d c).2.1⟩) (List.range n)
  simp only [pixelFit]
  rw [h0 _ hd, h0 _ hd']
  simp only [maskJumps]
  have k2 := key ⟨diffs2use gdq, true, (search n (covar times) ⟨0, cf.gain, cf.rnoise⟩
      (scaleOf root n (covar times) ⟨0, cf.gain, cf.rnoise⟩) d).rate (diffs2use gdq)⟩
    ⟨diffs2use gdq, true, (search n (covar times) ⟨0, cf.gain, cf.rnoise⟩
      (scaleOf root n (covar times) ⟨0, cf.gain, cf.rnoise⟩) fun i => d i + c).rate (diffs2use gdq)⟩ ⟨rfl, rfl⟩
  exact ⟨k2.symm, by rw [k2]⟩

end

/-! ## Examples -/

/-- Four groups, of one or two reads. -/
def amTimes : Nat → List ℚ
  | 0 => [1]
  | 1 => [2, 3]
  | 2 => [4, 5]
  | i => [2 * (i : ℚ)]

theorem am_pattern : LkPattern 3 amTimes := by
  refine ⟨fun j hj => ?_, fun j hj => ?_⟩
  · interval_cases j <;> simp [amTimes] <;> norm_num
  · interval_cases j <;> simp [amTimes] <;> norm_num

def amNoise : Noise ℚ := ⟨3, 2, 1⟩
def amD (i : Nat) : ℚ := if i = 1 then 5 else 3
def amE (i : Nat) : ℚ := i

example : LkPattern 3 amTimes ∧ LkNoiseOk amNoise ∧ (∃ i < 3, (fun _ : Nat => true) i = true) :=
  ⟨am_pattern, ⟨by decide +kernel, by decide +kernel, by decide +kernel⟩, 0, by omega, rfl⟩

-- two signals, twice the first less the second, and the first with a steady signal of 10 on top
example : (fitWith 3 (covar amTimes) amNoise 2 amD (num fun _ => true)).map (fun r => (r.countrate, r.uncert2)) = some (313 / 79, 175 / 474)
    ∧ (fitWith 3 (covar amTimes) amNoise 2 amE (num fun _ => true)).map (fun r => (r.countrate, r.uncert2)) = some (1, 175 / 474)
    ∧ (fitWith 3 (covar amTimes) amNoise 2 (fun i => 2 * amD i + -1 * amE i) (num fun _ => true)).map (fun r => (r.countrate, r.uncert2))
      = some (2 * (313 / 79) - 1, 175 / 474)
    ∧ (fitWith 3 (covar amTimes) amNoise 2 (fun i => amD i + 10) (num fun _ => true)).map (fun r => r.countrate) = some (313 / 79 + 10) := by
  decide +kernel

-- chi-square of a signal, another one, their sum and their difference
example : ∃ x y p m : ℚ, x ≠ 0 ∧ y ≠ 0 ∧ p ≠ m ∧
    (fitWith 3 (covar amTimes) amNoise 2 amD (num fun _ => true)).map (·.chisq) = some x
    ∧ (fitWith 3 (covar amTimes) amNoise 2 (fun i => 4 * amD i + amE i) (num fun _ => true)).map (·.chisq) = some y
    ∧ (fitWith 3 (covar amTimes) amNoise 2 (fun i => amD i + (4 * amD i + amE i)) (num fun _ => true)).map (·.chisq) = some p
    ∧ (fitWith 3 (covar amTimes) amNoise 2 (fun i => amD i - (4 * amD i + amE i)) (num fun _ => true)).map (·.chisq) = some m
    ∧ p + m = 2 * x + 2 * y :=
  ⟨192 / 79, 9532 / 237, 14716 / 237, 5500 / 237, by decide +kernel⟩

-- the improvements of the jump search with a steady signal of 10 on top
example : (search 3 (covar amTimes) amNoise 1 (fun i => amD i + 10)).two (fun _ => true) 0 = some (192 / 79)
    ∧ (search 3 (covar amTimes) amNoise 1 amD).two (fun _ => true) 0 = some (192 / 79)
    ∧ (search 3 (covar amTimes) amNoise 1 amD).rateTwo (fun _ => true) 0 = some 3
    ∧ (search 3 (covar amTimes) amNoise 1 (fun i => amD i + 10)).rateTwo (fun _ => true) 0 = some 13 := by
  decide +kernel

-- faint pixel with a hit in the second difference: the median is -1, and -1/2 with the steady signal
example : LkPattern 3 (fun i => [(i : ℝ) + 1]) ∧
    (∀ m, Verif.Jump.nanmedian ((List.range 3).map fun i => some (if i = 1 then (40 : ℝ) else -1)) = some m → m ≤ 0) ∧
    ∀ m, Verif.Jump.nanmedian ((List.range 3).map fun i => some ((if i = 1 then (40 : ℝ) else -1) + 1 / 2)) = some m → m ≤ 0 := by
  refine ⟨⟨fun j _ => ⟨by simp, by simp⟩, fun j _ s hs t ht => ?_⟩, fun m hm => ?_, fun m hm => ?_⟩
  · simp only [List.mem_singleton] at hs ht
    subst hs ht
    push_cast
    linarith
  · norm_num [List.range_succ, List.filterMap_cons, Verif.Jump.nanmedian, Verif.Jump.finite, List.insertionSort, List.orderedInsert, Verif.Jump.medianSorted] at hm
    linarith
  · norm_num [List.range_succ, List.filterMap_cons, Verif.Jump.nanmedian, Verif.Jump.finite, List.insertionSort, List.orderedInsert, Verif.Jump.medianSorted] at hm
    linarith

-- a hit in the second difference of a faint pixel, without and with a steady signal of 1/2 (scale one)
example : ((List.range 6).map (pixelFit (fun _ _ => 1) 5 (covar fun i => [(i : ℚ) + 1]) ⟨1, 1, 0, 4, 5⟩ 4 (fun _ => 0)
      fun i => if i = 1 then 50 else -1).2.1) = [0, 0, 4, 0, 0, 0]
    ∧ ((List.range 6).map (pixelFit (fun _ _ => 1) 5 (covar fun i => [(i : ℚ) + 1]) ⟨1, 1, 0, 4, 5⟩ 4 (fun _ => 0)
      fun i => (if i = 1 then 50 else -1) + 1 / 2).2.1) = [0, 0, 4, 0, 0, 0] := by
  decide +kernel

/-- **C191** (limit of the search for faint pixels): with five groups of single reads and no positive median the search for two jumps divides by
zero (in exact arithmetic), whatever the data: no jump of any size is found. -/
theorem C191_faint_five (d : Nat → ℚ) (t1 t2 : ℚ) (okTwo : Nat → Bool) :
    (maskJumps 4 okTwo t1 t2 (search 4 (covar fun i => [(i : ℚ) + 1]) ⟨0, 1, 1⟩ 1 d) fun _ => true).use = fun _ => true := by
  have h0 : (search 4 (covar fun i => [(i : ℚ) + 1]) ⟨0, 1, 1⟩ 1 d).two (fun _ => true) 0 = none :=
    am_two_none (covar fun i => [(i : ℚ) + 1]) (fun _ => 0) d 0 rfl rfl (by decide +kernel)
  have hd : dropsO 4 okTwo t1 t2 ((search 4 (covar fun i => [(i : ℚ) + 1]) ⟨0, 1, 1⟩ 1 d).one fun _ => true)
      ((search 4 (covar fun i => [(i : ℚ) + 1]) ⟨0, 1, 1⟩ 1 d).two fun _ => true) = (fun _ => false, fun _ => false) := by
    simp only [dropsO]
    rw [if_neg]
    simp [List.range_succ, h0]
  generalize search 4 (covar fun i => [(i : ℚ) + 1]) ⟨0, 1, 1⟩ 1 d = sr at hd
  have key : ∀ (l : List Nat) (st : MaskState ℚ), st.use = (fun _ => true) → (l.foldl (maskPass 4 okTwo t1 t2 sr) st).use = fun _ => true := by
    intro l
    induction l with
    | nil => intro st h; exact h
    | cons i l ih =>
      intro st h
      refine ih _ ?_
      simp only [maskPass, h, hd]
      split <;> simp [h]
  exact key _ _ rfl

-- a hit of 5000 in a faint pixel of five groups goes unnoticed; with six groups it does not
example : ((List.range 5).map (pixelFit (fun _ _ => 1) 4 (covar fun i => [(i : ℚ) + 1]) ⟨1, 1, 0, 4, 5⟩ 4 (fun _ => 0)
      fun i => if i = 1 then 5000 else -1).2.1) = [0, 0, 0, 0, 0]
    ∧ ((List.range 6).map (pixelFit (fun _ _ => 1) 5 (covar fun i => [(i : ℚ) + 1]) ⟨1, 1, 0, 4, 5⟩ 4 (fun _ => 0)
      fun i => if i = 1 then 5000 else -1).2.1) = [0, 0, 4, 0, 0, 0] := by
  decide +kernel

end Verif.Thm
