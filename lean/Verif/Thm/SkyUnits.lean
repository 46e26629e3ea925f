import Verif.Thm.SkyAgain

/-!
# C158: unit and zero level of the images in sky matching

`skymatch` (skymatch.py:21-329) for images given in another unit and with another common zero level.
-/

set_option linter.unusedSectionVars false

namespace Verif.Thm

open Verif Verif.Sky

variable {α : Type} [Field α] [LinearOrder α] [IsStrictOrderedRing α]

/-! ### Specification -/

/-- Spec: an image whose pixels are `k * x + z` and whose recorded sky is `k * sky + w`. -/
def kyIm (k z w : α) (im : Im α) : Im α := { data := fun p => k * im.data p + z, sky := k * im.sky + w, valid := im.valid }

/-- Spec: the same for an image or a group with its own recorded sky. -/
def kyElem (k z w : α) : Elem α → Elem α
  | .single im => .single (kyIm k z w im)
  | .group g ims => .group (k * g + w) (ims.map (kyIm k z w))

/-- Spec: the statistic follows unit and zero level (mean, median, mode and midpoint without lower and upper limits do). -/
def KyAff (env : Env α) (k z : α) : Prop :=
  (∀ e i data, env.whole e i (fun p => k * data p + z) = (env.whole e i data).map fun r => (k * r.1 + z, r.2)) ∧
  ∀ e i e' data, env.over e i e' (fun p => k * data p + z) = (env.over e i e' data).map fun r => (k * r.1 + z, r.2)

/-- Spec: every element of the list has an image with good pixels. -/
def KyGood (env : Env α) (els : List (Elem α)) : Prop :=
  ∀ (e : Nat) (x : Elem α), els[e]? = some x → (∀ data, (env.whole e 0 data).isSome) ∧ ∀ g ims, x = .group g ims → ims ≠ []

/-! ### Measurements -/

/-- A measurement in the new unit and level. -/
def kyRes (k z : α) (r : Option α × α × α) : Option α × α × α := (r.1.map fun v => k * v + z, r.2)

theorem ky_imCalc (k z w : α) (hw : w = 0) (m : (Nat → α) → Option (α × α × α))
    (hm : ∀ data, m (fun p => k * data p + z) = (m data).map fun r => (k * r.1 + z, r.2)) (im : Im α) (delta : Bool) :
    imCalc (m (kyIm k z w im).data) (kyIm k z w im).sky delta = kyRes k z (imCalc (m im.data) im.sky delta) := by
  subst hw
  simp only [kyIm, hm]
  cases m im.data with
  | none => rfl
  | some r =>
    cases delta
    · rfl
    · simp only [imCalc, kyRes, Option.map_some, if_true]
      rw [show k * r.1 + z - (k * im.sky + 0) = k * (r.1 - im.sky) + z by ring]

theorem ky_groupMin (k z : α) (hk : 0 < k) (l : List (Option α × α × α)) : groupMin (l.map (kyRes k z)) = kyRes k z (groupMin l) := by
  have key : ∀ acc : Option α × α × α,
      (l.map (kyRes k z)).foldl (fun (acc x : Option α × α × α) =>
        match x.1, acc.1 with
        | none, _ => acc
        | some _, none => x
        | some s, some w => if w > s then x else acc) (kyRes k z acc) =
      kyRes k z (l.foldl (fun (acc x : Option α × α × α) =>
        match x.1, acc.1 with
        | none, _ => acc
        | some _, none => x
        | some s, some w => if w > s then x else acc) acc) := by
    induction l with
    | nil => intro acc; rfl
    | cons x t ih =>
      intro acc
      simp only [List.map_cons, List.foldl_cons]
      rw [← ih]
      congr 1
      obtain ⟨x1, x2⟩ := x
      obtain ⟨a1, a2⟩ := acc
      cases x1 with
      | none => rfl
      | some s =>
        cases a1 with
        | none => rfl
        | some w =>
          simp only [kyRes, Option.map_some, gt_iff_lt, add_lt_add_iff_right, mul_lt_mul_iff_right₀ hk]
          split <;> simp
  exact key (none, 0, 0)

/-- The sums of the loop over a group in the new unit and level. -/
def kySum (k z : α) (r : α × α × α) : α × α × α := (k * r.1 + z * r.2.1, r.2.1, r.2.2)

theorem ky_step (k z : α) (acc : α × α × α) (x : Option α × α × α) : sgStep (kySum k z acc) (kyRes k z x) = kySum k z (sgStep acc x) := by
  obtain ⟨x1, x2⟩ := x
  cases x1 with
  | none => rfl
  | some s =>
    by_cases h : 0 < x2.1
    · have e1 : ∀ (acc : α × α × α) (s : α), sgStep acc (some s, x2) = (acc.1 + s * x2.1, acc.2.1 + x2.1, acc.2.2 + x2.2) :=
        fun _ _ => if_pos h
      simp only [kyRes, Option.map_some, e1, kySum, Prod.mk.injEq, and_true]
      ring
    · have e1 : ∀ (acc : α × α × α) (s : α), sgStep acc (some s, x2) = (acc.1, acc.2.1, acc.2.2 + x2.2) :=
        fun _ _ => if_neg h
      simp only [kyRes, Option.map_some, e1, kySum]

theorem ky_steps (k z : α) (l : List (Option α × α × α)) (acc : α × α × α) :
    (l.map (kyRes k z)).foldl sgStep (kySum k z acc) = kySum k z (l.foldl sgStep acc) := by
  induction l generalizing acc with
  | nil => rfl
  | cons x t ih =>
    simp only [List.map_cons, List.foldl_cons]
    rw [ky_step, ih]

theorem ky_groupMean (k z : α) (l : List (Option α × α × α)) : groupMean (l.map (kyRes k z)) = kyRes k z (groupMean l) := by
  have h0 := ky_steps k z l (0, 0, 0)
  have hz : kySum k z ((0, 0, 0) : α × α × α) = (0, 0, 0) := by simp [kySum]
  rw [hz] at h0
  rw [sg_mean_eq, sg_mean_eq, h0]
  generalize l.foldl sgStep (0, 0, 0) = r
  by_cases hn : r.2.1 = 0 ∨ r.2.2 = 0
  · have e1 : sgMean (kySum k z r) = (none, r.2.1, r.2.2) := if_pos hn
    have e2 : sgMean r = (none, r.2.1, r.2.2) := if_pos hn
    rw [e1, e2]; rfl
  · have e1 : sgMean (kySum k z r) = (some ((k * r.1 + z * r.2.1) / r.2.1), r.2.1, r.2.2) := if_neg hn
    have e2 : sgMean r = (some (r.1 / r.2.1), r.2.1, r.2.2) := if_neg hn
    push Not at hn
    rw [e1, e2, add_div, mul_div_assoc, mul_div_assoc, div_self hn.1, mul_one]; rfl

theorem ky_zip (k z : α) (ims : List (Im α)) (m : Nat → (Nat → α) → Option (α × α × α))
    (hm : ∀ i data, m i (fun p => k * data p + z) = (m i data).map fun r => (k * r.1 + z, r.2)) (delta : Bool) (q : Nat) :
    ((ims.map (kyIm k z 0)).zipIdx q).map (fun p => imCalc (m p.2 p.1.data) p.1.sky delta) =
      ((ims.zipIdx q).map fun p => imCalc (m p.2 p.1.data) p.1.sky delta).map (kyRes k z) := by
  induction ims generalizing q with
  | nil => rfl
  | cons im t ih =>
    simp only [List.map_cons, List.zipIdx_cons]
    rw [ih, ky_imCalc k z 0 rfl (m q) (hm q)]

theorem ky_whole (env : Env α) (k z : α) (hk : 0 < k) (he : KyAff env k z) (delta : Bool) (e : Nat) (x : Elem α) :
    elemWhole env delta e (kyElem k z 0 x) = kyRes k z (elemWhole env delta e x) := by
  cases x with
  | single im => exact ky_imCalc k z 0 rfl (env.whole e 0) (he.1 e 0) im delta
  | group g ims =>
    simp only [kyElem, elemWhole]
    rw [ky_zip k z ims (env.whole e) (he.1 e) delta 0, ky_groupMin k z hk]

theorem ky_over (env : Env α) (k z : α) (he : KyAff env k z) (delta : Bool) (e e' : Nat) (x : Elem α) :
    elemOver env delta e e' (kyElem k z 0 x) = kyRes k z (elemOver env delta e e' x) := by
  cases x with
  | single im => exact ky_imCalc k z 0 rfl (env.over e 0 e') (he.2 e 0 e') im delta
  | group g ims =>
    simp only [kyElem, elemOver]
    rw [ky_zip k z ims (fun i => env.over e i e') (fun i => he.2 e i e') delta 0, ky_groupMean]

theorem ky_pair (k z : α) (r1 r2 : Option α × α × α) :
    (pair (kyRes k z r1) (kyRes k z r2)).2.1 = (pair r1 r2).2.1 ∧ (pair (kyRes k z r1) (kyRes k z r2)).2.2.2 = (pair r1 r2).2.2.2
    ∧ (0 < (pair r1 r2).2.1 → (pair (kyRes k z r1) (kyRes k z r2)).1 = k * (pair r1 r2).1 + z
      ∧ (pair (kyRes k z r1) (kyRes k z r2)).2.2.1 = k * (pair r1 r2).2.2.1 + z) := by
  obtain ⟨s1, w1, a1⟩ := r1
  obtain ⟨s2, w2, a2⟩ := r2
  cases s1 with
  | none => exact ⟨rfl, rfl, fun h => absurd h (lt_irrefl _)⟩
  | some s1 =>
    cases s2 with
    | none => exact ⟨rfl, rfl, fun h => absurd h (lt_irrefl _)⟩
    | some s2 =>
      simp only [kyRes, Option.map_some, pair]
      split
      · exact ⟨rfl, rfl, fun h => absurd h (lt_irrefl _)⟩
      · exact ⟨rfl, rfl, fun _ => ⟨rfl, rfl⟩⟩

theorem ky_pairAt (env : Env α) (k z : α) (he : KyAff env k z) (delta : Bool) (els : List (Elem α)) (i j : Nat) :
    (pairAt env delta (els.map (kyElem k z 0)) i j).2.1 = (pairAt env delta els i j).2.1
    ∧ (pairAt env delta (els.map (kyElem k z 0)) i j).2.2.2 = (pairAt env delta els i j).2.2.2
    ∧ (0 < (pairAt env delta els i j).2.1 →
      (pairAt env delta (els.map (kyElem k z 0)) i j).1 = k * (pairAt env delta els i j).1 + z
      ∧ (pairAt env delta (els.map (kyElem k z 0)) i j).2.2.1 = k * (pairAt env delta els i j).2.2.1 + z) := by
  simp only [pairAt, List.getElem?_map]
  cases els[i]? with
  | none => exact ⟨rfl, rfl, fun h => absurd h (lt_irrefl _)⟩
  | some x =>
    cases els[j]? with
    | none => exact ⟨rfl, rfl, fun h => absurd h (lt_irrefl _)⟩
    | some y =>
      simp only [Option.map_some]
      rw [ky_over env k z he, ky_over env k z he]
      exact ky_pair k z _ _

/-! ### The first phase -/

/-- The solution is proportional to the right-hand sides. -/
def KyLin (solve : Nat → List ((Nat → α) × α) → Nat → α) (k : α) : Prop :=
  ∀ n eqs i, i < n → solve n (eqs.map fun e => (e.1, k * e.2)) i = k * solve n eqs i

theorem ky_sq (n : Nat) (eqs : List ((Nat → α) × α)) (k : α) (x : Nat → α) :
    skSq n (eqs.map fun e => (e.1, k * e.2)) (fun i => k * x i) = k ^ 2 * skSq n eqs x := by
  simp only [skSq, List.map_map]
  rw [← List.sum_map_mul_left]
  congr 1
  apply List.map_congr_left
  intro q _
  simp only [Function.comp]
  rw [show ∑ i ∈ Finset.range n, q.1 i * (k * x i) = k * ∑ i ∈ Finset.range n, q.1 i * x i from by
    rw [Finset.mul_sum]; exact Finset.sum_congr rfl fun i _ => by ring]
  ring

theorem ky_mid (n : Nat) (eqs : List ((Nat → α) × α)) (x y : Nat → α) :
    2 * skSq n eqs (fun i => (x i + y i) / 2) ≤ skSq n eqs x + skSq n eqs y := by
  simp only [skSq]
  induction eqs with
  | nil => simp
  | cons q t ih =>
    simp only [List.map_cons, List.sum_cons]
    have h : ∑ i ∈ Finset.range n, q.1 i * ((x i + y i) / 2)
        = ((∑ i ∈ Finset.range n, q.1 i * x i) + ∑ i ∈ Finset.range n, q.1 i * y i) / 2 := by
      rw [← Finset.sum_add_distrib, Finset.sum_div]
      exact Finset.sum_congr rfl fun i _ => by ring
    rw [h]
    nlinarith [sq_nonneg ((∑ i ∈ Finset.range n, q.1 i * x i) - ∑ i ∈ Finset.range n, q.1 i * y i)]

/-- The shortest least-squares solution is unique. -/
theorem ky_unique (n : Nat) (eqs : List ((Nat → α) × α)) (x y : Nat → α) (hx : ∀ z, skSq n eqs x ≤ skSq n eqs z)
    (hx' : ∀ z, skSq n eqs z = skSq n eqs x → ∑ i ∈ Finset.range n, x i ^ 2 ≤ ∑ i ∈ Finset.range n, z i ^ 2)
    (hy : skSq n eqs y = skSq n eqs x) (hy' : ∑ i ∈ Finset.range n, y i ^ 2 ≤ ∑ i ∈ Finset.range n, x i ^ 2) (i : Nat) (hi : i < n) :
    x i = y i := by
  have hm := ky_mid n eqs x y
  have h1 := hx' (fun i => (x i + y i) / 2) (le_antisymm (by linarith) (hx _))
  have h2 : ∑ i ∈ Finset.range n, (x i - y i) ^ 2
      = 2 * ∑ i ∈ Finset.range n, x i ^ 2 + 2 * ∑ i ∈ Finset.range n, y i ^ 2 - 4 * ∑ i ∈ Finset.range n, ((x i + y i) / 2) ^ 2 := by
    rw [Finset.mul_sum, Finset.mul_sum, Finset.mul_sum, ← Finset.sum_add_distrib, ← Finset.sum_sub_distrib]
    exact Finset.sum_congr rfl fun i _ => by ring
  have h3 : ∑ i ∈ Finset.range n, (x i - y i) ^ 2 = 0 :=
    le_antisymm (by linarith) (Finset.sum_nonneg fun i _ => sq_nonneg _)
  have h4 := (Finset.sum_eq_zero_iff_of_nonneg fun i _ => sq_nonneg (x i - y i)).1 h3 i (Finset.mem_range.2 hi)
  exact sub_eq_zero.1 (pow_eq_zero_iff (two_ne_zero)|>.1 h4)

theorem ky_lin (solve : Nat → List ((Nat → α) × α) → Nat → α) (hp : SgPinv solve) (k : α) (hk : 0 < k) : KyLin solve k := by
  intro n eqs i hi
  obtain ⟨a1, a2⟩ := hp n eqs
  obtain ⟨b1, b2⟩ := hp n (eqs.map fun e => (e.1, k * e.2))
  generalize hX : solve n (eqs.map fun e => (e.1, k * e.2)) = X at *
  generalize solve n eqs = x at *
  have hk2 : 0 < k ^ 2 := by positivity
  have hXk : X = fun i => k * (X i / k) := by
    funext j
    field_simp
  have e1 : skSq n (eqs.map fun e => (e.1, k * e.2)) X = k ^ 2 * skSq n eqs fun i => X i / k := by
    conv_lhs => rw [hXk]
    exact ky_sq n eqs k _
  have hle : skSq n eqs (fun i => X i / k) ≤ skSq n eqs x := by
    have := b1 fun i => k * x i
    rw [e1, ky_sq] at this
    exact le_of_mul_le_mul_left this hk2
  have heq := le_antisymm hle (a1 _)
  have hnorm := b2 (fun i => k * x i) (by rw [e1, ky_sq, heq])
  have := ky_unique n eqs x (fun i => X i / k) a1 a2 heq (by
    have e3 : ∑ i ∈ Finset.range n, (k * x i) ^ 2 = k ^ 2 * ∑ i ∈ Finset.range n, x i ^ 2 := by
      rw [Finset.mul_sum]; exact Finset.sum_congr rfl fun i _ => by ring
    have e4 : ∑ i ∈ Finset.range n, X i ^ 2 = k ^ 2 * ∑ i ∈ Finset.range n, (X i / k) ^ 2 := by
      rw [Finset.mul_sum]; exact Finset.sum_congr rfl fun i _ => by field_simp
    rw [e3, e4] at hnorm
    exact le_of_mul_le_mul_left hnorm hk2) i hi
  rw [this]
  field_simp

theorem ky_matW (env : Env α) (k z : α) (he : KyAff env k z) (delta : Bool) (els : List (Elem α)) :
    matW env delta (els.map (kyElem k z 0)) = matW env delta els := by
  funext r c
  simp only [matW, (ky_pairAt env k z he delta els c r).1, (ky_pairAt env k z he delta els r c).2.1]

theorem ky_deltas (env : Env α) (k z : α) (he : KyAff env k z) (solve : Nat → List ((Nat → α) × α) → Nat → α) (hs : KyLin solve k)
    (delta : Bool) (els : List (Elem α)) (n i : Nat) (hi : i < n) :
    findDeltas solve n (matA env delta (els.map (kyElem k z 0))) (matW env delta (els.map (kyElem k z 0))) i
      = (findDeltas solve n (matA env delta els) (matW env delta els) i).map (k * ·) := by
  simp only [findDeltas, ky_matW env k z he]
  have heq : (validPairs n (matW env delta els)).map (equation (matA env delta (els.map (kyElem k z 0))) (matW env delta els))
      = ((validPairs n (matW env delta els)).map (equation (matA env delta els) (matW env delta els))).map
        fun e => (e.1, k * e.2) := by
    rw [List.map_map]
    apply List.map_congr_left
    intro p hp
    simp only [validPairs, List.mem_flatMap, List.mem_map, List.mem_filter, Bool.and_eq_true, decide_eq_true_eq] at hp
    obtain ⟨a, _, b, ⟨_, ⟨hab, hw1⟩, hw2⟩, rfl⟩ := hp
    have hw : matW env delta els b a = (pairAt env delta els a b).2.1 := by
      simp only [matW, hab, if_true]
    rw [hw] at hw2
    obtain ⟨_, _, h3⟩ := ky_pairAt env k z he delta els a b
    obtain ⟨h4, h5⟩ := h3 hw2
    have hA : ∀ els : List (Elem α), matA env delta els b a = (pairAt env delta els a b).1 := fun _ => by
      simp only [matA, hab, if_true]
    have hB : ∀ els : List (Elem α), matA env delta els a b = (pairAt env delta els a b).2.2.1 := fun _ => by
      simp only [matA, hab, if_true, if_neg (not_lt.2 hab.le)]
    simp only [Function.comp, equation, hA, hB, h4, h5]
    congr 1
    ring
  rw [heq, hs _ _ _ hi]
  split <;> rfl

theorem ky_minmax (k : α) (hk : 0 < k) (l : List α) : (l.map (k * ·)).min? = l.min?.map (k * ·) ∧ (l.map (k * ·)).max? = l.max?.map (k * ·) := by
  constructor
  · cases h : l.min? with
    | none => rw [List.min?_eq_none_iff.1 h]; rfl
    | some m =>
      rw [List.min?_eq_some_iff] at h
      rw [Option.map_some, List.min?_eq_some_iff]
      refine ⟨List.mem_map.2 ⟨m, h.1, rfl⟩, fun b hb => ?_⟩
      obtain ⟨a, ha, rfl⟩ := List.mem_map.1 hb
      exact mul_le_mul_of_nonneg_left (h.2 a ha) hk.le
  · cases h : l.max? with
    | none => rw [List.max?_eq_none_iff.1 h]; rfl
    | some m =>
      rw [List.max?_eq_some_iff] at h
      rw [Option.map_some, List.max?_eq_some_iff]
      refine ⟨List.mem_map.2 ⟨m, h.1, rfl⟩, fun b hb => ?_⟩
      obtain ⟨a, ha, rfl⟩ := List.mem_map.1 hb
      exact mul_le_mul_of_nonneg_left (h.2 a ha) hk.le

theorem ky_shift (k : α) (hk : 0 < k) (down : Bool) (ds : List (Option α)) :
    shift down (ds.map fun d => d.map (k * ·)) = (shift down ds).map fun d => d.map (k * ·) := by
  have hf : (ds.map fun d => d.map (k * ·)).filterMap id = (ds.filterMap id).map (k * ·) := by
    induction ds with
    | nil => rfl
    | cons d t ih =>
      rw [List.map_cons]
      cases d with
      | none =>
        rw [List.filterMap_cons_none (by rfl), List.filterMap_cons_none (by rfl), ih]
      | some v =>
        rw [List.filterMap_cons_some (b := k * v) (by rfl), List.filterMap_cons_some (b := v) (by rfl), ih]
        rfl
  simp only [shift, hf, listMin, listMax, ky_minmax k hk]
  have hmap : ∀ r : α, (ds.map fun d => d.map (k * ·)).map (fun d => d.map fun x => x - k * r)
      = (ds.map fun d => d.map fun x => x - r).map fun d => d.map (k * ·) := by
    intro r
    simp only [List.map_map]
    apply List.map_congr_left
    intro d _
    cases d
    · rfl
    · simp [mul_sub]
  cases down
  · simp only [Bool.false_eq_true, if_false]
    cases (ds.filterMap id).max? with
    | none => rfl
    | some r => exact hmap r
  · simp only [if_true]
    cases (ds.filterMap id).min? with
    | none => rfl
    | some r => exact hmap r

theorem ky_applyOne (k z w : α) (doGlobal sub : Bool) (x : Elem α) (sky : Option α) :
    applyOne doGlobal sub (kyElem k z w x) (sky.map (k * ·)) = kyElem k z w (applyOne doGlobal sub x sky) := by
  have hv : (sky.map (k * ·)).isNone = sky.isNone ∧ (sky.map (k * ·)).isSome = sky.isSome := by cases sky <;> simp
  have hg : (sky.map (k * ·)).getD 0 = k * sky.getD 0 := by cases sky <;> simp
  have him : ∀ (s t : α) (v : Bool) (im : Im α), applyIm sub (k * s) (k * t) v (kyIm k z w im) = kyIm k z w (applyIm sub s t v im) := by
    intro s t v im
    simp only [applyIm, kyIm, Im.mk.injEq, and_true]
    refine ⟨?_, by ring⟩
    cases sub
    · rfl
    · funext p
      simp only [if_true]
      ring
  cases x with
  | single im => simp only [applyOne, kyElem, hv, hg, him]; rfl
  | group g ims =>
    simp only [applyOne, kyElem, hv, hg, List.map_map, List.head?_map, Option.map_map]
    rw [show k * g + w + k * sky.getD 0 = k * (g + sky.getD 0) + w by ring]
    congr 1
    apply List.map_congr_left
    intro im _
    rw [Function.comp, Function.comp, ← him]
    congr 1
    ring

theorem ky_match (env : Env α) (k z : α) (hk : 0 < k) (he : KyAff env k z) (solve : Nat → List ((Nat → α) × α) → Nat → α)
    (hs : KyLin solve k) (down sub : Bool) (els : List (Elem α)) :
    matchPhase env solve down sub (els.map (kyElem k z 0)) = (matchPhase env solve down sub els).map (kyElem k z 0) := by
  simp only [matchPhase, List.length_map]
  have hd : (List.range els.length).map (findDeltas solve els.length (matA env (!sub) (els.map (kyElem k z 0)))
        (matW env (!sub) (els.map (kyElem k z 0))))
      = ((List.range els.length).map (findDeltas solve els.length (matA env (!sub) els) (matW env (!sub) els))).map
        fun d => d.map (k * ·) := by
    rw [List.map_map]
    apply List.map_congr_left
    intro i hi
    exact ky_deltas env k z he solve hs (!sub) els els.length i (List.mem_range.1 hi)
  rw [hd, ky_shift k hk]
  generalize shift down ((List.range els.length).map (findDeltas solve els.length (matA env (!sub) els) (matW env (!sub) els))) = ds
  simp only [applySky]
  rw [List.zipWith_map, List.map_zipWith]
  simp only [ky_applyOne]

/-! ### The second phase -/

theorem ky_applyWhole (k z s : α) (doGlobal sub : Bool) (x : Elem α) :
    applyOne doGlobal sub (kyElem k z 0 x) (some (k * s + z)) = kyElem k (if sub then 0 else z) z (applyOne doGlobal sub x (some s)) := by
  have him : ∀ (t t' : α) (v : Bool) (im : Im α), t' = k * t + z →
      applyIm sub (k * s + z) t' v (kyIm k z 0 im) = kyIm k (if sub then 0 else z) z (applyIm sub s t v im) := by
    intro t t' v im ht
    subst ht
    simp only [applyIm, kyIm, Im.mk.injEq, and_true]
    refine ⟨?_, by ring⟩
    cases sub
    · rfl
    · funext p
      simp only [if_true]
      ring
  cases x with
  | single im =>
    simp only [applyOne, kyElem, Option.getD_some, Option.isNone_some, Option.isSome_some]
    rw [him s _ _ _ rfl]
    rfl
  | group g ims =>
    simp only [applyOne, kyElem, Option.getD_some, Option.isNone_some, Option.isSome_some, List.map_map, List.head?_map, Option.map_map]
    rw [show k * g + 0 + (k * s + z) = k * (g + s) + z by ring]
    congr 1
    apply List.map_congr_left
    intro im _
    rw [Function.comp, Function.comp, him (g + s - g)]
    · rfl
    · ring

theorem ky_minStep (k z : α) (hk : 0 < k) (l : List (Option α)) (acc : Option (Option α)) :
    (l.map fun o => o.map fun v => k * v + z).foldl minStep (acc.map fun o => o.map fun v => k * v + z)
      = (l.foldl minStep acc).map fun o => o.map fun v => k * v + z := by
  induction l generalizing acc with
  | nil => rfl
  | cons o t ih =>
    simp only [List.map_cons, List.foldl_cons]
    rw [← ih]
    congr 1
    cases acc with
    | none => rfl
    | some m =>
      cases m with
      | none => rfl
      | some m =>
        cases o with
        | none => rfl
        | some s =>
          simp only [Option.map_some, minStep, add_lt_add_iff_right, mul_lt_mul_iff_right₀ hk]
          split <;> rfl

theorem ky_skyValues (env : Env α) (k z : α) (hk : 0 < k) (he : KyAff env k z) (sub : Bool) (els : List (Elem α)) :
    skyValues env sub (els.map (kyElem k z 0)) = (skyValues env sub els).map fun o => o.map fun v => k * v + z := by
  have key : ∀ q, ((els.map (kyElem k z 0)).zipIdx q).map (fun p => (elemWhole env (!sub) p.2 p.1).1)
      = ((els.zipIdx q).map fun p => (elemWhole env (!sub) p.2 p.1).1).map fun o => o.map fun v => k * v + z := by
    induction els with
    | nil => intro q; rfl
    | cons x t ih =>
      intro q
      simp only [List.map_cons, List.zipIdx_cons]
      rw [ih, ky_whole env k z hk he]
      rfl
  exact key 0

theorem ky_minSome (l : List (Option α × α × α)) (acc : Option α × α × α) (h : acc.1.isSome ∨ ∃ x ∈ l, x.1.isSome) :
    (l.foldl (fun (acc x : Option α × α × α) =>
      match x.1, acc.1 with
      | none, _ => acc
      | some _, none => x
      | some s, some w => if w > s then x else acc) acc).1.isSome := by
  induction l generalizing acc with
  | nil =>
    rcases h with h | ⟨x, hx, _⟩
    · exact h
    · cases hx
  | cons y t ih =>
    simp only [List.foldl_cons]
    apply ih
    by_cases ht : ∃ x ∈ t, x.1.isSome
    · exact Or.inr ht
    · left
      obtain ⟨y1, y2⟩ := y
      obtain ⟨a1, a2⟩ := acc
      cases y1 with
      | none =>
        rcases h with h | ⟨x, hx, hx2⟩
        · exact h
        · rcases List.mem_cons.1 hx with rfl | hx
          · simp at hx2
          · exact absurd ⟨x, hx, hx2⟩ ht
      | some s =>
        cases a1 with
        | none => rfl
        | some w => simp only; split <;> rfl

theorem ky_good (env : Env α) (sub : Bool) (els : List (Elem α)) (hg : KyGood env els) : ∀ o ∈ skyValues env sub els, o.isSome := by
  intro o ho
  simp only [skyValues, List.mem_map] at ho
  obtain ⟨⟨x, e⟩, hx, rfl⟩ := ho
  have hx' := List.mem_zipIdx_iff_getElem?.1 hx
  obtain ⟨h1, h2⟩ := hg e x hx'
  cases x with
  | single im =>
    have := h1 im.data
    simp only [elemWhole]
    cases h : env.whole e 0 im.data with
    | none => simp [h] at this
    | some r => rfl
  | group g ims =>
    have hne := h2 g ims rfl
    simp only [elemWhole, groupMin]
    apply ky_minSome
    right
    cases ims with
    | nil => exact absurd rfl hne
    | cons im t =>
      refine ⟨imCalc (env.whole e 0 im.data) im.sky (!sub), ?_, ?_⟩
      · simp
      · have := h1 im.data
        cases h : env.whole e 0 im.data with
        | none => simp [h] at this
        | some r => rfl

theorem ky_minAll (l : List (Option α)) (hl : ∀ o ∈ l, o.isSome) (m : α) : ∃ m', l.foldl minStep (some (some m)) = some (some m') := by
  induction l generalizing m with
  | nil => exact ⟨m, rfl⟩
  | cons o t ih =>
    obtain ⟨s, rfl⟩ := Option.isSome_iff_exists.1 (hl o (by simp))
    exact ih (fun o ho => hl o (List.mem_cons_of_mem _ ho)) _

theorem ky_wholePhase (env : Env α) (k z : α) (hk : 0 < k) (he : KyAff env k z) (doGlobal sub : Bool) (els : List (Elem α))
    (hg : KyGood env els) :
    wholePhase env doGlobal sub (els.map (kyElem k z 0))
      = (wholePhase env doGlobal sub els).map fun l => l.map (kyElem k (if sub then 0 else z) z) := by
  have hsome := ky_good env sub els hg
  simp only [wholePhase, ky_skyValues env k z hk he]
  have happ : ∀ (skys : List (Option α)), (∀ o ∈ skys, o.isSome) →
      applySky doGlobal sub (els.map (kyElem k z 0)) (skys.map fun o => o.map fun v => k * v + z)
        = (applySky doGlobal sub els skys).map (kyElem k (if sub then 0 else z) z) := by
    intro skys
    simp only [applySky]
    generalize els = els
    clear hg hsome
    induction els generalizing skys with
    | nil => intro _; simp
    | cons x t ih =>
      intro hs
      cases skys with
      | nil => rfl
      | cons o os =>
        obtain ⟨s, rfl⟩ := Option.isSome_iff_exists.1 (hs o (by simp))
        simp only [List.map_cons, List.zipWith_cons_cons, Option.map_some]
        rw [ky_applyWhole, ih os fun o ho => hs o (List.mem_cons_of_mem _ ho)]
  cases doGlobal
  · simp only [Bool.false_eq_true, if_false, Option.map_some]
    rw [happ _ hsome]
  · simp only [if_true, List.length_map]
    have h0 := ky_minStep k z hk (skyValues env sub els) (some none)
    simp only [Option.map_some, Option.map_none] at h0
    rw [h0]
    generalize hsk : skyValues env sub els = skys at *
    cases skys with
    | nil =>
      have : els = [] := by
        have := congrArg List.length hsk
        simpa [skyValues] using this
      subst this
      rfl
    | cons o t =>
      obtain ⟨s, rfl⟩ := Option.isSome_iff_exists.1 (hsome o (by simp))
      obtain ⟨m, hm⟩ := ky_minAll t (fun o ho => hsome o (List.mem_cons_of_mem _ ho)) s
      have hm' : (some s :: t).foldl minStep (some none) = some (some m) := hm
      rw [hm']
      simp only [Option.map_some]
      congr 1
      rw [← happ (List.replicate els.length (some m)) (fun o ho => by rw [(List.mem_replicate.1 ho).2]; rfl), List.map_replicate]
      rfl

theorem ky_goodMatch (env : Env α) (solve : Nat → List ((Nat → α) × α) → Nat → α) (down sub : Bool) (els : List (Elem α))
    (hg : KyGood env els) : KyGood env (matchPhase env solve down sub els) := by
  intro e x hx
  simp only [matchPhase, applySky, List.getElem?_zipWith_eq_some] at hx
  obtain ⟨y, sky, hy, _, rfl⟩ := hx
  obtain ⟨h1, h2⟩ := hg e y hy
  refine ⟨h1, fun g ims h => ?_⟩
  cases y with
  | single im => simp [applyOne] at h
  | group g0 ims0 =>
    simp only [applyOne, Elem.group.injEq] at h
    rw [← h.2]
    simpa using h2 g0 ims0 rfl

/-! ### Property -/

/-- C158.  Sky matching of images in another unit and with another common zero level: the same images and skies in the new unit.  The
method `match` equalises the images and leaves the zero level in them, the skies being differences.  The other methods put the zero
level into the recorded skies, and, if the sky is subtracted, take it out of the images. -/
theorem C158_unit_and_level (env : Env α) (k z : α) (hk : 0 < k) (he : KyAff env k z) (solve : Nat → List ((Nat → α) × α) → Nat → α)
    (hp : SgPinv solve) (m : Method) (down sub : Bool) (els : List (Elem α)) (hg : KyGood env els) :
    skymatch env solve m down sub (els.map (kyElem k z 0))
      = (skymatch env solve m down sub els).map fun l =>
        l.map (if m = .mat then kyElem k z 0 else kyElem k (if sub then 0 else z) z) := by
  have hs := ky_lin solve hp k hk
  cases m
  · simp only [skymatch, Method.doMatch, Method.doGlobal, Bool.false_eq_true, if_false, Bool.not_false, Bool.or_true, if_true, reduceCtorEq]
    exact ky_wholePhase env k z hk he false sub els hg
  · simp only [skymatch, Method.doMatch, Method.doGlobal, Bool.false_eq_true, if_false, Bool.true_or, if_true, reduceCtorEq]
    exact ky_wholePhase env k z hk he true sub els hg
  · simp only [skymatch, Method.doMatch, Method.doGlobal, if_true, Bool.not_true, Bool.or_false, Bool.false_eq_true, if_false,
      Option.map_some, ky_match env k z hk he solve hs]
  · simp only [skymatch, Method.doMatch, Method.doGlobal, if_true, Bool.true_or, ky_match env k z hk he solve hs, reduceCtorEq, if_false]
    exact ky_wholePhase env k z hk he true sub _ (ky_goodMatch env solve down sub els hg)

/-- C158, the method `match` needs no good pixels: images outside all overlaps keep level and sky. -/
theorem C158_match (env : Env α) (k z : α) (hk : 0 < k) (he : KyAff env k z) (solve : Nat → List ((Nat → α) × α) → Nat → α)
    (hp : SgPinv solve) (down sub : Bool) (els : List (Elem α)) :
    skymatch env solve .mat down sub (els.map (kyElem k z 0))
      = (skymatch env solve .mat down sub els).map fun l => l.map (kyElem k z 0) := by
  have hs := ky_lin solve hp k hk
  simp only [skymatch, Method.doMatch, Method.doGlobal, if_true, Bool.not_true, Bool.or_false, Bool.false_eq_true, if_false,
      Option.map_some, ky_match env k z hk he solve hs]

-- C158_unit_and_level: the images of `sgEls` in another unit and with another zero level
example (k z : ℝ) (hk : 0 < k) : ∃ solve, SgPinv (α := ℝ) solve ∧ KyAff sgEnv k z ∧ KyGood sgEnv sgEls
    ∧ ∀ down, skymatch sgEnv solve .loc down true (sgEls.map (kyElem k z 0))
      = (skymatch sgEnv solve .loc down true sgEls).map fun l => l.map (kyElem k 0 z) := by
  obtain ⟨solve, hp⟩ := sg_solver
  have ha : KyAff sgEnv k z := by
    refine ⟨fun e i data => rfl, fun e i e' data => ?_⟩
    unfold sgEnv
    dsimp only
    split <;> rfl
  have hg : KyGood sgEnv sgEls := by
    intro e x hx
    refine ⟨fun _ => rfl, fun g ims h => ?_⟩
    subst h
    have := List.mem_of_getElem? hx
    simp only [sgEls, List.mem_cons, reduceCtorEq, List.not_mem_nil, or_false, false_or, Elem.group.injEq] at this
    rw [this.2]
    simp
  exact ⟨solve, hp, ha, hg, fun down => C158_unit_and_level sgEnv k z hk ha solve hp .loc down true sgEls hg⟩

end Verif.Thm
