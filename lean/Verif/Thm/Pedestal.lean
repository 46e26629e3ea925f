import Verif.Thm.SkyUnits

/-!
# C176: individual zero levels of the images do not survive sky matching

`skymatch` (skymatch.py:21-329) for images to each of which a constant of its own has been added.
-/

set_option linter.unusedSectionVars false

namespace Verif.Thm

open Verif Verif.Sky

variable {α : Type} [Field α] [LinearOrder α] [IsStrictOrderedRing α]

/-- Spec: element `i` (an image or a group of images) with `z i` added to its pixels. -/
def pdEls (z : Nat → α) (els : List (Elem α)) : List (Elem α) := els.mapIdx fun i x => kyElem 1 (z i) 0 x

/-- Spec: element `i` with `c i` added to its pixels and `w i` to its recorded sky. -/
def pdBoth (c w : Nat → α) (els : List (Elem α)) : List (Elem α) := els.mapIdx fun i x => kyElem 1 (c i) (w i) x

theorem pd_aff (env : Env α) (hs : SgShift env) (c : α) : KyAff env 1 c := by
  refine ⟨fun e i data => ?_, fun e i e' data => ?_⟩
  · have := hs.1 e i data (-c)
    simp only [sub_neg_eq_add] at this
    simp only [one_mul, this]
  · have := hs.2 e i e' data (-c)
    simp only [sub_neg_eq_add] at this
    simp only [one_mul, this]

theorem pd_pair (z1 z2 : α) (r1 r2 : Option α × α × α) :
    (pair (kyRes 1 z1 r1) (kyRes 1 z2 r2)).2.1 = (pair r1 r2).2.1 ∧ (pair (kyRes 1 z1 r1) (kyRes 1 z2 r2)).2.2.2 = (pair r1 r2).2.2.2
    ∧ (0 < (pair r1 r2).2.1 → (pair (kyRes 1 z1 r1) (kyRes 1 z2 r2)).1 = (pair r1 r2).1 + z1
      ∧ (pair (kyRes 1 z1 r1) (kyRes 1 z2 r2)).2.2.1 = (pair r1 r2).2.2.1 + z2) := by
  obtain ⟨s1, w1, a1⟩ := r1
  obtain ⟨s2, w2, a2⟩ := r2
  cases s1 with
  | none => exact ⟨rfl, rfl, fun h => absurd h (lt_irrefl _)⟩
  | some s1 =>
    cases s2 with
    | none => exact ⟨rfl, rfl, fun h => absurd h (lt_irrefl _)⟩
    | some s2 =>
      simp only [kyRes, Option.map_some, pair, one_mul]
      split
      · exact ⟨rfl, rfl, fun h => absurd h (lt_irrefl _)⟩
      · exact ⟨rfl, rfl, fun _ => ⟨rfl, rfl⟩⟩

theorem pd_pairAt (env : Env α) (hs : SgShift env) (z : Nat → α) (delta : Bool) (els : List (Elem α)) (i j : Nat) :
    (pairAt env delta (pdEls z els) i j).2.1 = (pairAt env delta els i j).2.1
    ∧ (pairAt env delta (pdEls z els) i j).2.2.2 = (pairAt env delta els i j).2.2.2
    ∧ (0 < (pairAt env delta els i j).2.1 →
      (pairAt env delta (pdEls z els) i j).1 = (pairAt env delta els i j).1 + z i
      ∧ (pairAt env delta (pdEls z els) i j).2.2.1 = (pairAt env delta els i j).2.2.1 + z j) := by
  simp only [pairAt, pdEls, List.getElem?_mapIdx]
  cases els[i]? with
  | none => exact ⟨rfl, rfl, fun h => absurd h (lt_irrefl _)⟩
  | some x =>
    cases els[j]? with
    | none => exact ⟨rfl, rfl, fun h => absurd h (lt_irrefl _)⟩
    | some y =>
      simp only [Option.map_some]
      rw [ky_over env 1 (z i) (pd_aff env hs _), ky_over env 1 (z j) (pd_aff env hs _)]
      exact pd_pair (z i) (z j) _ _

theorem pd_length (z : Nat → α) (els : List (Elem α)) : (pdEls z els).length = els.length := by simp [pdEls]

theorem pd_matW (env : Env α) (hs : SgShift env) (z : Nat → α) (delta : Bool) (els : List (Elem α)) :
    matW env delta (pdEls z els) = matW env delta els := by
  funext r c
  simp only [matW, (pd_pairAt env hs z delta els c r).1, (pd_pairAt env hs z delta els r c).2.1]

/-- The equations ask for the old solution plus the constants. -/
theorem pd_eqs (env : Env α) (hs : SgShift env) (z : Nat → α) (delta : Bool) (els : List (Elem α)) :
    skEqs env delta (pdEls z els) = (skEqs env delta els).map fun q => (q.1, q.2 + ∑ k ∈ Finset.range els.length, q.1 k * z k) := by
  simp only [skEqs, pd_matW env hs, pd_length, List.map_map]
  apply List.map_congr_left
  rintro ⟨a, b⟩ hp
  obtain ⟨hab, hb, hw1, hw2⟩ := (sk_mem_validPairs _ _ _ _).1 hp
  have hw : matW env delta els b a = (pairAt env delta els a b).2.1 := by
    simp only [matW, hab, if_true]
  rw [hw] at hw2
  obtain ⟨h4, h5⟩ := (pd_pairAt env hs z delta els a b).2.2 hw2
  have hA : ∀ els : List (Elem α), matA env delta els b a = (pairAt env delta els a b).1 := fun _ => by
    simp only [matA, hab, if_true]
  have hB : ∀ els : List (Elem α), matA env delta els a b = (pairAt env delta els a b).2.2.1 := fun _ => by
    simp only [matA, hab, if_true, if_neg (not_lt.2 hab.le)]
  simp only [Function.comp, equation, hA, hB, h4, h5]
  rw [sk_row _ _ _ _ _ hab hb]
  congr 1
  ring

theorem pd_sq (n : Nat) (eqs : List ((Nat → α) × α)) (z x : Nat → α) :
    skSq n (eqs.map fun q => (q.1, q.2 + ∑ k ∈ Finset.range n, q.1 k * z k)) x = skSq n eqs fun k => x k - z k := by
  simp only [skSq, List.map_map]
  congr 1
  apply List.map_congr_left
  intro q _
  simp only [Function.comp, mul_sub, Finset.sum_sub_distrib]
  congr 1
  ring

theorem pd_mid (n : Nat) (eqs : List ((Nat → α) × α)) (x y : Nat → α) :
    2 * skSq n eqs (fun i => (x i + y i) / 2) + (eqs.map fun q =>
      ((∑ k ∈ Finset.range n, q.1 k * x k) - ∑ k ∈ Finset.range n, q.1 k * y k) ^ 2 / 2).sum = skSq n eqs x + skSq n eqs y := by
  simp only [skSq]
  induction eqs with
  | nil => simp
  | cons q t ih =>
    simp only [List.map_cons, List.sum_cons]
    have h : ∑ i ∈ Finset.range n, q.1 i * ((x i + y i) / 2)
        = ((∑ i ∈ Finset.range n, q.1 i * x i) + ∑ i ∈ Finset.range n, q.1 i * y i) / 2 := by
      rw [← Finset.sum_add_distrib, Finset.sum_div]
      exact Finset.sum_congr rfl fun i _ => by ring
    rw [h]
    linear_combination ih

/-- Two least-squares solutions give the same left-hand sides. -/
theorem pd_fitted (n : Nat) (eqs : List ((Nat → α) × α)) (x y : Nat → α) (hx : ∀ u, skSq n eqs x ≤ skSq n eqs u)
    (hy : ∀ u, skSq n eqs y ≤ skSq n eqs u) (q : (Nat → α) × α) (hq : q ∈ eqs) :
    ∑ k ∈ Finset.range n, q.1 k * x k = ∑ k ∈ Finset.range n, q.1 k * y k := by
  have h1 := pd_mid n eqs x y
  have h2 := hx fun i => (x i + y i) / 2
  have h3 := hy fun i => (x i + y i) / 2
  have h4 : ((∑ k ∈ Finset.range n, q.1 k * x k) - ∑ k ∈ Finset.range n, q.1 k * y k) ^ 2 / 2 ≤ (eqs.map fun q =>
      ((∑ k ∈ Finset.range n, q.1 k * x k) - ∑ k ∈ Finset.range n, q.1 k * y k) ^ 2 / 2).sum := by
    refine List.single_le_sum (fun v hv => ?_) _ (List.mem_map.2 ⟨q, hq, rfl⟩)
    obtain ⟨q', -, rfl⟩ := List.mem_map.1 hv
    positivity
  have h5 : ((∑ k ∈ Finset.range n, q.1 k * x k) - ∑ k ∈ Finset.range n, q.1 k * y k) ^ 2 ≤ 0 := by linarith
  exact sub_eq_zero.1 (pow_eq_zero_iff two_ne_zero |>.1 (le_antisymm h5 (sq_nonneg _)))

/-- Spec: every two images of the list are connected through usable overlaps. -/
def PdConnected (env : Env α) (delta : Bool) (els : List (Elem α)) : Prop :=
  ∀ i < els.length, ∀ j < els.length, Relation.TransGen (SkLinked env delta els) i j

/-- In a connected mosaic the solution follows the constants, up to one common constant. -/
theorem pd_solution (env : Env α) (hs : SgShift env) (solve : Nat → List ((Nat → α) × α) → Nat → α) (z : Nat → α) (delta : Bool)
    (els : List (Elem α)) (h1 : SkLeastSquares env solve delta els) (h2 : SkLeastSquares env solve delta (pdEls z els))
    (hc : PdConnected env delta els) :
    ∃ C, ∀ i < els.length, solve els.length (skEqs env delta (pdEls z els)) i = solve els.length (skEqs env delta els) i + z i + C := by
  unfold SkLeastSquares at h2
  rw [pd_length, pd_eqs env hs] at h2
  rw [pd_eqs env hs]
  set x := solve els.length (skEqs env delta els) with hx
  set y := solve els.length ((skEqs env delta els).map fun q => (q.1, q.2 + ∑ k ∈ Finset.range els.length, q.1 k * z k)) with hy
  have hy' : ∀ u, skSq els.length (skEqs env delta els) (fun k => y k - z k) ≤ skSq els.length (skEqs env delta els) u := by
    intro u
    have := h2 fun k => u k + z k
    rw [pd_sq, pd_sq] at this
    simpa using this
  have key : ∀ i j, i < j → SkLinked env delta els i j → y i - z i - x i = y j - z j - x j := by
    intro i j hij hl
    have hp := (sk_validPairs env delta els i j).mpr ⟨hij, hl⟩
    have hp0 := (sk_mem_validPairs _ _ _ _).mp hp
    have hq : equation (matA env delta els) (matW env delta els) (i, j) ∈ skEqs env delta els := List.mem_map.mpr ⟨_, hp, rfl⟩
    have h0 := pd_fitted els.length _ x (fun k => y k - z k) h1 hy' _ hq
    simp only [equation] at h0
    rw [sk_row _ _ _ _ _ hij hp0.2.1, sk_row _ _ _ _ _ hij hp0.2.1] at h0
    have hw : (1 / 2 * (matW env delta els i j + matW env delta els j i) : α) ≠ 0 := by
      have := hp0.2.2.1
      have := hp0.2.2.2
      positivity
    have := mul_left_cancel₀ hw h0
    linarith
  have link : ∀ i j, SkLinked env delta els i j → y i - z i - x i = y j - z j - x j := by
    intro i j hl
    rcases lt_trichotomy i j with h | h | h
    · exact key i j h hl
    · rw [h]
    · obtain ⟨s, t, hst⟩ := hl
      exact (key j i h ⟨t, s, sk_overlap_symm hst⟩).symm
  have trans : ∀ i j, Relation.TransGen (SkLinked env delta els) i j → y i - z i - x i = y j - z j - x j := by
    intro i j h
    induction h with
    | single h => exact link _ _ h
    | tail _ h ih => exact ih.trans (link _ _ h)
  refine ⟨y 0 - z 0 - x 0, fun i hi => ?_⟩
  have := trans 0 i (hc 0 (by omega) i hi)
  rw [this]
  ring

theorem pd_deltas (env : Env α) (solve : Nat → List ((Nat → α) × α) → Nat → α) (sub : Bool) (els : List (Elem α))
    (hc : PdConnected env (!sub) els) :
    (List.range els.length).map (findDeltas solve els.length (matA env (!sub) els) (matW env (!sub) els)) =
      ((List.range els.length).map (solve els.length (skEqs env (!sub) els))).map some := by
  rw [List.map_map]
  refine List.map_congr_left fun i hi => ?_
  have hi' := List.mem_range.1 hi
  have : (skDelta env solve sub els i).isSome := by
    rw [C44_delta_iff]
    have h0 := hc i hi' i hi'
    obtain ⟨j, hj, -⟩ := Relation.TransGen.head'_iff.1 h0
    exact ⟨j, hj⟩
  unfold skDelta findDeltas at this
  simp only at this
  simp only [findDeltas, Function.comp]
  split at this
  · rename_i h
    rw [if_pos h]
    rfl
  · simp at this

theorem pd_shift (md : Bool) (l : List α) (hl : l ≠ []) : ∃ r, shift md (l.map some) = l.map fun x => some (x - r) := by
  have hf : (l.map some).filterMap id = l := by
    rw [List.filterMap_map]
    simp
  unfold shift listMin listMax
  rw [hf]
  cases md
  · cases h : l.max? with
    | none => exact absurd (List.max?_eq_none_iff.1 h) hl
    | some r => exact ⟨r, by simp [Function.comp_def]⟩
  · cases h : l.min? with
    | none => exact absurd (List.min?_eq_none_iff.1 h) hl
    | some r => exact ⟨r, by simp [Function.comp_def]⟩

/-- Subtracting or recording `s + t` in an element with `c` and `w` added. -/
theorem pd_applyOne (c w s t : α) (doGlobal sub : Bool) (x : Elem α) :
    applyOne doGlobal sub (kyElem 1 c w x) (some (s + t)) =
      kyElem 1 (if sub then c - t else c) (w + t) (applyOne doGlobal sub x (some s)) := by
  have him : ∀ (u u' : α) (v : Bool) (im : Im α), u' = u + t →
      applyIm sub (s + t) u' v (kyIm 1 c w im) = kyIm 1 (if sub then c - t else c) (w + t) (applyIm sub s u v im) := by
    intro u u' v im hu
    subst hu
    simp only [applyIm, kyIm, Im.mk.injEq, and_true]
    refine ⟨?_, by ring⟩
    cases sub
    · rfl
    · funext p
      simp only [if_true]
      ring
  cases x with
  | single im =>
    simp only [applyOne, kyElem, Option.getD_some, Option.isNone_some, Option.isSome_some]
    rw [him s _ _ _ rfl]
    rfl
  | group g ims =>
    simp only [applyOne, kyElem, Option.getD_some, Option.isNone_some, Option.isSome_some, List.map_map, List.head?_map, Option.map_map]
    rw [show 1 * g + w + (s + t) = 1 * (g + s) + (w + t) by ring]
    congr 1
    apply List.map_congr_left
    intro im _
    rw [Function.comp, Function.comp, him (g + s - g)]
    · rfl
    · ring

theorem pd_apply (doGlobal sub : Bool) (c w t : Nat → α) (els : List (Elem α)) (f : Nat → α) :
    applySky doGlobal sub (pdBoth c w els) ((List.range els.length).map fun i => some (f i + t i)) =
      pdBoth (fun i => if sub then c i - t i else c i) (fun i => w i + t i)
        (applySky doGlobal sub els ((List.range els.length).map fun i => some (f i))) := by
  apply List.ext_getElem?
  intro i
  simp only [applySky, pdBoth, List.getElem?_zipWith, List.getElem?_mapIdx, List.getElem?_map]
  by_cases hi : i < els.length
  · rw [List.getElem?_eq_getElem hi, List.getElem?_range hi]
    simp only [Option.map_some, pd_applyOne]
  · rw [List.getElem?_eq_none (by omega)]
    rfl

/-- The first phase. -/
theorem pd_match (env : Env α) (hs : SgShift env) (solve : Nat → List ((Nat → α) × α) → Nat → α) (z : Nat → α) (md sub : Bool)
    (els : List (Elem α)) (h1 : SkLeastSquares env solve (!sub) els) (h2 : SkLeastSquares env solve (!sub) (pdEls z els))
    (hc : PdConnected env (!sub) els) (hc' : PdConnected env (!sub) (pdEls z els)) :
    ∃ K, matchPhase env solve md sub (pdEls z els) =
      pdBoth (fun i => if sub then K else z i) (fun i => z i - K) (matchPhase env solve md sub els) := by
  obtain ⟨C, hC⟩ := pd_solution env hs solve z (!sub) els h1 h2 hc
  by_cases hne : els = []
  · subst hne
    exact ⟨0, rfl⟩
  have hr : List.range els.length ≠ [] := by
    intro h
    rw [List.range_eq_nil] at h
    exact hne (List.length_eq_zero_iff.1 h)
  have d1 := pd_deltas env solve sub els hc
  have d2 := pd_deltas env solve sub (pdEls z els) hc'
  rw [pd_length] at d2
  have e2 : (List.range els.length).map (solve els.length (skEqs env (!sub) (pdEls z els))) =
      (List.range els.length).map fun i => solve els.length (skEqs env (!sub) els) i + z i + C :=
    List.map_congr_left fun i hi => hC i (List.mem_range.1 hi)
  rw [e2] at d2
  obtain ⟨r, hr1⟩ := pd_shift md ((List.range els.length).map (solve els.length (skEqs env (!sub) els))) (by simpa using hr)
  obtain ⟨r', hr2⟩ := pd_shift md ((List.range els.length).map fun i => solve els.length (skEqs env (!sub) els) i + z i + C) (by simpa using hr)
  refine ⟨r' - r - C, ?_⟩
  unfold matchPhase
  simp only [pd_length]
  rw [d1, d2, hr1, hr2, List.map_map, List.map_map]
  have hb : pdEls z els = pdBoth z (fun _ => 0) els := rfl
  rw [hb]
  have := pd_apply false sub z (fun _ => 0) (fun i => z i - (r' - r - C)) els fun i => solve els.length (skEqs env (!sub) els) i - r
  simp only [Function.comp_def]
  have e3 : ((List.range els.length).map fun i => some (solve els.length (skEqs env (!sub) els) i + z i + C - r')) =
      (List.range els.length).map fun i => some (solve els.length (skEqs env (!sub) els) i - r + (z i - (r' - r - C))) :=
    List.map_congr_left fun i _ => by
      congr 1
      ring
  rw [e3, this]
  congr 1
  · funext i
    cases sub <;> simp
  · funext i
    ring

theorem pd_linked (env : Env α) (hs : SgShift env) (z : Nat → α) (delta : Bool) (els : List (Elem α)) (i j : Nat)
    (h : SkLinked env delta els i j) : SkLinked env delta (pdEls z els) i j := by
  obtain ⟨s, t, h0⟩ := h
  obtain ⟨w, u, hw, hu, hp⟩ := sk_pairAt h0
  obtain ⟨p1, p2, -⟩ := pd_pairAt env hs z delta els i j
  exact ⟨_, _, sk_pairAt_conv h0.1 (by rw [p1, hp]; exact hw) (by rw [p2, hp]; exact hu)⟩

theorem pd_connected (env : Env α) (hs : SgShift env) (z : Nat → α) (delta : Bool) (els : List (Elem α))
    (h : PdConnected env delta els) : PdConnected env delta (pdEls z els) := by
  intro i hi j hj
  rw [pd_length] at hi hj
  exact Relation.TransGen.mono (fun a b => pd_linked env hs z delta els a b) _ _ (h i hi j hj)

/-! ### The second phase -/

theorem pd_imCalc (c w : α) (m : (Nat → α) → Option (α × α × α))
    (hm : ∀ data, m (fun p => 1 * data p + c) = (m data).map fun r => (1 * r.1 + c, r.2)) (im : Im α) (delta : Bool) :
    imCalc (m (kyIm 1 c w im).data) (kyIm 1 c w im).sky delta = kyRes 1 (c - if delta then w else 0) (imCalc (m im.data) im.sky delta) := by
  simp only [kyIm, hm]
  cases m im.data with
  | none => rfl
  | some r =>
    cases delta
    · simp [imCalc, kyRes]
    · simp only [imCalc, kyRes, Option.map_some, if_true]
      rw [show 1 * r.1 + c - (1 * im.sky + w) = 1 * (r.1 - im.sky) + (c - w) by ring]

theorem pd_whole (env : Env α) (hs : SgShift env) (c w : α) (delta : Bool) (e : Nat) (x : Elem α) :
    elemWhole env delta e (kyElem 1 c w x) = kyRes 1 (c - if delta then w else 0) (elemWhole env delta e x) := by
  have hk := pd_aff env hs c
  cases x with
  | single im => exact pd_imCalc c w (env.whole e 0) (hk.1 e 0) im delta
  | group g ims =>
    simp only [kyElem, elemWhole]
    have : ∀ q, ((ims.map (kyIm 1 c w)).zipIdx q).map (fun p => imCalc (env.whole e p.2 p.1.data) p.1.sky delta) =
        ((ims.zipIdx q).map fun p => imCalc (env.whole e p.2 p.1.data) p.1.sky delta).map (kyRes 1 (c - if delta then w else 0)) := by
      induction ims with
      | nil => intro q; rfl
      | cons im t ih =>
        intro q
        simp only [List.map_cons, List.zipIdx_cons]
        rw [ih, pd_imCalc c w (env.whole e q) (hk.1 e q)]
    rw [this, ky_groupMin _ _ one_pos]

theorem pd_skyValues (env : Env α) (hs : SgShift env) (c w : Nat → α) (sub : Bool) (els : List (Elem α)) :
    skyValues env sub (pdBoth c w els) =
      (skyValues env sub els).mapIdx fun i o => o.map fun v => 1 * v + (c i - if !sub then w i else 0) := by
  apply List.ext_getElem?
  intro i
  simp only [skyValues, pdBoth, List.getElem?_mapIdx, List.getElem?_map, List.getElem?_zipIdx, Option.map_map]
  cases els[i]? with
  | none => rfl
  | some x =>
    simp only [Option.map_some, Function.comp, Nat.zero_add, pd_whole env hs]
    rfl

theorem pd_applySome (doGlobal sub : Bool) (c w t : Nat → α) (els : List (Elem α)) (skys : List (Option α)) (h : ∀ o ∈ skys, o.isSome) :
    applySky doGlobal sub (pdBoth c w els) (skys.mapIdx fun i o => o.map fun v => 1 * v + t i) =
      pdBoth (fun i => if sub then c i - t i else c i) (fun i => w i + t i) (applySky doGlobal sub els skys) := by
  apply List.ext_getElem?
  intro i
  simp only [applySky, pdBoth, List.getElem?_zipWith, List.getElem?_mapIdx]
  cases els[i]? with
  | none => rfl
  | some x =>
    cases ho : skys[i]? with
    | none => rfl
    | some o =>
      obtain ⟨s, rfl⟩ := Option.isSome_iff_exists.1 (h o (List.mem_of_getElem? ho))
      simp only [Option.map_some, one_mul, pd_applyOne]

theorem pd_const (l : List (Option α)) (K : α) : (l.mapIdx fun _ o => o.map fun v => 1 * v + K) = l.map fun o => o.map fun v => 1 * v + K := by
  apply List.ext_getElem?
  intro i
  simp only [List.getElem?_mapIdx, List.getElem?_map]

theorem pd_wholePhase (env : Env α) (hs : SgShift env) (doGlobal sub : Bool) (c w t : Nat → α)
    (ht : ∀ i, c i - (if !sub then w i else 0) = t i) (hK : doGlobal = true → ∃ K, ∀ i, t i = K) (els : List (Elem α)) (hg : KyGood env els) :
    wholePhase env doGlobal sub (pdBoth c w els) = (wholePhase env doGlobal sub els).map
      (pdBoth (fun i => if sub then c i - t i else c i) fun i => w i + t i) := by
  have hsome := ky_good env sub els hg
  simp only [wholePhase, pd_skyValues env hs, ht]
  cases doGlobal
  · simp only [Bool.false_eq_true, if_false, Option.map_some]
    rw [pd_applySome _ _ _ _ _ _ _ hsome]
  · obtain ⟨K, hK⟩ := hK rfl
    have hl : (pdBoth c w els).length = els.length := by simp [pdBoth]
    simp only [if_true, hl]
    have e1 : ((skyValues env sub els).mapIdx fun i o => o.map fun v => 1 * v + t i) =
        (skyValues env sub els).map fun o => o.map fun v => 1 * v + K := by
      simp only [hK, pd_const]
    rw [e1]
    have h0 := ky_minStep 1 K one_pos (skyValues env sub els) (some none)
    simp only [Option.map_some, Option.map_none] at h0
    rw [h0]
    generalize hsk : skyValues env sub els = skys at *
    cases skys with
    | nil =>
      have : els = [] := by
        have := congrArg List.length hsk
        simpa [skyValues] using this
      subst this
      rfl
    | cons o os =>
      obtain ⟨s, rfl⟩ := Option.isSome_iff_exists.1 (hsome o (by simp))
      obtain ⟨m, hm⟩ := ky_minAll os (fun o ho => hsome o (List.mem_cons_of_mem _ ho)) s
      have hm' : (some s :: os).foldl minStep (some none) = some (some m) := hm
      rw [hm']
      simp only [Option.map_some]
      congr 1
      rw [← pd_applySome true sub c w t els (List.replicate els.length (some m))
        (fun o ho => by rw [(List.mem_replicate.1 ho).2]; rfl)]
      simp only [hK, pd_const, List.map_replicate, Option.map_some]

/-! ### Property -/

/-- C176.  Each image (or group) gets a constant of its own, and the images are connected through usable overlaps.  Then the methods
`local` and `global+match` record skies larger by exactly these constants: the images with the sky subtracted are the same as without
the constants.  The same holds for `match` up to one constant `K` which is the same for all images. -/
theorem C176_pedestals (env : Env α) (hs : SgShift env) (solve : Nat → List ((Nat → α) × α) → Nat → α) (z : Nat → α) (md sub : Bool)
    (els : List (Elem α)) (h1 : SkLeastSquares env solve (!sub) els) (h2 : SkLeastSquares env solve (!sub) (pdEls z els))
    (hc : PdConnected env (!sub) els) (hg : KyGood env els) :
    skymatch env solve .globMat md sub (pdEls z els) =
        (skymatch env solve .globMat md sub els).map (pdBoth (fun i => if sub then 0 else z i) z) ∧
    ∃ K, skymatch env solve .mat md sub (pdEls z els) =
        (skymatch env solve .mat md sub els).map (pdBoth (fun i => if sub then K else z i) fun i => z i - K) := by
  obtain ⟨K, hK⟩ := pd_match env hs solve z md sub els h1 h2 hc (pd_connected env hs z _ els hc)
  refine ⟨?_, K, ?_⟩
  · simp only [skymatch, Method.doMatch, Method.doGlobal, if_true, Bool.true_or]
    rw [hK, pd_wholePhase env hs true sub _ _ (fun _ => K) (fun i => ?_) (fun _ => ⟨K, fun _ => rfl⟩) _
      (ky_goodMatch env solve md sub els hg)]
    · congr 1
      congr 1
      · funext i
        cases sub <;> simp
      · funext i
        ring
    · cases sub <;> simp
  · simp only [skymatch, Method.doMatch, Method.doGlobal, if_true, Bool.not_true, Bool.or_false, Bool.false_eq_true, if_false,
      Option.map_some, hK]

/-- C176 for the method `local`, which needs no overlaps. -/
theorem C176_local (env : Env α) (hs : SgShift env) (solve : Nat → List ((Nat → α) × α) → Nat → α) (z : Nat → α) (md sub : Bool)
    (els : List (Elem α)) (hg : KyGood env els) :
    skymatch env solve .loc md sub (pdEls z els) =
      (skymatch env solve .loc md sub els).map (pdBoth (fun i => if sub then 0 else z i) z) := by
  simp only [skymatch, Method.doMatch, Method.doGlobal, Bool.false_eq_true, if_false, Bool.not_false, Bool.or_true, if_true]
  have := pd_wholePhase env hs false sub z (fun _ => 0) z (fun i => by simp) (fun h => by cases h) els hg
  simp only [sub_self, zero_add] at this
  exact this

theorem pd_good (env : Env α) (z : Nat → α) (els : List (Elem α)) (hg : KyGood env els) : KyGood env (pdEls z els) := by
  intro e x hx
  simp only [pdEls, List.getElem?_mapIdx, Option.map_eq_some_iff] at hx
  obtain ⟨y, hy, rfl⟩ := hx
  obtain ⟨h1, h2⟩ := hg e y hy
  refine ⟨h1, fun g ims h => ?_⟩
  cases y with
  | single im => simp [kyElem] at h
  | group g0 ims0 =>
    simp only [kyElem, Elem.group.injEq] at h
    rw [← h.2]
    simpa using h2 g0 ims0 rfl

theorem pd_min (env : Env α) (sub : Bool) (els : List (Elem α)) (hg : KyGood env els) (hne : els ≠ []) :
    ∃ m, (skyValues env sub els).foldl minStep (some none) = some (some m) := by
  have hsome := ky_good env sub els hg
  cases hsk : skyValues env sub els with
  | nil =>
    have := congrArg List.length hsk
    exact absurd (by simpa [skyValues] using this) hne
  | cons o os =>
    rw [hsk] at hsome
    obtain ⟨s, rfl⟩ := Option.isSome_iff_exists.1 (hsome o (by simp))
    exact ky_minAll os (fun o ho => hsome o (List.mem_cons_of_mem _ ho)) s

/-- C176, why `global` is excepted: the images keep their constants but for one number `K` for all of them. -/
theorem C176_global_keeps (env : Env α) (solve : Nat → List ((Nat → α) × α) → Nat → α) (z : Nat → α) (md sub : Bool)
    (els : List (Elem α)) (hg : KyGood env els) :
    ∃ K, skymatch env solve .glob md sub (pdEls z els) =
      (skymatch env solve .glob md sub els).map (pdBoth (fun i => if sub then z i - K else z i) fun _ => K) := by
  by_cases hne : els = []
  · subst hne
    exact ⟨0, rfl⟩
  have hl := pd_length z els
  obtain ⟨m, hm⟩ := pd_min env sub els hg hne
  obtain ⟨m', hm'⟩ := pd_min env sub (pdEls z els) (pd_good env z els hg) (fun h => by
    rw [h] at hl
    exact hne (List.length_eq_zero_iff.1 hl.symm))
  refine ⟨m' - m, ?_⟩
  simp only [skymatch, Method.doMatch, Method.doGlobal, Bool.false_eq_true, if_false, Bool.true_or, if_true, wholePhase, hm, hm',
    Option.map_some, hl]
  congr 1
  have := pd_applySome true sub z (fun _ => 0) (fun _ => m' - m) els (List.replicate els.length (some m))
    (fun o ho => by rw [(List.mem_replicate.1 ho).2]; rfl)
  rw [pd_const, List.map_replicate] at this
  simp only [Option.map_some, zero_add, one_mul, add_sub_cancel] at this
  exact this

/-- A single image, a group of two and a single image, connected through the group. -/
noncomputable def pdExample : List (Elem ℝ) :=
  [.single ⟨fun p => p + 3, 0, false⟩, .group 1 [⟨fun _ => 5, 0, false⟩, ⟨fun p => 2 * p, 1, true⟩], .single ⟨fun _ => 7, 2, true⟩]

theorem pd_example (delta : Bool) : PdConnected sgEnv delta pdExample := by
  have l01 : SkLinked sgEnv delta pdExample 0 1 := by
    refine ⟨_, _, sk_pairAt_conv (by omega) ?_ ?_⟩ <;> cases delta <;>
      norm_num [pairAt, pdExample, elemOver, sgEnv, imCalc, groupMean, pair, List.zipIdx_cons]
  have l12 : SkLinked sgEnv delta pdExample 1 2 := by
    refine ⟨_, _, sk_pairAt_conv (by omega) ?_ ?_⟩ <;> cases delta <;>
      norm_num [pairAt, pdExample, elemOver, sgEnv, imCalc, groupMean, pair, List.zipIdx_cons]
  have symm : ∀ a b, SkLinked sgEnv delta pdExample a b → SkLinked sgEnv delta pdExample b a := fun a b ⟨s, t, h⟩ => ⟨t, s, sk_overlap_symm h⟩
  have t01 := Relation.TransGen.single l01
  have t10 := Relation.TransGen.single (symm _ _ l01)
  have t12 := Relation.TransGen.single l12
  have t21 := Relation.TransGen.single (symm _ _ l12)
  intro i hi j hj
  have hi' : i < 3 := hi
  have hj' : j < 3 := hj
  interval_cases i <;> interval_cases j
  · exact t01.trans t10
  · exact t01
  · exact t01.trans t12
  · exact t10
  · exact t10.trans t01
  · exact t12
  · exact t21.trans t10
  · exact t21
  · exact t21.trans t12

-- C176_pedestals: all hypotheses hold for a real solver and arbitrary constants
example (z : Nat → ℝ) (sub : Bool) : ∃ solve, SgShift sgEnv ∧ SkLeastSquares sgEnv solve (!sub) pdExample
    ∧ SkLeastSquares sgEnv solve (!sub) (pdEls z pdExample) ∧ PdConnected sgEnv (!sub) pdExample ∧ KyGood sgEnv pdExample := by
  obtain ⟨solve, hp⟩ := sg_solver
  refine ⟨solve, sg_env_shift, (hp _ _).1, (hp _ _).1, pd_example _, ?_⟩
  intro e x hx
  refine ⟨fun _ => rfl, fun g ims h => ?_⟩
  subst h
  have := List.mem_of_getElem? hx
  simp only [pdExample, List.mem_cons, reduceCtorEq, List.not_mem_nil, or_false, false_or, Elem.group.injEq] at this
  rw [this.2]
  simp

end Verif.Thm
