import Verif.Thm.JumpDriver

/-! # A stronger hit leaves the same jump flags (C182) -/

set_option linter.unusedSectionVars false

namespace Verif.Thm
open Verif Verif.Jump Verif.JumpDriver

variable {α : Type} [Field α] [LinearOrder α] [IsStrictOrderedRing α]

/-! ## Specification -/

/-- Specification: in one integration of one pixel, all groups from `g0` on are higher by `K`. -/
def hsRaise (i0 g0 r0 c0 : Nat) (K : α) (data : Cube (Option α)) : Cube (Option α) := fun i g r c =>
  if i = i0 ∧ g0 ≤ g ∧ r = r0 ∧ c = c0 then (data i g r c).map fun x => x + K else data i g r c

/-- Specification: the difference to group `g0` is `v` and all other differences of the pixel are smaller (in size). -/
structure HsLargest (p : Params α) (d : Dims) (data : Cube (Option α)) (gdq : Cube Nat) (size : α → α) (i0 g0 r0 c0 : Nat) (v : α) : Prop where
  inside : i0 < d.ni ∧ 1 ≤ g0 ∧ g0 < d.ng
  value : jdDiff p data gdq i0 (g0 - 1) r0 c0 = some v
  other : ∀ i < d.ni, ∀ j, j + 1 < d.ng → (i, j) ≠ (i0, g0 - 1) → ∀ x, jdDiff p data gdq i j r0 c0 = some x → size x < size v

/-! ## Statistics -/

theorem hs_finite (A B : List (Option α)) (v : α) : finite (A ++ some v :: B) = finite A ++ v :: finite B := by
  simp [finite, List.filterMap_append]

theorem hs_mem (l : List (Option α)) (x : α) : x ∈ finite l ↔ some x ∈ l := by
  simp [finite, List.mem_filterMap]

theorem hs_sort (a b : List α) (v : α) (h : ∀ x ∈ a ++ b, x ≤ v) :
    (a ++ v :: b).insertionSort (· ≤ ·) = (a ++ b).insertionSort (· ≤ ·) ++ [v] := by
  refine List.Perm.eq_of_pairwise (le := (· ≤ ·)) (fun x y _ _ h1 h2 => le_antisymm h1 h2) (List.pairwise_insertionSort (· ≤ ·) _) ?_ ?_
  · rw [List.pairwise_append]
    refine ⟨List.pairwise_insertionSort (· ≤ ·) _, List.pairwise_singleton _ _, fun x hx y hy => ?_⟩
    rw [List.mem_singleton.1 hy]
    exact h x ((List.perm_insertionSort (· ≤ ·) _).mem_iff.1 hx)
  · refine (List.perm_insertionSort _ _).trans (List.perm_middle.trans ?_)
    refine List.Perm.trans ?_ (List.perm_append_singleton v _).symm
    exact List.Perm.cons v (List.perm_insertionSort (· ≤ ·) _).symm

theorem hs_medianSorted (t : List α) (v w : α) (h : 2 ≤ t.length) : medianSorted (t ++ [v]) = medianSorted (t ++ [w]) := by
  have h1 : (t.length + 1) / 2 < t.length := by omega
  simp only [medianSorted, List.length_append, List.length_singleton]
  rw [List.getElem?_append_left h1, List.getElem?_append_left h1, List.getElem?_append_left (by omega), List.getElem?_append_left (by omega)]

/-- Without the largest value only the number of values counts. -/
theorem hs_median (A B : List (Option α)) (v w : α) (h : ∀ x, some x ∈ A ∨ some x ∈ B → x < v) (hw : v ≤ w)
    (h3 : 3 ≤ (finite (A ++ some v :: B)).length) : nanmedian (A ++ some w :: B) = nanmedian (A ++ some v :: B) := by
  simp only [nanmedian, hs_finite]
  have hx : ∀ x ∈ finite A ++ finite B, x < v := by
    intro x hx
    rw [List.mem_append, hs_mem, hs_mem] at hx
    exact h x hx
  rw [hs_sort _ _ v fun x h' => (hx x h').le, hs_sort _ _ w fun x h' => (hx x h').le.trans hw]
  refine hs_medianSorted _ _ _ ?_
  rw [hs_finite, List.length_append, List.length_cons] at h3
  rw [List.length_insertionSort, List.length_append]
  omega

theorem hs_max (A B : List (Option α)) (v : α) (h : ∀ x, some x ∈ A ∨ some x ∈ B → x < v) : nanmax (A ++ some v :: B) = some v := by
  obtain ⟨m, hm⟩ := nanmax_exists (A ++ some v :: B) v (by simp)
  obtain ⟨h1, h2⟩ := nanmax_spec _ _ hm
  have hv := h2 v (by simp)
  rw [hm]
  rcases List.mem_append.1 h1 with h1 | h1
  · exact absurd (h m (Or.inl h1)) (not_lt.2 hv)
  · rcases List.mem_cons.1 h1 with h1 | h1
    · exact h1
    · exact absurd (h m (Or.inr h1)) (not_lt.2 hv)

theorem hs_calcMed (A B : List (Option α)) (v w : α) (h : ∀ x, some x ∈ A ∨ some x ∈ B → x < v) (hw : v ≤ w) :
    calcMed (A ++ some w :: B) = calcMed (A ++ some v :: B) := by
  have h' : ∀ x, some x ∈ A ∨ some x ∈ B → x < w := fun x hx => (h x hx).trans_le hw
  have hlen : (finite (A ++ some w :: B)).length = (finite (A ++ some v :: B)).length := by simp [hs_finite]
  simp only [calcMed, hlen]
  split
  · rfl
  split
  · rename_i _ h2
    simp only [nanmin]
    rw [hs_finite, List.length_append, List.length_cons] at h2
    rw [hs_finite, hs_finite]
    have hm : ∀ x ∈ finite A ++ finite B, x < v := by
      intro x hx
      rw [List.mem_append, hs_mem, hs_mem] at hx
      exact h x hx
    rcases hA : finite A with _ | ⟨a, _ | ⟨b, A'⟩⟩
    · rcases hB : finite B with _ | ⟨b, _ | ⟨c, B'⟩⟩
      · rw [hA, hB] at h2; simp at h2
      · have hb : b < v := hm b (by rw [hB]; simp)
        simp [List.min?, min_eq_right hb.le, min_eq_right (hb.le.trans hw)]
      · rw [hA, hB] at h2; simp at h2
    · rcases hB : finite B with _ | ⟨b, B'⟩
      · have ha : a < v := hm a (by rw [hA]; simp)
        simp [List.min?, min_eq_left ha.le, min_eq_left (ha.le.trans hw)]
      · rw [hA, hB] at h2; simp at h2; omega
    · rw [hA] at h2; simp at h2; omega
  split
  · rw [hs_max A B v h, hs_max A B w h']
    have hmask : ∀ (u : α), (∀ x, some x ∈ A ∨ some x ∈ B → x < u) →
        (A ++ some u :: B).map (fun x => if x = some u then none else x) = A ++ none :: B := by
      intro u hu
      have hid : ∀ L : List (Option α), (∀ x, some x ∈ L → x < u) → L.map (fun x => if x = some u then none else x) = L := by
        intro L hL
        conv_rhs => rw [← List.map_id L]
        refine List.map_congr_left fun x hx => ?_
        rw [if_neg]
        · rfl
        · rintro rfl
          exact lt_irrefl _ (hL u hx)
      rw [List.map_append, List.map_cons, if_pos rfl, hid A fun x hx => hu x (Or.inl hx), hid B fun x hx => hu x (Or.inr hx)]
    rw [hmask v h, hmask w h']
  · rename_i h1 h2 h4
    exact hs_median A B v w h hw (by omega)

/-! ## Tables -/

/-- The value `v` becomes `w`. -/
def hsG (v w : α) (x : α) : α := if x = v then w else x

theorem hs_split (fa : List (List (Option α))) (i0 j0 : Nat) (v : α) (h0 : at2 fa i0 j0 = some v)
    (h : ∀ i j x, (i, j) ≠ (i0, j0) → at2 fa i j = some x → x < v) :
    ∃ A B, fa.flatten = A ++ some v :: B ∧ ∀ x, some x ∈ A ∨ some x ∈ B → x < v := by
  have hi : i0 < fa.length := by
    by_contra hn
    simp [at2, List.getElem?_eq_none (not_lt.1 hn)] at h0
  have hrow : fa[i0]? = some fa[i0] := List.getElem?_eq_getElem hi
  have hj : j0 < (fa[i0]).length := by
    by_contra hn
    simp [at2, hrow, List.getElem?_eq_none (not_lt.1 hn)] at h0
  have hv : (fa[i0])[j0] = some v := by
    simpa [at2, hrow, List.getElem?_eq_getElem hj] using h0
  have hfa : fa = fa.take i0 ++ fa[i0] :: fa.drop (i0 + 1) := by
    rw [← List.drop_eq_getElem_cons hi, List.take_append_drop]
  have hr : fa[i0] = (fa[i0]).take j0 ++ some v :: (fa[i0]).drop (j0 + 1) := by
    rw [← hv, ← List.drop_eq_getElem_cons hj, List.take_append_drop]
  have hat : ∀ i j (row : List (Option α)) x, fa[i]? = some row → row[j]? = some (some x) → at2 fa i j = some x := by
    intro i j row x h1 h2
    simp [at2, h1, h2]
  refine ⟨(fa.take i0).flatten ++ (fa[i0]).take j0, (fa[i0]).drop (j0 + 1) ++ (fa.drop (i0 + 1)).flatten, ?_, ?_⟩
  · conv_lhs => rw [hfa, List.flatten_append, List.flatten_cons, hr]
    simp only [List.append_assoc, List.cons_append]
  · intro x hx
    rw [List.mem_append, List.mem_append] at hx
    rcases hx with (hx | hx) | (hx | hx)
    · obtain ⟨row, hrow', hx⟩ := List.mem_flatten.1 hx
      obtain ⟨i, hi'⟩ := List.mem_iff_getElem?.1 hrow'
      obtain ⟨j, hj'⟩ := List.mem_iff_getElem?.1 hx
      rw [List.getElem?_take] at hi'
      split at hi'
      · rename_i hlt
        refine h i j x (fun e => ?_) (hat i j row x hi' hj')
        have := congrArg Prod.fst e
        simp only at this
        omega
      · cases hi'
    · obtain ⟨j, hj'⟩ := List.mem_iff_getElem?.1 hx
      rw [List.getElem?_take] at hj'
      split at hj'
      · rename_i hlt
        refine h i0 j x (fun e => ?_) (hat i0 j _ x hrow hj')
        have := congrArg Prod.snd e
        simp only at this
        omega
      · cases hj'
    · obtain ⟨j, hj'⟩ := List.mem_iff_getElem?.1 hx
      rw [List.getElem?_drop] at hj'
      refine h i0 (j0 + 1 + j) x (fun e => ?_) (hat i0 _ _ x hrow hj')
      have := congrArg Prod.snd e
      simp only at this
      omega
    · obtain ⟨row, hrow', hx⟩ := List.mem_flatten.1 hx
      obtain ⟨i, hi'⟩ := List.mem_iff_getElem?.1 hrow'
      obtain ⟨j, hj'⟩ := List.mem_iff_getElem?.1 hx
      rw [List.getElem?_drop] at hi'
      refine h (i0 + 1 + i) j x (fun e => ?_) (hat _ j row x hi' hj')
      have := congrArg Prod.fst e
      simp only at this
      omega

theorem hs_flatten_map (A B : List (Option α)) (v w : α) (h : ∀ x, some x ∈ A ∨ some x ∈ B → x < v) :
    (A ++ some v :: B).map (Option.map (hsG v w)) = A ++ some w :: B := by
  have hid : ∀ L : List (Option α), (∀ x, some x ∈ L → x < v) → L.map (Option.map (hsG v w)) = L := by
    intro L hL
    conv_rhs => rw [← List.map_id L]
    refine List.map_congr_left fun x hx => ?_
    rcases x with _ | x
    · rfl
    · simp [hsG, (hL x hx).ne]
  rw [List.map_append, List.map_cons, hid A fun x hx => h x (Or.inl hx), hid B fun x hx => h x (Or.inr hx)]
  simp [hsG]

theorem hs_map_at2 (fa : List (List (Option α))) (f : Option α → Option α) (hf : f none = none) (i j : Nat) :
    at2 (fa.map fun row => row.map f) i j = f (at2 fa i j) := by
  unfold at2
  rw [List.getElem?_map]
  cases fa[i]? with
  | none => simp [hf]
  | some row =>
    simp only [Option.map_some, Option.getD_some, List.getElem?_map]
    cases row[j]? with
    | none => simp [hf]
    | some x => rfl

theorem hs_ext {β : Type} (z : β) (a b : List (List β)) (hs : SameShape a b) (h : ∀ i j, entry z a i j = entry z b i j) : a = b := by
  apply List.ext_getElem?
  intro i
  have hr := hs.rows i
  cases ha : a[i]? with
  | none =>
    rw [ha] at hr
    cases hb : b[i]? with
    | none => rfl
    | some y => rw [hb] at hr; simp at hr
  | some x =>
    rw [ha] at hr
    cases hb : b[i]? with
    | none => rw [hb] at hr; simp at hr
    | some y =>
      rw [hb] at hr
      simp only [Option.map_some, Option.some.injEq] at hr ⊢
      apply List.ext_getElem hr
      intro j h1 h2
      have := h i j
      simpa [entry, ha, hb, List.getElem?_eq_getElem h1, List.getElem?_eq_getElem h2] using this

theorem hs_at2_entry (l : List (List (Option α))) (i j : Nat) : entry none l i j = at2 l i j := rfl

/-! ## The iterative search -/

section
variable (p : Params α) (sqrt : α → α) (rn2 : α) (fa : List (List (Option α))) (i0 j0 : Nat) (v w : α)

/-- What is needed of the differences. -/
structure HsTable : Prop where
  value : at2 fa i0 j0 = some v
  other : ∀ i j x, (i, j) ≠ (i0, j0) → at2 fa i j = some x → x < v
  up : v ≤ w
  noise : 0 ≤ sqrt (|(calcMed fa.flatten).getD 0| * p.dt j0 + rn2 / (1 / 2 * p.nReads j0))
  dt : 0 < p.dt j0

variable {p sqrt rn2 fa i0 j0 v w}

theorem hs_med (h : HsTable p sqrt rn2 fa i0 j0 v w) :
    calcMed (fa.map fun row => row.map (Option.map (hsG v w))).flatten = calcMed fa.flatten ∧
    (finite (fa.map fun row => row.map (Option.map (hsG v w))).flatten).length = (finite fa.flatten).length := by
  obtain ⟨A, B, hAB, hlt⟩ := hs_split fa i0 j0 v h.value h.other
  rw [← List.map_flatten, hAB, hs_flatten_map A B v w hlt]
  exact ⟨hs_calcMed A B v w hlt h.up, by simp [hs_finite]⟩

theorem hs_nanmedian_le (l : List (Option α)) (v m : α) (hm : nanmedian l = some m) (hl : ∀ x, some x ∈ l → x ≤ v) : m ≤ v := by
  have hs : ∀ x ∈ (finite l).insertionSort (· ≤ ·), x ≤ v := by
    intro x hx
    exact hl x ((hs_mem l x).1 ((List.perm_insertionSort (· ≤ ·) _).mem_iff.1 hx))
  simp only [nanmedian] at hm
  generalize (finite l).insertionSort (· ≤ ·) = s at hm hs
  simp only [medianSorted] at hm
  split at hm
  · cases hm
  split at hm
  · exact hs m (List.mem_of_getElem? hm)
  · split at hm
    · rename_i a b ha hb
      cases hm
      have h1 := hs a (List.mem_of_getElem? ha)
      have h2 := hs b (List.mem_of_getElem? hb)
      linarith
    · cases hm

theorem hs_median_le (A B : List (Option α)) (v : α) (h : ∀ x, some x ∈ A ∨ some x ∈ B → x < v) (m : α)
    (hm : nanmedian (A ++ some v :: B) = some m) : m ≤ v := by
  refine hs_nanmedian_le _ v m hm fun x hx => ?_
  rcases List.mem_append.1 hx with hx | hx
  · exact (h x (Or.inl hx)).le
  · rcases List.mem_cons.1 hx with hx | hx
    · cases hx
      exact le_refl _
    · exact (h x (Or.inr hx)).le

theorem hs_calcMed_le (A B : List (Option α)) (v : α) (h : ∀ x, some x ∈ A ∨ some x ∈ B → x < v) (m : α)
    (hm : calcMed (A ++ some v :: B) = some m) : m ≤ v := by
  have hall : ∀ x, some x ∈ A ++ some v :: B → x ≤ v := by
    intro x hx
    rcases List.mem_append.1 hx with hx | hx
    · exact (h x (Or.inl hx)).le
    · rcases List.mem_cons.1 hx with hx | hx
      · cases hx
        exact le_refl _
      · exact (h x (Or.inr hx)).le
  have hmed : ∀ (l : List (Option α)) (m : α), nanmedian l = some m → (∀ x, some x ∈ l → x ≤ v) → m ≤ v :=
    fun l m hm hl => hs_nanmedian_le l v m hm hl
  simp only [calcMed] at hm
  split at hm
  · cases hm
  split at hm
  · simp only [nanmin] at hm
    rw [List.min?_eq_some_iff] at hm
    exact hall m ((hs_mem _ m).1 hm.1)
  split at hm
  · refine hmed _ m hm fun x hx => ?_
    obtain ⟨y, hy, he⟩ := List.mem_map.1 hx
    split at he
    · cases he
    · exact hall x (he ▸ hy)
  · exact hmed _ m hm hall

theorem hs_new (h : HsTable p sqrt rn2 fa i0 j0 v w) (r0 t : α) (hr0 : at2 (ratios p sqrt rn2 fa) i0 j0 = some r0)
    (hmax : ∀ i j r, (i, j) ≠ (i0, j0) → at2 (ratios p sqrt rn2 fa) i j = some r → r < r0)
    (ht : threshold p (finite fa.flatten).length = some t) (hlt : t < r0) :
    newCr p sqrt rn2 (fa.map fun row => row.map (Option.map (hsG v w))) = newCr p sqrt rn2 fa ∧
    ∀ i j, bat2 (newCr p sqrt rn2 fa) i j = true ↔ (i, j) = (i0, j0) := by
  obtain ⟨hmed, hlen⟩ := hs_med h
  have hat : ∀ i j, at2 (fa.map fun row => row.map (Option.map (hsG v w))) i j = (at2 fa i j).map (hsG v w) :=
    fun i j => hs_map_at2 fa _ rfl i j
  have hother : ∀ i j, (i, j) ≠ (i0, j0) →
      at2 (ratios p sqrt rn2 (fa.map fun row => row.map (Option.map (hsG v w)))) i j = at2 (ratios p sqrt rn2 fa) i j := by
    intro i j hne
    rw [ratios_at2, ratios_at2, hmed, hat]
    cases hx : at2 fa i j with
    | none => rfl
    | some x =>
      have := h.other i j x hne hx
      simp [hsG, this.ne]
  have hself : ∃ r1, at2 (ratios p sqrt rn2 (fa.map fun row => row.map (Option.map (hsG v w)))) i0 j0 = some r1 ∧ r0 ≤ r1 := by
    rw [ratios_at2, hmed, hat, h.value]
    rw [ratios_at2, h.value] at hr0
    cases hm : calcMed fa.flatten with
    | none => rw [hm] at hr0; simp [ratio] at hr0
    | some m =>
      rw [hm] at hr0
      cases hs : sigma p sqrt rn2 (some m) j0 with
      | none => rw [hs] at hr0; simp [ratio] at hr0
      | some s =>
        rw [hs] at hr0
        obtain ⟨m', hm', hsv, hs0⟩ := (sigma_some p sqrt rn2 (some m) j0 s).mp hs
        cases hm'
        simp only [ratio, Option.some.injEq] at hr0
        refine ⟨_, rfl, ?_⟩
        have hn := h.noise
        rw [hm, Option.getD_some] at hn
        have hspos : 0 ≤ s := by
          rw [hsv]
          exact div_nonneg hn h.dt.le
        obtain ⟨A, B, hAB, hlt'⟩ := hs_split fa i0 j0 v h.value h.other
        have hle := hs_calcMed_le A B v hlt' m (by rw [← hAB]; exact hm)
        rw [← hr0]
        simp only [hsG, if_true]
        refine div_le_div_of_nonneg_right ?_ hspos
        rw [abs_of_nonneg (by linarith), abs_of_nonneg (by linarith [h.up])]
        linarith [h.up]
  obtain ⟨r1, hr1, hle⟩ := hself
  have hnew : ∀ i j, bat2 (newCr p sqrt rn2 fa) i j = true ↔ (i, j) = (i0, j0) := by
    intro i j
    rw [newCr_bat2]
    constructor
    · rintro ⟨r, t', hr, _, _, hm⟩
      by_contra hne
      exact absurd (hm i0 j0 r0 hr0) (not_le.2 (hmax i j r hne hr))
    · intro e
      cases e
      refine ⟨r0, t, hr0, ht, hlt, fun i' j' r' h' => ?_⟩
      by_cases e : (i', j') = (i0, j0)
      · cases e
        rw [hr0] at h'
        cases h'
        exact le_refl _
      · exact (hmax i' j' r' e h').le
  refine ⟨?_, hnew⟩
  refine hs_ext false _ _ ?_ fun i j => ?_
  · simp [SameShape, newCr, ratios, Function.comp_def]
  · rw [jd_bat2, jd_bat2, Bool.eq_iff_iff, hnew, newCr_bat2]
    constructor
    · rintro ⟨r, t', hr, _, _, hm⟩
      by_contra hne
      rw [hother i j hne] at hr
      exact absurd (hm i0 j0 r1 hr1) (not_le.2 ((hmax i j r hne hr).trans_le hle))
    · intro e
      cases e
      refine ⟨r1, t, hr1, by rw [hlen]; exact ht, hlt.trans_le hle, fun i' j' r' h' => ?_⟩
      by_cases e : (i', j') = (i0, j0)
      · cases e
        rw [hr1] at h'
        cases h'
        exact le_refl _
      · rw [hother i' j' e] at h'
        exact (hmax i' j' r' e h').le.trans hle

theorem hs_iterLoop (h : HsTable p sqrt rn2 fa i0 j0 v w) (r0 : α) (hr0 : at2 (ratios p sqrt rn2 fa) i0 j0 = some r0)
    (hmax : ∀ i j r, (i, j) ≠ (i0, j0) → at2 (ratios p sqrt rn2 fa) i j = some r → r < r0) (fuel : Nat) (acc : List (List Bool))
    (hacc : ∀ i j, bat2 acc i j = false) (hfound : bat2 (iterLoop p sqrt rn2 (fuel + 1) fa acc).2 i0 j0 = true) :
    iterLoop p sqrt rn2 (fuel + 1) (fa.map fun row => row.map (Option.map (hsG v w))) acc = iterLoop p sqrt rn2 (fuel + 1) fa acc := by
  have hany : ∀ l : List (List Bool), (l.flatten.any fun b => b) = true ↔ ∃ i j, bat2 l i j = true := by
    intro l
    rw [List.any_eq_true]
    constructor
    · rintro ⟨b, hb, rfl⟩
      obtain ⟨row, hrow, hx⟩ := List.mem_flatten.1 hb
      obtain ⟨i, hi⟩ := List.mem_iff_getElem?.1 hrow
      obtain ⟨j, hj⟩ := List.mem_iff_getElem?.1 hx
      exact ⟨i, j, by simp [bat2, hi, hj]⟩
    · rintro ⟨i, j, hb⟩
      refine ⟨true, ?_, rfl⟩
      unfold bat2 at hb
      cases hi : l[i]? with
      | none => rw [hi] at hb; simp at hb
      | some row =>
        rw [hi] at hb
        simp only [Option.getD_some] at hb
        cases hj : row[j]? with
        | none => rw [hj] at hb; simp at hb
        | some b =>
          rw [hj] at hb
          simp only [Option.getD_some] at hb
          subst hb
          exact List.mem_flatten.2 ⟨row, List.mem_of_getElem? hi, List.mem_of_getElem? hj⟩
  -- the first pass finds it
  have hfirst : ∃ t, threshold p (finite fa.flatten).length = some t ∧ t < r0 := by
    by_contra hno
    have hnone : ¬ ∃ i j, bat2 (newCr p sqrt rn2 fa) i j = true := by
      rintro ⟨i, j, hb⟩
      obtain ⟨r, t, hr, ht, hlt, -⟩ := (newCr_bat2 p sqrt rn2 fa i j).1 hb
      refine hno ⟨t, ht, lt_of_lt_of_le hlt ?_⟩
      by_cases e : (i, j) = (i0, j0)
      · cases e
        rw [hr0] at hr
        cases hr
        exact le_refl _
      · exact (hmax i j r e hr).le
    rw [← hany, Bool.not_eq_true] at hnone
    rw [iterLoop] at hfound
    simp only [hnone, if_true] at hfound
    rw [hacc] at hfound
    cases hfound
  obtain ⟨t, ht, hlt⟩ := hfirst
  obtain ⟨hsame, hnew⟩ := hs_new h r0 t hr0 hmax ht hlt
  have hmask : maskNew (fa.map fun row => row.map (Option.map (hsG v w))) (newCr p sqrt rn2 fa) = maskNew fa (newCr p sqrt rn2 fa) := by
    have hs1 : SameShape fa (newCr p sqrt rn2 fa) := by simp [SameShape, newCr, ratios, Function.comp_def]
    have hs2 : SameShape (fa.map fun row => row.map (Option.map (hsG v w))) (newCr p sqrt rn2 fa) := by
      simp [SameShape, newCr, ratios, Function.comp_def]
    refine hs_ext none _ _ ?_ fun i j => ?_
    · have e1 := sameShape_zipWith (fun (x : Option α) (b : Bool) => if b then none else x) _ _ hs1
      have e2 := sameShape_zipWith (fun (x : Option α) (b : Bool) => if b then none else x) _ _ hs2
      have e3 : SameShape fa (fa.map fun row => row.map (Option.map (hsG v w))) := by simp [SameShape, Function.comp_def]
      exact e2.symm.trans (e3.symm.trans e1)
    · rw [hs_at2_entry, hs_at2_entry, maskNew_at2 _ _ hs1, maskNew_at2 _ _ hs2]
      by_cases hb : bat2 (newCr p sqrt rn2 fa) i j = true
      · rw [if_pos hb, if_pos hb]
      · rw [if_neg hb, if_neg hb, hs_map_at2 fa _ rfl]
        rw [hnew] at hb
        cases hx : at2 fa i j with
        | none => rfl
        | some x =>
          have := h.other i j x hb hx
          simp [hsG, this.ne]
  rw [iterLoop, iterLoop, hsame, hmask]
  have hne : ¬ (((newCr p sqrt rn2 fa).flatten.any fun b => b) = false) := by
    rw [Bool.not_eq_false, hany]
    exact ⟨i0, j0, (hnew i0 j0).2 rfl⟩
  simp only [if_neg hne]

end

/-! ## C182 -/

theorem hs_lo (data : Cube (Option α)) (i g0 r c g : Nat) (K : α) (h : g < g0) : hsRaise i g0 r c K data i g r c = data i g r c :=
  if_neg (by omega)

theorem hs_hi (data : Cube (Option α)) (i g0 r c g : Nat) (K : α) (h : g0 ≤ g) :
    hsRaise i g0 r c K data i g r c = (data i g r c).map fun x => x + K := if_pos ⟨rfl, h, rfl, rfl⟩

theorem hs_diff (p : Params α) (data : Cube (Option α)) (gdq : Cube Nat) (i0 g0 r0 c0 : Nat) (v K : α) (hg : 1 ≤ g0)
    (hv : jdDiff p data gdq i0 (g0 - 1) r0 c0 = some v) (i j r c : Nat) :
    jdDiff p (hsRaise i0 g0 r0 c0 K data) gdq i j r c =
      if i = i0 ∧ j = g0 - 1 ∧ r = r0 ∧ c = c0 then some (v + K / p.dt j) else jdDiff p data gdq i j r c := by
  by_cases hp : i = i0 ∧ r = r0 ∧ c = c0
  · obtain ⟨rfl, rfl, rfl⟩ := hp
    by_cases hj : j = g0 - 1
    · subst hj
      rw [if_pos ⟨rfl, rfl, rfl, rfl⟩]
      simp only [jdDiff] at hv ⊢
      split at hv
      · cases hv
      · rename_i hbad
        rw [if_neg hbad]
        rw [hs_lo data i g0 r c (g0 - 1) K (by omega), hs_hi data i g0 r c (g0 - 1 + 1) K (by omega)]
        cases h1 : data i (g0 - 1) r c with
        | none => rw [h1] at hv; cases hv
        | some x =>
          cases h2 : data i (g0 - 1 + 1) r c with
          | none => rw [h1, h2] at hv; cases hv
          | some y =>
            rw [h1, h2] at hv
            simp only [Option.some.injEq] at hv
            simp only [Option.map_some, Option.some.injEq]
            rw [← hv]
            ring
    · rw [if_neg (by tauto)]
      simp only [jdDiff]
      split
      · rfl
      · by_cases hlt : j + 1 < g0
        · rw [hs_lo data i g0 r c j K (by omega), hs_lo data i g0 r c (j + 1) K hlt]
        · rw [hs_hi data i g0 r c j K (by omega), hs_hi data i g0 r c (j + 1) K (by omega)]
          cases data i j r c with
          | none => rfl
          | some x =>
            cases data i (j + 1) r c with
            | none => rfl
            | some y =>
              simp only [Option.map_some, add_sub_add_right_eq_sub]
  · rw [if_neg (by tauto)]
    simp only [jdDiff, hsRaise, if_neg (show ¬ (i = i0 ∧ g0 ≤ j ∧ r = r0 ∧ c = c0) by tauto),
      if_neg (show ¬ (i = i0 ∧ g0 ≤ j + 1 ∧ r = r0 ∧ c = c0) by tauto)]

theorem hs_other_pixel (p : Params α) (d : Dims) (data : Cube (Option α)) (gdq : Cube Nat) (i0 g0 r0 c0 : Nat) (v K : α)
    (hg : 1 ≤ g0) (hv : jdDiff p data gdq i0 (g0 - 1) r0 c0 = some v) (r c : Nat) (h : ¬ (r = r0 ∧ c = c0)) :
    jdDiffs p d (hsRaise i0 g0 r0 c0 K data) gdq r c = jdDiffs p d data gdq r c := by
  simp only [jdDiffs]
  refine List.map_congr_left fun i _ => List.map_congr_left fun j _ => ?_
  rw [hs_diff p data gdq i0 g0 r0 c0 v K hg hv, if_neg (by tauto)]

/-- The differences of the pixel that was hit, by size. -/
theorem hs_table (p : Params α) (d : Dims) (data : Cube (Option α)) (gdq : Cube Nat) (i0 g0 r0 c0 : Nat) (v K : α)
    (size : α → α) (h : HsLargest p d data gdq size i0 g0 r0 c0 v) :
    (jdDiffs p d (hsRaise i0 g0 r0 c0 K data) gdq r0 c0).map (fun row => row.map (Option.map size)) =
      ((jdDiffs p d data gdq r0 c0).map fun row => row.map (Option.map size)).map fun row =>
        row.map (Option.map (hsG (size v) (size (v + K / p.dt (g0 - 1))))) := by
  simp only [jdDiffs, List.map_map]
  refine List.map_congr_left fun i hi => ?_
  simp only [Function.comp_def, List.map_map]
  refine List.map_congr_left fun j hj => ?_
  rw [hs_diff p data gdq i0 g0 r0 c0 v K h.inside.2.1 h.value]
  by_cases e : i = i0 ∧ j = g0 - 1
  · obtain ⟨rfl, rfl⟩ := e
    rw [if_pos ⟨rfl, rfl, rfl, rfl⟩, h.value]
    simp [hsG]
  · rw [if_neg (by tauto)]
    cases hx : jdDiff p data gdq i j r0 c0 with
    | none => rfl
    | some x =>
      have := h.other i (by simpa using hi) j (by have := List.mem_range.1 hj; omega)
        (fun e' => e ⟨congrArg Prod.fst e', congrArg Prod.snd e'⟩) x hx
      simp [hsG, this.ne]

theorem hs_table_at2 (p : Params α) (d : Dims) (data : Cube (Option α)) (gdq : Cube Nat) (size : α → α) (r c i j : Nat) :
    at2 ((jdDiffs p d data gdq r c).map fun row => row.map (Option.map size)) i j =
      if i < d.ni ∧ j + 1 < d.ng then (jdDiff p data gdq i j r c).map size else none := by
  rw [hs_map_at2 _ _ rfl, ← hs_at2_entry, ← jd_diffs, jd_entry]
  split <;> rfl

theorem hs_of_largest (p : Params α) (sqrt : α → α) (rn2 : α) (d : Dims) (data : Cube (Option α)) (gdq : Cube Nat)
    (i0 g0 r0 c0 : Nat) (v w : α) (size : α → α) (h : HsLargest p d data gdq size i0 g0 r0 c0 v) (hw : size v ≤ w)
    (hsq : ∀ x, 0 ≤ sqrt x) (hdt : 0 < p.dt (g0 - 1)) :
    HsTable p sqrt rn2 ((jdDiffs p d data gdq r0 c0).map fun row => row.map (Option.map size)) i0 (g0 - 1) (size v) w where
  value := by
    have := h.inside
    rw [hs_table_at2, if_pos ⟨h.inside.1, by omega⟩, h.value]
    rfl
  other := by
    intro i j x hne hx
    rw [hs_table_at2] at hx
    split at hx
    · rename_i hin
      cases hy : jdDiff p data gdq i j r0 c0 with
      | none => rw [hy] at hx; cases hx
      | some y =>
        rw [hy] at hx
        cases hx
        exact h.other i hin.1 j hin.2 hne y hy
    · cases hx
  up := hw
  noise := hsq _
  dt := hdt

/-- C182 (single pass).  If the largest difference of a pixel is flagged as a jump, then a hit stronger by any amount is
flagged in the same way and changes no other word of the exposure: every word found is the one found before (single-pass
search; at least three usable differences in the pixel; neighbour and after-jump flagging switched off). -/
theorem C182_single_pass (p : Params α) (sqrt : α → α) (clip : List (Option α) → List Bool) (s : Switch) (d : Dims)
    (rn : Nat → Nat → α) (data : Cube (Option α)) (gdq : Cube Nat) (hfew : ¬ JdTooFew p s d gdq)
    (hclip : ¬ JdClip p s d gdq) (hs : ∀ i < d.ni, s.minSingle < jdUsable p d gdq i) (h4 : s.flag4 = false)
    (h1 : p.n1 = 0) (h2 : p.n2 = 0) (hsq : ∀ x, 0 ≤ sqrt x) (i0 g0 r0 c0 : Nat) (v K : α) (hK : 0 ≤ K)
    (hdt : 0 < p.dt (g0 - 1)) (hl : HsLargest p d data gdq (fun x => x) i0 g0 r0 c0 v)
    (h3 : 3 ≤ inUse (jdDiffs p d data gdq r0 c0))
    (hflag : (findCrs p sqrt clip s d rn data gdq).gdq i0 g0 r0 c0 ≠ gdq i0 g0 r0 c0)
    (i g r c : Nat) (hi : i < d.ni) (hg : g < d.ng) :
    (findCrs p sqrt clip s d rn (hsRaise i0 g0 r0 c0 K data) gdq).gdq i g r c =
      (findCrs p sqrt clip s d rn data gdq).gdq i g r c := by
  have hid : ∀ l : List (List (Option α)), (l.map fun row => row.map (Option.map fun x : α => x)) = l := by
    intro l
    simp
  have hw : v ≤ v + K / p.dt (g0 - 1) := by
    have := div_nonneg hK hdt.le
    linarith
  have hmed : ∀ r c, nanmedian (jdDiffs p d (hsRaise i0 g0 r0 c0 K data) gdq r c).flatten =
      nanmedian (jdDiffs p d data gdq r c).flatten := by
    intro r c
    by_cases e : r = r0 ∧ c = c0
    · obtain ⟨rfl, rfl⟩ := e
      have ht := hs_table p d data gdq i0 g0 r c v K (fun x => x) hl
      have hT := hs_of_largest p sqrt 0 d data gdq i0 g0 r c v _ (fun x => x) hl hw hsq hdt
      rw [hid] at hT
      rw [hid, hid] at ht
      obtain ⟨A, B, hAB, hlt⟩ := hs_split _ i0 (g0 - 1) v hT.value hT.other
      rw [ht, ← List.map_flatten, hAB, hs_flatten_map A B v _ hlt]
      refine hs_median A B v _ hlt hw ?_
      rw [← hAB, ← inUse_eq]
      exact h3
    · rw [hs_other_pixel p d data gdq i0 g0 r0 c0 v K hl.inside.2.1 hl.value r c e]
  have hout0 : JdOutlier p sqrt d rn data gdq i0 g0 r0 c0 := by
    by_contra hno
    exact hflag ((C97_single_pass p sqrt clip s d rn data gdq hfew hclip hs h4 h1 h2 i0 g0 r0 c0 hl.inside.1 hl.inside.2.2).2 hno)
  have hiff : JdOutlier p sqrt d rn (hsRaise i0 g0 r0 c0 K data) gdq i g r c ↔ JdOutlier p sqrt d rn data gdq i g r c := by
    by_cases e : i = i0 ∧ g = g0 ∧ r = r0 ∧ c = c0
    · obtain ⟨rfl, rfl, rfl, rfl⟩ := e
      refine iff_of_true ?_ hout0
      obtain ⟨hg1, x, m, hx, hm, hne, hlt⟩ := hout0
      have hxv : x = v := by
        rw [hl.value] at hx
        cases hx
        rfl
      refine ⟨hg1, v + K / p.dt (g - 1), m, ?_, by rw [hmed]; exact hm, hne, lt_of_lt_of_le hlt ?_⟩
      · rw [hs_diff p data gdq i g r c v K hg1 hl.value, if_pos ⟨rfl, rfl, rfl, rfl⟩]
      · have hT := hs_of_largest p sqrt 0 d data gdq i g r c v _ (fun x => x) hl hw hsq hdt
        rw [hid] at hT
        obtain ⟨A, B, hAB, hlt'⟩ := hs_split _ i (g - 1) v hT.value hT.other
        have hmv : m ≤ v := by
          rw [hAB] at hm
          exact hs_median_le A B v hlt' m hm
        have habs : |x - m| ≤ |v + K / p.dt (g - 1) - m| := by
          rw [hxv, abs_of_nonneg (by linarith), abs_of_nonneg (by linarith)]
          linarith
        exact div_le_div_of_nonneg_right habs (div_nonneg (hsq _) hdt.le)
    · simp only [JdOutlier, hmed]
      refine and_congr_right fun hg1 => ?_
      rw [hs_diff p data gdq i0 g0 r0 c0 v K hl.inside.2.1 hl.value, if_neg (by have := hl.inside.2.1; omega)]
  have e1 := C97_single_pass p sqrt clip s d rn data gdq hfew hclip hs h4 h1 h2 i g r c hi hg
  have e2 := C97_single_pass p sqrt clip s d rn (hsRaise i0 g0 r0 c0 K data) gdq hfew hclip hs h4 h1 h2 i g r c hi hg
  simp only at e1 e2
  by_cases ho : JdOutlier p sqrt d rn data gdq i g r c
  · rw [e1.1 ho, e2.1 (hiff.2 ho)]
  · rw [e1.2 ho, e2.2 (fun h => ho (hiff.1 h))]

/-- C182 (iterative).  The same for the iterative search, if the hit is the largest difference in size, is positive, and
deviates most from the reference level when the search begins. -/
theorem C182_iterative (p : Params α) (sqrt : α → α) (clip : List (Option α) → List Bool) (s : Switch) (d : Dims)
    (rn : Nat → Nat → α) (data : Cube (Option α)) (gdq : Cube Nat) (hfew : ¬ JdTooFew p s d gdq)
    (hclip : ¬ JdClip p s d gdq) (hs : ∃ i < d.ni, jdUsable p d gdq i ≤ s.minSingle) (h4 : s.flag4 = false)
    (h1 : p.n1 = 0) (h2 : p.n2 = 0) (hsq : ∀ x, 0 ≤ sqrt x) (i0 g0 r0 c0 : Nat) (v K y : α) (hK : 0 ≤ K) (hv : 0 < v)
    (hdt : 0 < p.dt (g0 - 1)) (hl : HsLargest p d data gdq (fun x => |x|) i0 g0 r0 c0 v)
    (hy : Deviates p sqrt (rn r0 c0 * rn r0 c0) (absDiffs (jdDiffs p d data gdq r0 c0)) i0 (g0 - 1) y)
    (hmost : ∀ i j x, (i, j) ≠ (i0, g0 - 1) →
      Deviates p sqrt (rn r0 c0 * rn r0 c0) (absDiffs (jdDiffs p d data gdq r0 c0)) i j x → x < y)
    (hflag : (findCrs p sqrt clip s d rn data gdq).gdq i0 g0 r0 c0 ≠ gdq i0 g0 r0 c0) (i g r c : Nat) :
    (findCrs p sqrt clip s d rn (hsRaise i0 g0 r0 c0 K data) gdq).gdq i g r c =
      (findCrs p sqrt clip s d rn data gdq).gdq i g r c := by
  obtain ⟨k, hk, hu⟩ := hs
  have hni : 0 < d.ni := by omega
  have hc : usesClip p s d gdq = false := by
    rw [← Bool.not_eq_true, jd_usesClip]; exact hclip
  have hsg : usesSingle p s d gdq = false := by
    rw [← Bool.not_eq_true, jd_usesSingle p s d gdq hni]
    intro h
    have := h k hk
    omega
  have hfind : ∀ dat : Cube (Option α), (findCrs p sqrt clip s d rn dat gdq).gdq = iterDetect p sqrt rn d dat gdq := by
    intro dat
    rw [jd_plain p sqrt clip s d rn dat gdq hni hfew h4 h1 h2]
    simp only [detect, hc, hsg, Bool.false_eq_true, if_false]
  rw [hfind] at hflag
  rw [hfind, hfind]
  have hw : |v| ≤ |v + K / p.dt (g0 - 1)| := by
    have := div_nonneg hK hdt.le
    rw [abs_of_pos hv, abs_of_nonneg (by linarith)]
    linarith
  have hsame : (iterative p sqrt (rn r c * rn r c) (jdDiffs p d (hsRaise i0 g0 r0 c0 K data) gdq r c)).2 =
      (iterative p sqrt (rn r c * rn r c) (jdDiffs p d data gdq r c)).2 := by
    by_cases e : r = r0 ∧ c = c0
    · obtain ⟨rfl, rfl⟩ := e
      have hT := hs_of_largest p sqrt (rn r c * rn r c) d data gdq i0 g0 r c v _ (fun x => |x|) hl hw hsq hdt
      have ht := hs_table p d data gdq i0 g0 r c v K (fun x => |x|) hl
      have hshape : ((jdDiffs p d (hsRaise i0 g0 r c K data) gdq r c).map fun row => row.map fun _ => false) =
          (jdDiffs p d data gdq r c).map fun row => row.map fun _ => false := by
        simp [jdDiffs, Function.comp_def]
      have hlen : (jdDiffs p d (hsRaise i0 g0 r c K data) gdq r c).flatten.length = (jdDiffs p d data gdq r c).flatten.length := by
        simp [jdDiffs, List.length_flatten, Function.comp_def]
      have hpos : ∃ f, (jdDiffs p d data gdq r c).flatten.length = f + 1 := by
        obtain ⟨A, B, hAB, -⟩ := hs_split _ i0 (g0 - 1) _ hT.value hT.other
        have hle := congrArg List.length hAB
        rw [← List.map_flatten, List.length_map, List.length_append, List.length_cons] at hle
        exact ⟨A.length + B.length, by omega⟩
      obtain ⟨f, hf⟩ := hpos
      have hfl : bat2 (iterative p sqrt (rn r c * rn r c) (jdDiffs p d data gdq r c)).2 i0 (g0 - 1) = true := by
        by_contra hno
        refine hflag ?_
        simp only [iterDetect, jd_bat2, jd_diffs]
        rw [if_neg]
        simp only [Bool.and_eq_true, not_and]
        exact fun _ => hno
      simp only [iterative] at hfl ⊢
      rw [hlen, hshape]
      rw [hf] at hfl ⊢
      have hacc : ∀ i j, bat2 ((jdDiffs p d data gdq r c).map fun row => row.map fun _ => false) i j = false := by
        intro i j
        unfold bat2
        rw [List.getElem?_map]
        cases (jdDiffs p d data gdq r c)[i]? with
        | none => rfl
        | some row =>
          simp only [Option.map_some, Option.getD_some, List.getElem?_map]
          cases row[j]? <;> rfl
      have := hs_iterLoop hT y ((deviates_iff _ _ _ _ _ _ _).2 hy)
        (fun i j x hne hx => hmost i j x hne ((deviates_iff _ _ _ _ _ _ _).1 hx)) f _ hacc hfl
      rw [← ht] at this
      exact congrArg Prod.snd this
    · rw [hs_other_pixel p d data gdq i0 g0 r0 c0 v K hl.inside.2.1 hl.value r c e]
  simp only [iterDetect, jd_diffs, hsame]

/-! ## Findings and examples -/

/-- Finding (twopoint_difference.py:538-542).  With neighbour flagging a stronger hit leaves fewer flags: a jump whose
neighbour is flagged, too, loses the flag of its neighbour once it is above `max_jump_to_flag_neighbors`. -/
theorem C182_neighbors_lost :
    let p := { exJump with n1 := 0, n2 := 0 }
    let f := fun K : ℚ => (findCrs p (fun x => |x|) jdClipRule jdSw jdDim jdRn (hsRaise 0 3 0 0 K jdData) jdClean).gdq 0 3
    f 0 0 0 = 4 ∧ f 0 1 0 = 4 ∧ f 1000 0 0 = 4 ∧ f 1000 1 0 = 0 := by decide +kernel

theorem hs_example (size : ℚ → ℚ) (h : size 1 < size 60) : HsLargest exJump jdDim jdData jdClean size 0 3 0 0 60 := by
  refine ⟨by decide, by decide +kernel, ?_⟩
  intro i hi j hj hne x hx
  have hi : i = 0 := by
    change i < 1 at hi
    omega
  subst hi
  have hj' : j + 1 < 5 := hj
  have : x = 1 := by
    have h0 : j ≠ 2 := fun e => hne (by rw [e])
    have : j = 0 ∨ j = 1 ∨ j = 3 := by omega
    have v0 : jdDiff exJump jdData jdClean 0 0 0 0 = some 1 := by decide +kernel
    have v1 : jdDiff exJump jdData jdClean 0 1 0 0 = some 1 := by decide +kernel
    have v3 : jdDiff exJump jdData jdClean 0 3 0 0 = some 1 := by decide +kernel
    rcases this with rfl | rfl | rfl
    · rw [v0] at hx; cases hx; rfl
    · rw [v1] at hx; cases hx; rfl
    · rw [v3] at hx; cases hx; rfl
  rw [this]
  exact h

-- C182_single_pass: the hit of 60 becomes one of 1060
example : HsLargest exJump jdDim jdData jdClean (fun x => x) 0 3 0 0 60 ∧ HsLargest exJump jdDim jdData jdClean (fun x => |x|) 0 3 0 0 60 ∧
    3 ≤ inUse (jdDiffs exJump jdDim jdData jdClean 0 0) ∧ 0 < exJump.dt 2 ∧
    (findCrs { exJump with n1 := 0, n2 := 0 } (fun x => |x|) jdClipRule { jdSw with flag4 := false } jdDim jdRn jdData
      jdClean).gdq 0 3 0 0 ≠ jdClean 0 3 0 0 ∧
    (findCrs { exJump with n1 := 0, n2 := 0 } (fun x => |x|) jdClipRule { jdSw with flag4 := false } jdDim jdRn
      (hsRaise 0 3 0 0 1000 jdData) jdClean).gdq 0 3 0 0 = 4 :=
  ⟨hs_example _ (by norm_num), hs_example _ (by norm_num), by decide +kernel, by decide +kernel, by decide +kernel, by decide +kernel⟩

-- C182_iterative: the hit deviates from the reference level by 59 times 1/3, the others do not deviate
example : Deviates exJump (fun x => |x|) (jdRn 0 0 * jdRn 0 0) (absDiffs (jdDiffs exJump jdDim jdData jdClean 0 0)) 0 2 (59 / 3) ∧
    (ratios exJump (fun x => |x|) (jdRn 0 0 * jdRn 0 0) (absDiffs (jdDiffs exJump jdDim jdData jdClean 0 0)) =
      [[some 0, some 0, some (59 / 3), some 0]]) ∧
    (findCrs { exJump with n1 := 0, n2 := 0 } (fun x => |x|) jdClipRule { jdSw with flag4 := false, minSingle := 9 } jdDim jdRn
      jdData jdClean).gdq 0 3 0 0 ≠ jdClean 0 3 0 0 ∧
    (findCrs { exJump with n1 := 0, n2 := 0 } (fun x => |x|) jdClipRule { jdSw with flag4 := false, minSingle := 9 } jdDim jdRn
      (hsRaise 0 3 0 0 1000 jdData) jdClean).gdq 0 3 0 0 = 4 := by
  refine ⟨?_, by decide +kernel, by decide +kernel, by decide +kernel⟩
  rw [← deviates_iff]
  decide +kernel

end Verif.Thm
