import Verif.Proof.Jump

/-! Helper lemmas about iterative jump detection. -/

set_option linter.unusedSectionVars false

namespace Verif.Jump

variable {α : Type} [Field α] [LinearOrder α]

/-- Entry `(i, j)` of a ragged table of possibly missing numbers. -/
def at2 (l : List (List (Option α))) (i j : Nat) : Option α :=
  ((l[i]?).getD [])[j]?.getD none

/-- Entry `(i, j)` of a ragged table of flags. -/
def bat2 (l : List (List Bool)) (i j : Nat) : Bool :=
  ((l[i]?).getD [])[j]?.getD false

/-- Same number of rows, rows of the same lengths. -/
def SameShape {β γ : Type} (a : List (List β)) (b : List (List γ)) : Prop :=
  a.map List.length = b.map List.length

theorem nanmax_spec (l : List (Option α)) (m : α) (h : nanmax l = some m) :
    some m ∈ l ∧ ∀ x, some x ∈ l → x ≤ m := by
  unfold nanmax at h
  rw [List.max?_eq_some_iff] at h
  obtain ⟨h1, h2⟩ := h
  constructor
  · simpa [finite, List.mem_filterMap] using h1
  · intro x hx
    exact h2 x (by simpa [finite, List.mem_filterMap] using hx)

theorem nanmax_exists (l : List (Option α)) (x : α) (h : some x ∈ l) :
    ∃ m, nanmax l = some m := by
  cases hm : nanmax l with
  | some m => exact ⟨m, rfl⟩
  | none =>
    exfalso
    unfold nanmax at hm
    rw [List.max?_eq_none_iff] at hm
    have : x ∈ finite l := by simpa [finite, List.mem_filterMap] using h
    rw [hm] at this
    simp at this

theorem mem_at2 (l : List (List (Option α))) (x : α) :
    some x ∈ l.flatten ↔ ∃ i j, at2 l i j = some x := by
  constructor
  · intro h
    obtain ⟨row, hr, hx⟩ := List.mem_flatten.mp h
    obtain ⟨i, hi⟩ := List.mem_iff_getElem?.mp hr
    obtain ⟨j, hj⟩ := List.mem_iff_getElem?.mp hx
    exact ⟨i, j, by simp [at2, hi, hj]⟩
  · rintro ⟨i, j, h⟩
    unfold at2 at h
    cases hi : l[i]? with
    | none => simp [hi] at h
    | some row =>
      simp only [hi, Option.getD_some] at h
      cases hj : row[j]? with
      | none => simp [hj] at h
      | some y =>
        simp only [hj, Option.getD_some] at h
        subst h
        exact List.mem_flatten.mpr ⟨row, List.mem_of_getElem? hi, List.mem_of_getElem? hj⟩

theorem ratios_at2 (p : Params α) (sqrt : α → α) (rn2 : α) (fa : List (List (Option α)))
    (i j : Nat) :
    at2 (ratios p sqrt rn2 fa) i j =
      ratio (at2 fa i j) (calcMed fa.flatten) (sigma p sqrt rn2 (calcMed fa.flatten) j) := by
  unfold at2 ratios
  simp only [List.getElem?_map]
  cases fa[i]? with
  | none => simp [ratio]
  | some row =>
    simp only [Option.map_some, Option.getD_some, List.getElem?_map, List.getElem?_zipIdx]
    cases row[j]? with
    | none => simp [ratio]
    | some x => simp

/-- Specification-side description of a newly found jump. -/
theorem newCr_bat2 (p : Params α) (sqrt : α → α) (rn2 : α) (fa : List (List (Option α)))
    (i j : Nat) :
    bat2 (newCr p sqrt rn2 fa) i j = true ↔
      ∃ r t, at2 (ratios p sqrt rn2 fa) i j = some r ∧
        threshold p (finite fa.flatten).length = some t ∧ t < r ∧
        ∀ i' j' r', at2 (ratios p sqrt rn2 fa) i' j' = some r' → r' ≤ r := by
  set rs := ratios p sqrt rn2 fa with hrs
  set n := (finite fa.flatten).length with hn
  have hb : bat2 (newCr p sqrt rn2 fa) i j = true ↔
      ∃ row x, rs[i]? = some row ∧ row[j]? = some x ∧ x.isSome = true ∧ x = nanmax rs.flatten ∧
        crInt p n row = true := by
    have : newCr p sqrt rn2 fa = rs.map (fun row => row.map (fun x =>
        x.isSome && decide (x = nanmax rs.flatten) && crInt p n row)) := rfl
    rw [this]
    unfold bat2
    simp only [List.getElem?_map]
    cases rs[i]? with
    | none => simp
    | some row =>
      simp only [Option.map_some, Option.getD_some, List.getElem?_map]
      cases hj : row[j]? with
      | none => simp [hj]
      | some x =>
        simp only [Option.map_some, Option.getD_some, Bool.and_eq_true, decide_eq_true_eq,
          Option.some.injEq, and_assoc]
        constructor
        · rintro ⟨h1, h2, h3⟩; exact ⟨row, x, rfl, hj, h1, h2, h3⟩
        · rintro ⟨_, _, rfl, hx, h1, h2, h3⟩
          rw [hj] at hx; cases hx
          exact ⟨h1, h2, h3⟩
  rw [hb]
  constructor
  · rintro ⟨row, x, hrow, hx, hsome, hmax, hcr⟩
    obtain ⟨r, rfl⟩ := Option.isSome_iff_exists.mp hsome
    obtain ⟨hmem, hle⟩ := nanmax_spec _ _ hmax.symm
    unfold crInt at hcr
    cases ht : threshold p n with
    | none => rw [ht] at hcr; simp at hcr
    | some t =>
      rw [ht] at hcr
      simp only at hcr
      cases hm : nanmax row with
      | none => rw [hm] at hcr; simp [gt] at hcr
      | some mx =>
        rw [hm] at hcr
        have hmx : t < mx := by simpa [gt] using hcr
        have hmr := (nanmax_spec _ _ hm).1
        have : mx ≤ r := hle mx (List.mem_flatten.mpr ⟨row, List.mem_of_getElem? hrow, hmr⟩)
        refine ⟨r, t, by simp [at2, hrow, hx], rfl, lt_of_lt_of_le hmx this, ?_⟩
        intro i' j' r' h'
        exact hle r' ((mem_at2 rs r').mpr ⟨i', j', h'⟩)
  · rintro ⟨r, t, hr, ht, hlt, hall⟩
    cases hrow : rs[i]? with
    | none => simp [at2, hrow] at hr
    | some row =>
      cases hx : row[j]? with
      | none => simp [at2, hrow, hx] at hr
      | some x =>
        simp only [at2, hrow, hx, Option.getD_some] at hr
        subst hr
        refine ⟨row, some r, rfl, hx, rfl, ?_, ?_⟩
        · have hmem : some r ∈ rs.flatten :=
            List.mem_flatten.mpr ⟨row, List.mem_of_getElem? hrow, List.mem_of_getElem? hx⟩
          obtain ⟨m, hm⟩ := nanmax_exists _ _ hmem
          obtain ⟨h1, h2⟩ := nanmax_spec _ _ hm
          rw [hm]
          congr 1
          apply le_antisymm (h2 r hmem)
          obtain ⟨i', j', h'⟩ := (mem_at2 rs m).mp h1
          exact hall i' j' m h'
        · unfold crInt
          rw [ht]
          obtain ⟨m, hm⟩ := nanmax_exists _ _ (List.mem_of_getElem? hx)
          have := (nanmax_spec _ _ hm).2 r (List.mem_of_getElem? hx)
          rw [hm]
          simp only [gt, gt_iff_lt, decide_eq_true_eq]
          exact lt_of_lt_of_le hlt this

theorem sameShape_newCr (p : Params α) (sqrt : α → α) (rn2 : α) (fa : List (List (Option α))) :
    SameShape fa (newCr p sqrt rn2 fa) := by
  simp [SameShape, newCr, ratios, Function.comp_def]

theorem SameShape.rows {β γ : Type} {a : List (List β)} {b : List (List γ)} (h : SameShape a b)
    (i : Nat) : (a[i]?).map List.length = (b[i]?).map List.length := by
  have : (a.map List.length)[i]? = (b.map List.length)[i]? := by rw [h]
  simpa using this

theorem sameShape_zipWith {β γ δ : Type} (f : β → γ → δ) (a : List (List β)) (b : List (List γ))
    (h : SameShape a b) : SameShape a (List.zipWith (List.zipWith f) a b) := by
  unfold SameShape at *
  induction a generalizing b with
  | nil => simp
  | cons x a ih =>
    cases b with
    | nil => simp at h
    | cons y b =>
      simp only [List.map_cons, List.cons.injEq] at h
      simp [h.1, ← ih b h.2]

theorem maskNew_at2 (fa : List (List (Option α))) (new : List (List Bool))
    (h : SameShape fa new) (i j : Nat) :
    at2 (maskNew fa new) i j = if bat2 new i j = true then none else at2 fa i j := by
  have hr := h.rows i
  unfold at2 bat2 maskNew
  rw [List.getElem?_zipWith]
  cases ha : fa[i]? with
  | none => cases hb : new[i]? <;> simp
  | some row =>
    cases hb : new[i]? with
    | none => simp [ha, hb] at hr
    | some br =>
      simp only [Option.getD_some, List.getElem?_zipWith]
      have hl : row.length = br.length := by simpa [ha, hb] using hr
      cases hj : row[j]? with
      | none => cases hbj : br[j]? <;> simp
      | some x =>
        have : j < br.length := by
          have := (List.getElem?_eq_some_iff.mp hj).1; omega
        simp [this]

theorem orFlags_bat2 (a b : List (List Bool)) (h : SameShape a b) (i j : Nat) :
    bat2 (orFlags a b) i j = (bat2 a i j || bat2 b i j) := by
  have hr := h.rows i
  unfold bat2 orFlags
  rw [List.getElem?_zipWith]
  cases ha : a[i]? with
  | none =>
    cases hb : b[i]? with
    | none => simp
    | some br => simp [ha, hb] at hr
  | some row =>
    cases hb : b[i]? with
    | none => simp [ha, hb] at hr
    | some br =>
      simp only [Option.getD_some, List.getElem?_zipWith]
      have hl : row.length = br.length := by simpa [ha, hb] using hr
      cases hj : row[j]? with
      | none =>
        have : br[j]? = none := by
          rw [List.getElem?_eq_none_iff] at hj ⊢; omega
        simp [this]
      | some x =>
        have : j < br.length := by
          have := (List.getElem?_eq_some_iff.mp hj).1; omega
        simp [this]

theorem any_bat2 (b : List (List Bool)) :
    b.flatten.any (fun b => b) = true ↔ ∃ i j, bat2 b i j = true := by
  simp only [List.any_eq_true, exists_eq_right]
  constructor
  · intro h
    obtain ⟨row, hr, hx⟩ := List.mem_flatten.mp h
    obtain ⟨i, hi⟩ := List.mem_iff_getElem?.mp hr
    obtain ⟨j, hj⟩ := List.mem_iff_getElem?.mp hx
    exact ⟨i, j, by simp [bat2, hi, hj]⟩
  · rintro ⟨i, j, h⟩
    unfold bat2 at h
    cases hi : b[i]? with
    | none => simp [hi] at h
    | some row =>
      simp only [hi, Option.getD_some] at h
      cases hj : row[j]? with
      | none => simp [hj] at h
      | some y =>
        simp only [hj, Option.getD_some] at h
        subst h
        exact List.mem_flatten.mpr ⟨row, List.mem_of_getElem? hi, List.mem_of_getElem? hj⟩

/-- Masking can only remove numbers; removing at least one number lowers the count. -/
theorem finite_mask_row (row : List (Option α)) (b : List Bool) :
    (finite (List.zipWith (fun x b => if b then none else x) row b)).length ≤
        (finite row).length ∧
      ((∃ (j : Nat) (x : α), row[j]? = some (some x) ∧ b[j]? = some true) →
        (finite (List.zipWith (fun x b => if b then none else x) row b)).length <
        (finite row).length) := by
  induction row generalizing b with
  | nil => simp [finite]
  | cons y row ih =>
    cases b with
    | nil => simp [finite]
    | cons c b =>
      obtain ⟨h1, h2⟩ := ih b
      have hc : ∀ l : List (Option α), (finite (y :: l)).length =
          (if y.isSome then 1 else 0) + (finite l).length := by
        intro l
        cases y with
        | none => simp [finite]
        | some v => simp only [finite, List.filterMap_cons, List.length_cons,
            Option.isSome_some, if_true]; omega
      have hc0 : ∀ l : List (Option α), (finite ((none : Option α) :: l)).length =
          (finite l).length := by intro l; simp [finite]
      simp only [List.zipWith_cons_cons]
      constructor
      · cases c with
        | true => simp only [if_true]; rw [hc0, hc]; omega
        | false => simp only [Bool.false_eq_true, if_false]; rw [hc, hc]; omega
      · rintro ⟨j, x, hj, hb⟩
        cases j with
        | zero =>
          simp only [List.getElem?_cons_zero, Option.some.injEq] at hj hb
          subst hb
          simp only [if_true]; rw [hc0, hc, hj]; simp only [Option.isSome_some, if_true]; omega
        | succ j =>
          simp only [List.getElem?_cons_succ] at hj hb
          have := h2 ⟨j, x, hj, hb⟩
          cases c with
          | true => simp only [if_true]; rw [hc0, hc]; omega
          | false => simp only [Bool.false_eq_true, if_false]; rw [hc, hc]; omega

theorem finite_append (a b : List (Option α)) :
    (finite (a ++ b)).length = (finite a).length + (finite b).length := by
  simp [finite]

theorem finite_maskNew (fa : List (List (Option α))) (new : List (List Bool)) :
    (finite (maskNew fa new).flatten).length ≤ (finite fa.flatten).length ∧
      ((∃ i j x, at2 fa i j = some x ∧ bat2 new i j = true) →
        (finite (maskNew fa new).flatten).length < (finite fa.flatten).length) := by
  induction fa generalizing new with
  | nil => simp [finite, maskNew, at2]
  | cons row fa ih =>
    cases new with
    | nil =>
      simp [maskNew, finite, bat2]
    | cons b new =>
      obtain ⟨h1, h2⟩ := ih new
      obtain ⟨g1, g2⟩ := finite_mask_row row b
      have e : maskNew (row :: fa) (b :: new) =
          List.zipWith (fun x b => if b then none else x) row b :: maskNew fa new := rfl
      rw [e]
      simp only [List.flatten_cons, finite_append]
      constructor
      · omega
      · rintro ⟨i, j, x, hx, hb⟩
        cases i with
        | zero =>
          have : (finite (List.zipWith (fun x b => if b then none else x) row b)).length <
              (finite row).length := by
            apply g2
            simp only [at2, bat2, List.getElem?_cons_zero, Option.getD_some] at hx hb
            cases hj : row[j]? with
            | none => simp [hj] at hx
            | some y =>
              cases hbj : b[j]? with
              | none => simp [hbj] at hb
              | some z =>
                simp only [hj, hbj, Option.getD_some] at hx hb
                exact ⟨j, x, by rw [hj, hx], by rw [hbj, hb]⟩
          omega
        | succ i =>
          have := h2 ⟨i, j, x, by simpa [at2] using hx, by simpa [bat2] using hb⟩
          omega

end Verif.Jump
