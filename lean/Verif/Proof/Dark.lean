import Verif.Model.Dark
import Mathlib.Algebra.Order.Field.Basic
import Mathlib.Data.List.Basic
import Mathlib.Tactic.Ring
import Mathlib.Tactic.Linarith
import Mathlib.Tactic.FieldSimp

/-! Helper lemmas about the dark-subtraction model. -/

set_option linter.unusedSectionVars false

namespace Verif.Dark

variable {α : Type} [Field α]

theorem mapM_some_of_forall {β γ : Type} (f : β → Option γ) (g : β → γ) :
    ∀ (l : List β), (∀ x ∈ l, f x = some (g x)) → l.mapM f = some (l.map g)
  | [], _ => rfl
  | a :: l, h => by
    have h1 := h a (by simp)
    have h2 := mapM_some_of_forall f g l (fun x hx => h x (by simp [hx]))
    rw [List.mapM_cons, h1]
    simp [h2]

theorem forall_of_mapM_some {β γ : Type} (f : β → Option γ) :
    ∀ (l : List β) (r : List γ), l.mapM f = some r →
      r.length = l.length ∧ ∀ (i : Nat) (x : β), l[i]? = some x → ∃ y, f x = some y ∧ r[i]? = some y
  | [], r, h => by
    simp at h; subst h; simp
  | a :: l, r, h => by
    rw [List.mapM_cons] at h
    cases hfa : f a with
    | none => simp [hfa] at h
    | some y =>
      cases hl : l.mapM f with
      | none => simp [hfa, hl] at h
      | some r' =>
        simp [hfa, hl] at h
        subst h
        obtain ⟨h1, h2⟩ := forall_of_mapM_some f l r' hl
        refine ⟨by simp [h1], ?_⟩
        intro i x hx
        cases i with
        | zero => simp at hx; subst hx; exact ⟨y, hfa, by simp⟩
        | succ i => simp at hx; simpa using h2 i x hx

theorem omean_map_some (l : List α) (h : l ≠ []) :
    omean (l.map some) = some (l.sum / (l.length : α)) := by
  have : (l.map some).mapM (fun x : Option α => x) = some l := by
    have := mapM_some_of_forall (fun x : Option α => x) (fun x : Option α => x.getD 0)
      (l.map some) (by intro x hx; simp at hx; obtain ⟨a, _, rfl⟩ := hx; rfl)
    rw [this]; simp [Function.comp_def]
  simp [omean, h, this]

theorem averageLoop_range (f : Nat → α) (L nf gap : Nat) (hnf : 1 ≤ nf) :
    ∀ (n start : Nat), (∀ g, g < n → start + g * (nf + gap) + nf ≤ L) →
      averageLoop ((List.range L).map (fun i => some (f i))) nf gap n start =
        some ((List.range n).map (fun g =>
          some (((List.range nf).map (fun k => f (start + g * (nf + gap) + k))).sum / (nf : α))))
  | 0, start, _ => by simp [averageLoop]
  | n + 1, start, h => by
    have h0 := h 0 (by omega)
    have ih := averageLoop_range f L nf gap hnf n (start + nf + gap) (by
      intro g hg
      have := h (g + 1) (by omega)
      have e : (g + 1) * (nf + gap) = g * (nf + gap) + nf + gap := by ring
      omega)
    have hthis : (if nf = 1 then ((List.range L).map (fun i => some (f i)))[start]?
        else some (omean ((((List.range L).map (fun i => some (f i))).drop start).take
          (start + nf - start)))) =
        some (some (((List.range nf).map (fun k => f (start + 0 * (nf + gap) + k))).sum
          / (nf : α))) := by
      split
      · rename_i h1
        subst h1
        have : start < L := by omega
        simp [this]
      · have hsl : (((List.range L).map (fun i => some (f i))).drop start).take
            (start + nf - start) = ((List.range nf).map (fun k => f (start + k))).map some := by
          apply List.ext_getElem
          · simp; omega
          · intro i h1 h2
            simp
        rw [hsl, omean_map_some]
        · simp
        · intro hc
          have := congrArg List.length hc
          simp at this; omega
    unfold averageLoop
    dsimp only
    rw [hthis, ih, List.range_succ_eq_map]
    simp only [List.map_cons, List.map_map]
    congr 2
    apply List.map_congr_left
    intro g _
    simp only [Function.comp]
    have e : start + nf + gap + g * (nf + gap) = start + (g + 1) * (nf + gap) := by ring
    simp [e]

theorem subtractDark_eq (sci : Sci α) (arr : DarkArr α) (dq : Nat) (n : Nat)
    (d : Nat → List (Option α))
    (hdq : darkDq arr = some dq)
    (hrect : ∀ row ∈ sci.data, row.length = n)
    (hd : ∀ i, i < sci.data.length → darkForInt arr (sci.intstart.getD 1) i = some (d i))
    (hlen : ∀ i, i < sci.data.length → n ≤ (d i).length) :
    subtractDark sci arr = some { sci with
      data := sci.data.zipIdx.map (fun p => List.zipWith osub p.1 (d p.2)),
      pixeldq := sci.pixeldq ||| dq } := by
  have : sci.data.zipIdx.mapM
      (fun p => (darkForInt arr (sci.intstart.getD 1) p.2).bind (subtractInt p.1)) =
      some (sci.data.zipIdx.map (fun p => List.zipWith osub p.1 (d p.2))) := by
    apply mapM_some_of_forall
    rintro ⟨row, i⟩ hp
    rw [List.mem_zipIdx_iff_getElem?] at hp
    simp only at hp
    have hi : i < sci.data.length := by
      by_contra hc
      rw [List.getElem?_eq_none (by omega)] at hp
      exact absurd hp (by simp)
    have hrow : row ∈ sci.data := List.mem_of_getElem? hp
    simp only [hd i hi, Option.bind_some, subtractInt]
    have := hlen i hi
    rw [if_neg (by rw [hrect row hrow]; omega)]
  unfold subtractDark
  simp only [hdq, this]

theorem getElem?_nanToZero_isSome (r : List (Option α)) :
    ∀ x ∈ r.map nanToZero, x.isSome := by
  intro x hx
  simp at hx
  obtain ⟨a, _, rfl⟩ := hx
  rfl

theorem subtractDark_cases (sci : Sci α) (arr : DarkArr α) (o : Sci α)
    (h : subtractDark sci arr = some o) :
    ∃ dq, darkDq arr = some dq ∧ o.pixeldq = sci.pixeldq ||| dq ∧ o.groupdq = sci.groupdq ∧
      o.data.length = sci.data.length ∧
      ∀ i row, sci.data[i]? = some row → ∃ d, darkForInt arr (sci.intstart.getD 1) i = some d ∧
        row.length ≤ d.length ∧ o.data[i]? = some (List.zipWith osub row d) := by
  simp only [subtractDark] at h
  split at h
  · rename_i dq dd hdq hm
    simp only [Option.some.injEq] at h
    subst h
    obtain ⟨h1, h2⟩ := forall_of_mapM_some _ _ _ hm
    refine ⟨dq, hdq, rfl, rfl, by simpa using h1, ?_⟩
    intro i row hrow
    obtain ⟨y, hy, hy2⟩ := h2 i (row, i) (by simp [List.getElem?_zipIdx, hrow])
    simp only [Option.bind_eq_some_iff] at hy
    obtain ⟨d, hd, hs⟩ := hy
    refine ⟨d, hd, ?_, ?_⟩
    · unfold subtractInt at hs
      split at hs <;> simp at hs
      omega
    · unfold subtractInt at hs
      split at hs <;> simp at hs
      rw [hs]; exact hy2
  · simp at h

theorem zipWith_osub_range (row : List (Option α)) (f : Nat → α) (L : Nat)
    (h : row.length ≤ L) :
    List.zipWith osub row ((List.range L).map (fun g => some (f g))) =
      row.zipIdx.map (fun p => osub p.1 (some (f p.2))) := by
  apply List.ext_getElem
  · simp; omega
  · intro i h1 h2
    simp

/-- The number of extrapolated groups covers the missing frames. -/
theorem groupsToExtrapolate_ge (st dt nf gap : Nat) (h : 1 ≤ nf) :
    st ≤ dt + groupsToExtrapolate st dt nf gap * (nf + gap) := by
  unfold groupsToExtrapolate
  have hd := Nat.div_add_mod ((st - dt) + gap + (nf + gap - 1)) (nf + gap)
  have hm := Nat.mod_lt ((st - dt) + gap + (nf + gap - 1)) (show 0 < nf + gap by omega)
  set q := ((st - dt) + gap + (nf + gap - 1)) / (nf + gap) with hq
  clear_value q
  rw [Nat.mul_comm] at hd
  omega

theorem groupsToExtrapolate_lt (st dt nf gap : Nat) (h : 1 ≤ nf) (hlt : dt < st) :
    dt + (groupsToExtrapolate st dt nf gap - 2) * (nf + gap) < st := by
  unfold groupsToExtrapolate
  have hd := Nat.div_add_mod ((st - dt) + gap + (nf + gap - 1)) (nf + gap)
  set q := ((st - dt) + gap + (nf + gap - 1)) / (nf + gap) with hq
  clear_value q
  rcases Nat.lt_or_ge q 2 with h2 | h2
  · have : q - 2 = 0 := by omega
    rw [this]; omega
  · obtain ⟨p, rfl⟩ := Nat.exists_eq_add_of_le h2
    have : 2 + p - 2 = p := by omega
    rw [this]
    have e : (nf + gap) * (2 + p) = p * (nf + gap) + 2 * (nf + gap) := by ring
    rw [e] at hd
    omega

theorem totalFrames_add (n k nf gap : Nat) (h : 1 ≤ n) :
    totalFrames (n + k) nf gap = totalFrames n nf gap + k * (nf + gap) := by
  unfold totalFrames
  obtain ⟨m, rfl⟩ := Nat.exists_eq_add_of_le h
  have e1 : 1 + m + k - 1 = m + k := by omega
  have e2 : 1 + m - 1 = m := by omega
  rw [e1, e2]; ring

end Verif.Dark
