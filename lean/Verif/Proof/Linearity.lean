import Verif.Model.Linearity
import Mathlib.Algebra.BigOperators.Ring.Finset
import Mathlib.Algebra.BigOperators.Intervals
import Mathlib.Tactic.Ring
import Mathlib.Tactic.FieldSimp
import Mathlib.Tactic.Linarith

/-! Helper lemmas about the linearity model. -/

set_option linter.unusedSectionVars false

namespace Verif.Linearity

variable {α : Type} [Field α] [LinearOrder α]

theorem oadd_none_right (x : Option α) : oadd x none = none := by cases x <;> rfl
theorem oadd_none_left (x : Option α) : oadd none x = none := by cases x <;> rfl
theorem omul_none_right (x : Option α) : omul x none = none := by cases x <;> rfl

theorem at'_map (c : List α) (j : Nat) (h : j < c.length) :
    at' (c.map some) j = some (c.getD j 0) := by
  simp [at', h]

theorem horner_loop (f : Nat → α) (v : α) (n : Nat) (c : List (Option α))
    (hf : ∀ j, j < n → at' c j = some (f j)) (t : Nat) (ht : t + 2 ≤ n) :
    (List.range t).foldl (fun r s => omul (oadd r (at' c (n - 2 - s))) (some v))
        (omul (at' c (n - 1)) (some v)) =
      some (∑ k ∈ Finset.range (t + 1), f (n - 1 - t + k) * v ^ (k + 1)) := by
  induction t with
  | zero => simp [hf (n - 1) (by omega), omul]
  | succ t ih =>
    rw [List.range_succ, List.foldl_append, ih (by omega)]
    simp only [List.foldl_cons, List.foldl_nil, hf (n - 2 - t) (by omega), oadd, omul]
    congr 1
    rw [Finset.sum_range_succ' _ (t + 1), add_mul, Finset.sum_mul]
    congr 1
    · apply Finset.sum_congr rfl
      intro k _
      have : n - 1 - (t + 1) + (k + 1) = n - 1 - t + k := by omega
      rw [this]; ring
    · have : n - 1 - (t + 1) + 0 = n - 2 - t := by omega
      rw [this]; ring

theorem applyPoly_some (c : List α) (v : α) (h : 2 ≤ c.length) :
    applyPoly (c.map some) (some v) =
      some (∑ k ∈ Finset.range c.length, c.getD k 0 * v ^ k) := by
  have hl := horner_loop (fun j => c.getD j 0) v c.length (c.map some)
    (fun j hj => at'_map c j hj) (c.length - 2) (by omega)
  simp only [applyPoly, List.length_map]
  rw [hl, at'_map c 0 (by omega)]
  simp only [oadd]
  congr 1
  obtain ⟨m, hm⟩ := Nat.exists_eq_add_of_le h
  have e1 : c.length - 2 + 1 = m + 1 := by omega
  have e2 : c.length - 1 - (c.length - 2) = 1 := by omega
  have e3 : c.length = m + 1 + 1 := by omega
  rw [e1, e2]
  conv_rhs => rw [e3, Finset.sum_range_succ']
  congr 1
  · apply Finset.sum_congr rfl
    intro k _
    rw [Nat.add_comm 1 k]
  · simp

theorem applyPoly_none (c : List (Option α)) : applyPoly c none = none := by
  simp only [applyPoly]
  have : ∀ (l : List Nat) (r : Option α), r = none →
      l.foldl (fun r t => omul (oadd r (at' c (c.length - 2 - t))) none) r = none := by
    intro l
    induction l with
    | nil => intro r h; simpa using h
    | cons a l ih => intro r h; simp only [List.foldl_cons]; exact ih _ (omul_none_right _)
  rw [this _ _ (omul_none_right _), oadd_none_left]

theorem benCoeffs_eq (n : Nat) :
    (benCoeffs n : List (Option α)) =
      ((List.range n).map (fun j => if j = 1 then (1 : α) else 0)).map some := by
  simp [benCoeffs]

theorem applyPoly_ben (n : Nat) (h : 2 ≤ n) (x : Option α) :
    applyPoly (benCoeffs n) x = x := by
  cases x with
  | none => exact applyPoly_none _
  | some v =>
    rw [benCoeffs_eq, applyPoly_some _ _ (by simpa using h)]
    congr 1
    rw [Finset.sum_eq_single 1]
    · have : 1 < n := by omega
      simp [this]
    · intro b hb hb1
      have : b < n := by simpa using hb
      simp [this, hb1]
    · intro hb
      simp at hb; omega

theorem applyPolyDq_ben (n sat dq : Nat) (h : 2 ≤ n) (x : Option α) :
    applyPolyDq (benCoeffs n) sat dq x = x := by
  unfold applyPolyDq
  split
  · rfl
  · exact applyPoly_ben n h x

theorem simpleInt_ben (n sat : Nat) (h : 2 ≤ n) (d : List (Option α)) (g : List Nat) :
    simpleInt (benCoeffs n) sat d g = d := by
  simp only [simpleInt, applyPolyDq_ben n sat _ h]
  apply List.ext_getElem
  · simp
  · intro i h1 h2; simp

theorem zeroFrame_ben (n sat : Nat) (h : 2 ≤ n) (z : Option α) :
    zeroFrame (benCoeffs n) sat z = z := by
  simp only [zeroFrame, applyPolyDq_ben n sat _ h]
  split
  · rename_i hz; exact hz.symm
  · rfl

theorem getElem?_simpleInt (c : List (Option α)) (sat : Nat) (d : List (Option α))
    (g : List Nat) (j : Nat) (x : Option α) (h : d[j]? = some x) :
    (simpleInt c sat d g)[j]? = some (applyPolyDq c sat ((g[j]?).getD 0) x) := by
  simp [simpleInt, h]

theorem benCoeffs_no_none (n : Nat) : (benCoeffs n : List (Option α)).any Option.isNone = false := by
  simp [benCoeffs]

theorem benCoeffs_at_one (n : Nat) (h : 2 ≤ n) : at' (benCoeffs n : List (Option α)) 1 = some 1 := by
  have : 1 < n := by omega
  simp [at', benCoeffs, this]

theorem benCoeffs_length (n : Nat) : (benCoeffs n : List (Option α)).length = n := by
  simp [benCoeffs]

theorem foldl_oadd_some (l : List α) (a : α) :
    (l.map some).foldl oadd (some a) = some (a + l.sum) := by
  induction l generalizing a with
  | nil => simp
  | cons x l ih => simp [oadd, ih, add_assoc]

theorem omean_map_some [CharZero α] (l : List α) (h : l ≠ []) :
    omean (l.map some) = some (l.sum / (l.length : α)) := by
  have hl : (l.length : α) ≠ 0 := by
    have := List.length_pos_of_ne_nil h
    exact_mod_cast this.ne'
  simp [omean, foldl_oadd_some, odiv, h]

theorem tileResultant_rowlocal (sat : Nat) (pattern : List (List Nat))
    (g : List (List (Option α)) → List (List (Option α))) (i : Nat) (tile : List (List (Px α))) :
    tileResultant sat pattern (some (fun t => t.map g)) i tile =
      tile.map (fun row => List.zipWith (finishResultant sat i) row
        (List.zipWith (List.zipWith oadd) (row.map (adjustedReads sat pattern i))
          (g (row.map (adjustedReads sat pattern i))))) := by
  simp only [tileResultant, addReads]
  induction tile with
  | nil => simp
  | cons r t ih =>
    simp only [List.map_cons, List.zipWith_cons_cons]
    rw [ih]

theorem tileResultant_none (sat : Nat) (pattern : List (List Nat)) (i : Nat)
    (tile : List (List (Px α))) :
    tileResultant sat pattern none i tile =
      tile.map (fun row => row.map
        (fun p => finishResultant sat i p (adjustedReads sat pattern i p))) := by
  simp only [tileResultant]
  induction tile with
  | nil => simp
  | cons r t ih =>
    simp only [List.map_cons, List.zipWith_cons_cons]
    rw [ih]
    congr 1
    clear ih
    induction r with
    | nil => simp
    | cons a r ih2 => simp [ih2]

end Verif.Linearity
