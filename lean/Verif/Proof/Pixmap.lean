import Verif.Model.Pixmap
import Mathlib.Data.List.Chain
import Mathlib.Data.List.Range
import Mathlib.Tactic.Ring
import Mathlib.Tactic.FieldSimp
import Mathlib.Tactic.Linarith
import Mathlib.Tactic.Positivity

/-!
# Lemmas on coarse grids and linear interpolation
-/

namespace Verif.Pixmap

variable {α : Type} [Field α] [LinearOrder α] [IsStrictOrderedRing α]

theorem line_affine (p q a b x : α) (h : a < b) : line a (p + q * a) b (p + q * b) x = p + q * x := by
  have : b - a ≠ 0 := (sub_pos.mpr h).ne'
  simp only [line]
  field_simp
  ring

/-- Ascending with gaps of at most `h`. -/
def Gaps (h : α) (l : List α) : Prop := l.IsChain fun a b => a < b ∧ b - a ≤ h

theorem lerp_affine (p q x : α) : ∀ (l : List α) (a b : α), (a :: b :: l).IsChain (· < ·) →
    lerp x ((a :: b :: l).map fun a => (a, p + q * a)) = p + q * x := by
  intro l
  induction l with
  | nil =>
    intro a b h
    rw [List.isChain_cons_cons] at h
    exact line_affine p q a b x h.1
  | cons c l ih =>
    intro a b h
    rw [List.isChain_cons_cons] at h
    simp only [List.map_cons, lerp]
    split_ifs with hx
    · exact line_affine p q a b x h.1
    · exact ih b c h.2

theorem line_near (a u b w x v e : α) (hab : a < b) (h1 : a ≤ x) (h2 : x ≤ b) (hu : |u - v| ≤ e) (hw : |w - v| ≤ e) :
    |line a u b w x - v| ≤ e := by
  have hd : 0 < b - a := sub_pos.mpr hab
  set t := (x - a) / (b - a) with ht
  have t0 : 0 ≤ t := div_nonneg (sub_nonneg.mpr h1) hd.le
  have t1 : t ≤ 1 := by rw [ht, div_le_one hd]; linarith
  have : line a u b w x - v = (1 - t) * (u - v) + t * (w - v) := by
    simp only [line, ← ht]; ring
  rw [this]
  calc |(1 - t) * (u - v) + t * (w - v)| ≤ |(1 - t) * (u - v)| + |t * (w - v)| := abs_add_le _ _
    _ = (1 - t) * |u - v| + t * |w - v| := by rw [abs_mul, abs_mul, abs_of_nonneg t0, abs_of_nonneg (sub_nonneg.mpr t1)]
    _ ≤ (1 - t) * e + t * e := add_le_add (mul_le_mul_of_nonneg_left hu (sub_nonneg.mpr t1)) (mul_le_mul_of_nonneg_left hw t0)
    _ = e := by ring

theorem lerp_near (f : α → α) (x v e h : α) : ∀ (l : List α) (a b : α), Gaps h (a :: b :: l) → a ≤ x →
    (∃ z ∈ b :: l, x ≤ z) → (∀ z ∈ a :: b :: l, |z - x| ≤ h → |f z - v| ≤ e) →
    |lerp x ((a :: b :: l).map fun a => (a, f a)) - v| ≤ e := by
  intro l
  induction l with
  | nil =>
    intro a b hg ha hb hf
    rw [Gaps, List.isChain_cons_cons] at hg
    obtain ⟨z, hz, hxz⟩ := hb
    rw [List.mem_singleton] at hz
    subst hz
    refine line_near a _ z _ x v e hg.1.1 ha hxz (hf a (by simp) ?_) (hf z (by simp) ?_)
    · rw [abs_sub_comm, abs_of_nonneg (sub_nonneg.mpr ha)]; linarith [hg.1.2]
    · rw [abs_of_nonneg (sub_nonneg.mpr hxz)]; linarith [hg.1.2]
  | cons c l ih =>
    intro a b hg ha hb hf
    rw [Gaps, List.isChain_cons_cons] at hg
    simp only [List.map_cons, lerp]
    split_ifs with hx
    · refine line_near a _ b _ x v e hg.1.1 ha hx.le (hf a (by simp) ?_) (hf b (by simp) ?_)
      · rw [abs_sub_comm, abs_of_nonneg (sub_nonneg.mpr ha)]; linarith [hg.1.2]
      · rw [abs_of_nonneg (sub_nonneg.mpr hx.le)]; linarith [hg.1.2]
    · rw [not_lt] at hx
      refine ih b c hg.2 hx ?_ fun z hz => hf z (List.mem_cons_of_mem _ hz)
      obtain ⟨z, hz, hxz⟩ := hb
      rcases List.mem_cons.mp hz with rfl | hz
      · have : z = x := le_antisymm hx hxz
        refine ⟨c, by simp, ?_⟩
        have h2 := hg.2
        rw [List.isChain_cons_cons] at h2
        exact hxz.trans h2.1.1.le
      · exact ⟨z, hz, hxz⟩

omit [Field α] [LinearOrder α] [IsStrictOrderedRing α] in
theorem zip_map_self {β : Type} (f : α → β) (l : List α) : l.zip (l.map f) = l.map fun a => (a, f a) := by
  induction l with
  | nil => rfl
  | cons a l ih => simp [ih]

omit [IsStrictOrderedRing α] in
theorem bilinear_map (F : α → α → α) (ys xs : List α) (y x : α) :
    bilinear ys xs (ys.map fun y => xs.map fun x => F x y) y x
      = lerp y (ys.map fun b => (b, lerp x (xs.map fun a => (a, F a b)))) := by
  simp only [bilinear, List.map_map]
  rw [zip_map_self]
  simp only [Function.comp, zip_map_self]

variable [FloorRing α]

omit [LinearOrder α] [IsStrictOrderedRing α] [FloorRing α] in
theorem grid_length (lo hi : Int) (n : Nat) : (grid (α := α) lo hi n).length = n := by simp [grid]

/-- The spacing of a grid. -/
def gap (lo hi : Int) (n : Nat) : α := ((hi : α) - lo) / ((n : α) - 1)

theorem gap_pos {lo hi : Int} {n : Nat} (h : lo < hi) (hn : 2 ≤ n) : 0 < gap (α := α) lo hi n := by
  have h1 : (0 : α) < (hi : α) - lo := by rw [sub_pos]; exact_mod_cast h
  have h2 : (2 : α) ≤ n := by exact_mod_cast hn
  exact div_pos h1 (by linarith)

theorem grid_gaps {lo hi : Int} {n : Nat} (h : lo < hi) (hn : 2 ≤ n) : Gaps (gap lo hi n) (grid (α := α) lo hi n) := by
  have hp := gap_pos (α := α) h hn
  rw [Gaps, grid, List.isChain_map]
  refine List.IsChain.imp ?_ ((List.isChain_range (fun a b => b = a + 1) n).mpr fun _ _ => rfl)
  intro a b hab
  subst hab
  have : (lo : α) + ((a + 1 : Nat) : α) * gap lo hi n - ((lo : α) + (a : α) * gap lo hi n) = gap lo hi n := by push_cast; ring
  constructor
  · show (lo : α) + (a : α) * gap lo hi n < (lo : α) + ((a + 1 : Nat) : α) * gap lo hi n
    linarith
  · exact this.le

theorem grid_chain {lo hi : Int} {n : Nat} (h : lo < hi) (hn : 2 ≤ n) : (grid (α := α) lo hi n).IsChain (· < ·) :=
  (grid_gaps h hn).imp fun _ _ hab => hab.1

omit [LinearOrder α] [IsStrictOrderedRing α] [FloorRing α] in
/-- The shape of a grid with two points or more. -/
theorem grid_cons {lo hi : Int} {n : Nat} (hn : 2 ≤ n) : ∃ b l, grid (α := α) lo hi n = (lo : α) :: b :: l := by
  obtain ⟨m, rfl⟩ : ∃ m, n = m + 2 := ⟨n - 2, by omega⟩
  simp only [grid]
  rw [List.range_succ_eq_map, List.range_succ_eq_map]
  simp only [List.map_cons, Nat.cast_zero, zero_mul, add_zero]
  exact ⟨_, _, rfl⟩

theorem grid_last {lo hi : Int} {n : Nat} (hn : 2 ≤ n) : (hi : α) ∈ grid (α := α) lo hi n := by
  have h2 : (2 : α) ≤ n := by exact_mod_cast hn
  rw [grid, List.mem_map]
  refine ⟨n - 1, List.mem_range.mpr (by omega), ?_⟩
  have h1 : ((n - 1 : Nat) : α) = (n : α) - 1 := by
    rw [Nat.cast_sub (by omega)]; simp
  have : (n : α) - 1 ≠ 0 := by linarith
  rw [h1]
  field_simp
  ring

end Verif.Pixmap
