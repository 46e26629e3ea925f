import Mathlib.Tactic.Ring
import Mathlib.Tactic.Linarith
import Mathlib.Tactic.FieldSimp
import Mathlib.Data.List.Chain
import Mathlib.Data.List.Range
import Mathlib.Data.Rat.Floor
import Verif.Model.SkyImage

/-!
# C123: bounding polygon of a sky image
-/

namespace Verif.Thm
open Verif.SkyImage

variable {α : Type} [Field α] [LinearOrder α]

/-! ### Specification -/

/-- Coordinates from `u` to `v` by way of `m`, always forward and by at most `d`. -/
def BpRun (d u v : α) (m : List α) : Prop := (u :: (m ++ [v])).IsChain fun a b => a < b ∧ b - a ≤ d

/-- The outer corners of an image begin half a pixel before the first and end half a pixel behind the last pixel; the closed walk
around it from the lower left corner to the right, with the points `b`, `r`, `t`, `l` between the corners. -/
def bpWalk (nx ny : Nat) (b r t l : List α) : List (α × α) :=
  [(-1/2, -1/2)] ++ b.map (fun x => (x, -1/2)) ++ [((nx : α) - 1/2, -1/2)] ++ r.map (fun y => ((nx : α) - 1/2, y)) ++
    [((nx : α) - 1/2, (ny : α) - 1/2)] ++ t.map (fun x => (x, (ny : α) - 1/2)) ++ [(-1/2, (ny : α) - 1/2)] ++
    l.map (fun y => (-1/2, y)) ++ [(-1/2, -1/2)]

/-! ### Helper lemmas -/

variable [IsStrictOrderedRing α]

theorem bp_linspace (a b : α) (k : Nat) : ∃ m : List α, linspace a b (k + 2) = a :: (m ++ [b]) ∧ m.length = k := by
  refine ⟨(List.range k).map fun (i : Nat) => a + (b - a) * ((i + 1 : Nat) : α) / (((k + 2 : Nat) : α) - 1), ?_, by simp⟩
  have h : ((k + 2 : Nat) : α) - 1 ≠ 0 := by push_cast; have := Nat.cast_nonneg (α := α) k; linarith
  rw [linspace, List.range_succ, List.range_succ_eq_map]
  simp only [List.map_append, List.map_cons, List.map_nil, List.map_map, Nat.cast_zero, mul_zero, zero_div, add_zero, List.cons_append,
    List.cons.injEq, true_and, Function.comp_def, Nat.succ_eq_add_one, List.append_cancel_left_eq, and_true]
  push_cast at h ⊢
  have e : (k : α) + 2 - 1 = k + 1 := by ring
  rw [e] at h ⊢
  rw [mul_div_assoc, div_self h]
  ring

theorem bp_chain (a b d : α) (k : Nat) (hab : a < b) (hd : b - a ≤ d * ((k : α) + 1)) :
    (linspace a b (k + 2)).IsChain fun x y => x < y ∧ y - x ≤ d := by
  rw [linspace, List.isChain_map, List.isChain_range]
  intro i _
  have hk : (0 : α) < (k : α) + 1 := by have := Nat.cast_nonneg (α := α) k; linarith
  have e : ((k + 2 : Nat) : α) - 1 = k + 1 := by push_cast; ring
  rw [e]
  have e2 : a + (b - a) * ((i + 1 : Nat) : α) / (k + 1) = a + (b - a) * (i : α) / (k + 1) + (b - a) / (k + 1) := by
    push_cast; ring
  have h1 : 0 < (b - a) / ((k : α) + 1) := div_pos (by linarith) hk
  have h2 : (b - a) / ((k : α) + 1) ≤ d := by rw [div_le_iff₀ hk]; exact hd
  simp only [Nat.succ_eq_add_one]
  rw [e2]
  constructor <;> linarith

theorem bp_side (n : Nat) (hn : 0 < n) (k : Nat) (d : α) (hd : (n : α) ≤ d * ((k : α) + 1)) :
    ∃ m : List α, linspace (-1/2) ((n : α) - 1/2) (k + 2) = -1/2 :: (m ++ [(n : α) - 1/2]) ∧ BpRun d (-1/2) ((n : α) - 1/2) m ∧
      m.length = k := by
  obtain ⟨m, hm, hl⟩ := bp_linspace (-1/2 : α) ((n : α) - 1/2) k
  have hn' : (0 : α) < n := by exact_mod_cast hn
  refine ⟨m, hm, ?_, hl⟩
  rw [BpRun, ← hm]
  exact bp_chain _ _ _ _ (by linarith) (by linarith)

omit [LinearOrder α] [IsStrictOrderedRing α] in
theorem bp_border (nx ny kx ky : Nat) (mx my : List α)
    (hx : linspace (-1/2) ((nx : α) - 1/2) kx = -1/2 :: (mx ++ [(nx : α) - 1/2]))
    (hy : linspace (-1/2) ((ny : α) - 1/2) ky = -1/2 :: (my ++ [(ny : α) - 1/2])) :
    border nx ny kx ky = bpWalk nx ny mx my mx.reverse my.reverse := by
  have h : (-(1/2) : α) = -1/2 := by ring
  simp only [border, h, hx, hy, bpWalk]
  simp

theorem bp_nint [FloorRing α] (s : α) (hs : 1 ≤ s) (n : Nat) :
    ∃ k : Nat, nint (some s) n = some (k + 2) ∧ (n : α) ≤ (2 * s - 1) * ((k : α) + 1) := by
  have h0 : s ≠ 0 := by linarith
  have h1 : (2 : Int) ≤ max 2 ⌈((n : α) + 1) / s⌉ := le_max_left _ _
  refine ⟨(max 2 ⌈((n : α) + 1) / s⌉).toNat - 2, ?_, ?_⟩
  · rw [nint]
    simp only [h0, if_false, Option.some.injEq]
    omega
  · have e : ((((max 2 ⌈((n : α) + 1) / s⌉).toNat - 2 : Nat) : Int) : α) = ((max 2 ⌈((n : α) + 1) / s⌉ - 2 : Int) : α) := by
      congr 1; omega
    rw [Int.cast_natCast] at e
    rw [e]
    push_cast
    have h2 : ((n : α) + 1) / s ≤ ((max 2 ⌈((n : α) + 1) / s⌉ : Int) : α) := Int.ceil_le.mp (le_max_right _ _)
    have h3 : (2 : α) ≤ ((max 2 ⌈((n : α) + 1) / s⌉ : Int) : α) := by exact_mod_cast h1
    push_cast at h2 h3
    rw [div_le_iff₀ (by linarith)] at h2
    generalize max (2 : α) (⌈((n : α) + 1) / s⌉ : α) = m at h2 h3 ⊢
    nlinarith [mul_nonneg (by linarith : (0:α) ≤ s - 1) (by linarith : (0:α) ≤ m - 2)]

omit [LinearOrder α] [IsStrictOrderedRing α] in
theorem bp_closed {β : Type} (f : α × α → β) (nx ny : Nat) (b r t l : List α) :
    ((bpWalk nx ny b r t l).map f).dropLast ++ ((bpWalk nx ny b r t l).map f).take 1 = (bpWalk nx ny b r t l).map f := by
  generalize hc : ([(-1/2, -1/2)] ++ b.map (fun x => (x, -1/2)) ++ [((nx : α) - 1/2, -1/2)] ++ r.map (fun y => ((nx : α) - 1/2, y)) ++
    [((nx : α) - 1/2, (ny : α) - 1/2)] ++ t.map (fun x => (x, (ny : α) - 1/2)) ++ [(-1/2, (ny : α) - 1/2)] ++
    l.map (fun y => (-1/2, y)) : List (α × α)) = c
  have h1 : ∃ c', c = (-1/2, -1/2) :: c' := by rw [← hc]; exact ⟨_, by simp; rfl⟩
  obtain ⟨c', rfl⟩ := h1
  rw [bpWalk, hc]
  simp only [List.map_append, List.map_cons, List.map_nil, List.dropLast_concat]
  simp

omit [LinearOrder α] [IsStrictOrderedRing α] in
theorem bp_mem {nx ny : Nat} {b r t l : List α} {q : α × α} (h : q ∈ b.map (fun x => (x, (-1/2 : α))) ∨
    q ∈ r.map (fun y => ((nx : α) - 1/2, y)) ∨ q ∈ t.map (fun x => (x, (ny : α) - 1/2)) ∨ q ∈ l.map (fun y => ((-1/2 : α), y))) :
    q ∈ bpWalk nx ny b r t l := by
  simp only [bpWalk, List.mem_append]
  tauto

/-! ### C123 -/

/-- C123.  The vertices are the sky positions of a closed walk around the outer edge of the image, counter-clockwise in pixel
coordinates, by way of the four corners, with steps of less than twice the step size. -/
theorem C123_walk {β : Type} [FloorRing α] (nx ny : Nat) (hx : 0 < nx) (hy : 0 < ny) (s : α) (hs : 1 ≤ s) (fwd : α × α → β) :
    ∃ b r t l, outline nx ny (some s) fwd = some ((bpWalk nx ny b r t l).map fwd) ∧
      BpRun (2 * s - 1) (-1/2) ((nx : α) - 1/2) b ∧ BpRun (2 * s - 1) (-1/2) ((ny : α) - 1/2) r ∧
      BpRun (2 * s - 1) (-1/2) ((nx : α) - 1/2) t.reverse ∧ BpRun (2 * s - 1) (-1/2) ((ny : α) - 1/2) l.reverse := by
  obtain ⟨kx, ex, hkx⟩ := bp_nint s hs nx
  obtain ⟨ky, ey, hky⟩ := bp_nint s hs ny
  obtain ⟨mx, hmx, rx, -⟩ := bp_side nx hx kx _ hkx
  obtain ⟨my, hmy, ry, -⟩ := bp_side ny hy ky _ hky
  refine ⟨mx, my, mx.reverse, my.reverse, ?_, rx, ry, by simpa using rx, by simpa using ry⟩
  simp only [outline, ex, ey, Option.bind_some, Option.map_some, bp_border nx ny _ _ mx my hmx hmy]
  rw [bp_closed]

/-- C123.  Without a step size the vertices are the four corners. -/
theorem C123_corners {β : Type} [FloorRing α] (nx ny : Nat) (fwd : α × α → β) :
    outline nx ny (none : Option α) fwd = some ((bpWalk nx ny [] [] [] []).map fwd) := by
  have h : ∀ n : Nat, linspace (-1/2 : α) ((n : α) - 1/2) 2 = -1/2 :: ([] ++ [(n : α) - 1/2]) := by
    intro n
    obtain ⟨m, hm, hl⟩ := bp_linspace (-1/2 : α) ((n : α) - 1/2) 0
    rw [List.length_eq_zero_iff] at hl
    subst hl
    simpa using hm
  simp only [outline, nint, Option.bind_some, Option.map_some, bp_border nx ny _ _ [] [] (h nx) (h ny)]
  exact congrArg some (bp_closed fwd nx ny [] [] [] [])

omit [IsStrictOrderedRing α] in
/-- C123.  A step size of zero is an error. -/
theorem C123_zero {β : Type} [FloorRing α] (nx ny : Nat) (fwd : α × α → β) : outline nx ny (some (0 : α)) fwd = none := by
  simp [outline, nint]

/-- C123.  Step size one: the vertices are the corners of all pixels along the edge. -/
theorem C123_every_pixel {β : Type} [FloorRing α] (nx ny : Nat) (hx : 0 < nx) (hy : 0 < ny) (fwd : α × α → β) :
    ∃ c : List (α × α), outline nx ny (some (1 : α)) fwd = some (c.map fwd) ∧ c.length = 2 * (nx + ny) + 1 ∧
      (∀ i ≤ nx, ((i : α) - 1/2, -1/2) ∈ c ∧ ((i : α) - 1/2, (ny : α) - 1/2) ∈ c) ∧
      ∀ i ≤ ny, (-1/2, (i : α) - 1/2) ∈ c ∧ ((nx : α) - 1/2, (i : α) - 1/2) ∈ c := by
  have hk : ∀ n : Nat, 0 < n → nint (some (1 : α)) n = some (n - 1 + 2) := by
    intro n hn
    have : ⌈(n : α) + 1⌉ = n + 1 := by
      have e : ((n : α) + 1) = ((n + 1 : Int) : α) := by push_cast; ring
      rw [e, Int.ceil_intCast]
    simp only [nint, one_ne_zero, if_false, div_one, this, Option.some.injEq]
    omega
  have hle : ∀ n : Nat, 0 < n → (n : α) ≤ (n : α) * (((n - 1 : Nat) : α) + 1) := by
    intro n hn
    have : (1 : α) ≤ ((n - 1 : Nat) : α) + 1 := by have := Nat.cast_nonneg (α := α) (n - 1); linarith
    nlinarith [Nat.cast_nonneg (α := α) n]
  obtain ⟨mx, hmx, -, lx⟩ := bp_side nx hx (nx - 1) (nx : α) (hle nx hx)
  obtain ⟨my, hmy, -, ly⟩ := bp_side ny hy (ny - 1) (ny : α) (hle ny hy)
  refine ⟨bpWalk nx ny mx my mx.reverse my.reverse, ?_, ?_, ?_⟩
  · simp only [outline, hk nx hx, hk ny hy, Option.bind_some, Option.map_some, bp_border nx ny _ _ mx my hmx hmy]
    rw [bp_closed]
  · simp [bpWalk, lx, ly]
    omega
  · have hm : ∀ (n : Nat) (m : List α), 0 < n → linspace (-1/2) ((n : α) - 1/2) (n - 1 + 2) = -1/2 :: (m ++ [(n : α) - 1/2]) →
        ∀ i ≤ n, (i : α) - 1/2 = -1/2 ∨ (i : α) - 1/2 ∈ m ∨ (i : α) - 1/2 = (n : α) - 1/2 := by
      intro n m hn hl i hi
      have h : (i : α) - 1/2 ∈ (-1/2 :: (m ++ [(n : α) - 1/2])) := by
        rw [← hl, linspace, List.mem_map]
        refine ⟨i, by simp; omega, ?_⟩
        have e : ((n - 1 + 2 : Nat) : α) - 1 = n := by
          have : n - 1 + 2 = n + 1 := by omega
          rw [this]; push_cast; ring
        have hn : (n : α) ≠ 0 := by exact_mod_cast hn.ne'
        rw [e]
        field_simp
        ring
      simpa only [List.mem_cons, List.mem_append, List.not_mem_nil, or_false] using h
    constructor
    · intro i hi
      rcases hm nx mx hx hmx i hi with h | h | h
      · rw [h]; simp [bpWalk]
      · exact ⟨bp_mem (.inl (List.mem_map.mpr ⟨_, h, rfl⟩)), bp_mem (.inr (.inr (.inl (List.mem_map.mpr ⟨_, (List.mem_reverse.mpr h), rfl⟩))))⟩
      · rw [h]; simp [bpWalk]
    · intro i hi
      rcases hm ny my hy hmy i hi with h | h | h
      · rw [h]; simp [bpWalk]
      · exact ⟨bp_mem (.inr (.inr (.inr (List.mem_map.mpr ⟨_, (List.mem_reverse.mpr h), rfl⟩)))), bp_mem (.inr (.inl (List.mem_map.mpr ⟨_, h, rfl⟩)))⟩
      · rw [h]; simp [bpWalk]

/-- C123 (finding).  `stepsize` is documented as the maximum separation of adjacent vertices, but a side of nine pixels has no vertex
between its corners for a step size of five. -/
theorem C123_larger_than_asked : outline 9 3 (some (5 : ℚ)) id = some
    [(-1/2, -1/2), (17/2, -1/2), (17/2, 5/2), (-1/2, 5/2), (-1/2, -1/2)] := by
  decide +kernel

/-- The hypotheses of `C123_walk`: a side of six pixels with step size three gets two more vertices. -/
example : outline 6 2 (some (3 : ℚ)) id = some
    [(-1/2, -1/2), (5/2, -1/2), (11/2, -1/2), (11/2, 3/2), (5/2, 3/2), (-1/2, 3/2), (-1/2, -1/2)] := by
  decide +kernel

/-- `C123_every_pixel`. -/
example : (outline 3 2 (some (1 : ℚ)) id).map List.length = some 11 := by decide +kernel

end Verif.Thm
