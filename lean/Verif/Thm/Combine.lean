import Verif.Model.Combine
import Verif.Thm.SRegion
import Mathlib.Tactic.Ring
import Mathlib.Tactic.Linarith
import Mathlib.Tactic.NormNum

/-!
# C113-C114: outlines of images and of combined images
-/

namespace Verif.Thm

open Verif.Resample (Fl)
open Verif.SRegion
open Verif.Combine

section
variable {α : Type} [Field α] [LinearOrder α] [IsStrictOrderedRing α] [FloorRing α]

/-! ## C113: one image -/

/-- C113 (box).  The box made for a shape contains the centre of pixel (column `c`, row `r`) exactly if the pixel belongs to the image, and
its sides are half a pixel away from the centres of the outer pixels. -/
theorem C113_box (front : List Nat) (ny nx : Nat) :
    ∃ b : (α × α) × (α × α), bboxFromShape (front ++ [ny, nx]) = some b ∧
      (∀ c : Int, (b.1.1 ≤ (c : α) ∧ (c : α) ≤ b.1.2) ↔ 0 ≤ c ∧ c < nx) ∧
      (∀ r : Int, (b.2.1 ≤ (r : α) ∧ (r : α) ≤ b.2.2) ↔ 0 ≤ r ∧ r < ny) ∧
      b.1.2 - b.1.1 = nx ∧ b.2.2 - b.2.1 = ny := by
  have key : ∀ (n : Nat) (c : Int), ((-(1 / 2) : α) ≤ (c : α) ∧ (c : α) ≤ (n : α) - 1 / 2) ↔ 0 ≤ c ∧ c < n := by
    intro n c
    constructor
    · rintro ⟨h1, h2⟩
      constructor
      · have : (-1 : α) < c := by linarith
        have : (-1 : Int) < c := by exact_mod_cast this
        omega
      · have : (c : α) < ((n : Int) : α) := by push_cast; linarith
        exact_mod_cast this
    · rintro ⟨h1, h2⟩
      have h3 : (0 : α) ≤ c := by exact_mod_cast h1
      have h4 : (c : α) + 1 ≤ n := by exact_mod_cast h2
      constructor <;> linarith
  refine ⟨((-(1 / 2), (nx : α) - 1 / 2), (-(1 / 2), (ny : α) - 1 / 2)), ?_, key nx, key ny, by simp, by simp⟩
  simp [bboxFromShape]

omit [IsStrictOrderedRing α] in
/-- C113 (which box).  The bounding box of the WCS is used if there is one and is kept; otherwise the one of the shape is used and
attached to the WCS; without both it fails, and the WCS stays without box. -/
theorem C113_which_box (bbox : Option ((α × α) × (α × α))) (shape : Option (List Nat))
    (footprint : (α × α) × (α × α) → List (Fl α × Fl α)) :
    (∀ b, bbox = some b → sregionImaging bbox shape footprint = sregionImaging (some b) none footprint ∧
      (sregionImaging bbox shape footprint).2 = some b) ∧
    (∀ s b, bbox = none → shape = some s → bboxFromShape s = some b →
      sregionImaging bbox shape footprint = sregionImaging (some b) none footprint) ∧
    (bbox = none → shape = none → sregionImaging bbox shape footprint = (.error, none)) := by
  refine ⟨?_, ?_, ?_⟩
  · rintro b rfl
    exact ⟨rfl, rfl⟩
  · rintro s b rfl rfl h
    simp [sregionImaging, h]
  · rintro rfl rfl
    rfl

theorem cb_round_lt (y : α) (n : Int) (h : y < n) : roundEven y ≤ n := by
  have hr := (abs_le.1 (sr_roundEven y)).2
  have h2 : (roundEven y : α) < ((n + 1 : Int) : α) := by push_cast; linarith
  have h3 : roundEven y < n + 1 := by exact_mod_cast h2
  omega

theorem cb_round_gt (y : α) (n : Int) (h : n - 1 / 2 < y) : n ≤ roundEven y := by
  have hr := (abs_le.1 (sr_roundEven y)).1
  have h2 : ((n - 1 : Int) : α) < (roundEven y : α) := by push_cast; linarith
  have h3 : n - 1 < roundEven y := by exact_mod_cast h2
  omega

theorem cb_scale (x : α) (h : x < 360) : x * 10 ^ 9 < ((360000000000 : Int) : α) := by
  have := mul_lt_mul_of_pos_right h (by positivity : (0 : α) < 10 ^ 9)
  push_cast
  calc x * 10 ^ 9 < 360 * 10 ^ 9 := this
    _ = 360000000000 := by norm_num

theorem cb_value_range (x : α) (h0 : 0 ≤ x) (h1 : x < 360) : 0 ≤ srValue x ∧ srValue x ≤ 360 := by
  have hy : (0 : α) ≤ x * 10 ^ 9 := by positivity
  have hle := cb_round_lt _ _ (cb_scale x h1)
  have hnat : (roundEven (x * 10 ^ 9)).toNat ≤ 360000000000 := by omega
  have hc : (((roundEven (x * 10 ^ 9)).toNat : Nat) : α) ≤ ((360000000000 : Nat) : α) := by exact_mod_cast hnat
  simp only [srValue, if_neg (not_lt.2 h0), abs_of_nonneg h0]
  constructor
  · positivity
  · rw [div_le_iff₀ (by positivity)]
    refine hc.trans (le_of_eq ?_)
    push_cast
    norm_num

theorem cb_value_turn (x : α) (h0 : 360 - 1 / 2 / 10 ^ 9 < x) (h1 : x < 360) : srValue x = 360 := by
  have hx : 0 ≤ x := by
    have : (0 : α) ≤ 360 - 1 / 2 / 10 ^ 9 := by norm_num
    linarith
  have h2 : ((360000000000 : Int) : α) - 1 / 2 < x * 10 ^ 9 := by
    have := mul_lt_mul_of_pos_right h0 (by positivity : (0 : α) < 10 ^ 9)
    refine lt_of_eq_of_lt ?_ this
    push_cast
    norm_num
  have hz : roundEven (x * 10 ^ 9) = 360000000000 := le_antisymm (cb_round_lt _ _ (cb_scale x h1)) (cb_round_gt _ _ h2)
  have hn : (roundEven (x * 10 ^ 9)).toNat = 360000000000 := by rw [hz]; rfl
  simp only [srValue, if_neg (not_lt.2 hx), abs_of_nonneg hx, hn]
  push_cast
  norm_num

/-- C113 (string).  For a footprint of four vertices with finite coordinates, the string is read back as four vertices in the same order, to
half a unit of the ninth decimal, whose right ascensions are those of the footprint up to whole turns and lie in [0, 360]. -/
theorem C113_string (b : (α × α) × (α × α)) (fp : List (α × α)) (h4 : fp.length = 4)
    (footprint : (α × α) × (α × α) → List (Fl α × Fl α)) (hfp : footprint b = fp.map srNum) :
    ∃ s ps vs, (sregionImaging (some b) none footprint).1 = .text s ∧ parse s = some ps ∧ List.Forall₂ SrClose ps vs ∧
      List.Forall₂ (fun v w : α × α => v.2 = w.2 ∧ 0 ≤ v.1 ∧ v.1 < 360 ∧ ∃ n : Int, v.1 = w.1 + 360 * n) vs fp ∧
      ∀ p ∈ ps, 0 ≤ p.1 ∧ p.1 ≤ 360 := by
  set vs := fp.map fun v : α × α => (v.1 - 360 * (⌊v.1 / 360⌋ : α), v.2) with hvs
  have hmap : (footprint b).map (fun v => (modTurn v.1, v.2)) = vs.map srNum := by
    rw [hfp, hvs, List.map_map, List.map_map]
    apply List.map_congr_left
    intro v _
    rfl
  obtain ⟨s, h1, h2⟩ := sr_keyword vs (by simp [hvs, h4])
  have ht : vs.take 4 = vs := List.take_of_length_le (by simp [hvs, h4])
  rw [ht] at h2
  have hrange : ∀ x : α, 0 ≤ x - 360 * (⌊x / 360⌋ : α) ∧ x - 360 * (⌊x / 360⌋ : α) < 360 := by
    intro x
    have h1 := Int.floor_le (x / 360)
    have h2 := Int.lt_floor_add_one (x / 360)
    constructor <;> linarith
  refine ⟨s, _, vs, ?_, h2, sr_close_map _, ?_, ?_⟩
  · simp only [sregionImaging, hmap]
    exact h1
  · rw [hvs, List.forall₂_map_left_iff, List.forall₂_same]
    intro v _
    exact ⟨rfl, (hrange v.1).1, (hrange v.1).2, -⌊v.1 / 360⌋, by push_cast; ring⟩
  · intro p hp
    rw [hvs, List.map_map, List.mem_map] at hp
    obtain ⟨v, _, rfl⟩ := hp
    exact cb_value_range _ (hrange v.1).1 (hrange v.1).2

/-- C113 (finding).  The reduction to [0, 360) precedes the rounding: a right ascension less than half a unit of the ninth decimal below a
whole turn is written as 360, not as 0. -/
theorem C113_writes_360 (b : (α × α) × (α × α)) (fp : List (α × α)) (h4 : fp.length = 4)
    (footprint : (α × α) × (α × α) → List (Fl α × Fl α)) (hfp : footprint b = fp.map srNum)
    (n : Int) (v : α × α) (hv : fp.head? = some v) (h1 : 360 * n - 1 / 2 / 10 ^ 9 < v.1) (h2 : v.1 < 360 * n) :
    ∃ s, ∃ d : α, ∃ t, (sregionImaging (some b) none footprint).1 = .text s ∧ parse s = some ((360, d) :: t) := by
  obtain ⟨w, rest, rfl⟩ : ∃ w rest, fp = w :: rest := by
    rcases fp with _ | ⟨w, rest⟩
    · simp at h4
    · exact ⟨w, rest, rfl⟩
  obtain rfl : w = v := by simpa using hv
  set vs := (w :: rest).map fun v : α × α => (v.1 - 360 * (⌊v.1 / 360⌋ : α), v.2) with hvs
  have hmap : (footprint b).map (fun v => (modTurn v.1, v.2)) = vs.map srNum := by
    rw [hfp, hvs, List.map_map, List.map_map]
    apply List.map_congr_left
    intro v _
    rfl
  obtain ⟨s, h3, h5⟩ := sr_keyword vs (by simp [hvs] at h4 ⊢; omega)
  have ht : vs.take 4 = vs := List.take_of_length_le (by simp [hvs] at h4 ⊢; omega)
  rw [ht] at h5
  have hfl : ⌊w.1 / 360⌋ = n - 1 := by
    rw [Int.floor_eq_iff]
    have hs : (1 : α) / 2 / 10 ^ 9 < 360 := by norm_num
    constructor
    · rw [le_div_iff₀ (by norm_num)]; push_cast; linarith
    · rw [div_lt_iff₀ (by norm_num)]; push_cast; linarith
  have hval : srValue (w.1 - 360 * (⌊w.1 / 360⌋ : α)) = 360 := by
    apply cb_value_turn
    · rw [hfl]; push_cast; linarith
    · rw [hfl]; push_cast; linarith
  refine ⟨s, srValue w.2, (rest.map fun v : α × α => (v.1 - 360 * (⌊v.1 / 360⌋ : α), v.2)).map fun v => (srValue v.1, srValue v.2), ?_, ?_⟩
  · simp only [sregionImaging, hmap]
    exact h3
  · rw [h5, hvs, List.map_cons, List.map_cons]
    simp only [hval]

/-! ## C114: several images -/

/-- What the inputs stand for: strings are read, footprints are taken as they are. -/
inductive CbInput : List Char ⊕ List (α × α) → List (α × α) → Prop
  | text (t : List Char) (f : List (α × α)) : parse t = some f → CbInput (.inl t) f
  | footprint (f : List (α × α)) : CbInput (.inr f) f

omit [IsStrictOrderedRing α] [LinearOrder α] [FloorRing α] in
theorem cb_inputs (inputs : List (List Char ⊕ List (α × α))) (fps : List (List (α × α))) :
    inputs.mapM footprintOf = some fps ↔ List.Forall₂ CbInput inputs fps := by
  induction inputs generalizing fps with
  | nil =>
    simp only [List.mapM_nil, List.forall₂_nil_left_iff]
    constructor
    · intro h; exact (Option.some.inj h).symm
    · rintro rfl; rfl
  | cons a l ih =>
    rw [List.mapM_cons]
    constructor
    · intro h
      rcases a with t | f
      · cases ht : parse (α := α) t with
        | none => simp [footprintOf, ht] at h
        | some f =>
          cases hl : l.mapM (footprintOf (α := α)) with
          | none => simp [footprintOf, ht, hl] at h
          | some r =>
            simp only [footprintOf, ht, hl, Option.bind_eq_bind, Option.bind_some, Option.pure_def, Option.some.injEq] at h
            subst h
            exact .cons (.text t f ht) ((ih r).1 hl)
      · cases hl : l.mapM (footprintOf (α := α)) with
        | none => simp [footprintOf, hl] at h
        | some r =>
          simp only [footprintOf, hl, Option.bind_eq_bind, Option.bind_some, Option.pure_def, Option.some.injEq] at h
          subst h
          exact .cons (.footprint f) ((ih r).1 hl)
    · intro h
      cases h with
      | cons h1 h2 =>
        rw [(ih _).2 h2]
        cases h1 with
        | text t f ht => simp [footprintOf, ht]
        | footprint f => simp [footprintOf]

omit [FloorRing α] [IsStrictOrderedRing α] [LinearOrder α] [Field α] in
theorem cb_unstack (fps : List (List (α × α))) (n : Nat) (h : ∀ f ∈ fps, f.length = n) (inv : α × α → α × α) :
    unstack fps.length n (fps.flatten.map inv) = fps.map fun f => f.map inv := by
  induction fps with
  | nil => rfl
  | cons f l ih =>
    have hf : (f.map inv).length = n := by simp [h f (by simp)]
    have ih := ih fun g hg => h g (by simp [hg])
    simp only [unstack] at ih ⊢
    rw [List.length_cons, List.range_succ_eq_map, List.map_cons, List.map_map, List.flatten_cons, List.map_append, List.map_cons]
    congr 1
    · rw [Nat.zero_mul, List.drop_zero, ← hf, List.take_left]
    · rw [← ih]
      apply List.map_congr_left
      intro i _
      simp only [Function.comp_apply]
      have : (i + 1) * n = (f.map inv).length + i * n := by rw [hf]; ring
      rw [this, List.drop_length_add_append]

omit [FloorRing α] [IsStrictOrderedRing α] [LinearOrder α] [Field α] in
theorem cb_stack (fps : List (List (α × α))) :
    (∀ r, stack fps = some r → (∀ f ∈ fps, f.length = r.1) ∧ r.2 = fps.flatten) ∧
    (stack fps = none ↔ ¬ ∀ f ∈ fps, ∀ g ∈ fps, f.length = g.length) := by
  rcases fps with _ | ⟨f, l⟩
  · simp [stack]
  · by_cases h : ∀ g ∈ l, g.length = f.length
    · have hs : stack (f :: l) = some (f.length, (f :: l).flatten) := by simp [stack]; exact fun a ha => h a ha
      have hall : ∀ g ∈ f :: l, g.length = f.length := by
        intro g hg
        rcases List.mem_cons.1 hg with rfl | hg
        · rfl
        · exact h g hg
      rw [hs]
      refine ⟨?_, ?_⟩
      · rintro r hr
        obtain rfl := Option.some.inj hr
        exact ⟨hall, rfl⟩
      · simp only [reduceCtorEq, false_iff, not_not]
        intro a ha b hb
        rw [hall a ha, hall b hb]
    · have hs : stack (f :: l) = none := by
        simp only [stack]
        rw [if_neg (by simpa using h)]
      rw [hs]
      refine ⟨by simp, ?_⟩
      simp only [true_iff]
      intro hh
      exact h fun g hg => hh g (by simp [hg]) f (by simp)

/-- The exterior rings of a union, if it is made of polygons. -/
def CbRings : Geom α → List (List (α × α)) → Prop
  | .polygon r, l => l = [r]
  | .multi rs, l => l = rs
  | .other, _ => False

/-- Number of vertices shapely accepts for a polygon. -/
def CbOk (p : List (α × α)) : Prop := p.length ≠ 1 ∧ p.length ≠ 2

/-- The vertices of a closed ring that are kept. -/
def cbKept (k : Tol α) (r : List (α × α)) : List (α × α) := Verif.Simplify.simplify k.thresh k.t k.eps r.dropLast

omit [FloorRing α] [IsStrictOrderedRing α] [LinearOrder α] [Field α] in
theorem cb_makes (p : List (α × α)) : makes p = true ↔ CbOk p := by
  simp only [makes, CbOk, Bool.or_eq_true, decide_eq_true_eq]
  omega

omit [FloorRing α] [IsStrictOrderedRing α] in
theorem cb_combineFootprints (k : Tol α) (union : List (List (α × α)) → Geom α) (fps polys : List (List (α × α))) :
    combineFootprints k union fps = some polys ↔
      (∀ f ∈ fps, CbOk f) ∧ ∃ rings, CbRings (union fps) rings ∧ polys = rings.map (cbKept k) := by
  have hall : fps.all makes = true ↔ ∀ f ∈ fps, CbOk f := by
    rw [List.all_eq_true]
    exact forall₂_congr fun f _ => cb_makes f
  simp only [combineFootprints]
  by_cases h : ∀ f ∈ fps, CbOk f
  · rw [if_pos (hall.2 h)]
    cases union fps with
    | polygon r =>
      simp only [Option.some.injEq, CbRings, exists_eq_left]
      constructor
      · rintro rfl; exact ⟨h, rfl⟩
      · rintro ⟨_, rfl⟩; rfl
    | multi rs =>
      simp only [Option.some.injEq, CbRings, exists_eq_left]
      constructor
      · rintro rfl; exact ⟨h, rfl⟩
      · rintro ⟨_, rfl⟩; rfl
    | other => simp [CbRings]
  · rw [if_neg (fun hh => h (hall.1 hh))]
    simp [h]

omit [IsStrictOrderedRing α] in
/-- The steps before the intersection. -/
theorem cb_before (k : Tol α) (union : List (List (α × α)) → Geom α)
    (inter : List (α × α) → List (α × α) → Option (Geom α)) (fwd inv : α × α → α × α)
    (inputs : List (List Char ⊕ List (α × α))) (fps rings : List (List (α × α))) (hin : List.Forall₂ CbInput inputs fps)
    (hlen : ∀ f ∈ fps, ∀ g ∈ fps, f.length = g.length) (hok : ∀ f ∈ fps, CbOk f)
    (hu : CbRings (union (fps.map fun f => f.map inv)) rings) (box : Option (List (α × α))) :
    combineSregions k union inter fwd inv inputs box =
      match box with
      | none => some (polygonsText ((rings.map (cbKept k)).map fun p => p.map fun v => (.num (fwd v).1, .num (fwd v).2)))
      | some b =>
        match intersectBox k inter (rings.map (cbKept k)) (b.map inv) with
        | none => none
        | some [] => none
        | some final => some (polygonsText (final.map fun p => p.map fun v => (.num (fwd v).1, .num (fwd v).2))) := by
  obtain ⟨⟨n, flat⟩, hs⟩ : ∃ r, stack fps = some r := by
    cases h : stack fps with
    | none => exact absurd hlen ((cb_stack fps).2.1 h)
    | some r => exact ⟨r, rfl⟩
  obtain ⟨h1, h2⟩ := (cb_stack fps).1 _ hs
  have hc : combineFootprints k union (unstack fps.length n (flat.map inv)) = some (rings.map (cbKept k)) := by
    simp only at h1 h2
    rw [h2, cb_unstack fps n h1 inv, cb_combineFootprints]
    refine ⟨?_, rings, hu, rfl⟩
    intro f hf
    obtain ⟨g, hg, rfl⟩ := List.mem_map.1 hf
    simpa [CbOk] using hok g hg
  simp only [combineSregions, (cb_inputs inputs fps).2 hin, hs, hc]
  rcases box with _ | b <;> rfl

theorem cb_text (polys : List (List (α × α))) (fwd : α × α → α × α) :
    ∃ ps, parse (polygonsText (polys.map fun p => p.map fun v => ((.num (fwd v).1, .num (fwd v).2) : Fl α × Fl α))) = some ps ∧
      List.Forall₂ SrClose ps (polys.flatten.map fwd) := by
  obtain ⟨ps, h1, h2⟩ := C58_polygons (polys.map fun p => p.map fwd)
  refine ⟨ps, ?_, ?_⟩
  · rw [← h1, List.map_map]
    congr 2
    apply List.map_congr_left
    intro p _
    simp only [Function.comp_apply, List.map_map]
    rfl
  · rw [← List.map_flatten] at h2
    exact h2

/-- C114 (union).  For inputs with equal numbers of vertices, the outlines joined are those of the inputs, each vertex carried to the pixels of
the output and every outline with its own vertices; without a footprint to intersect with, the string is read back as the vertices kept of the
union, carried to the sky, in order, to half a unit of the ninth decimal. -/
theorem C114_union (k : Tol α) (union : List (List (α × α)) → Geom α)
    (inter : List (α × α) → List (α × α) → Option (Geom α)) (fwd inv : α × α → α × α)
    (inputs : List (List Char ⊕ List (α × α))) (fps rings : List (List (α × α))) (hin : List.Forall₂ CbInput inputs fps)
    (hlen : ∀ f ∈ fps, ∀ g ∈ fps, f.length = g.length) (hok : ∀ f ∈ fps, CbOk f)
    (hu : CbRings (union (fps.map fun f => f.map inv)) rings) :
    ∃ s ps, combineSregions k union inter fwd inv inputs none = some s ∧ parse s = some ps ∧
      List.Forall₂ SrClose ps ((rings.map (cbKept k)).flatten.map fwd) := by
  obtain ⟨ps, h1, h2⟩ := cb_text (rings.map (cbKept k)) fwd
  exact ⟨_, ps, cb_before k union inter fwd inv inputs fps rings hin hlen hok hu none, h1, h2⟩

omit [IsStrictOrderedRing α] in
/-- C114 (failures).  Without a footprint to intersect with, it fails exactly if a string cannot be read, the numbers of vertices differ, an
input has one or two vertices, or the union is not made of polygons. -/
theorem C114_fails (k : Tol α) (union : List (List (α × α)) → Geom α)
    (inter : List (α × α) → List (α × α) → Option (Geom α)) (fwd inv : α × α → α × α)
    (inputs : List (List Char ⊕ List (α × α))) :
    combineSregions k union inter fwd inv inputs none = none ↔
      ¬ ∃ fps rings, List.Forall₂ CbInput inputs fps ∧ (∀ f ∈ fps, ∀ g ∈ fps, f.length = g.length) ∧ (∀ f ∈ fps, CbOk f) ∧
        CbRings (union (fps.map fun f => f.map inv)) rings := by
  constructor
  · rintro h ⟨fps, rings, hin, hlen, hok, hu⟩
    rw [cb_before k union inter fwd inv inputs fps rings hin hlen hok hu none] at h
    simp at h
  · intro h
    by_contra hne
    apply h
    simp only [combineSregions] at hne
    split at hne
    · exact absurd rfl hne
    · rename_i fps hfps
      split at hne
      · exact absurd rfl hne
      · rename_i n flat hs
        obtain ⟨h1, h2⟩ := (cb_stack fps).1 _ hs
        simp only at h1 h2
        split at hne
        · exact absurd rfl hne
        · rename_i polys hp
          rw [h2, cb_unstack fps n h1 inv, cb_combineFootprints] at hp
          obtain ⟨hok, rings, hu, _⟩ := hp
          refine ⟨fps, rings, (cb_inputs inputs fps).1 hfps, ?_, ?_, hu⟩
          · intro f hf g hg
            rw [h1 f hf, h1 g hg]
          · intro f hf
            simpa [CbOk] using hok _ (List.mem_map_of_mem hf)

omit [FloorRing α] [IsStrictOrderedRing α] in
theorem cb_intersect (k : Tol α) (inter : List (α × α) → List (α × α) → Option (Geom α)) (polys : List (List (α × α)))
    (box : List (α × α)) (hbox : CbOk box) (parts : List (Option (List (α × α))))
    (hp : List.Forall₂ (fun p o => CbOk p ∧ inter p box = o.map Geom.polygon) polys parts) :
    intersectBox k inter polys box = some ((parts.filterMap id).map (cbKept k)) := by
  rw [intersectBox, if_pos ((cb_makes box).2 hbox)]
  induction hp with
  | nil => rfl
  | @cons p o polys parts h _ ih =>
    rw [List.mapM_cons]
    simp only [Option.map_eq_some_iff] at ih
    obtain ⟨ls, hls, hfl⟩ := ih
    rw [hls, if_pos ((cb_makes p).2 h.1), h.2]
    cases o with
    | none => simp [hfl]
    | some r => simp [hfl, convert, cbKept]

/-- C114 (intersection).  With a footprint to intersect with, each outline of the union is intersected with that footprint in pixels; if the
intersections are polygons or empty, the string is read back as the kept vertices of those that are not empty, in order; if all are empty, it
fails. -/
theorem C114_intersection (k : Tol α) (union : List (List (α × α)) → Geom α)
    (inter : List (α × α) → List (α × α) → Option (Geom α)) (fwd inv : α × α → α × α)
    (inputs : List (List Char ⊕ List (α × α))) (fps rings : List (List (α × α))) (hin : List.Forall₂ CbInput inputs fps)
    (hlen : ∀ f ∈ fps, ∀ g ∈ fps, f.length = g.length) (hok : ∀ f ∈ fps, CbOk f)
    (hu : CbRings (union (fps.map fun f => f.map inv)) rings) (box : List (α × α)) (hbox : CbOk box)
    (parts : List (Option (List (α × α))))
    (hp : List.Forall₂ (fun r o => CbOk (cbKept k r) ∧ inter (cbKept k r) (box.map inv) = o.map Geom.polygon) rings parts) :
    ((∀ o ∈ parts, o = none) → combineSregions k union inter fwd inv inputs (some box) = none) ∧
    ((∃ o ∈ parts, o ≠ none) → ∃ s ps, combineSregions k union inter fwd inv inputs (some box) = some s ∧ parse s = some ps ∧
      List.Forall₂ SrClose ps (((parts.filterMap id).map (cbKept k)).flatten.map fwd)) := by
  have hi := cb_intersect k inter (rings.map (cbKept k)) (box.map inv) (by simpa [CbOk] using hbox) parts
    (List.forall₂_map_left_iff.2 hp)
  have hb := cb_before k union inter fwd inv inputs fps rings hin hlen hok hu (some box)
  simp only [hi] at hb
  constructor
  · intro hnone
    have : parts.filterMap id = [] := by
      rw [List.filterMap_eq_nil_iff]
      exact fun o ho => hnone o ho
    rw [hb, this]
    rfl
  · rintro ⟨o, ho, hne⟩
    obtain ⟨r, rfl⟩ := Option.ne_none_iff_exists'.1 hne
    have hmem : r ∈ parts.filterMap id := List.mem_filterMap.2 ⟨some r, ho, rfl⟩
    obtain ⟨ps, h1, h2⟩ := cb_text ((parts.filterMap id).map (cbKept k)) fwd
    refine ⟨_, ps, ?_, h1, h2⟩
    rw [hb]
    generalize parts.filterMap id = l at hmem
    rcases l with _ | ⟨a, l⟩
    · simp at hmem
    · rfl

omit [IsStrictOrderedRing α] in
/-- C114 (finding).  An intersection in several pieces, or one that is a point or a line, makes it fail, whatever the other outlines are:
the exterior of the intersection is asked for, which only a single polygon has. -/
theorem C114_pieces_fail (k : Tol α) (union : List (List (α × α)) → Geom α)
    (inter : List (α × α) → List (α × α) → Option (Geom α)) (fwd inv : α × α → α × α)
    (inputs : List (List Char ⊕ List (α × α))) (fps rings : List (List (α × α))) (hin : List.Forall₂ CbInput inputs fps)
    (hlen : ∀ f ∈ fps, ∀ g ∈ fps, f.length = g.length) (hok : ∀ f ∈ fps, CbOk f)
    (hu : CbRings (union (fps.map fun f => f.map inv)) rings) (box : List (α × α)) (r : List (α × α)) (hr : r ∈ rings)
    (g : Geom α) (hg : inter (cbKept k r) (box.map inv) = some g) (hnot : ∀ ring, g ≠ .polygon ring) :
    combineSregions k union inter fwd inv inputs (some box) = none := by
  rw [cb_before k union inter fwd inv inputs fps rings hin hlen hok hu (some box)]
  have hi : intersectBox k inter (rings.map (cbKept k)) (box.map inv) = none := by
    rw [intersectBox]
    split
    · have hm : cbKept k r ∈ rings.map (cbKept k) := List.mem_map_of_mem hr
      generalize rings.map (cbKept k) = l at hm
      induction l with
      | nil => simp at hm
      | cons a l ih =>
        rw [List.mapM_cons]
        rcases List.mem_cons.1 hm with rfl | hm
        · rw [hg]
          cases g with
          | polygon ring => exact absurd rfl (hnot ring)
          | multi rs => simp
          | other => simp
        · have ih := ih hm
          rw [Option.map_eq_none_iff] at ih
          rw [ih]
          simp
    · rfl
  simp only [hi]

/-- C114 (one image).  One outline whose union with nothing is itself, of which no vertex is dropped, and on whose vertices the transforms
are inverse to each other, comes back to half a unit of the ninth decimal. -/
theorem C114_one (k : Tol α) (union : List (List (α × α)) → Geom α)
    (inter : List (α × α) → List (α × α) → Option (Geom α)) (fwd inv : α × α → α × α) (f : List (α × α)) (h3 : 3 ≤ f.length)
    (hu : union [f.map inv] = .polygon (f.map inv ++ (f.map inv).take 1))
    (hk : Verif.Simplify.simplify k.thresh k.t k.eps (f.map inv) = f.map inv) (hfi : ∀ v ∈ f, fwd (inv v) = v) :
    ∃ s ps, combineSregions k union inter fwd inv [.inr f] none = some s ∧ parse s = some ps ∧ List.Forall₂ SrClose ps f := by
  have hdrop : (f.map inv ++ (f.map inv).take 1).dropLast = f.map inv := by
    rcases f with _ | ⟨a, f⟩
    · simp at h3
    · simp only [List.map_cons, List.take_succ_cons, List.take_zero]
      rw [List.dropLast_concat]
  obtain ⟨s, ps, h1, h2, h4⟩ := C114_union k union inter fwd inv [.inr f] [f] [f.map inv ++ (f.map inv).take 1]
    (.cons (.footprint f) .nil) (by simp) (by simp only [List.mem_singleton, forall_eq, CbOk]; omega) (by simp [hu, CbRings])
  refine ⟨s, ps, h1, h2, ?_⟩
  have : ([f.map inv ++ (f.map inv).take 1].map (cbKept k)).flatten.map fwd = f := by
    simp only [List.map_cons, List.map_nil, List.flatten_cons, List.flatten_nil, List.append_nil, cbKept, hdrop, hk, List.map_map]
    conv_rhs => rw [← List.map_id f]
    exact List.map_congr_left fun v hv => hfi v hv
  rwa [this] at h4

/-- C114 (finding).  The string written for an outline in several pieces stands, as an input, for one polygon through the vertices of
all pieces. -/
theorem C114_pieces_become_one (polys : List (List (α × α))) :
    ∃ f, CbInput (.inl (polygonsText (polys.map fun p => p.map srNum))) f ∧ List.Forall₂ SrClose f polys.flatten := by
  obtain ⟨ps, h1, h2⟩ := C58_polygons polys
  exact ⟨ps, .text _ _ h1, h2⟩

end

/-! ## Examples -/

/-- A shape of three axes: the last two count. -/
example : bboxFromShape [5, 4, 3] = some (((-(1 / 2), 5 / 2), (-(1 / 2), 7 / 2)) : (ℚ × ℚ) × (ℚ × ℚ)) := by decide +kernel

/-- Hypotheses of `C113_string` and `C113_writes_360`. -/
example : ∃ (fp : List (ℚ × ℚ)) (v : ℚ × ℚ), fp.length = 4 ∧ fp.head? = some v ∧
    360 * ((1 : Int) : ℚ) - 1 / 2 / 10 ^ 9 < v.1 ∧ v.1 < 360 * ((1 : Int) : ℚ) :=
  ⟨[(360 - 1 / 10 ^ 10, 0), (1, 0), (1, 1), (0, 1)], _, rfl, rfl, by norm_num, by norm_num⟩

/-- A square of side two and one next to it. -/
def cbSquare (x : ℚ) : List (ℚ × ℚ) := [(x, 0), (x + 2, 0), (x + 2, 2), (x, 2)]

def cbTol : Tol ℚ := ⟨1 / 20, 1 / 10 ^ 6, 1 / 10 ^ 12⟩

/-- A union that leaves two squares apart as they are. -/
def cbUnion (l : List (List (ℚ × ℚ))) : Geom ℚ := .multi (l.map fun p => p ++ p.take 1)

/-- Hypotheses of `C114_union`, with a string and a footprint, for pixels twice the size; all vertices are kept. -/
example : ∃ f, CbInput (.inl (polygonsText [(cbSquare 0).map srNum])) f ∧
    List.Forall₂ CbInput [.inl (polygonsText [(cbSquare 0).map srNum]), .inr (cbSquare 10)] [f, cbSquare 10] ∧ f.length = 4 ∧
    CbRings (cbUnion [(cbSquare 0), (cbSquare 10)]) [cbSquare 0 ++ [(0, 0)], cbSquare 10 ++ [(10, 0)]] ∧
    cbKept cbTol (cbSquare 10 ++ [(10, 0)]) = cbSquare 10 := by
  obtain ⟨f, hf, hc⟩ := C114_pieces_become_one [cbSquare 0]
  exact ⟨f, hf, .cons hf (.cons (.footprint _) .nil), by simpa [cbSquare] using hc.length_eq, by simp only [CbRings, cbUnion]; decide +kernel, by decide +kernel⟩

/-- Hypotheses of `C114_intersection`: of two squares the second is outside the box. -/
example : List.Forall₂ (fun r o => CbOk (cbKept cbTol r) ∧
      (fun p (_ : List (ℚ × ℚ)) => if p.head? = some (0, 0) then some (Geom.polygon (p ++ p.take 1)) else none)
        (cbKept cbTol r) ((cbSquare 0).map id) = o.map Geom.polygon)
    [cbSquare 0 ++ [(0, 0)], cbSquare 10 ++ [(10, 0)]] [some (cbSquare 0 ++ [(0, 0)]), none] := by
  have h0 : cbKept cbTol (cbSquare 0 ++ [(0, 0)]) = cbSquare 0 := by decide +kernel
  have h1 : cbKept cbTol (cbSquare 10 ++ [(10, 0)]) = cbSquare 10 := by decide +kernel
  refine .cons ⟨by rw [h0]; simp [CbOk, cbSquare], ?_⟩ (.cons ⟨by rw [h1]; simp [CbOk, cbSquare], ?_⟩ .nil)
  · rw [h0]; simp [cbSquare]
  · rw [h1]; simp [cbSquare]

/-- Hypotheses of `C114_one`. -/
example : Verif.Simplify.simplify cbTol.thresh cbTol.t cbTol.eps ((cbSquare 3).map fun v => (v.1 / 2, v.2 / 2)) =
    (cbSquare 3).map fun v => (v.1 / 2, v.2 / 2) := by decide +kernel

end Verif.Thm
