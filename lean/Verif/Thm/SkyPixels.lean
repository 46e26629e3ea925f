import Mathlib.Tactic.Ring
import Mathlib.Tactic.Linarith
import Verif.Model.SkyImage
import Verif.Thm.Sky

/-!
# C124: the pixels of a sky measurement
-/

namespace Verif.Thm
open Verif.SkyImage Verif.Sky

variable {α P S : Type} [Field α] [LinearOrder α]

/-! ### Specification -/

/-- What two polygons have in common; all of the first if the library cannot say. -/
def sxCommon (g : Geo P S α) (p q : P) : P :=
  match g.inter p q with
  | some i => i
  | none => p

/-- The images of an element. -/
def sxFrames : Part P S α → List (Frame P S α)
  | .single f => [f]
  | .group fs => fs

/-- A good pixel that lies in a part of positive area of the common region with some image of the element. -/
def SxUsed (g : Geo P S α) (f : Frame P S α) (t : Part P S α) (p : Nat) : Prop :=
  p < f.ny * f.nx ∧ f.mask p = true ∧ ∃ f' ∈ sxFrames t, g.area (sxCommon g f.poly f'.poly) ≠ 0 ∧
    ∃ r ∈ g.rings (sxCommon g f.poly f'.poly), 4 ≤ r.length ∧ g.fill (r.map f.inv) (p % f.nx, p / f.nx) = true

/-- The sum of the areas in common with the images of the element. -/
def sxArea (g : Geo P S α) (f : Frame P S α) (t : Part P S α) : α :=
  ((sxFrames t).map fun f' => |g.area (sxCommon g f.poly f'.poly)|).sum

/-- The statistic of some values, if there are any and it is a number. -/
def sxStat (g : Geo P S α) (l : List α) (a : α) : Option (α × α × α) :=
  if l = [] then none
  else match g.stat l with
    | some (some s, n) => some (s, (n : α), a)
    | _ => none

/-- The statistic of values raised by `c` is the statistic raised by `c`, with the same number of pixels. -/
def SxShifts (g : Geo P S α) : Prop :=
  ∀ c l, g.stat (l.map fun x => x + c) = (g.stat l).map fun r => (r.1.map fun s => s + c, r.2)

/-- The statistic of equal values is that value. -/
def SxFlat (g : Geo P S α) : Prop :=
  ∀ c l s n, l ≠ [] → (∀ x ∈ l, x = c) → g.stat l = some (some s, n) → s = c

/-- Image number `k` of an element. -/
def sxMember : Elem α → Nat → Option (Im α)
  | .single im, k => if k = 0 then some im else none
  | .group _ ims, k => ims[k]?

/-- The value of a pixel above the sky. -/
def sxLevel (sub : Bool) (im : Im α) (p : Nat) : α := if sub then im.data p else im.data p - im.sky

/-! ### Helper lemmas -/

omit [Field α] [LinearOrder α] in
theorem sx_common (g : Geo P S α) (p q : P) : intersection g p q = sxCommon g p q := by
  unfold intersection sxCommon
  cases g.inter p q <;> rfl

theorem sx_fold (g : Geo P S α) (p : P) (fs : List (Frame P S α)) (acc : α × List (List S)) :
    fs.foldl (fun acc f =>
      let i := intersection g p f.poly
      let a := |g.area i|
      if a = 0 then acc else (acc.1 + a, acc.2 ++ g.rings i)) acc =
    (acc.1 + (fs.map fun f => |g.area (sxCommon g p f.poly)|).sum,
      acc.2 ++ fs.flatMap fun f => if |g.area (sxCommon g p f.poly)| = 0 then [] else g.rings (sxCommon g p f.poly)) := by
  induction fs generalizing acc with
  | nil => simp
  | cons f t ih =>
    rw [List.foldl_cons, ih]
    simp only [sx_common, List.map_cons, List.sum_cons, List.flatMap_cons]
    split_ifs with h
    · simp [h]
    · simp [add_assoc]

omit [Field α] [LinearOrder α] in
theorem sx_fillMask (g : Geo P S α) (f : Frame P S α) (rings : List (List S)) (p : Nat) :
    fillMask g f rings p = true ↔ ∃ r ∈ rings, 4 ≤ r.length ∧ g.fill (r.map f.inv) (p % f.nx, p / f.nx) = true := by
  have key : ∀ (l : List (List S)) (b : Bool),
      l.foldl (fun m r => if r.length < 4 then m else m || g.fill (r.map f.inv) (p % f.nx, p / f.nx)) b = true ↔
        b = true ∨ ∃ r ∈ l, 4 ≤ r.length ∧ g.fill (r.map f.inv) (p % f.nx, p / f.nx) = true := by
    intro l
    induction l with
    | nil => simp
    | cons r t ih =>
      intro b
      rw [List.foldl_cons, ih]
      split_ifs with h
      · simp [Nat.not_le.mpr h]
      · simp [Nat.not_lt.mp h, or_assoc]
  rw [fillMask, key]
  simp

omit [LinearOrder α] in
theorem sx_finish (g : Geo P S α) (l : List α) (hl : l ≠ []) (a : α) : finish g l a = sxStat g l a := by
  unfold finish sxStat
  rw [if_neg hl]
  rcases g.stat l with - | ⟨- | s, n⟩ <;> rfl

variable [IsStrictOrderedRing α]

theorem sx_sum_abs (l : List α) (h : (l.map fun x => |x|).sum = 0) : ∀ x ∈ l, x = 0 := by
  induction l with
  | nil => simp
  | cons a t ih =>
    rw [List.map_cons, List.sum_cons] at h
    have h2 : 0 ≤ (t.map fun x => |x|).sum := List.sum_nonneg (by simp)
    have h3 := abs_nonneg a
    have ha : |a| = 0 := by linarith
    have ht : (t.map fun x => |x|).sum = 0 := by linarith
    intro x hx
    rcases List.mem_cons.mp hx with rfl | hx
    · exact abs_eq_zero.mp ha
    · exact ih ht x hx

/-! ### C124 -/

/-- C124.  With an overlap, `calc_sky` takes the statistic of the good pixels in the common region, each once and row by row, however many images
of a group see it. -/
theorem C124_pixels (g : Geo P S α) (f : Frame P S α) (t : Part P S α) (data : Nat → α) :
    ∃ l : List Nat, l.Pairwise (· < ·) ∧ (∀ p, p ∈ l ↔ SxUsed g f t p) ∧
      SkyImage.over g f t data = sxStat g (l.map data) (sxArea g f t) := by
  classical
  refine ⟨(List.range (f.ny * f.nx)).filter fun p => decide (SxUsed g f t p), ?_, ?_, ?_⟩
  · exact List.Pairwise.filter _ List.pairwise_lt_range
  · intro p
    simp only [List.mem_filter, List.mem_range, decide_eq_true_eq]
    exact ⟨fun h => h.2, fun h => ⟨h.1, h⟩⟩
  · have hr : (region g f.poly t).1 = sxArea g f t := by
      cases t with
      | single f' => simp [region, sxArea, sxFrames, sx_common]
      | group fs =>
        simp only [region, sxArea, sxFrames]
        rw [sx_fold]
        simp
    have hu : (region g f.poly t).1 ≠ 0 → ∀ p, p < f.ny * f.nx →
        (fillMask g f (region g f.poly t).2 p && f.mask p) = decide (SxUsed g f t p) := by
      intro h0 p hp
      rw [Bool.eq_iff_iff]
      simp only [Bool.and_eq_true, decide_eq_true_eq, sx_fillMask, SxUsed, hp, true_and]
      rw [and_comm]
      refine and_congr_right fun _ => ?_
      cases t with
      | single f' =>
        simp only [region, sx_common] at h0
        simp [region, sxFrames, sx_common, abs_eq_zero.not.mp h0]
      | group fs =>
        simp only [region]
        rw [sx_fold]
        simp only [List.nil_append, List.mem_flatMap, sxFrames]
        constructor
        · rintro ⟨r, ⟨f', hf', hr⟩, h4, hfill⟩
          split_ifs at hr with ha
          · simp at hr
          · exact ⟨f', hf', fun h => ha (abs_eq_zero.mpr h), r, hr, h4, hfill⟩
        · rintro ⟨f', hf', ha, r, hr, h4, hfill⟩
          exact ⟨r, ⟨f', hf', by rw [if_neg (abs_ne_zero.mpr ha)]; exact hr⟩, h4, hfill⟩
    simp only [SkyImage.over]
    by_cases h0 : (region g f.poly t).1 = 0
    · rw [if_pos h0, sxStat, if_pos]
      simp only [List.map_eq_nil_iff, List.filter_eq_nil_iff, decide_eq_true_eq]
      rintro p - ⟨-, -, f', hf', ha, -⟩
      rw [hr] at h0
      refine ha (sx_sum_abs ((sxFrames t).map fun f' => g.area (sxCommon g f.poly f'.poly)) ?_ _ ?_)
      · rw [List.map_map]; exact h0
      · exact List.mem_map.mpr ⟨f', hf', rfl⟩
    · rw [if_neg h0]
      have hs : select f (fun p => fillMask g f (region g f.poly t).2 p && f.mask p) data =
          ((List.range (f.ny * f.nx)).filter fun p => decide (SxUsed g f t p)).map data := by
        rw [select]
        congr 1
        exact List.filter_congr fun p hp => hu h0 p (List.mem_range.mp hp)
      rw [hs, hr]
      by_cases hl : ((List.range (f.ny * f.nx)).filter fun p => decide (SxUsed g f t p)).map data = []
      · rw [hl]; simp [sxStat]
      · have := List.length_pos_iff.mpr hl
        rw [if_neg (by omega), sx_finish _ _ hl]

omit [IsStrictOrderedRing α] in
/-- C124.  Without an overlap, `calc_sky` takes the statistic of all good pixels. -/
theorem C124_whole (g : Geo P S α) (f : Frame P S α) (data : Nat → α) (h0 : ∀ n s, g.stat [] ≠ some (some s, n)) :
    ∃ l : List Nat, l.Pairwise (· < ·) ∧ (∀ p, p ∈ l ↔ p < f.ny * f.nx ∧ f.mask p = true) ∧
      SkyImage.whole g f data = sxStat g (l.map data) |g.area f.poly| := by
  refine ⟨(List.range (f.ny * f.nx)).filter f.mask, List.Pairwise.filter _ List.pairwise_lt_range, by simp, ?_⟩
  rw [SkyImage.whole, select]
  by_cases hl : ((List.range (f.ny * f.nx)).filter f.mask).map data = []
  · rw [hl, finish, sxStat, if_pos rfl]
    rcases hg : g.stat [] with - | ⟨- | s, n⟩
    · rfl
    · rfl
    · exact absurd hg (h0 n s)
  · exact sx_finish _ _ hl _

/-- C124.  Pixels that are bad or outside the common region have no influence. -/
theorem C124_local (g : Geo P S α) (f : Frame P S α) (t : Part P S α) (data data' : Nat → α)
    (h : ∀ p, SxUsed g f t p → data p = data' p) : SkyImage.over g f t data = SkyImage.over g f t data' := by
  obtain ⟨l, h1, h2, h3⟩ := C124_pixels g f t data
  obtain ⟨l', h1', h2', h3'⟩ := C124_pixels g f t data'
  have hl : l = l' := by
    refine List.Perm.eq_of_pairwise (le := (· < ·)) (fun a b _ _ hab hba => absurd hab (Nat.lt_asymm hba)) h1 h1' ?_
    rw [List.perm_ext_iff_of_nodup (h1.imp fun hab => Nat.ne_of_lt hab) (h1'.imp fun hab => Nat.ne_of_lt hab)]
    intro p; rw [h2, h2']
  rw [h3, h3', ← hl]
  congr 1
  exact List.map_congr_left fun p hp => h p ((h2 p).mp hp)

/-- C124.  If the statistic moves with its data, so does the sky; number of pixels and area stay. -/
theorem C124_shift (g : Geo P S α) (hg : SxShifts g) (f : Frame P S α) (t : Part P S α) (data : Nat → α) (c : α) :
    SkyImage.over g f t (fun p => data p + c) = (SkyImage.over g f t data).map fun m => (m.1 + c, m.2.1, m.2.2) := by
  obtain ⟨l, h1, h2, h3⟩ := C124_pixels g f t data
  obtain ⟨l', h1', h2', h3'⟩ := C124_pixels g f t fun p => data p + c
  have hl : l' = l := by
    refine List.Perm.eq_of_pairwise (le := (· < ·)) (fun a b _ _ hab hba => absurd hab (Nat.lt_asymm hba)) h1' h1 ?_
    rw [List.perm_ext_iff_of_nodup (h1'.imp fun hab => Nat.ne_of_lt hab) (h1.imp fun hab => Nat.ne_of_lt hab)]
    intro p; rw [h2, h2']
  rw [h3, h3', hl]
  have e : (l.map fun p => data p + c) = (l.map data).map fun x => x + c := by rw [List.map_map]; rfl
  rw [e]
  simp only [sxStat, List.map_eq_nil_iff, hg c (l.map data)]
  split_ifs
  · rfl
  · rcases g.stat (l.map data) with - | ⟨- | s, n⟩ <;> rfl

/-- C124 (finding).  The area of an overlap with a group counts what several of its images see several times, unlike the pixels. -/
theorem C124_area_counted_twice (g : Geo P S α) (f : Frame P S α) (fs : List (Frame P S α)) (data : Nat → α) :
    SkyImage.over g f (.group (fs ++ fs)) data =
      (SkyImage.over g f (.group fs) data).map fun m => (m.1, m.2.1, 2 * m.2.2) := by
  obtain ⟨l, h1, h2, h3⟩ := C124_pixels g f (.group fs) data
  obtain ⟨l', h1', h2', h3'⟩ := C124_pixels g f (.group (fs ++ fs)) data
  have hl : l' = l := by
    refine List.Perm.eq_of_pairwise (le := (· < ·)) (fun a b _ _ hab hba => absurd hab (Nat.lt_asymm hba)) h1' h1 ?_
    rw [List.perm_ext_iff_of_nodup (h1'.imp fun hab => Nat.ne_of_lt hab) (h1.imp fun hab => Nat.ne_of_lt hab)]
    intro p; rw [h2, h2']; simp [SxUsed, sxFrames]
  have ha : sxArea g f (.group (fs ++ fs)) = 2 * sxArea g f (.group fs) := by
    simp [sxArea, sxFrames, two_mul]
  rw [h3, h3', hl, ha]
  simp only [sxStat]
  split_ifs
  · rfl
  · rcases g.stat (l.map data) with - | ⟨- | s, n⟩ <;> rfl

/-! ### Images of flat sky -/

omit [LinearOrder α] [IsStrictOrderedRing α] in
theorem sx_member_changed {sub : Bool} {d : α} {x x' : Elem α} (h : SkChanged sub d x x') {k : Nat} {im' : Im α}
    (hk : sxMember x' k = some im') : ∃ im, sxMember x k = some im ∧ SkImStep sub d im im' := by
  match x, x', h with
  | .single a, .single b, h =>
    simp only [sxMember] at hk ⊢
    split_ifs at hk with h0
    rw [Option.some.injEq] at hk
    subst hk
    exact ⟨a, by simp [h0], h⟩
  | .group g as, .group g' bs, h =>
    simp only [sxMember] at hk ⊢
    obtain ⟨-, h⟩ := h
    rw [List.forall₂_iff_get] at h
    obtain ⟨hk1, hk2⟩ := List.getElem?_eq_some_iff.mp hk
    refine ⟨as[k]'(h.1 ▸ hk1), by rw [List.getElem?_eq_getElem], ?_⟩
    have := h.2 k (h.1 ▸ hk1) hk1
    simpa [hk2] using this

/-- Images with a flat sky: the good pixels of all images of element `e` have the value `L e`, and their recorded sky is `K e`. -/
def SxFlatSky (parts : List (Part P S α)) (els : List (Elem α)) (L K : Nat → α) : Prop :=
  ∀ (e : Nat) (t : Part P S α) (x : Elem α), parts[e]? = some t → els[e]? = some x → ∀ (k : Nat) (f : Frame P S α) (im : Im α),
    t.frame k = some f → sxMember x k = some im → im.sky = K e ∧ ∀ p < f.ny * f.nx, f.mask p = true → im.data p = L e

theorem sx_flat_over (g : Geo P S α) (hg : SxFlat g) (f : Frame P S α) (t : Part P S α) (data : Nat → α) (c : α)
    (h : ∀ p < f.ny * f.nx, f.mask p = true → data p = c) (m : α × α × α) (hm : SkyImage.over g f t data = some m) :
    m.1 = c ∧ ∃ n : Nat, m.2.1 = n := by
  obtain ⟨l, -, h2, h3⟩ := C124_pixels g f t data
  rw [h3, sxStat] at hm
  split_ifs at hm with hl
  rcases hs : g.stat (l.map data) with - | ⟨- | s, n⟩
  · rw [hs] at hm; simp at hm
  · rw [hs] at hm; simp at hm
  · rw [hs] at hm
    simp only [Option.some.injEq] at hm
    subst hm
    refine ⟨hg c _ s n hl ?_ hs, n, rfl⟩
    simp only [List.mem_map, forall_exists_index, and_imp, forall_apply_eq_imp_iff₂]
    intro p hp
    obtain ⟨h4, h5, -⟩ := (h2 p).mp hp
    exact h p h4 h5

theorem sx_flat_elem (g : Geo P S α) (hg : SxFlat g) (parts : List (Part P S α)) (delta : Bool) (els : List (Elem α)) (L K : Nat → α)
    (hf : SxFlatSky parts els L K) (i j : Nat) (x : Elem α) (hx : els[i]? = some x) (s w a : α)
    (h : elemOver (SkyImage.env g parts) delta i j x = (some s, w, a)) : s = if delta then L i - K i else L i := by
  have hm : ∀ k im m, sxMember x k = some im → (SkyImage.env g parts).over i k j im.data = some m →
      im.sky = K i ∧ m.1 = L i ∧ ∃ n : Nat, m.2.1 = n := by
    intro k im m hk ho
    simp only [SkyImage.env, Option.bind_eq_some_iff] at ho
    obtain ⟨t, ht, t', -, f, hfr, ho⟩ := ho
    obtain ⟨h1, h2⟩ := hf i t x ht hx k f im hfr hk
    exact ⟨h1, sx_flat_over g hg f t' im.data (L i) h2 m ho⟩
  cases x with
  | single im =>
    rw [(C44_measurement _ delta i j).1] at h
    rcases ho : (SkyImage.env g parts).over i 0 j im.data with - | ⟨s', n, a'⟩
    · rw [ho] at h; simp at h
    · rw [ho] at h
      obtain ⟨h1, h2, -⟩ := hm 0 im _ (by simp [sxMember]) ho
      simp only [Prod.mk.injEq, Option.some.injEq] at h h2
      rw [← h.1, h1, h2]
  | group sky ims =>
    have hM : ∀ m ∈ skMembers (SkyImage.env g parts) delta i j ims, m.1 = (if delta then L i - K i else L i) ∧ 0 ≤ m.2.1 := by
      intro m hmem
      simp only [skMembers, List.mem_filterMap, Option.map_eq_some_iff] at hmem
      obtain ⟨⟨im, k⟩, hik, m', ho, rfl⟩ := hmem
      rw [List.mk_mem_zipIdx_iff_getElem?] at hik
      obtain ⟨h1, h2, n, h3⟩ := hm k im m' (by simpa [sxMember] using hik) ho
      simp only [h1, h2, h3]
      exact ⟨trivial, Nat.cast_nonneg n⟩
    obtain ⟨h1, h2⟩ := (C44_measurement (SkyImage.env g parts) delta i j).2 sky ims fun m hm => (hM m hm).2
    by_cases hN : ((skMembers (SkyImage.env g parts) delta i j ims).map fun m => m.2.1).sum = 0
    · rw [h1 (Or.inl hN)] at h; simp at h
    by_cases hA : ((skMembers (SkyImage.env g parts) delta i j ims).map fun m => m.2.2).sum = 0
    · rw [h1 (Or.inr hA)] at h; simp at h
    rw [h2 hN hA] at h
    simp only [Prod.mk.injEq, Option.some.injEq] at h
    rw [← h.1]
    have e : (skMembers (SkyImage.env g parts) delta i j ims).map (fun m => m.1 * m.2.1) =
        ((skMembers (SkyImage.env g parts) delta i j ims).map fun m => m.2.1).map fun n => (if delta then L i - K i else L i) * n := by
      rw [List.map_map]
      exact List.map_congr_left fun m hm => by simp [(hM m hm).1]
    rw [e, List.sum_map_mul_left, List.map_id', mul_div_assoc, div_self hN, mul_one]

/-- C124.  Images of a flat sky that overlap, directly or by way of others, have the same level in all good pixels after `skymatch` with the method `match`:
in the data if the sky is subtracted, and else above the recorded sky. -/
theorem C124_flat_sky_matched (g : Geo P S α) (hg : SxFlat g) (parts : List (Part P S α))
    (solve : Nat → List ((Nat → α) × α) → Nat → α) (md sub : Bool) (els : List (Elem α))
    (hsolve : SkLeastSquares (SkyImage.env g parts) solve (!sub) els) (L K : Nat → α) (hf : SxFlatSky parts els L K) (i j : Nat)
    (hc : Relation.TransGen (SkLinked (SkyImage.env g parts) (!sub) els) i j) :
    ∃ r v, skymatch (SkyImage.env g parts) solve .mat md sub els = some r ∧ ∀ e, e = i ∨ e = j →
      ∀ (t : Part P S α) (x : Elem α), parts[e]? = some t → r[e]? = some x → ∀ (k : Nat) (f : Frame P S α) (im : Im α),
        t.frame k = some f → sxMember x k = some im → ∀ p < f.ny * f.nx, f.mask p = true → sxLevel sub im p = v := by
  obtain ⟨r, x, x', y, y', c, d, hr, hx, hx', hy, hy', hcx, hcy, heq⟩ := C44_equalised (SkyImage.env g parts) solve md sub els hsolve
    (fun e => if !sub then L e - K e else L e) (fun i j s t ⟨_, x, y, w, z, a, b, hx, hy, h1, h2, _⟩ => by
      rw [sx_flat_elem g hg parts _ els L K hf i j x hx s w a h1, sx_flat_elem g hg parts _ els L K hf j i y hy t z b h2]) i j hc
  have key : ∀ (e : Nat) (x x' : Elem α) (c : α), els[e]? = some x → r[e]? = some x' → SkChanged sub c x x' →
      ∀ (t : Part P S α) (x1 : Elem α), parts[e]? = some t → r[e]? = some x1 → ∀ (k : Nat) (f : Frame P S α) (im : Im α),
        t.frame k = some f → sxMember x1 k = some im → ∀ p < f.ny * f.nx, f.mask p = true →
        sxLevel sub im p = (if !sub then L e - K e else L e) - c := by
    intro e x x' c hx hx' hch t x1 ht hx1 k f im hk him p hp hmask
    rw [hx'] at hx1
    simp only [Option.some.injEq] at hx1
    subst hx1
    obtain ⟨im0, h0, h1, h2, h3⟩ := sx_member_changed hch him
    obtain ⟨hK, hL⟩ := hf e t x ht hx k f im0 hk h0
    have hL := hL p hp hmask
    cases sub with
    | true =>
      have h2 := h2 rfl p
      simp only [sxLevel, if_true, Bool.not_true, Bool.false_eq_true, if_false]
      rw [h1, hL] at h2
      linarith
    | false =>
      have h3 := h3 rfl
      simp only [sxLevel, Bool.false_eq_true, if_false, Bool.not_false, if_true]
      rw [h3, h1, hL, hK]
      ring
  refine ⟨r, (if !sub then L i - K i else L i) - c, hr, ?_⟩
  rintro e (rfl | rfl) t x1 ht hx1 k f im hk him p hp hmask
  · exact key e x x' c hx hx' hcx t x1 ht hx1 k f im hk him p hp hmask
  · exact (key e y y' d hy hy' hcy t x1 ht hx1 k f im hk him p hp hmask).trans heq.symm

/-! ### Examples: rows of four pixels along a line -/

/-- Polygons are intervals; the statistic is the mean. -/
def sxGeo : Geo (ℚ × ℚ) ℚ ℚ where
  inter p q := some (max p.1 q.1, min p.2 q.2)
  area p := if p.1 < p.2 then p.2 - p.1 else 0
  rings p := if p.1 < p.2 then [[p.1, p.2, p.2, p.1]] else []
  fill v p := v.any (fun q => q.1 ≤ (p.1 : ℚ)) && v.any fun q => (p.1 : ℚ) ≤ q.1
  stat l := if l = [] then none else some (some (l.sum / l.length), l.length)

/-- An image that begins at `o`; its last pixel is bad. -/
def sxFrame (o : ℚ) : Frame (ℚ × ℚ) ℚ ℚ := ⟨1, 4, (o - 1/2, o + 7/2), fun p => decide (p ≠ 3), fun x => (x - o, 0)⟩

def sxParts : List (Part (ℚ × ℚ) ℚ ℚ) := [.single (sxFrame 0), .group [sxFrame 1, sxFrame 4], .single (sxFrame 6)]

/-- Sky levels 5, 7 and 4; the bad pixels have the value 100. -/
def sxEls : List (Elem ℚ) :=
  [.single ⟨fun p => if p = 3 then 100 else 5, 0, false⟩,
    .group 0 [⟨fun p => if p = 3 then 100 else 7, 0, false⟩, ⟨fun p => if p = 3 then 100 else 7, 0, false⟩],
    .single ⟨fun p => if p = 3 then 100 else 4, 0, false⟩]

/-- `C124_pixels`: the pixels 1 and 2 of the first image are good and seen by the group. -/
example : SkyImage.over sxGeo (sxFrame 0) (.group [sxFrame 1, sxFrame 4]) (fun p => (p : ℚ) + 10) = some (23/2, 2, 3) ∧
    SkyImage.over sxGeo (sxFrame 0) (.single (sxFrame 6)) (fun p => (p : ℚ) + 10) = none := by decide +kernel

/-- `C124_area_counted_twice`. -/
example : SkyImage.over sxGeo (sxFrame 0) (.group [sxFrame 1, sxFrame 1]) (fun p => (p : ℚ) + 10) = some (23/2, 2, 6) := by
  decide +kernel

/-- `C124_whole`. -/
example : SkyImage.whole sxGeo (sxFrame 0) (fun p => (p : ℚ) + 10) = some (11, 3, 4) ∧ ∀ n s, sxGeo.stat [] ≠ some (some s, n) :=
  ⟨by decide +kernel, by simp [sxGeo]⟩

/-- The mean moves with its data. -/
example : SxShifts sxGeo := by
  intro c l
  by_cases hl : l = []
  · subst hl; rfl
  · have hn : (l.length : ℚ) ≠ 0 := by simpa using hl
    have hs : (l.map fun x => x + c).sum = l.sum + l.length * c := by
      clear hl hn
      induction l with
      | nil => simp
      | cons a t ih => simp only [List.map_cons, List.sum_cons, ih, List.length_cons]; push_cast; ring
    simp only [sxGeo, List.map_eq_nil_iff, hl, if_false, Option.map_some, List.length_map, hs, add_div, mul_div_assoc]
    rw [mul_div_cancel₀ _ hn]

/-- The mean of equal values. -/
example : SxFlat sxGeo := by
  intro c l s n hl h hs
  simp only [sxGeo, hl, if_false, Option.some.injEq, Prod.mk.injEq] at hs
  have hn : (l.length : ℚ) ≠ 0 := by simpa using hl
  have e := List.eq_replicate_of_mem h
  rw [← hs.1]
  conv_lhs => rw [e]
  simp [hn]

/-- The hypotheses of `C124_flat_sky_matched`: the first and the last image are connected through the group. -/
example : Relation.TransGen (SkLinked (SkyImage.env sxGeo sxParts) true sxEls) 0 2 := by
  refine Relation.TransGen.tail (b := 1) (Relation.TransGen.single ⟨5, 7, ?_⟩) ⟨7, 4, ?_⟩
  · exact ⟨by decide, sxEls[0], sxEls[1], 2, 3, 3, 3, rfl, rfl, by decide +kernel, by decide +kernel, by norm_num,
      by norm_num, by norm_num, by norm_num⟩
  · exact ⟨by decide, sxEls[1], sxEls[2], 1, 2, 2, 2, rfl, rfl, by decide +kernel, by decide +kernel, by norm_num,
      by norm_num, by norm_num, by norm_num⟩

example : SkLeastSquares (SkyImage.env sxGeo sxParts) skSolve true sxEls := by
  intro x
  have h0 : skSq sxEls.length (skEqs (SkyImage.env sxGeo sxParts) true sxEls)
      (skSolve sxEls.length (skEqs (SkyImage.env sxGeo sxParts) true sxEls)) = 0 := by
    decide +kernel
  rw [h0]
  unfold skSq
  refine List.sum_nonneg fun v hv => ?_
  obtain ⟨q, hq, rfl⟩ := List.mem_map.mp hv
  positivity

example : SxFlatSky sxParts sxEls (fun e => [5, 7, 4].getD e 0) fun _ => 0 := by
  have key : ∀ (e : Nat) (t : Part (ℚ × ℚ) ℚ ℚ) (x : Elem ℚ), sxParts[e]? = some t → sxEls[e]? = some x → ∀ (k : Nat) f im,
      t.frame k = some f → sxMember x k = some im →
      (∃ o, f = sxFrame o) ∧ im = ⟨fun p => if p = 3 then 100 else [5, 7, 4].getD e 0, 0, false⟩ := by
    intro e t x ht hx k f im hf him
    match e, ht, hx with
    | 0, ht, hx =>
      simp [sxParts, sxEls] at ht hx
      subst ht hx
      simp only [Part.frame, sxMember] at hf him
      split_ifs at hf him
      simp at hf him
      exact ⟨⟨_, hf.symm⟩, by simp [← him]⟩
    | 1, ht, hx =>
      simp [sxParts, sxEls] at ht hx
      subst ht hx
      simp only [Part.frame, sxMember] at hf him
      match k, hf, him with
      | 0, hf, him => simp at hf him; exact ⟨⟨_, hf.symm⟩, by simp [← him]⟩
      | 1, hf, him => simp at hf him; exact ⟨⟨_, hf.symm⟩, by simp [← him]⟩
      | k + 2, hf, him => simp at hf
    | 2, ht, hx =>
      simp [sxParts, sxEls] at ht hx
      subst ht hx
      simp only [Part.frame, sxMember] at hf him
      split_ifs at hf him
      simp at hf him
      exact ⟨⟨_, hf.symm⟩, by simp [← him]⟩
    | e + 3, ht, hx => simp [sxParts] at ht
  intro e t x ht hx k f im hf him
  obtain ⟨⟨o, rfl⟩, rfl⟩ := key e t x ht hx k f im hf him
  refine ⟨rfl, fun p _ hm => ?_⟩
  simp only [sxFrame, decide_eq_true_eq] at hm
  simp [hm]

example : (skymatch (SkyImage.env sxGeo sxParts) skSolve .mat true true sxEls).map skShow =
    some [[(1, 4, true)], [(3, 4, true), (3, 4, true)], [(0, 4, true)]] := by decide +kernel

end Verif.Thm
